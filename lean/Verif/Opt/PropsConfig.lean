import Verif.Opt.Config
import Verif.Opt.PropsSGD
import Mathlib.Tactic.NormNum

/-!
# C139: settings of the stochastic optimisers
-/

namespace Verif.Opt

/-- A number between two reals. -/
def Val.Between (lo hi : ℝ) : Val → Prop
  | .nan => False
  | .num x => (lo : EReal) ≤ x ∧ x ≤ (hi : EReal)

/-- A number that is not negative (infinity is allowed). -/
def Val.Nonneg : Val → Prop
  | .nan => False
  | .num x => 0 ≤ x

/-- The settings are in the ranges that the optimisers are made for; `mom` and `ema` are the upper ends for momentum and averaging. -/
structure Config.Valid (mom ema : ℝ) (c : Config) : Prop where
  lr0 : c.lr0.Nonneg
  decay : c.decay.Nonneg
  momentum : c.momentum.Between 0 mom
  batch : 1 ≤ c.batchSize
  ema : c.ema.Between 0 ema
  tolGrad : c.tolGrad.Nonneg
  tolStep : c.tolStep.Nonneg
  tolF : c.tolF.Nonneg
  threads : ∀ n, c.threads = some n → 1 ≤ n

/-- No argument of the call is "not a number". -/
def Call.IsNum : Call → Prop
  | .learningRate v | .decay v | .momentum v | .ema v | .tolF v => v ≠ .nan
  | .tolerances g s => g ≠ .nan ∧ s ≠ .nan
  | _ => True

theorem Val.real_nonneg {r : ℝ} (h : 0 ≤ r) : (Val.real r).Nonneg := EReal.coe_nonneg.2 h

theorem Val.real_between {lo hi r : ℝ} (h1 : lo ≤ r) (h2 : r ≤ hi) : (Val.real r).Between lo hi :=
  ⟨EReal.coe_le_coe_iff.2 h1, EReal.coe_le_coe_iff.2 h2⟩

theorem nonneg_max {v : Val} : (v.max (.real 0)).Nonneg := by
  cases v with
  | nan => exact Val.real_nonneg le_rfl
  | num x => exact le_max_of_le_right (by exact EReal.coe_nonneg.2 le_rfl)

theorem nonneg_lt {v : Val} (h : v ≠ .nan) : (if v.Lt (.real 0) then .real 0 else v).Nonneg := by
  by_cases hc : v.Lt (.real 0)
  · rw [if_pos hc]
    exact Val.real_nonneg le_rfl
  · rw [if_neg hc]
    cases v with
    | nan => exact absurd rfl h
    | num x => exact not_lt.1 (by simpa [Val.Lt, Val.real] using hc)

theorem nonneg_le {v : Val} (h : v ≠ .nan) : (if v.Le (.real 0) then .real 0 else v).Nonneg := by
  by_cases hc : v.Le (.real 0)
  · rw [if_pos hc]
    exact Val.real_nonneg le_rfl
  · rw [if_neg hc]
    cases v with
    | nan => exact absurd rfl h
    | num x => exact (not_le.1 (by simpa [Val.Le, Val.real] using hc)).le

theorem clampV_between {v : Val} {lo hi : ℝ} (h : v ≠ .nan) (hle : lo ≤ hi) : (clampV v (.real lo) (.real hi)).Between lo hi := by
  unfold clampV
  by_cases h1 : v.Lt (.real lo)
  · rw [if_pos h1]
    exact Val.real_between le_rfl hle
  · rw [if_neg h1]
    by_cases h2 : (Val.real hi).Lt v
    · rw [if_pos h2]
      exact Val.real_between hle le_rfl
    · rw [if_neg h2]
      cases v with
      | nan => exact absurd rfl h
      | num x => exact ⟨not_lt.1 h1, not_lt.1 h2⟩

theorem new_valid : Config.Valid 0.999999 0.999999999 Config.new := by
  refine ⟨Val.real_nonneg ?_, Val.real_nonneg ?_, Val.real_between ?_ ?_, le_rfl, Val.real_between ?_ ?_, Val.real_nonneg ?_, Val.real_nonneg ?_,
    Val.real_nonneg ?_, fun n h => by cases h⟩ <;> norm_num

theorem newParallel_valid : Config.Valid 1 1 Config.newParallel := by
  refine ⟨Val.real_nonneg ?_, Val.real_nonneg ?_, Val.real_between ?_ ?_, by decide, Val.real_between ?_ ?_, Val.real_nonneg ?_, Val.real_nonneg ?_,
    Val.real_nonneg ?_, fun n h => by cases h⟩ <;> norm_num

theorem set_valid {c : Config} (h : c.Valid 0.999999 0.999999999) (k : Call) (hk : k.IsNum) : (c.set k).Valid 0.999999 0.999999999 := by
  cases k with
  | learningRate v => exact { h with lr0 := nonneg_max }
  | decay v => exact { h with decay := nonneg_lt hk }
  | momentum v => exact { h with momentum := clampV_between hk (by norm_num) }
  | batchSize n =>
    refine { h with batch := ?_ }
    show 1 ≤ if n = 0 then 1 else n
    split <;> omega
  | ema v => exact { h with ema := clampV_between hk (by norm_num) }
  | tolerances g s => exact { h with tolGrad := nonneg_max, tolStep := nonneg_max }
  | tolF v => exact { h with tolF := nonneg_lt hk }
  | minIters n => exact { h with }
  | maxIters n => exact { h with }
  | biasCorrected on => exact { h with }
  | threads n => exact h

theorem setParallel_valid {c : Config} (h : c.Valid 1 1) (k : Call) (hk : k.IsNum) : (c.setParallel k).Valid 1 1 := by
  cases k with
  | learningRate v => exact { h with lr0 := nonneg_le hk }
  | decay v => exact { h with decay := nonneg_lt hk }
  | momentum v => exact { h with momentum := clampV_between hk (by norm_num) }
  | batchSize n =>
    refine { h with batch := ?_ }
    show 1 ≤ if n = 0 then 1 else n
    split <;> omega
  | ema v => exact { h with ema := clampV_between hk (by norm_num) }
  | tolerances g s => exact { h with tolGrad := nonneg_le hk.1, tolStep := nonneg_le hk.2 }
  | tolF v => exact { h with tolF := nonneg_lt hk }
  | minIters n => exact { h with }
  | maxIters n => exact { h with }
  | biasCorrected on => exact h
  | threads n =>
    refine { h with threads := fun m hm => ?_ }
    have : Max.max n 1 = m := Option.some.inj hm
    omega

/-- **C139** (part): after any chain of setter calls with any numbers, infinities and negative numbers included, the settings are valid.
Missing: arguments that are not numbers (`C139_nan_fails`). -/
theorem C139_valid_partial (calls : List Call) (h : ∀ k ∈ calls, k.IsNum) :
    (Config.sets Config.set Config.new calls).Valid 0.999999 0.999999999 ∧ (Config.sets Config.setParallel Config.newParallel calls).Valid 1 1 := by
  have a : ∀ (calls : List Call) (c : Config), (∀ k ∈ calls, k.IsNum) → c.Valid 0.999999 0.999999999 →
      (Config.sets Config.set c calls).Valid 0.999999 0.999999999 := by
    intro calls
    induction calls with
    | nil => exact fun c _ hc => hc
    | cons k ks ih => exact fun c hk hc => ih _ (fun x hx => hk x (by simp [hx])) (set_valid hc k (hk k (by simp)))
  have b : ∀ (calls : List Call) (c : Config), (∀ k ∈ calls, k.IsNum) → c.Valid 1 1 → (Config.sets Config.setParallel c calls).Valid 1 1 := by
    intro calls
    induction calls with
    | nil => exact fun c _ hc => hc
    | cons k ks ih => exact fun c hk hc => ih _ (fun x hx => hk x (by simp [hx])) (setParallel_valid hc k (hk k (by simp)))
  exact ⟨a calls _ h new_valid, b calls _ h newParallel_valid⟩

/-- A chain of calls with extreme arguments. -/
example : ∀ k ∈ [Call.learningRate (.num ⊤), .momentum (.num ⊥), .batchSize 0, .tolF (.real (-1))], k.IsNum := by simp [Call.IsNum, Val.real]

/-- Which setting a call is about. -/
def Call.kind : Call → ℕ
  | .learningRate _ => 0 | .decay _ => 1 | .momentum _ => 2 | .batchSize _ => 3 | .ema _ => 4 | .tolerances _ _ => 5 | .tolF _ => 6
  | .minIters _ => 7 | .maxIters _ => 8 | .biasCorrected _ => 9 | .threads _ => 10

/-- **C139**: setters do not disturb each other: calls about different settings can be made in any order, and a later call about the same setting
replaces the earlier one. A valid argument is stored as it is. -/
theorem C139_frame (c : Config) (k l : Call) :
    (k.kind ≠ l.kind → (c.set k).set l = (c.set l).set k ∧ (c.setParallel k).setParallel l = (c.setParallel l).setParallel k) ∧
    (k.kind = l.kind → (c.set k).set l = c.set l ∧ (c.setParallel k).setParallel l = c.setParallel l) := by
  constructor
  · intro h
    cases k <;> cases l <;> first | exact absurd rfl h | exact ⟨rfl, rfl⟩
  · intro h
    cases k <;> cases l <;> first | exact ⟨rfl, rfl⟩ | exact absurd h (by simp [Call.kind])

/-- **C139**: an argument in its range is stored as it is. -/
theorem C139_stored (c : Config) (r m b : ℝ) (n : ℕ) (hr : 0 ≤ r) (hm0 : 0 ≤ m) (hm : m ≤ 0.999999) (hb0 : 0 ≤ b) (hb : b ≤ 0.999999999) (hn : 0 < n) :
    (c.set (.learningRate (.real r))).lr0 = .real r ∧ (c.set (.decay (.real r))).decay = .real r ∧
    (c.set (.momentum (.real m))).momentum = .real m ∧ (c.set (.batchSize n)).batchSize = n ∧ (c.set (.ema (.real b))).ema = .real b ∧
    (c.set (.tolerances (.real r) (.real b))).tolGrad = .real r ∧ (c.set (.tolerances (.real r) (.real b))).tolStep = .real b ∧
    (c.set (.tolF (.real r))).tolF = .real r ∧
    (c.setParallel (.learningRate (.real r))).lr0 = .real r ∧ (c.setParallel (.decay (.real r))).decay = .real r ∧
    (c.setParallel (.momentum (.real m))).momentum = .real m ∧ (c.setParallel (.batchSize n)).batchSize = n ∧
    (c.setParallel (.ema (.real b))).ema = .real b ∧ (c.setParallel (.tolerances (.real r) (.real b))).tolGrad = .real r ∧
    (c.setParallel (.tolerances (.real r) (.real b))).tolStep = .real b ∧ (c.setParallel (.tolF (.real r))).tolF = .real r ∧
    (c.setParallel (.threads n)).threads = some n ∧ (∀ N, (c.set (.minIters N)).minIters = N ∧ (c.set (.maxIters N)).maxIters = N ∧
      (c.setParallel (.minIters N)).minIters = N ∧ (c.setParallel (.maxIters N)).maxIters = N) ∧
    ∀ on, (c.set (.biasCorrected on)).biasCorrected = on := by
  have hmax : ∀ x : ℝ, 0 ≤ x → (Val.real x).max (.real 0) = .real x := fun x hx => by
    show Val.num (Max.max (x : EReal) ((0 : ℝ) : EReal)) = _
    rw [max_eq_left (EReal.coe_le_coe_iff.2 hx)]
    rfl
  have hlt : ∀ x : ℝ, 0 ≤ x → (if (Val.real x).Lt (.real 0) then Val.real 0 else .real x) = .real x := fun x hx =>
    if_neg fun h => absurd (EReal.coe_lt_coe_iff.1 h) (not_lt.2 hx)
  have hle : ∀ x : ℝ, 0 ≤ x → (if (Val.real x).Le (.real 0) then Val.real 0 else .real x) = .real x := fun x hx => by
    by_cases h : (Val.real x).Le (.real 0)
    · rw [if_pos h, le_antisymm (EReal.coe_le_coe_iff.1 h) hx]
    · rw [if_neg h]
  have hcl : ∀ x hi : ℝ, 0 ≤ x → x ≤ hi → clampV (.real x) (.real 0) (.real hi) = .real x := fun x hi h0 h1 => by
    exact (if_neg fun h => absurd (EReal.coe_lt_coe_iff.1 h) (not_lt.2 h0)).trans
      (if_neg fun h => absurd (EReal.coe_lt_coe_iff.1 h) (not_lt.2 h1))
  have hn0 : n ≠ 0 := by omega
  refine ⟨hmax r hr, hlt r hr, hcl m _ hm0 hm, if_neg hn0, hcl b _ hb0 hb, hmax r hr, hmax b hb0, hlt r hr, hle r hr, hlt r hr,
    hcl m _ hm0 (by linarith), if_neg hn0, hcl b _ hb0 (by linarith), hle r hr, hle b hb0, hlt r hr, ?_,
    fun N => ⟨rfl, rfl, rfl, rfl⟩, fun on => rfl⟩
  show some (Max.max n 1) = some n
  rw [max_eq_left (by omega)]

/-- **C139**: with valid finite settings the learning rate of every iteration is between zero and the initial one and never grows. -/
theorem C139_schedule {n : ℕ} (o : SGD n) (h0 : 0 ≤ o.lr0) (h1 : 0 ≤ o.decay) (k : ℕ) :
    o.lrAt 0 = o.lr0 ∧ 0 ≤ o.lrAt k ∧ o.lrAt (k + 1) ≤ o.lrAt k ∧ (0 < o.lr0 → 0 < o.lrAt k) := by
  have hk : 0 < 1 + o.decay * (k : ℝ) := by positivity
  have hle : 1 + o.decay * (k : ℝ) ≤ 1 + o.decay * ((k + 1 : ℕ) : ℝ) := by
    push_cast
    nlinarith
  refine ⟨by simp [SGD.lrAt], div_nonneg h0 hk.le, ?_, fun h => div_pos h hk⟩
  exact div_le_div_of_nonneg_left h0 hk hle

/-- C139 in full is not met: "not a number" is stored by the setters of decay, momentum, averaging and `tol_f`, and in the parallel optimiser by all
of them; the sequential one turns it into zero for the learning rate and the tolerances. -/
theorem C139_nan_fails (c : Config) :
    (c.set (.decay .nan)).decay = .nan ∧ (c.set (.momentum .nan)).momentum = .nan ∧ (c.set (.ema .nan)).ema = .nan ∧
    (c.set (.tolF .nan)).tolF = .nan ∧ (c.setParallel (.learningRate .nan)).lr0 = .nan ∧ (c.setParallel (.tolerances .nan .nan)).tolGrad = .nan ∧
    (c.set (.learningRate .nan)).lr0 = .real 0 := by
  exact ⟨if_neg id, (if_neg id).trans (if_neg id), (if_neg id).trans (if_neg id), if_neg id, if_neg id, if_neg id, rfl⟩

/-- C139 in full is not met: the parallel optimiser accepts 1 for the averaging, and then its test on the gradients can never succeed: a run in which
every batch gradient is within the requested tolerance goes on to its limit, however large, and reports no convergence. -/
theorem C139_ema_one_fails : (Config.newParallel.setParallel (.ema (.real 1))).ema = .real 1 ∧
    ∀ N ≤ 2147483647, ∃ (o : SGD 1) (f : (Fin 1 → ℝ) → ℝ) (sample : (Fin 1 → ℝ) → Rand.Gen → (Fin 1 → ℝ) × Rand.Gen) (x0 x : Fin 1 → ℝ) (fx : ℝ),
      o.beta = 1 ∧ 0 < o.tolGradEma ∧ o.lr0 = 1 ∧ o.maxIters = N ∧ (∀ y r, len (sample y r).1 ≤ o.tolGradEma) ∧
      o.minimizeParallel f sample 1 0 (fun _ => [0]) x0 = some (x, fx, N, false) := by
  refine ⟨(if_neg fun h => absurd (EReal.coe_lt_coe_iff.1 h) (by norm_num)).trans (if_neg fun h => absurd (EReal.coe_lt_coe_iff.1 h) (by norm_num)),
    fun N hN => ?_⟩
  let o : SGD 1 := { SGD.newParallel 1 with lr0 := 1, decay := 0, batchSize := 1, beta := 1, tolGradEma := 1, tolStep := 0, maxIters := N }
  let smp : (Fin 1 → ℝ) → Rand.Gen → (Fin 1 → ℝ) × Rand.Gen := fun _ r => (fun _ => 1 / 2, r)
  obtain ⟨x, fx, K, c, xs, gs, rs, hres, hrun⟩ := C44_parallel o (fun _ => 1) smp 1 0 (fun _ => [0]) (fun _ => 0) hN
  have hg : ∀ k ≤ K, gs k = fun _ => 1 / 2 := fun k hk => by
    have hc : Complete (max 1 1) (min (max 1 1) (max 1 1)) [0] := by
      intro t ht
      have : t = 0 := by simpa using ht
      subst this
      decide
    have h := (C42_mean (fun _ => 1 / 2) smp 1 1 0 [0] k (xs k) hc (fun _ => rfl) (Rand.Gen.new 0)).1
    rw [hrun.gradient k hk]
    simpa [o] using h
  have hstep : ∀ k < K, xs (k + 1) 0 - xs k 0 = -(1 / 2) := by
    intro k hk
    cases k with
    | zero =>
      rw [hrun.first hk, hrun.start.1, hg 0 (by omega)]
      simp [boxed, o, SGD.newParallel]
    | succ k =>
      rw [hrun.step k hk, hg (k + 1) (by omega)]
      simp [boxed, o, SGD.newParallel]
  cases c with
  | false =>
    have hK : K = N := hrun.exhausted rfl
    subst hK
    refine ⟨o, fun _ => 1, smp, fun _ => 0, x, fx, rfl, by norm_num [o], rfl, rfl, fun y r => ?_, hres⟩
    rw [len_one]
    norm_num [smp, o, abs_of_pos]
  | true =>
    exfalso
    rcases (hrun.converged rfl).2 with ⟨-, h, -⟩ | ⟨-, h⟩ | ⟨h1, h2⟩
    · exact h rfl (one_pow _)
    · have h0 := h.1
      simp [o, SGD.newParallel] at h0
    · obtain ⟨k, rfl⟩ : ∃ k, K = k + 1 := ⟨K - 1, by omega⟩
      have := hstep k (by omega)
      rw [len_one, Nat.add_sub_cancel, this] at h2
      norm_num [o, SGD.newParallel] at h2

end Verif.Opt
