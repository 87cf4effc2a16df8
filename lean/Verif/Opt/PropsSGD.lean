import Verif.Opt.PropsGD
import Verif.Rand.Props
import Mathlib.Algebra.Order.BigOperators.Ring.Finset
import Mathlib.Algebra.Field.GeomSum

/-!
# Properties of `GDStochastic` and `GDStochasticParallel` (C41-C44)
-/

namespace Verif.Opt

open Verif.Mat

variable {n : ℕ} {σ : Type}

/-! ## The main loop -/

/-- The exponential average with parameter `β` of `a 0, …, a k`, started at zero. -/
noncomputable def emaOf (β : ℝ) (a : ℕ → ℝ) (k : ℕ) : ℝ := (1 - β) * ∑ j ∈ Finset.range (k + 1), β ^ (k - j) * a j

/-- What the gradient test of iteration `k` compares with its tolerance. -/
noncomputable def emaTest (o : SGD n) (a : ℕ → ℝ) (k : ℕ) : ℝ :=
  if o.biasCorrected then emaOf o.beta a k / (1 - o.beta ^ (k + 1)) else emaOf o.beta a k

theorem emaOf_zero (β : ℝ) (a : ℕ → ℝ) : emaOf β a 0 = β * 0 + (1 - β) * a 0 := by simp [emaOf]

theorem emaOf_succ (β : ℝ) (a : ℕ → ℝ) (k : ℕ) :
    emaOf β a (k + 1) = β * emaOf β a k + (1 - β) * a (k + 1) := by
  unfold emaOf
  rw [Finset.sum_range_succ _ (k + 1), Nat.sub_self, pow_zero, one_mul]
  have : ∑ j ∈ Finset.range (k + 1), β ^ (k + 1 - j) * a j = β * ∑ j ∈ Finset.range (k + 1), β ^ (k - j) * a j := by
    rw [Finset.mul_sum]
    refine Finset.sum_congr rfl fun j hj => ?_
    have := Finset.mem_range.1 hj
    rw [show k + 1 - j = k - j + 1 by omega, pow_succ]; ring
  rw [this]; ring

/-- One iteration that does not stop. -/
noncomputable def SGD.next (o : SGD n) (f : (Fin n → ℝ) → ℝ) (batch : ℕ → (Fin n → ℝ) → σ → (Fin n → ℝ) × σ)
    (k : ℕ) (s : SState n σ) : SState n σ :=
  let g := (batch k s.x s.r).1
  let x' := o.project (fun i => s.x i + o.lrAt k * (-g i + o.momentum * s.v i))
  ⟨x', fun i => x' i - s.x i, o.beta * s.ema + (1 - o.beta) * norm2 g, f x', (batch k s.x s.r).2⟩

/-- The value compared with the gradient tolerance at iteration `k` in state `s`. -/
noncomputable def SGD.hat (o : SGD n) (batch : ℕ → (Fin n → ℝ) → σ → (Fin n → ℝ) × σ) (k : ℕ) (s : SState n σ) : ℝ :=
  let ema := o.beta * s.ema + (1 - o.beta) * norm2 (batch k s.x s.r).1
  if o.biasCorrected then ema / (1 - o.beta ^ (k + 1)) else ema

/-- The bias correction of iteration `k` does not divide by zero. -/
def SGD.proper (o : SGD n) (k : ℕ) : Prop := o.biasCorrected = true → o.beta ^ (k + 1) ≠ 1

noncomputable instance (o : SGD n) (k : ℕ) : Decidable (o.proper k) := Classical.dec _

theorem emaExponent_eq (k : ℕ) (hk : k < 2147483647) : emaExponent k = some ((k + 1 : ℕ) : ℤ) := by
  unfold emaExponent Rust.chk32 Rust.asI32
  rw [show ((k : ℤ) + 2147483648) % 4294967296 - 2147483648 = k by omega, if_pos (by omega)]
  push_cast; rfl

theorem sloop_step (o : SGD n) (f : (Fin n → ℝ) → ℝ) (batch : ℕ → (Fin n → ℝ) → σ → (Fin n → ℝ) × σ)
    (stopF : ℝ → Bool) (m k : ℕ) (s : SState n σ) (hk : k < 2147483647) :
    o.loop f batch stopF (m + 1) k s =
      if o.minIters ≤ k ∧ ((o.proper k ∧ o.hat batch k s ≤ o.tolGradEma) ∨ stopF s.fx = true) then some (s.x, s.fx, k, true)
      else if o.minIters ≤ k ∧ norm2 (o.next f batch k s).v ≤ o.tolStep then
        some ((o.next f batch k s).x, (o.next f batch k s).fx, k + 1, true)
      else o.loop f batch stopF m (k + 1) (o.next f batch k s) := by
  rw [SGD.loop]
  simp only [emaExponent_eq k hk, Option.map_some]
  by_cases hb : o.biasCorrected = true
  · have hp : o.proper k ↔ 1 - o.beta ^ (k + 1) ≠ 0 := by
      unfold SGD.proper
      simp only [hb, forall_true_left]
      exact not_congr (by rw [sub_eq_zero]; exact eq_comm)
    simp only [if_pos hb, Option.bind_eq_bind, Option.bind_some, SGD.hat, SGD.next, zpow_natCast, hp, decide_eq_true_eq]
    congr!
  · have hp : o.proper k ↔ True := by simp [SGD.proper, hb]
    simp only [if_neg hb, Option.bind_eq_bind, Option.bind_some, SGD.hat, SGD.next, hp, true_and, decide_eq_true_eq]
    congr!

theorem sloop_spec (o : SGD n) (f : (Fin n → ℝ) → ℝ) (batch : ℕ → (Fin n → ℝ) → σ → (Fin n → ℝ) × σ)
    (stopF : ℝ → Bool) : ∀ (m k : ℕ) (s : SState n σ), k + m ≤ 2147483647 → s.fx = f s.x →
    ∃ (L : ℕ) (S : ℕ → SState n σ) (c : Bool), L ≤ m ∧ S 0 = s ∧ (∀ j < L, S (j + 1) = o.next f batch (k + j) (S j)) ∧
      (∀ j ≤ L, (S j).fx = f (S j).x) ∧
      o.loop f batch stopF m k s = some ((S L).x, (S L).fx, if c then k + L else o.maxIters, c) ∧
      (c = true → (L < m ∧ o.minIters ≤ k + L ∧ ((o.proper (k + L) ∧ o.hat batch (k + L) (S L) ≤ o.tolGradEma) ∨ stopF (S L).fx = true)) ∨
        (0 < L ∧ o.minIters < k + L ∧ len (S L).v ≤ o.tolStep)) ∧
      (c = false → L = m)
  | 0, k, s, _, hs => ⟨0, fun _ => s, false, le_rfl, rfl, by simp, fun j _ => hs, by simp [SGD.loop], by simp, by simp⟩
  | m + 1, k, s, hk, hs => by
    rw [sloop_step o f batch stopF m k s (by omega)]
    by_cases h1 : o.minIters ≤ k ∧ ((o.proper k ∧ o.hat batch k s ≤ o.tolGradEma) ∨ stopF s.fx = true)
    · rw [if_pos h1]
      exact ⟨0, fun _ => s, true, by omega, rfl, by simp, fun j _ => hs, by simp, fun _ => Or.inl ⟨by omega, h1⟩, by simp⟩
    · rw [if_neg h1]
      by_cases h2 : o.minIters ≤ k ∧ norm2 (o.next f batch k s).v ≤ o.tolStep
      · rw [if_pos h2]
        refine ⟨1, fun j => if j = 0 then s else o.next f batch k s, true, by omega, rfl, ?_, ?_, by simp, ?_, by simp⟩
        · intro j hj
          obtain rfl : j = 0 := by omega
          simp
        · intro j hj
          rcases Nat.eq_zero_or_pos j with rfl | hp
          · simpa using hs
          · simp only [if_neg (show j ≠ 0 by omega)]; rfl
        · intro _
          refine Or.inr ⟨by omega, by omega, ?_⟩
          rw [← norm2_eq]; exact h2.2
      · rw [if_neg h2]
        obtain ⟨L, S, c, hL, h0, hn, hfx, hres, ht, hf⟩ :=
          sloop_spec o f batch stopF m (k + 1) (o.next f batch k s) (by omega) rfl
        refine ⟨L + 1, fun j => if j = 0 then s else S (j - 1), c, by omega, rfl, ?_, ?_, ?_, ?_, ?_⟩
        · intro j hj
          rcases Nat.eq_zero_or_pos j with rfl | hp
          · simpa using h0
          · obtain ⟨i, rfl⟩ : ∃ i, j = i + 1 := ⟨j - 1, by omega⟩
            have := hn i (by omega)
            simp only [Nat.add_sub_cancel, Nat.succ_ne_zero, if_false]
            rw [this]; congr 1; omega
        · intro j hj
          rcases Nat.eq_zero_or_pos j with rfl | hp
          · simpa using hs
          · simp only [if_neg (show j ≠ 0 by omega)]
            exact hfx (j - 1) (by omega)
        · rw [hres]
          simp only [Nat.add_sub_cancel, Nat.succ_ne_zero, if_false]
          rw [show k + 1 + L = k + (L + 1) by omega]
        · intro hc
          simp only [Nat.add_sub_cancel, Nat.succ_ne_zero, if_false]
          rw [show k + (L + 1) = k + 1 + L by omega]
          rcases ht hc with ⟨a, b⟩ | ⟨a, b⟩
          · exact Or.inl ⟨by omega, b⟩
          · exact Or.inr ⟨by omega, b⟩
        · intro hc
          have := hf hc; omega

/-- The nearest point of the box, if there is one. -/
noncomputable def boxed (o : SGD n) (y : Fin n → ℝ) : Fin n → ℝ := fun i =>
  if o.hasBounds then (if y i < o.minB i then o.minB i else if o.maxB i < y i then o.maxB i else y i) else y i

theorem project_eq_boxed (o : SGD n) (y : Fin n → ℝ) : o.project y = boxed o y := by
  funext i
  unfold SGD.project boxed
  rw [projectBox_apply]

/-- What a run of stochastic descent is: points, sampler states and batch gradients from the start to the returned
point, with the test that ended the run. -/
structure SRun (o : SGD n) (f : (Fin n → ℝ) → ℝ) (batch : ℕ → (Fin n → ℝ) → σ → (Fin n → ℝ) × σ)
    (stopF : ℝ → Prop) (x0 : Fin n → ℝ) (r0 : σ) (x : Fin n → ℝ) (fx : ℝ) (K : ℕ) (c : Bool)
    (xs gs : ℕ → Fin n → ℝ) (rs : ℕ → σ) : Prop where
  start : xs 0 = x0 ∧ rs 0 = r0
  result : xs K = x ∧ fx = f x ∧ K ≤ o.maxIters
  gradient : ∀ k ≤ K, gs k = (batch k (xs k) (rs k)).1
  sampler : ∀ k < K, rs (k + 1) = (batch k (xs k) (rs k)).2
  first : 0 < K → xs 1 = boxed o (fun i => x0 i - o.lr0 * gs 0 i)
  step : ∀ k, k + 1 < K → xs (k + 2) = boxed o (fun i => xs (k + 1) i +
    o.lr0 / (1 + o.decay * (k + 1)) * (-gs (k + 1) i + o.momentum * (xs (k + 1) i - xs k i)))
  converged : c = true → o.minIters ≤ K ∧ ((K < o.maxIters ∧ (o.biasCorrected = true → o.beta ^ (K + 1) ≠ 1) ∧ emaTest o (fun j => len (gs j)) K ≤ o.tolGradEma) ∨
    (K < o.maxIters ∧ stopF fx) ∨ 0 < K ∧ len (fun i => xs K i - xs (K - 1) i) ≤ o.tolStep)
  exhausted : c = false → K = o.maxIters

theorem srun (o : SGD n) (f : (Fin n → ℝ) → ℝ) (batch : ℕ → (Fin n → ℝ) → σ → (Fin n → ℝ) × σ) (stopF : ℝ → Bool)
    (x0 : Fin n → ℝ) (r0 : σ) (hmax : o.maxIters ≤ 2147483647) :
    ∃ (x : Fin n → ℝ) (fx : ℝ) (K : ℕ) (c : Bool) (xs gs : ℕ → Fin n → ℝ) (rs : ℕ → σ),
      o.loop f batch stopF o.maxIters 0 ⟨x0, fun _ => 0, 0, f x0, r0⟩ = some (x, fx, K, c) ∧
      SRun o f batch (fun v => stopF v = true) x0 r0 x fx K c xs gs rs := by
  obtain ⟨L, S, c, hL, h0, hn, hfx, hres, ht, hf⟩ :=
    sloop_spec o f batch stopF o.maxIters 0 ⟨x0, fun _ => 0, 0, f x0, r0⟩ (by omega) rfl
  have hK : (if c then 0 + L else o.maxIters) = L := by
    cases c with
    | true => simp
    | false => simpa using (hf rfl).symm
  rw [hK] at hres
  simp only [Nat.zero_add] at hn ht
  have hema : ∀ j < L, (S (j + 1)).ema = emaOf o.beta (fun j => len (batch j (S j).x (S j).r).1) j := by
    intro j
    induction j with
    | zero =>
      intro hj
      rw [hn 0 hj, emaOf_zero, ← norm2_eq]
      simp only [SGD.next, h0]
    | succ j ih =>
      intro hj
      rw [hn (j + 1) hj, emaOf_succ, ← ih (by omega), ← norm2_eq]
      simp only [SGD.next]
  have hhat : o.hat batch L (S L) = emaTest o (fun j => len (batch j (S j).x (S j).r).1) L := by
    unfold SGD.hat emaTest
    cases L with
    | zero => simp only [h0, emaOf_zero, norm2_eq]
    | succ L => simp only [hema L (by omega), emaOf_succ, norm2_eq]
  have hv : ∀ j < L, (S (j + 1)).v = fun i => (S (j + 1)).x i - (S j).x i := by
    intro j hj; rw [hn j hj]; rfl
  refine ⟨(S L).x, (S L).fx, L, c, fun k => (S k).x, fun k => (batch k (S k).x (S k).r).1, fun k => (S k).r, hres,
    ⟨by rw [h0]; exact ⟨rfl, rfl⟩, ⟨rfl, hfx L le_rfl, hL⟩, fun _ _ => rfl, fun k hk => by rw [hn k hk]; rfl, ?_, ?_, ?_,
      fun hc => hf hc⟩⟩
  · intro hpos
    rw [hn 0 hpos, h0]
    unfold SGD.next
    dsimp only
    rw [project_eq_boxed]
    congr 1; funext i; simp only [SGD.lrAt]; push_cast; ring
  · intro k hk
    rw [hn (k + 1) hk]
    unfold SGD.next
    dsimp only
    rw [hv k (by omega), project_eq_boxed]
    simp only [SGD.lrAt]; push_cast; rfl
  · intro hc
    rcases ht hc with ⟨a, b, d | d⟩ | ⟨a, b, d⟩
    · rw [hhat] at d; exact ⟨b, Or.inl ⟨a, d.1, d.2⟩⟩
    · exact ⟨b, Or.inr (Or.inl ⟨a, d⟩)⟩
    · refine ⟨by omega, Or.inr (Or.inr ⟨a, ?_⟩)⟩
      have := hv (L - 1) (by omega)
      rw [show L - 1 + 1 = L by omega] at this
      rw [this] at d
      exact d

/-! ## C44 -/

/-- The sum of `count` samples drawn one after the other from generator state `r`. -/
def drawnSum (sample : (Fin n → ℝ) → σ → (Fin n → ℝ) × σ) (x : Fin n → ℝ) (r : σ) (count : ℕ) (i : Fin n) : ℝ :=
  ∑ j ∈ Finset.range count, (sample x ((fun r => (sample x r).2)^[j] r)).1 i

theorem sampleSum_eq (sample : (Fin n → ℝ) → σ → (Fin n → ℝ) × σ) (x : Fin n → ℝ) : ∀ (count : ℕ) (acc : Fin n → ℝ) (r : σ),
    sampleSum sample x count (acc, r) = (fun i => acc i + drawnSum sample x r count i, (fun r => (sample x r).2)^[count] r)
  | 0, acc, r => by simp [sampleSum, drawnSum]
  | count + 1, acc, r => by
    rw [sampleSum]
    dsimp only
    rw [sampleSum_eq sample x count]
    refine Prod.ext (funext fun i => ?_) rfl
    dsimp only
    unfold drawnSum
    rw [Finset.sum_range_succ', Function.iterate_zero_apply]
    simp only [Function.iterate_succ_apply]
    ring

/-- C44. The batch gradient of the sequential version is the mean of `batch_size` (at least one) samples drawn one after
the other, and the generator goes on from there. -/
theorem C44_batch (sample : (Fin n → ℝ) → σ → (Fin n → ℝ) × σ) (bs : ℕ) (hbs : 0 < bs) (x : Fin n → ℝ) (r : σ) :
    seqBatch sample bs x r = (fun i => drawnSum sample x r bs i / bs, (fun r => (sample x r).2)^[bs] r) := by
  unfold seqBatch
  dsimp only
  rw [show max bs 1 = bs by omega, sampleSum_eq]
  refine Prod.ext (funext fun i => ?_) rfl
  dsimp only
  ring

/-- C44. The sequential optimiser always returns (for limits below `2^31`), its result is the end of a run of projected
steps along the batch gradients, the value is the objective at the returned point, and convergence is reported only if
the average of the gradient norms or the last step is within its tolerance, or the objective value is at most `tol_f`.
Missing from the full property: `tol_f` need not have been requested (`C44_fails`). -/
theorem C44_partial (o : SGD n) (f : (Fin n → ℝ) → ℝ) (sample : (Fin n → ℝ) → σ → (Fin n → ℝ) × σ) (x0 : Fin n → ℝ)
    (r0 : σ) (hmax : o.maxIters ≤ 2147483647) :
    ∃ (x : Fin n → ℝ) (fx : ℝ) (K : ℕ) (c : Bool) (xs gs : ℕ → Fin n → ℝ) (rs : ℕ → σ),
      o.minimize f sample x0 r0 = some (x, fx, K, c) ∧
      SRun o f (fun _ => seqBatch sample o.batchSize) (fun v => v ≤ o.tolF) x0 r0 x fx K c xs gs rs := by
  obtain ⟨x, fx, K, c, xs, gs, rs, h1, h2⟩ := srun o f (fun _ => seqBatch sample o.batchSize)
    (fun fx => decide (fx ≤ o.tolF)) x0 r0 hmax
  refine ⟨x, fx, K, c, xs, gs, rs, h1, ?_⟩
  simpa only [decide_eq_true_eq] using h2

/-- C44. The parallel optimiser, under every schedule of its workers: the same, and the objective value counts only if a
positive `tol_f` was requested. -/
theorem C44_parallel (o : SGD n) (f : (Fin n → ℝ) → ℝ) (sample : (Fin n → ℝ) → Rand.Gen → (Fin n → ℝ) × Rand.Gen)
    (threads : ℕ) (seed : BitVec 64) (schedules : ℕ → List ℕ) (x0 : Fin n → ℝ) (hmax : o.maxIters ≤ 2147483647) :
    ∃ (x : Fin n → ℝ) (fx : ℝ) (K : ℕ) (c : Bool) (xs gs : ℕ → Fin n → ℝ) (rs : ℕ → Unit),
      o.minimizeParallel f sample threads seed schedules x0 = some (x, fx, K, c) ∧
      SRun o f (fun k x _ => (parBatch sample o.batchSize threads seed (schedules k) k x, ()))
        (fun v => 0 < o.tolF ∧ v ≤ o.tolF) x0 () x fx K c xs gs rs := by
  obtain ⟨x, fx, K, c, xs, gs, rs, h1, h2⟩ := srun o f
    (fun k x (_ : Unit) => (parBatch sample o.batchSize threads seed (schedules k) k x, ()))
    (fun fx => decide (o.tolF > 0 ∧ fx ≤ o.tolF)) x0 () hmax
  refine ⟨x, fx, K, c, xs, gs, rs, h1, ?_⟩
  simpa only [decide_eq_true_eq] using h2

/-- C44. The bias-corrected average of gradient norms lies between the smallest and the largest of them. So if a run has
stopped on it, some batch gradient of the run was within the requested tolerance. -/
theorem C44_average (β : ℝ) (h0 : 0 ≤ β) (h1 : β < 1) (a : ℕ → ℝ) (k : ℕ) (lo hi : ℝ)
    (hlo : ∀ j ≤ k, lo ≤ a j) (hhi : ∀ j ≤ k, a j ≤ hi) :
    lo ≤ emaOf β a k / (1 - β ^ (k + 1)) ∧ emaOf β a k / (1 - β ^ (k + 1)) ≤ hi ∧
    ∀ tol, emaOf β a k / (1 - β ^ (k + 1)) ≤ tol → ∃ j ≤ k, a j ≤ tol := by
  have hp : 0 < 1 - β ^ (k + 1) := sub_pos.2 (pow_lt_one₀ h0 h1 (by omega))
  have hw : (1 - β) * ∑ j ∈ Finset.range (k + 1), β ^ (k - j) = 1 - β ^ (k + 1) := by
    have h2 : ∑ j ∈ Finset.range (k + 1), β ^ (k - j) = ∑ j ∈ Finset.range (k + 1), β ^ j :=
      Finset.sum_range_reflect (fun j => β ^ j) (k + 1)
    rw [h2, mul_comm]
    have := geom_sum_mul_neg β (k + 1)
    linarith
  have hc : ∀ c : ℝ, c * (1 - β ^ (k + 1)) = (1 - β) * ∑ j ∈ Finset.range (k + 1), β ^ (k - j) * c := by
    intro c
    rw [← Finset.sum_mul, ← mul_assoc, hw, mul_comm]
  have hle : ∀ (u v : ℕ → ℝ), (∀ j ≤ k, u j ≤ v j) →
      (1 - β) * ∑ j ∈ Finset.range (k + 1), β ^ (k - j) * u j ≤ (1 - β) * ∑ j ∈ Finset.range (k + 1), β ^ (k - j) * v j := by
    intro u v huv
    refine mul_le_mul_of_nonneg_left (Finset.sum_le_sum fun j hj => ?_) (by linarith)
    exact mul_le_mul_of_nonneg_left (huv j (by have := Finset.mem_range.1 hj; omega)) (pow_nonneg h0 _)
  have hlow : ∀ lo, (∀ j ≤ k, lo ≤ a j) → lo ≤ emaOf β a k / (1 - β ^ (k + 1)) := by
    intro lo hlo
    rw [le_div_iff₀ hp, hc]
    exact hle (fun _ => lo) a hlo
  refine ⟨hlow lo hlo, ?_, ?_⟩
  · rw [div_le_iff₀ hp, hc]
    exact hle a (fun _ => hi) hhi
  · intro tol htol
    by_contra hno
    push Not at hno
    obtain ⟨j, hj, hmin⟩ := Finset.exists_min_image (Finset.range (k + 1)) a ⟨0, by simp⟩
    have h2 := hlow (a j) (fun i hi => hmin i (Finset.mem_range.2 (by omega)))
    have h3 := hno j (by have := Finset.mem_range.1 hj; omega)
    linarith

example : (0 : ℝ) ≤ 0.9 ∧ (0.9 : ℝ) < 1 := by norm_num

/-- C44. With the defaults a run on an objective that is not positive at the start reports convergence at once: no step
is made, the gradient there has length 1, far above the requested tolerance `1e-4`, and `tol_f` was never set. -/
theorem C44_fails : ∃ (f : (Fin 1 → ℝ) → ℝ) (sample : (Fin 1 → ℝ) → Unit → (Fin 1 → ℝ) × Unit) (x0 : Fin 1 → ℝ),
    (∀ x, HasDerivAt (fun t => f (fun _ => t)) ((sample x ()).1 0) (x 0)) ∧ (∀ x, len (sample x ()).1 = 1) ∧
    (SGD.new 1).minimize f sample x0 () = some (x0, f x0, 0, true) := by
  refine ⟨fun x => x 0 - 1, fun _ _ => (fun _ => 1, ()), fun _ => 0, fun x => ?_, fun x => by simp [len_one], ?_⟩
  · exact (hasDerivAt_id' (x 0)).sub_const 1
  · unfold SGD.minimize
    have hm : (SGD.new 1).maxIters = 99999 + 1 := rfl
    rw [hm, sloop_step _ _ _ _ _ _ _ (by norm_num), if_pos]
    refine ⟨by simp [SGD.new], Or.inr ?_⟩
    simp [SGD.new]

/-- C44. A limit of `2^31` iterations or more is accepted, but the exponent of the bias correction overflows `i32` in
iteration `2^31 - 1`: a run that gets there panics. -/
theorem C44_overflow_fails : ∃ (o : SGD 1) (f : (Fin 1 → ℝ) → ℝ) (sample : (Fin 1 → ℝ) → Unit → (Fin 1 → ℝ) × Unit)
    (x0 : Fin 1 → ℝ), o.maxIters = 2147483648 ∧ o.minimize f sample x0 () = none := by
  let o : SGD 1 := { SGD.new 1 with lr0 := 1, decay := 0, beta := 0, maxIters := 2147483648 }
  let smp : (Fin 1 → ℝ) → Unit → (Fin 1 → ℝ) × Unit := fun _ _ => (fun _ => 1, ())
  have hbatch : ∀ (x : Fin 1 → ℝ) (r : Unit), seqBatch smp 1 x r = (fun _ => 1, ()) := by
    intro x r
    simp [seqBatch, sampleSum, smp]
  have key : ∀ (j : ℕ) (k m : ℕ) (s : SState 1 Unit), k + j = 2147483647 → j < m → s.fx = 1 →
      o.loop (fun _ => 1) (fun _ => seqBatch smp o.batchSize) (fun fx => decide (fx ≤ o.tolF)) m k s = none := by
    intro j
    induction j with
    | zero =>
      intro k m s hk hm _
      obtain ⟨m, rfl⟩ : ∃ i, m = i + 1 := ⟨m - 1, by omega⟩
      obtain rfl : k = 2147483647 := by omega
      rw [SGD.loop]
      have h1 : emaExponent 2147483647 = none := by decide
      simp [h1, o, SGD.new]
    | succ j ih =>
      intro k m s hk hm hfx
      obtain ⟨m, rfl⟩ : ∃ i, m = i + 1 := ⟨m - 1, by omega⟩
      have hone : len (fun _ : Fin 1 => (1 : ℝ)) = 1 := by simp [len_one]
      rw [sloop_step _ _ _ _ _ _ _ (by omega), if_neg, if_neg]
      · exact ih (k + 1) m _ (by omega) (by omega) rfl
      · rintro ⟨-, h⟩
        rw [norm2_eq, len_one] at h
        simp only [SGD.next, SGD.project, projectBox_apply, SGD.lrAt, o, SGD.new, hbatch] at h
        norm_num at h
      · rintro ⟨-, h | h⟩
        · replace h := h.2
          simp only [SGD.hat, o, SGD.new, hbatch, norm2_eq, hone] at h
          norm_num at h
        · simp [o, SGD.new, hfx] at h
          linarith
  exact ⟨o, fun _ => 1, smp, fun _ => 0, rfl, key 2147483647 0 2147483648 _ rfl (by norm_num) rfl⟩

/-! ## C41 for the stochastic versions -/

/-- C41 for both stochastic optimisers, for runs that start in the box or make at least one step. The failing case is
that of `C41_fails`: a run that stops before its first step returns its start. -/
theorem C41_stochastic_partial (o : SGD n) (f : (Fin n → ℝ) → ℝ) (batch : ℕ → (Fin n → ℝ) → σ → (Fin n → ℝ) × σ)
    (stopF : ℝ → Prop) (x0 x : Fin n → ℝ) (r0 : σ) (fx : ℝ) (K : ℕ) (c : Bool) (xs gs : ℕ → Fin n → ℝ) (rs : ℕ → σ)
    (h : SRun o f batch stopF x0 r0 x fx K c xs gs rs) (hb : o.hasBounds = true) (hlh : ∀ i, o.minB i ≤ o.maxB i)
    (hstart : InBox o.minB o.maxB x0 ∨ 0 < K) : InBox o.minB o.maxB x := by
  have hproj : ∀ y, InBox o.minB o.maxB (boxed o y) := by
    intro y i
    unfold boxed
    rw [if_pos hb]
    have := hlh i
    split_ifs with h1 h2
    · exact ⟨le_rfl, this⟩
    · exact ⟨this, le_rfl⟩
    · exact ⟨not_lt.1 h1, not_lt.1 h2⟩
  rw [← h.result.1]
  match K, h, hstart with
  | 0, h, hstart =>
    rw [h.start.1]
    rcases hstart with h1 | h1
    · exact h1
    · exact absurd h1 (lt_irrefl _)
  | 1, h, _ => rw [h.first (by omega)]; exact hproj _
  | k + 2, h, _ => rw [h.step k (by omega)]; exact hproj _

/-! ## C42 -/

/-- C42. The ranges of batch indices of the workers are contiguous, start at 0 and end at the batch size; each index
belongs to exactly one worker; no worker is idle; and no product overflows a 64-bit `usize`. -/
theorem C42_partition (bs tUsed : ℕ) (ht : 1 ≤ tUsed) (htb : tUsed ≤ bs) (hbs : bs < 2 ^ 32) :
    workerStart bs tUsed 0 = 0 ∧ (∀ t, workerEnd bs tUsed t = workerStart bs tUsed (t + 1)) ∧
    workerEnd bs tUsed (tUsed - 1) = bs ∧ (∀ t < tUsed, workerStart bs tUsed t < workerEnd bs tUsed t) ∧
    (∀ i < bs, ∃! t, t < tUsed ∧ workerStart bs tUsed t ≤ i ∧ i < workerEnd bs tUsed t) ∧
    (∀ t < tUsed, bs * (t + 1) < 2 ^ 64) := by
  have hmono : ∀ s t, s ≤ t → workerStart bs tUsed s ≤ workerStart bs tUsed t := fun s t h =>
    Nat.div_le_div_right (Nat.mul_le_mul_left _ h)
  have hlast : workerStart bs tUsed tUsed = bs := by
    unfold workerStart; exact Nat.mul_div_cancel _ (by omega)
  have hlt : ∀ t, workerStart bs tUsed t < workerEnd bs tUsed t := by
    intro t
    unfold workerStart workerEnd
    have h1 : bs * t / tUsed + 1 = (bs * t + tUsed) / tUsed := (Nat.add_div_right _ (by omega)).symm
    have h2 : (bs * t + tUsed) / tUsed ≤ bs * (t + 1) / tUsed :=
      Nat.div_le_div_right (by rw [Nat.mul_succ]; omega)
    omega
  refine ⟨by simp [workerStart], fun t => rfl, ?_, fun t _ => hlt t, fun i hi => ?_, fun t h => ?_⟩
  · show workerStart bs tUsed (tUsed - 1 + 1) = bs
    rw [Nat.sub_add_cancel ht]; exact hlast
  · -- the number of workers that start at or before `i`
    have hex : ∃ t, i < workerEnd bs tUsed t := ⟨tUsed - 1, by
      show i < workerStart bs tUsed (tUsed - 1 + 1)
      rw [Nat.sub_add_cancel ht, hlast]; exact hi⟩
    classical
    refine ⟨Nat.find hex, ⟨?_, ?_, Nat.find_spec hex⟩, ?_⟩
    · refine lt_of_le_of_lt (Nat.find_min' hex (m := tUsed - 1) ?_) (by omega)
      show i < workerStart bs tUsed (tUsed - 1 + 1)
      rw [Nat.sub_add_cancel ht, hlast]; exact hi
    · rcases Nat.eq_zero_or_pos (Nat.find hex) with h0 | hp
      · rw [h0]; simp [workerStart]
      · have := Nat.find_min hex (m := Nat.find hex - 1) (by omega)
        have e : workerEnd bs tUsed (Nat.find hex - 1) = workerStart bs tUsed (Nat.find hex) := by
          show workerStart bs tUsed (Nat.find hex - 1 + 1) = _
          rw [Nat.sub_add_cancel hp]
        rw [← e]; omega
    · rintro t ⟨h1, h2, h3⟩
      refine le_antisymm ?_ (Nat.find_min' hex h3)
      by_contra hc
      have h4 := hmono (Nat.find hex + 1) t (by omega)
      have h5 := Nat.find_spec hex
      have e : workerEnd bs tUsed (Nat.find hex) = workerStart bs tUsed (Nat.find hex + 1) := rfl
      omega
  · have h1 : bs * (t + 1) ≤ bs * bs := Nat.mul_le_mul_left _ (by omega)
    have h2 : bs * bs < 2 ^ 32 * 2 ^ 32 := Nat.mul_lt_mul'' hbs hbs
    calc bs * (t + 1) ≤ bs * bs := h1
      _ < 2 ^ 32 * 2 ^ 32 := h2
      _ = 2 ^ 64 := by norm_num

example : (1 : ℕ) ≤ 3 ∧ 3 ≤ 10 ∧ (10 : ℕ) < 2 ^ 32 := by norm_num

/-- A worker after `k` passes: the sum of its first `k` samples. -/
theorem worker_run (sample : (Fin n → ℝ) → Rand.Gen → (Fin n → ℝ) × Rand.Gen) (x : Fin n → ℝ) :
    ∀ (k : ℕ) (w : Worker n), w.left ≤ k →
      ((fun w : Worker n => w.step sample x)^[k] w).acc = (sampleSum sample x w.left (w.acc, w.rng)).1
  | 0, w, h => by
    have : w.left = 0 := by omega
    simp [this, sampleSum]
  | k + 1, w, h => by
    rw [Function.iterate_succ_apply]
    cases hw : w.left with
    | zero =>
      have hs : w.step sample x = w := by unfold Worker.step; rw [hw]
      rw [hs, worker_run sample x k w (by omega), hw]
    | succ l =>
      have hs : w.step sample x = ⟨l, fun i => w.acc i + (sample x w.rng).1 i, (sample x w.rng).2⟩ := by
        unfold Worker.step; rw [hw]
      rw [hs, worker_run sample x k _ (by simp only; omega)]
      simp only [sampleSum]

theorem runWorkers_apply (sample : (Fin n → ℝ) → Rand.Gen → (Fin n → ℝ) × Rand.Gen) (x : Fin n → ℝ) :
    ∀ (sched : List ℕ) (ws : ℕ → Worker n) (t : ℕ),
      runWorkers sample x sched ws t = (fun w : Worker n => w.step sample x)^[sched.count t] (ws t)
  | [], ws, t => rfl
  | s :: sched, ws, t => by
    unfold runWorkers
    rw [runWorkers_apply sample x sched]
    by_cases h : t = s
    · subst h
      rw [Function.update_self, List.count_cons_self, Function.iterate_succ_apply]
    · rw [Function.update_of_ne h, List.count_cons_of_ne (fun e => h e.symm)]

/-- A schedule under which every worker gets to finish. -/
def Complete (bs tUsed : ℕ) (sched : List ℕ) : Prop :=
  ∀ t < tUsed, workerEnd bs tUsed t - workerStart bs tUsed t ≤ sched.count t

theorem foldl_workers (tUsed : ℕ) (a : ℕ → Fin n → ℝ) (c : ℕ → ℕ) :
    (List.range tUsed).foldl (fun (s : (Fin n → ℝ) × ℕ) t => (fun i => s.1 i + a t i, s.2 + c t)) (fun _ => 0, 0)
      = (fun i => ∑ t ∈ Finset.range tUsed, a t i, ∑ t ∈ Finset.range tUsed, c t) := by
  induction tUsed with
  | zero => simp
  | succ m ih =>
    rw [List.range_succ, List.foldl_append, ih]
    simp only [List.foldl_cons, List.foldl_nil, Finset.sum_range_succ]

/-- C42. Under every schedule that lets the workers finish, the batch gradient is the mean over the whole batch of the
samples the workers draw, each from its own generator: it does not depend on the schedule. -/
theorem C42_schedule (sample : (Fin n → ℝ) → Rand.Gen → (Fin n → ℝ) × Rand.Gen) (batchSize threads : ℕ)
    (seed : BitVec 64) (sched : List ℕ) (k : ℕ) (x : Fin n → ℝ) (bs tUsed : ℕ) (hbs : bs = max batchSize 1)
    (htu : tUsed = min (max threads 1) bs) (hc : Complete bs tUsed sched) (i : Fin n) :
    parBatch sample batchSize threads seed sched k x i =
      (∑ t ∈ Finset.range tUsed, drawnSum sample x (Rand.Gen.new (threadSeed seed (BitVec.ofNat 64 k) (BitVec.ofNat 64 t)))
        (workerEnd bs tUsed t - workerStart bs tUsed t) i) / bs := by
  subst hbs htu
  simp only [parBatch, reduceWorkers, foldl_workers]
  generalize hB : max batchSize 1 = bs at *
  generalize hT : min (max threads 1) bs = tUsed at *
  have hcount : ∀ m ≤ tUsed, ∑ t ∈ Finset.range m, (workerEnd bs tUsed t - workerStart bs tUsed t)
      = workerStart bs tUsed m := by
    intro m
    induction m with
    | zero => intro _; simp [workerStart]
    | succ m ih =>
      intro hm
      rw [Finset.sum_range_succ, ih (by omega)]
      have : workerStart bs tUsed m ≤ workerEnd bs tUsed m :=
        Nat.div_le_div_right (Nat.mul_le_mul_left _ (by omega))
      have e : workerEnd bs tUsed m = workerStart bs tUsed (m + 1) := rfl
      omega
  have htpos : 0 < tUsed := by omega
  rw [hcount tUsed le_rfl, show workerStart bs tUsed tUsed = bs from Nat.mul_div_cancel _ htpos, mul_one_div]
  congr 1
  refine Finset.sum_congr rfl fun t ht => ?_
  rw [runWorkers_apply, worker_run sample x _ _ (hc t (Finset.mem_range.1 ht))]
  rw [sampleSum_eq]
  simp [Worker.spawn]

theorem sampleSum_const (G : Fin n → ℝ) (sample : (Fin n → ℝ) → σ → (Fin n → ℝ) × σ) (x : Fin n → ℝ)
    (hG : ∀ r, (sample x r).1 = G) (i : Fin n) : ∀ (k : ℕ) (a : Fin n → ℝ) (r : σ),
    (sampleSum sample x k (a, r)).1 i = a i + k * G i
  | 0, a, r => by simp [sampleSum]
  | k + 1, a, r => by
    rw [sampleSum]
    dsimp only
    rw [sampleSum_const G sample x hG i k, hG]
    push_cast; ring

/-- C42. In particular the batch gradient of a sampler that ignores its generator is its sample, for every batch size,
thread count and schedule, in both versions. -/
theorem C42_mean (G : Fin n → ℝ) (sample : (Fin n → ℝ) → Rand.Gen → (Fin n → ℝ) × Rand.Gen) (batchSize threads : ℕ)
    (seed : BitVec 64) (sched : List ℕ) (k : ℕ) (x : Fin n → ℝ)
    (hc : Complete (max batchSize 1) (min (max threads 1) (max batchSize 1)) sched) (hG : ∀ r, (sample x r).1 = G)
    (r : Rand.Gen) :
    parBatch sample batchSize threads seed sched k x = G ∧ (seqBatch sample batchSize x r).1 = G := by
  have hpos : (0 : ℝ) < ((max batchSize 1 : ℕ) : ℝ) := by exact_mod_cast (by omega : 0 < max batchSize 1)
  constructor
  · funext i
    rw [C42_schedule sample batchSize threads seed sched k x _ _ rfl rfl hc i]
    rw [div_eq_iff hpos.ne']
    simp only [drawnSum, hG, Finset.sum_const, Finset.card_range, nsmul_eq_mul]
    rw [← Finset.sum_mul, mul_comm]
    congr 1
    generalize hB : max batchSize 1 = bs at *
    have htpos : 0 < min (max threads 1) bs := by omega
    generalize min (max threads 1) bs = tUsed at *
    have hcount : ∀ m ≤ tUsed, ∑ t ∈ Finset.range m, (workerEnd bs tUsed t - workerStart bs tUsed t)
        = workerStart bs tUsed m := by
      intro m
      induction m with
      | zero => intro _; simp [workerStart]
      | succ m ih =>
        intro hm
        rw [Finset.sum_range_succ, ih (by omega)]
        have : workerStart bs tUsed m ≤ workerEnd bs tUsed m :=
          Nat.div_le_div_right (Nat.mul_le_mul_left _ (by omega))
        have e : workerEnd bs tUsed m = workerStart bs tUsed (m + 1) := rfl
        omega
    have := hcount tUsed le_rfl
    rw [show workerStart bs tUsed tUsed = bs from Nat.mul_div_cancel _ htpos] at this
    exact_mod_cast this
  · funext i
    unfold seqBatch
    dsimp only
    rw [sampleSum_const G sample x hG, zero_add]
    field_simp

/-- C42. The whole run does not depend on the schedules of the workers. -/
theorem C42_deterministic (o : SGD n) (f : (Fin n → ℝ) → ℝ)
    (sample : (Fin n → ℝ) → Rand.Gen → (Fin n → ℝ) × Rand.Gen) (threads : ℕ) (seed : BitVec 64)
    (s₁ s₂ : ℕ → List ℕ) (x0 : Fin n → ℝ)
    (h₁ : ∀ k, Complete (max o.batchSize 1) (min (max threads 1) (max o.batchSize 1)) (s₁ k))
    (h₂ : ∀ k, Complete (max o.batchSize 1) (min (max threads 1) (max o.batchSize 1)) (s₂ k)) :
    o.minimizeParallel f sample threads seed s₁ x0 = o.minimizeParallel f sample threads seed s₂ x0 := by
  have : (fun k (x : Fin n → ℝ) (_ : Unit) => (parBatch sample o.batchSize threads seed (s₁ k) k x, ()))
      = fun k x _ => (parBatch sample o.batchSize threads seed (s₂ k) k x, ()) := by
    funext k x _
    refine Prod.ext (funext fun i => ?_) rfl
    dsimp only
    rw [C42_schedule sample _ _ _ _ _ _ _ _ rfl rfl (h₁ k), C42_schedule sample _ _ _ _ _ _ _ _ rfl rfl (h₂ k)]
  unfold SGD.minimizeParallel
  rw [this]

/-- A complete schedule of three workers for a batch of five, interleaved. -/
example : Complete 5 3 [2, 1, 0, 2, 1, 0] := by
  intro t ht
  obtain rfl | rfl | rfl : t = 0 ∨ t = 1 ∨ t = 2 := by omega
  all_goals decide

/-! ## C43 -/

/-- C43. In one iteration different workers get different seeds, and in different iterations one worker gets different
seeds. -/
theorem C43_seeds (base a b t u : BitVec 64) :
    (threadSeed base a t = threadSeed base a u → t = u) ∧ (threadSeed base a t = threadSeed base b t → a = b) := by
  have c1 : (0x9E3779B97F4A7C15#64 : BitVec 64) * 0xf1de83e19937733d#64 = 1#64 := by decide
  have c2 : (0xBF58476D1CE4E5B9#64 : BitVec 64) * 0x96de1b173f119089#64 = 1#64 := by decide
  unfold threadSeed
  constructor
  · intro h
    have h1 : t * 0xBF58476D1CE4E5B9#64 = u * 0xBF58476D1CE4E5B9#64 := (BitVec.xor_right_inj _).1 h
    have h2 := congrArg (· * 0x96de1b173f119089#64) h1
    simpa only [BitVec.mul_assoc, c2, BitVec.mul_one] using h2
  · intro h
    have h0 := (BitVec.xor_left_inj _).1 h
    have h1 : a * 0x9E3779B97F4A7C15#64 = b * 0x9E3779B97F4A7C15#64 := (BitVec.xor_right_inj _).1 h0
    have h2 := congrArg (· * 0xf1de83e19937733d#64) h1
    simpa only [BitVec.mul_assoc, c1, BitVec.mul_one] using h2

/-- C80, streams: different workers of one iteration draw different numbers at every draw, unless one of their seeds is
zero. -/
theorem C80_streams_partial (base a t u : BitVec 64) (htu : t ≠ u) (h0 : threadSeed base a t ≠ 0)
    (h1 : threadSeed base a u ≠ 0) (m i : ℕ) (hi : i < m) :
    ((Rand.Gen.new (threadSeed base a t)).draws m).1[i]? ≠ ((Rand.Gen.new (threadSeed base a u)).draws m).1[i]? :=
  Rand.C19_distinct_seeds _ _ (fun h => htu ((C43_seeds base a a t u).1 h)) (fun h => h0 h.1) (fun h => h1 h.2) m i hi

example : threadSeed 7#64 3#64 0#64 ≠ 0 ∧ threadSeed 7#64 3#64 1#64 ≠ 0 := by decide

/-- C80. With base seed zero the first worker draws the same numbers in iterations 0 and 1: the seeds differ, but the
generator replaces seed zero by the very constant that multiplies the iteration. -/
theorem C80_streams_fails :
    Rand.Gen.new (threadSeed 0#64 0#64 0#64) = Rand.Gen.new (threadSeed 0#64 1#64 0#64) ∧
    threadSeed 0#64 0#64 0#64 ≠ threadSeed 0#64 1#64 0#64 := by
  decide

end Verif.Opt
