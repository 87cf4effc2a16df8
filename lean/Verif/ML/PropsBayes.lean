import Verif.ML.PropsReg
import Verif.Stats.PropsCov
import Verif.Stats.PropsMvn
import Mathlib.Analysis.Matrix.PosDef

/-!
# Naive Bayes (C48), LDA and QDA (C88)

The classes are `0, …, k-1`. Specification: `ofClass` (the examples with a label), `avg` (mean, of `Verif.Stats`), `variance`,
`covariance`, `gauss1`, `normalDensity` (of `Verif.Stats`) and `FirstMax`.
-/

namespace Verif.ML

open Verif.Mat Verif.Stats

variable {n k : ℕ}

/-! ## Specification -/

/-- The examples labelled `c`. -/
def ofClass (xs : List (Fin n → ℝ)) (ys : List ℕ) (c : ℕ) : List (Fin n → ℝ) :=
  ((xs.zip ys).filter fun d => d.2 = c).map Prod.fst

/-- Variance of a coordinate (divided by the number of samples). -/
noncomputable def variance (l : List (Fin n → ℝ)) (i : Fin n) : ℝ :=
  (l.map fun x => (x i - avg l i) ^ 2).sum / l.length

/-- Covariance (divided by the number of samples less one; zero for one sample). -/
noncomputable def covariance (l : List (Fin n → ℝ)) (i j : Fin n) : ℝ :=
  (l.map fun x => (x i - avg l i) * (x j - avg l j)).sum / ((l.length : ℝ) - 1)

/-- The normal density with mean `μ` and variance `v`. -/
noncomputable def gauss1 (μ v t : ℝ) : ℝ := Real.exp (-(t - μ) ^ 2 / (2 * v)) / Real.sqrt (2 * Real.pi * v)

/-- `r` is the first class among the eligible ones with the largest `w`. -/
def FirstMax (elig : Fin k → Prop) (w : Fin k → ℝ) (r : ℕ) : Prop :=
  ∃ h : r < k, elig ⟨r, h⟩ ∧ ∀ c, elig c → w c ≤ w ⟨r, h⟩ ∧ (c.1 < r → w c < w ⟨r, h⟩)

theorem fln_some (x : ℝ) : fln (some x) = if x < 0 then none else if x = 0 then some ⊥ else some (Real.log x : WithBot ℝ) := rfl

/-! ## The search for the best class -/

theorem best_spec (elig : Fin k → Prop) (v : Fin k → ℝ) (f : ℕ × WithBot ℝ → Fin k → ℕ × WithBot ℝ)
    (h1 : ∀ s c, elig c → f s c = if (v c : WithBot ℝ) > s.2 then (c.1, (v c : WithBot ℝ)) else s)
    (h0 : ∀ s c, ¬ elig c → f s c = s) :
    ((∀ c, ¬ elig c) → ((rng k 0 k).foldl f (0, ⊥)).1 = 0) ∧
    ((∃ c, elig c) → FirstMax elig v ((rng k 0 k).foldl f (0, ⊥)).1) := by
  have H := foldl_rng f (fun t s => (s = (0, ⊥) ∧ ∀ c : Fin k, c.1 < t → ¬ elig c) ∨
      ∃ r : Fin k, r.1 < t ∧ elig r ∧ s = (r.1, (v r : WithBot ℝ)) ∧
        ∀ c : Fin k, c.1 < t → elig c → v c ≤ v r ∧ (c.1 < r.1 → v c < v r))
    (le_refl k) (Nat.zero_le k) (fun t ht s _ _ hs => by
      by_cases he : elig ⟨t, ht⟩
      · rw [h1 s _ he]
        rcases hs with ⟨rfl, hs⟩ | ⟨r, hr, hre, rfl, hs⟩
        · rw [if_pos (WithBot.bot_lt_coe _)]
          refine Or.inr ⟨⟨t, ht⟩, by simp, he, rfl, fun c hc hce => ?_⟩
          by_cases hct : c.1 < t
          · exact absurd hce (hs c hct)
          · have : c = ⟨t, ht⟩ := Fin.ext (show c.1 = t by omega)
            subst this
            exact ⟨le_refl _, fun h => absurd h (lt_irrefl _)⟩
        · by_cases hv : v r < v ⟨t, ht⟩
          · rw [if_pos (WithBot.coe_lt_coe.2 hv)]
            refine Or.inr ⟨⟨t, ht⟩, by simp, he, rfl, fun c hc hce => ?_⟩
            by_cases hct : c.1 < t
            · have := (hs c hct hce).1
              exact ⟨by linarith, fun _ => by linarith⟩
            · have : c = ⟨t, ht⟩ := Fin.ext (show c.1 = t by omega)
              subst this
              exact ⟨le_refl _, fun h => absurd h (lt_irrefl _)⟩
          · rw [if_neg (fun h => hv (WithBot.coe_lt_coe.1 h))]
            refine Or.inr ⟨r, by omega, hre, rfl, fun c hc hce => ?_⟩
            by_cases hct : c.1 < t
            · exact hs c hct hce
            · have : c = ⟨t, ht⟩ := Fin.ext (show c.1 = t by omega)
              subst this
              exact ⟨not_lt.1 hv, fun h => absurd h (by simp; omega)⟩
      · rw [h0 s _ he]
        rcases hs with ⟨rfl, hs⟩ | ⟨r, hr, hre, rfl, hs⟩
        · refine Or.inl ⟨rfl, fun c hc hce => ?_⟩
          by_cases hct : c.1 < t
          · exact hs c hct hce
          · exact he (by rwa [show (⟨t, ht⟩ : Fin k) = c from Fin.ext (by simp; omega)])
        · refine Or.inr ⟨r, by omega, hre, rfl, fun c hc hce => ?_⟩
          by_cases hct : c.1 < t
          · exact hs c hct hce
          · exact absurd hce (by rwa [show c = (⟨t, ht⟩ : Fin k) from Fin.ext (by simp; omega)]))
    (s := ((0, ⊥) : ℕ × WithBot ℝ)) (Or.inl ⟨rfl, fun c hc => absurd hc (Nat.not_lt_zero _)⟩)
  constructor
  · intro hn
    rcases H with ⟨h, _⟩ | ⟨r, _, hre, _⟩
    · rw [h]
    · exact absurd hre (hn r)
  · rintro ⟨c, hc⟩
    rcases H with ⟨_, h⟩ | ⟨r, _, hre, h, hs⟩
    · exact absurd hc (h c c.2)
    · rw [h]
      exact ⟨r.2, hre, fun c hc => hs c c.2 hc⟩

theorem FirstMax.of_log {elig : Fin k → Prop} {v w : Fin k → ℝ} {r : ℕ} (K : ℝ) (h : FirstMax elig v r)
    (hw : ∀ c, elig c → 0 < w c ∧ v c = Real.log (w c) + K) : FirstMax elig w r := by
  obtain ⟨hr, he, hs⟩ := h
  refine ⟨hr, he, fun c hc => ?_⟩
  obtain ⟨p1, e1⟩ := hw c hc
  obtain ⟨p2, e2⟩ := hw _ he
  obtain ⟨a, b⟩ := hs c hc
  rw [e1, e2] at a b
  exact ⟨(Real.log_le_log_iff p1 p2).1 (by linarith), fun h => (Real.log_lt_log_iff p1 p2).1 (by linarith [b h])⟩

/-! ## Naive Bayes -/

theorem rowAdd (f : Fin n → ℝ → ℝ) (m : Fin k → Fin n → ℝ) (c : Fin k) :
    (rng n 0 n).foldl (fun m i => setE m c i (f i (m c i))) m = Function.update m c (fun i => f i (m c i)) := by
  rw [rowLoop (fun m i => f i (m c i)) c (by intro a a' j _ h; simp only [h]) _ (nodup_rng _ _ _)]
  simp [mem_rng]

theorem sums_spec (data : List ((Fin n → ℝ) × ℕ)) (h : ∀ d ∈ data, d.2 < k) : ∀ s : (Fin k → ℕ) × (Fin k → Fin n → ℝ),
    data.foldlM (fun s d =>
      if h : d.2 < k then
        let c : Fin k := ⟨d.2, h⟩
        some (Function.update s.1 c (s.1 c + 1), (rng n 0 n).foldl (fun m i => setE m c i (m c i + d.1 i)) s.2)
      else none) s
    = some (fun c => s.1 c + (data.filter fun d => d.2 = c.1).length,
        fun c i => s.2 c i + (((data.filter fun d => d.2 = c.1).map Prod.fst).map fun x => x i).sum) := by
  induction data with
  | nil => intro s; simp
  | cons d l ih =>
    intro s
    rw [List.foldlM_cons, dif_pos (h d (by simp)), Option.bind_eq_bind, Option.bind_some,
      ih fun e he => h e (List.mem_cons_of_mem _ he), rowAdd (fun i v => v + d.1 i)]
    congr 2
    · funext c
      by_cases hc : c = ⟨d.2, h d (by simp)⟩
      · subst hc; simp; omega
      · have : d.2 ≠ c.1 := fun e => hc (Fin.ext e.symm)
        simp [Function.update_of_ne hc, this]
    · funext c i
      by_cases hc : c = ⟨d.2, h d (by simp)⟩
      · subst hc; simp; ring
      · have : d.2 ≠ c.1 := fun e => hc (Fin.ext e.symm)
        simp [Function.update_of_ne hc, this]

theorem sums_none (data : List ((Fin n → ℝ) × ℕ)) (h : ∃ d ∈ data, k ≤ d.2) : ∀ s : (Fin k → ℕ) × (Fin k → Fin n → ℝ),
    data.foldlM (fun s d =>
      if h : d.2 < k then
        let c : Fin k := ⟨d.2, h⟩
        some (Function.update s.1 c (s.1 c + 1), (rng n 0 n).foldl (fun m i => setE m c i (m c i + d.1 i)) s.2)
      else none) s = none := by
  induction data with
  | nil => obtain ⟨d, hd, _⟩ := h; simp at hd
  | cons d l ih =>
    intro s
    rw [List.foldlM_cons]
    by_cases hd : d.2 < k
    · rw [dif_pos hd, Option.bind_eq_bind, Option.bind_some]
      apply ih
      obtain ⟨e, he, hk⟩ := h
      rcases List.mem_cons.1 he with rfl | he
      · omega
      · exact ⟨e, he, hk⟩
    · rw [dif_neg hd]; rfl

theorem divCounts_spec (count : Fin k → ℕ) (a : Fin k → Fin n → ℝ) (c : Fin k) (hc : 0 < count c) (i : Fin n) :
    NB.divCounts count a c i = a c i / count c := by
  have e : (fun (a : Fin k → Fin n → ℝ) (c : Fin k) => if count c > 0 then
        (rng n 0 n).foldl (fun a i => setE a c i (a c i / (count c : ℝ))) a else a)
      = fun (a : Fin k → Fin n → ℝ) (c : Fin k) => Function.update a c (if count c > 0 then fun i => a c i / (count c : ℝ) else a c) := by
    funext a c
    by_cases h : count c > 0
    · rw [if_pos h, if_pos h, rowAdd (fun _ v => v / (count c : ℝ))]
    · rw [if_neg h, if_neg h, Function.update_eq_self]
  unfold NB.divCounts
  rw [e, foldl_update (fun (a : Fin k → Fin n → ℝ) c => if count c > 0 then fun i => a c i / (count c : ℝ) else a c) _
    (nodup_rng _ _ _) (by intro a a' r _ h _; simp only [h])]
  simp [mem_rng, hc]

theorem squares_spec (mean : Fin k → Fin n → ℝ) (data : List ((Fin n → ℝ) × ℕ)) (c : Fin k) (i : Fin n) :
    NB.squares mean data c i
      = (((data.filter fun d => d.2 = c.1).map Prod.fst).map fun x => (x i - mean c i) ^ 2).sum := by
  have H : ∀ v : Fin k → Fin n → ℝ, data.foldl (fun v d =>
      if h : d.2 < k then
        let c : Fin k := ⟨d.2, h⟩
        (rng n 0 n).foldl (fun v i => setE v c i (v c i + (d.1 i - mean c i) * (d.1 i - mean c i))) v
      else v) v c i
      = v c i + (((data.filter fun d => d.2 = c.1).map Prod.fst).map fun x => (x i - mean c i) ^ 2).sum := by
    induction data with
    | nil => intro v; simp
    | cons d l ih =>
      intro v
      rw [List.foldl_cons, ih]
      by_cases hd : d.2 < k
      · rw [dif_pos hd, rowAdd (fun i v => v + (d.1 i - mean ⟨d.2, hd⟩ i) * (d.1 i - mean ⟨d.2, hd⟩ i))]
        by_cases hc : c = ⟨d.2, hd⟩
        · subst hc; simp; ring
        · have : d.2 ≠ c.1 := fun e => hc (Fin.ext e.symm)
          simp [Function.update_of_ne hc, this]
      · rw [dif_neg hd]
        have : d.2 ≠ c.1 := fun e => hd (e ▸ c.2)
        simp [this]
  have := H fun _ _ => 0
  rw [zero_add] at this
  exact this

theorem natSum (f : Fin k → ℕ) : (rng k 0 k).foldl (fun t c => t + f c) 0 = ∑ c, f c := by
  rw [rng_full, foldl_finRange_sum]

theorem count_sum (data : List ((Fin n → ℝ) × ℕ)) (h : ∀ d ∈ data, d.2 < k) :
    ∑ c : Fin k, (data.filter fun d => d.2 = c.1).length = data.length := by
  induction data with
  | nil => simp
  | cons d l ih =>
    have hd : d.2 < k := h d (by simp)
    have e : ∀ c : Fin k, ((d :: l).filter fun d => d.2 = c.1).length
        = (if c = ⟨d.2, hd⟩ then 1 else 0) + (l.filter fun d => d.2 = c.1).length := by
      intro c
      by_cases hc : c = ⟨d.2, hd⟩
      · subst hc; simp; omega
      · have : d.2 ≠ c.1 := fun e => hc (Fin.ext e.symm)
        simp [this, hc]
    simp only [e, Finset.sum_add_distrib, Finset.sum_ite_eq', Finset.mem_univ, if_true]
    rw [ih fun e he => h e (List.mem_cons_of_mem _ he), List.length_cons]
    omega

/-- C48. `fit` panics exactly when a label is not a class; otherwise it stores the number of examples of every class, and for
every class with examples their mean and variance; if there is any example, the priors are the class frequencies, and these sum
to one. -/
theorem C48_fit (xs : List (Fin n → ℝ)) (ys : List ℕ) :
    (NB.fit k xs ys = none ↔ ∃ d ∈ xs.zip ys, k ≤ d.2) ∧
    ∀ o, NB.fit k xs ys = some o →
      (∀ c, o.count c = (ofClass xs ys c).length) ∧
      (∀ c : Fin k, ofClass xs ys c ≠ [] → ∀ i,
        o.mean c i = avg (ofClass xs ys c) i ∧ o.var c i = variance (ofClass xs ys c) i) ∧
      (xs.zip ys ≠ [] → (∀ c, o.prior c = some ((ofClass xs ys c).length / (xs.zip ys).length : ℝ)) ∧
        ∑ c : Fin k, ((ofClass xs ys c).length / (xs.zip ys).length : ℝ) = 1) := by
  by_cases h : ∃ d ∈ xs.zip ys, k ≤ d.2
  · have e : NB.fit k xs ys = none := by
      unfold NB.fit NB.sums
      rw [sums_none _ h]; rfl
    exact ⟨⟨fun _ => h, fun _ => e⟩, fun o ho => by rw [e] at ho; cases ho⟩
  · have h' : ∀ d ∈ xs.zip ys, d.2 < k := by push Not at h; exact h
    have hlen : ∀ c : Fin k, ((xs.zip ys).filter fun d => d.2 = c.1).length = (ofClass xs ys c).length := by
      intro c; simp [ofClass]
    have hsums : (NB.sums (xs.zip ys) : Option ((Fin k → ℕ) × (Fin k → Fin n → ℝ))) = _ := sums_spec _ h' _
    unfold NB.fit
    rw [hsums]
    simp only [Option.bind_eq_bind, Option.bind_some, Option.pure_def, reduceCtorEq, false_iff, Option.some.injEq]
    refine ⟨h, fun o ho => ?_⟩
    subst ho
    simp only [zero_add, hlen, natSum]
    have hmean : ∀ c : Fin k, ofClass xs ys c ≠ [] → ∀ i, NB.divCounts (fun c : Fin k => (ofClass xs ys c).length)
        (fun c i => ((((xs.zip ys).filter fun d => d.2 = c.1).map Prod.fst).map fun x => x i).sum) c i
        = avg (ofClass xs ys c) i := by
      intro c hc i
      rw [divCounts_spec _ _ _ (List.length_pos_iff.2 hc)]
      rfl
    refine ⟨fun _ => trivial, fun c hc i => ⟨hmean c hc i, ?_⟩, fun hne => ?_⟩
    · rw [divCounts_spec _ _ _ (List.length_pos_iff.2 hc), squares_spec, hmean c hc]
      rfl
    · have hs : ∑ c : Fin k, (ofClass xs ys c).length = (xs.zip ys).length := by
        rw [← count_sum _ h']
        exact Finset.sum_congr rfl fun c _ => (hlen c).symm
      have h0 : ((xs.zip ys).length : ℝ) ≠ 0 := by
        have := List.length_pos_iff.2 hne
        exact_mod_cast this.ne'
      rw [hs]
      refine ⟨fun c => by rw [fdiv, if_neg h0], ?_⟩
      rw [← Finset.sum_div, ← Nat.cast_sum, hs, div_self h0]

theorem botSum (f : Fin n → ℝ) (a : ℝ) :
    (rng n 0 n).foldl (fun (s : WithBot ℝ) i => s + (f i : WithBot ℝ)) (a : WithBot ℝ) = ((a + ∑ i, f i : ℝ) : WithBot ℝ) := by
  have H : ∀ (l : List (Fin n)) (a : ℝ), l.foldl (fun (s : WithBot ℝ) i => s + (f i : WithBot ℝ)) (a : WithBot ℝ)
      = ((l.foldl (fun s i => s + f i) a : ℝ) : WithBot ℝ) := by
    intro l
    induction l with
    | nil => intro a; rfl
    | cons i l ih =>
      intro a
      rw [List.foldl_cons, List.foldl_cons, ← WithBot.coe_add, ih]
  rw [H, rng_full, foldl_add_sum, List.sum_ofFn.symm, List.ofFn_eq_map]

theorem gauss1_pos (μ v t : ℝ) (hv : 0 < v) : 0 < gauss1 μ v t := by
  have := Real.pi_pos
  unfold gauss1
  positivity

theorem gauss1_log (μ v t : ℝ) (hv : 0 < v) :
    Real.log (gauss1 μ v t) = -0.5 * (Real.log (2 * Real.pi * v) + (t - μ) * (t - μ) / v) := by
  have hp := Real.pi_pos
  unfold gauss1
  rw [Real.log_div (Real.exp_pos _).ne' (by positivity), Real.log_exp, Real.log_sqrt (by positivity)]
  field_simp
  ring

/-- C48. After a fit with at least one example, `predict` returns the first class, among those with examples, with the largest
prior times product of normal densities; the means and variances are those of the class, the variance floored. -/
theorem C48_predict {floor : ℝ} (hf : 0 < floor) (xs : List (Fin n → ℝ)) (ys : List ℕ) (o : NB k n)
    (ho : NB.fit k xs ys = some o) (hne : xs.zip ys ≠ []) (x : Fin n → ℝ) :
    FirstMax (fun c : Fin k => ofClass xs ys c ≠ [])
      (fun c => ((ofClass xs ys c).length / (xs.zip ys).length : ℝ) *
        ∏ i, gauss1 (avg (ofClass xs ys c) i) (max (variance (ofClass xs ys c) i) floor) (x i))
      (o.predict floor x) := by
  obtain ⟨hnone, hfit⟩ := C48_fit (k := k) xs ys
  obtain ⟨hcount, hmv, hpr⟩ := hfit o ho
  obtain ⟨hprior, -⟩ := hpr hne
  have hlab : ∀ d ∈ xs.zip ys, d.2 < k := by
    intro d hd
    by_contra hc
    rw [hnone.2 ⟨d, hd, not_lt.1 hc⟩] at ho
    cases ho
  have hpos : ∀ c : Fin k, ofClass xs ys c ≠ [] →
      0 < ((ofClass xs ys c).length / (xs.zip ys).length : ℝ) := by
    intro c hc
    have h1 := List.length_pos_iff.2 hc
    have h2 := List.length_pos_iff.2 hne
    positivity
  have hmax : ∀ v : ℝ, 0 < max v floor := fun v => lt_max_of_lt_right hf
  refine FirstMax.of_log (v := fun c => Real.log ((ofClass xs ys c).length / (xs.zip ys).length) + ∑ i,
      (-0.5 * (Real.log (2 * Real.pi * max (variance (ofClass xs ys c) i) floor)
        + (x i - avg (ofClass xs ys c) i) * (x i - avg (ofClass xs ys c) i) / max (variance (ofClass xs ys c) i) floor)))
      0 ?_ ?_
  · unfold NB.predict
    refine (best_spec _ _ _ (fun s c hc => ?_) (fun s c hc => ?_)).2 ?_
    · have h0 : o.count c ≠ 0 := by rw [hcount]; exact (List.length_pos_iff.2 hc).ne'
      rw [if_neg h0]
      unfold NB.score
      rw [hprior, fln_some, if_neg (not_lt.2 (hpos c hc).le), if_neg (hpos c hc).ne', Option.map_some]
      simp only [hmv c hc]
      rw [botSum]
      rfl
    · rw [not_not] at hc
      rw [if_pos (by rw [hcount, hc]; rfl)]
    · obtain ⟨d, hd⟩ := List.exists_mem_of_ne_nil _ hne
      refine ⟨⟨d.2, hlab d hd⟩, ?_⟩
      apply List.ne_nil_of_mem (a := d.1)
      unfold ofClass
      exact List.mem_map.2 ⟨d, by simp [hd], rfl⟩
  · intro c hc
    have hg : ∀ i, 0 < gauss1 (avg (ofClass xs ys c) i) (max (variance (ofClass xs ys c) i) floor) (x i) :=
      fun i => gauss1_pos _ _ _ (hmax _)
    refine ⟨mul_pos (hpos c hc) (Finset.prod_pos fun i _ => hg i), ?_⟩
    rw [Real.log_mul (hpos c hc).ne' (Finset.prod_pos fun i _ => hg i).ne', Real.log_prod fun i _ => (hg i).ne', add_zero]
    congr 1
    exact Finset.sum_congr rfl fun i _ => (gauss1_log _ _ _ (hmax _)).symm

/-- A fit with two classes succeeds, and both classes have examples. -/
example : ∃ o, NB.fit 2 [![0], ![1]] [0, 1] = some o ∧
    ofClass [(![0] : Fin 1 → ℝ), ![1]] [0, 1] 0 ≠ [] ∧ ofClass [(![0] : Fin 1 → ℝ), ![1]] [0, 1] 1 ≠ [] := by
  cases h : NB.fit 2 [(![0] : Fin 1 → ℝ), ![1]] [0, 1] with
  | none =>
    obtain ⟨d, hd, h2⟩ := (C48_fit (k := 2) _ _).1.1 h
    simp at hd
    rcases hd with rfl | rfl <;> simp at h2
  | some o => exact ⟨o, rfl, by simp [ofClass], by simp [ofClass]⟩

/-! ## LDA and QDA -/

theorem classSum_spec (data : List ((Fin n → ℝ) × ℕ)) (c : ℕ) :
    classSum data c = (fun i => (((data.filter fun d => d.2 = c).map Prod.fst).map fun x => x i).sum,
      (data.filter fun d => d.2 = c).length) := by
  have H : ∀ s : (Fin n → ℝ) × ℕ, data.foldl (fun s d =>
      if d.2 = c then ((rng n 0 n).foldl (fun m i => Function.update m i (m i + d.1 i)) s.1, s.2 + 1) else s) s
      = (fun i => s.1 i + (((data.filter fun d => d.2 = c).map Prod.fst).map fun x => x i).sum,
        s.2 + (data.filter fun d => d.2 = c).length) := by
    induction data with
    | nil => intro s; simp
    | cons d l ih =>
      intro s
      rw [List.foldl_cons, ih]
      by_cases hd : d.2 = c
      · rw [if_pos hd, mapLoop (fun i v => v + d.1 i)]
        simp only [List.filter_cons, hd, decide_true, if_true, List.map_cons, List.sum_cons, List.length_cons]
        congr 1
        · funext i; ring
        · omega
      · rw [if_neg hd]
        simp [hd]
  unfold classSum
  rw [H]
  simp

theorem classCount (xs : List (Fin n → ℝ)) (ys : List ℕ) (c : ℕ) :
    (classSum (xs.zip ys) c).2 = (ofClass xs ys c).length := by
  rw [classSum_spec]; simp [ofClass]

theorem classMean_spec (xs : List (Fin n → ℝ)) (ys : List ℕ) (c : ℕ) (hc : ofClass xs ys c ≠ []) :
    classMean (xs.zip ys) c = avg (ofClass xs ys c) := by
  unfold classMean
  dsimp only
  rw [classCount, if_neg (List.length_pos_iff.2 hc).ne', mapLoop (fun _ v => v / ((ofClass xs ys c).length : ℝ)), classSum_spec]
  rfl

theorem classCov_spec (xs : List (Fin n → ℝ)) (ys : List ℕ) (c : ℕ) (hc : ofClass xs ys c ≠ []) :
    classCov (xs.zip ys) c = covariance (ofClass xs ys c) := by
  unfold classCov
  dsimp only
  rw [classMean_spec _ _ _ hc, classCount]
  set mu := avg (ofClass xs ys c)
  have hin : ∀ (diff : Fin n → ℝ) (cov : Mat ℝ n n),
      (rng n 0 n).foldl (fun cov i => (rng n 0 n).foldl (fun cov j => setE cov i j (cov i j + diff i * diff j)) cov) cov
      = fun i j => cov i j + diff i * diff j := by
    intro diff cov
    have e : (fun (cov : Mat ℝ n n) (i : Fin n) =>
        (rng n 0 n).foldl (fun cov j => setE cov i j (cov i j + diff i * diff j)) cov)
        = fun (cov : Mat ℝ n n) (i : Fin n) => Function.update cov i (fun j => cov i j + diff i * diff j) := by
      funext cov i
      exact rowAdd (fun j v => v + diff i * diff j) cov i
    rw [e]
    funext i
    rw [foldl_update (fun (cov : Mat ℝ n n) i => fun j => cov i j + diff i * diff j) _ (nodup_rng _ _ _)
      (by intro a a' r _ h _; simp only [h])]
    simp [mem_rng]
  have H : ∀ (data : List ((Fin n → ℝ) × ℕ)) (cov : Mat ℝ n n), data.foldl (fun cov d =>
      if d.2 = c then
        (rng n 0 n).foldl (fun cov i => (rng n 0 n).foldl (fun cov j => setE cov i j (cov i j +
          (rng n 0 n).foldl (fun f i => Function.update f i (d.1 i - mu i)) (fun _ => 0) i *
          (rng n 0 n).foldl (fun f i => Function.update f i (d.1 i - mu i)) (fun _ => 0) j)) cov) cov
      else cov) cov
      = fun i j => cov i j
        + (((data.filter fun d => d.2 = c).map Prod.fst).map fun x => (x i - mu i) * (x j - mu j)).sum := by
    intro data
    induction data with
    | nil => intro cov; simp
    | cons d l ih =>
      intro cov
      rw [List.foldl_cons, ih]
      by_cases hd : d.2 = c
      · rw [if_pos hd, vecLoop (fun i => d.1 i - mu i), hin]
        funext i j
        simp only [List.filter_cons, hd, decide_true, if_true, List.map_cons, List.sum_cons]
        ring
      · rw [if_neg hd]
        simp [hd]
  have H' := H (xs.zip ys) (fun _ _ => 0)
  rw [H']
  funext i j
  split_ifs with h1
  · simp only [zero_add]; rfl
  · have h2 := List.length_pos_iff.2 hc
    obtain ⟨a, ha⟩ := List.length_eq_one_iff.1 (show (ofClass xs ys c).length = 1 by omega)
    have e : ((xs.zip ys).filter fun d => d.2 = c).map Prod.fst = [a] := ha
    simp only [e, covariance, ha, zero_add]
    have : mu = a := by
      funext i; simp [mu, ha, avg]
    simp [this]

/-- The pooled covariance: the class covariances weighted with the class frequencies. -/
noncomputable def pooledCov (k : ℕ) (xs : List (Fin n → ℝ)) (ys : List ℕ) (i j : Fin n) : ℝ :=
  ∑ c : Fin k, ((ofClass xs ys c).length / xs.length : ℝ) * covariance (ofClass xs ys c) i j

theorem pooled_eq (xs : List (Fin n → ℝ)) (ys : List ℕ) : (Lda.fit k xs ys).pooled = pooledCov k xs ys := by
  have H : ∀ (l : List (Fin k)) (P : Mat ℝ n n), l.foldl (fun pooled c =>
      let count := (classSum (xs.zip ys) c.1).2
      if count = 0 then pooled
      else fun i j => pooled i j + classCov (xs.zip ys) c.1 i j * ((count : ℝ) / (xs.length : ℝ))) P
      = fun i j => l.foldl (fun s (c : Fin k) => s + ((ofClass xs ys c).length / xs.length : ℝ) * covariance (ofClass xs ys c) i j)
        (P i j) := by
    intro l
    induction l with
    | nil => intro P; rfl
    | cons c l ih =>
      intro P
      rw [List.foldl_cons, ih, classCount]
      funext i j
      rw [List.foldl_cons]
      congr 1
      by_cases hc : ofClass xs ys c = []
      · rw [if_pos (by rw [hc]; rfl), hc]; simp
      · rw [if_neg (List.length_pos_iff.2 hc).ne', classCov_spec _ _ _ hc]; ring
  unfold Lda.fit pooledCov
  dsimp only
  rw [H]
  funext i j
  rw [rng_full, foldl_finRange_sum]

theorem covariance_symm (l : List (Fin n → ℝ)) (i j : Fin n) : covariance l i j = covariance l j i := by
  unfold covariance
  simp only [mul_comm]

theorem covariance_nonneg (l : List (Fin n → ℝ)) (v : Fin n → ℝ) : 0 ≤ v ⬝ᵥ (Matrix.of (covariance l)).mulVec v := by
  have e : v ⬝ᵥ (Matrix.of (covariance l)).mulVec v
      = (l.map fun x => (∑ i, v i * (x i - avg l i)) ^ 2).sum / ((l.length : ℝ) - 1) := by
    have hs : ∀ m : List (Fin n → ℝ), ∑ i, ∑ j, v i * ((m.map fun x => (x i - avg l i) * (x j - avg l j)).sum * v j)
        = (m.map fun x => (∑ i, v i * (x i - avg l i)) ^ 2).sum := by
      intro m
      induction m with
      | nil => simp
      | cons x m ih =>
        simp only [List.map_cons, List.sum_cons, add_mul, mul_add, Finset.sum_add_distrib, ih]
        congr 1
        rw [sq, Finset.sum_mul_sum]
        exact Finset.sum_congr rfl fun i _ => Finset.sum_congr rfl fun j _ => by ring
    rw [← hs, Finset.sum_div]
    simp only [dotProduct, Matrix.mulVec, Matrix.of_apply, covariance, Finset.mul_sum, Finset.sum_div]
    exact Finset.sum_congr rfl fun i _ => Finset.sum_congr rfl fun j _ => by ring
  rw [e]
  cases l with
  | nil => simp
  | cons a l =>
    apply div_nonneg
    · apply List.sum_nonneg
      intro y hy
      obtain ⟨x, _, rfl⟩ := List.mem_map.1 hy
      positivity
    · simp

theorem covariance_det (l : List (Fin n → ℝ)) : 0 ≤ (Matrix.of (covariance l)).det := by
  apply Matrix.PosSemidef.det_nonneg
  rw [Matrix.posSemidef_iff_dotProduct_mulVec]
  exact ⟨by ext i j; simp [covariance_symm l i j], fun x => by simpa using covariance_nonneg l x⟩

theorem pooled_symm (xs : List (Fin n → ℝ)) (ys : List ℕ) (i j : Fin n) : pooledCov k xs ys i j = pooledCov k xs ys j i := by
  unfold pooledCov
  exact Finset.sum_congr rfl fun c _ => by rw [covariance_symm]

theorem pooled_det (xs : List (Fin n → ℝ)) (ys : List ℕ) : 0 ≤ (Matrix.of (pooledCov k xs ys)).det := by
  apply Matrix.PosSemidef.det_nonneg
  rw [Matrix.posSemidef_iff_dotProduct_mulVec]
  refine ⟨by ext i j; simp [pooled_symm xs ys i j], fun x => ?_⟩
  have e : Matrix.of (pooledCov k xs ys)
      = ∑ c : Fin k, ((ofClass xs ys c).length / xs.length : ℝ) • Matrix.of (covariance (ofClass xs ys c)) := by
    ext i j
    simp [pooledCov, Matrix.sum_apply]
  rw [e, Matrix.sum_mulVec, dotProduct_sum]
  refine Finset.sum_nonneg fun c _ => ?_
  rw [Matrix.smul_mulVec, dotProduct_smul]
  exact mul_nonneg (by positivity) (by simpa using covariance_nonneg _ x)

theorem foldDot (f : Fin n → ℝ) : (rng n 0 n).foldl (fun t i => t + f i) 0 = ∑ i, f i := by
  rw [rng_full, foldl_finRange_sum]

theorem mulVec_spec (B : Mat ℝ n n) (v : Fin n → ℝ) : Mat.mulVec B v = (Matrix.of B).mulVec v :=
  (C22_real B v v (fun _ _ => 0 : Mat ℝ n 4) (fun _ => 0) (fun _ _ => 0 : Mat ℝ n 6) (fun _ => 0)).1

theorem normal_pos (μ : Fin n → ℝ) (S : Matrix (Fin n) (Fin n) ℝ) (hS : 0 < S.det) (x : Fin n → ℝ) :
    0 < normalDensity μ S x := by
  have := Real.pi_pos
  unfold normalDensity
  positivity

theorem normal_log (μ : Fin n → ℝ) (S : Matrix (Fin n) (Fin n) ℝ) (hS : 0 < S.det) (x : Fin n → ℝ) :
    Real.log (normalDensity μ S x)
      = -(1 / 2) * ((x - μ) ⬝ᵥ (S⁻¹.mulVec (x - μ))) - 1 / 2 * Real.log S.det - 1 / 2 * Real.log ((2 * Real.pi) ^ n) := by
  have hp := Real.pi_pos
  unfold normalDensity
  rw [Real.log_div (Real.exp_pos _).ne' (by positivity), Real.log_exp, Real.log_sqrt (by positivity),
    Real.log_mul (by positivity) hS.ne']
  ring

theorem class_nonempty (xs : List (Fin n → ℝ)) (ys : List ℕ) (c : ℕ) (hc : ofClass xs ys c ≠ []) : 0 < xs.length := by
  by_contra h0
  have : xs = [] := List.length_eq_zero_iff.1 (by omega)
  subst this
  simp [ofClass] at hc

/-- C88, the proved part for LDA: whenever the pooled covariance can be inverted (its computed determinant is not zero) and some
class has data, `predict` returns the first class, among those with data, with the largest class frequency times normal density
with the class mean and the pooled covariance. Missing: a pooled covariance that cannot be inverted, see `C88_fails`. -/
theorem C88_lda_partial {eps : ℝ} (he : 0 ≤ eps) (xs : List (Fin n → ℝ)) (ys : List ℕ)
    (hd : determinant eps (pooledCov k xs ys) ≠ 0) (hex : ∃ c : Fin k, ofClass xs ys c ≠ []) (x : Fin n → ℝ) :
    FirstMax (fun c : Fin k => ofClass xs ys c ≠ [])
      (fun c => ((ofClass xs ys c).length / xs.length : ℝ) *
        normalDensity (avg (ofClass xs ys c)) (Matrix.of (pooledCov k xs ys)) x)
      ((Lda.fit k xs ys).predict eps x) := by
  obtain ⟨B, hB⟩ := (C26_consistent he (pooledCov k xs ys)).1.2 hd
  have hdet : determinant eps (pooledCov k xs ys) = (Matrix.of (pooledCov k xs ys)).det := by
    rcases (C26_determinant he (pooledCov k xs ys)).1 with h | h
    · exact h
    · exact absurd h hd
  have hinv : (Matrix.of (pooledCov k xs ys))⁻¹ = Matrix.of B := Matrix.inv_eq_right_inv (C26_gauss_jordan he hB).1
  have hpos : 0 < (Matrix.of (pooledCov k xs ys)).det :=
    lt_of_le_of_ne (pooled_det xs ys) (by rw [← hdet]; exact hd.symm)
  have hsym : (Matrix.of B).transpose = Matrix.of B := by
    rw [← hinv, Matrix.transpose_nonsing_inv]
    congr 1
    ext i j
    exact pooled_symm xs ys j i
  obtain ⟨c0, hc0⟩ := hex
  have hm : (0 : ℝ) < xs.length := by exact_mod_cast class_nonempty xs ys c0 hc0
  have hpr : ∀ c : Fin k, ofClass xs ys c ≠ [] → 0 < ((ofClass xs ys c).length / xs.length : ℝ) := by
    intro c hc
    have := List.length_pos_iff.2 hc
    positivity
  have hscore : ∀ c, (Lda.fit k xs ys).score eps x c
      = some ((fln ((Lda.fit k xs ys).priors c)).map fun lp =>
        ((∑ i, x i * (Matrix.of B).mulVec ((Lda.fit k xs ys).means c) i
          - 0.5 * ∑ i, (Lda.fit k xs ys).means c i * (Matrix.of B).mulVec ((Lda.fit k xs ys).means c) i : ℝ) : WithBot ℝ) + lp) := by
    intro c
    unfold Lda.score
    rw [pooled_eq, hB]
    simp only [Option.bind_eq_bind, Option.bind_some, Option.pure_def, foldDot, mulVec_spec]
  have hprior : ∀ c, (Lda.fit k xs ys).priors c = some ((ofClass xs ys c).length / xs.length : ℝ) := by
    intro c
    change fdiv ((classSum (xs.zip ys) c).2 : ℝ) xs.length = _
    rw [classCount, fdiv, if_neg hm.ne']
  refine FirstMax.of_log (v := fun c => ∑ i, x i * (Matrix.of B).mulVec (avg (ofClass xs ys c)) i
      - 0.5 * ∑ i, avg (ofClass xs ys c) i * (Matrix.of B).mulVec (avg (ofClass xs ys c)) i
      + Real.log ((ofClass xs ys c).length / xs.length))
      (1 / 2 * (x ⬝ᵥ (Matrix.of B).mulVec x) + 1 / 2 * Real.log (Matrix.of (pooledCov k xs ys)).det
        + 1 / 2 * Real.log ((2 * Real.pi) ^ n)) ?_ ?_
  · unfold Lda.predict
    refine (best_spec _ _ _ (fun s c hc => ?_) (fun s c hc => ?_)).2 ⟨c0, hc0⟩
    · rw [hscore, hprior]
      simp only
      rw [fln_some, if_neg (not_lt.2 (hpr c hc).le), if_neg (hpr c hc).ne', Option.map_some]
      have hmean : (Lda.fit k xs ys).means c = avg (ofClass xs ys c) := classMean_spec xs ys c hc
      rw [hmean, ← WithBot.coe_add]
      rfl
    · rw [not_not] at hc
      rw [hscore, hprior, hc]
      simp only [List.length_nil, Nat.cast_zero, zero_div]
      rw [fln_some, if_neg (lt_irrefl _), if_pos rfl, Option.map_some, WithBot.add_bot]
      rfl
  · intro c hc
    refine ⟨mul_pos (hpr c hc) (normal_pos _ _ hpos _), ?_⟩
    rw [Real.log_mul (hpr c hc).ne' (normal_pos _ _ hpos _).ne', normal_log _ _ hpos, hinv]
    set μ := avg (ofClass xs ys c)
    have hx : μ ⬝ᵥ (Matrix.of B).mulVec x = x ⬝ᵥ (Matrix.of B).mulVec μ := by
      rw [Matrix.dotProduct_mulVec, ← Matrix.mulVec_transpose, hsym, dotProduct_comm]
    have hquad : (x - μ) ⬝ᵥ (Matrix.of B).mulVec (x - μ)
        = x ⬝ᵥ (Matrix.of B).mulVec x - 2 * (x ⬝ᵥ (Matrix.of B).mulVec μ) + μ ⬝ᵥ (Matrix.of B).mulVec μ := by
      rw [Matrix.mulVec_sub, sub_dotProduct, dotProduct_sub, dotProduct_sub, hx]
      ring
    rw [hquad]
    change x ⬝ᵥ (Matrix.of B).mulVec μ - 0.5 * (μ ⬝ᵥ (Matrix.of B).mulVec μ) + _ = _
    ring

/-- C88, the proved part for QDA: `predict` returns the first class with the largest class frequency times normal density with
the class mean and the class covariance, among the classes with data whose covariance can be inverted (its computed determinant
is not zero), if there is one. Missing: classes with data whose covariance cannot be inverted are passed over, see
`C88_fails`. -/
theorem C88_qda_partial {eps : ℝ} (he : 0 ≤ eps) (xs : List (Fin n → ℝ)) (ys : List ℕ)
    (hex : ∃ c : Fin k, ofClass xs ys c ≠ [] ∧ determinant eps (covariance (ofClass xs ys c)) ≠ 0) (x : Fin n → ℝ) :
    FirstMax (fun c : Fin k => ofClass xs ys c ≠ [] ∧ determinant eps (covariance (ofClass xs ys c)) ≠ 0)
      (fun c => ((ofClass xs ys c).length / xs.length : ℝ) *
        normalDensity (avg (ofClass xs ys c)) (Matrix.of (covariance (ofClass xs ys c))) x)
      ((Qda.fit k xs ys).predict eps x) := by
  obtain ⟨c0, hc0⟩ := hex
  have hm : (0 : ℝ) < xs.length := by exact_mod_cast class_nonempty xs ys c0 hc0.1
  have hpr : ∀ c : Fin k, ofClass xs ys c ≠ [] → 0 < ((ofClass xs ys c).length / xs.length : ℝ) := by
    intro c hc
    have := List.length_pos_iff.2 hc
    positivity
  have hdet : ∀ c : Fin k, determinant eps (covariance (ofClass xs ys c)) ≠ 0 →
      determinant eps (covariance (ofClass xs ys c)) = (Matrix.of (covariance (ofClass xs ys c))).det := by
    intro c hd
    rcases (C26_determinant he (covariance (ofClass xs ys c))).1 with h | h
    · exact h
    · exact absurd h hd
  have hpos : ∀ c : Fin k, determinant eps (covariance (ofClass xs ys c)) ≠ 0 →
      0 < (Matrix.of (covariance (ofClass xs ys c))).det :=
    fun c hd => lt_of_le_of_ne (covariance_det _) (by rw [← hdet c hd]; exact hd.symm)
  refine FirstMax.of_log (v := fun c => -0.5 * Real.log (determinant eps (covariance (ofClass xs ys c)))
      - 0.5 * ((x - avg (ofClass xs ys c)) ⬝ᵥ
        (Matrix.of (covariance (ofClass xs ys c)))⁻¹.mulVec (x - avg (ofClass xs ys c)))
      + Real.log ((ofClass xs ys c).length / xs.length)) (1 / 2 * Real.log ((2 * Real.pi) ^ n)) ?_ ?_
  · unfold Qda.predict
    refine (best_spec _ _ _ (fun s c hc => ?_) (fun s c hc => ?_)).2 ⟨c0, hc0⟩
    · have hcnt : (ofClass xs ys c).length ≠ 0 := (List.length_pos_iff.2 hc.1).ne'
      have h1 : (Qda.fit k xs ys).covs c = covariance (ofClass xs ys c) := by
        change (if (classSum (xs.zip ys) c).2 = 0 then fun _ _ => 0 else classCov (xs.zip ys) c) = _
        rw [classCount, if_neg hcnt, classCov_spec _ _ _ hc.1]
      have h2 : (Qda.fit k xs ys).priors c = some ((ofClass xs ys c).length / xs.length : ℝ) := by
        change (if (classSum (xs.zip ys) c).2 = 0 then some 0 else fdiv ((classSum (xs.zip ys) c).2 : ℝ) xs.length) = _
        rw [classCount, if_neg hcnt, fdiv, if_neg hm.ne']
      have h3 : (Qda.fit k xs ys).means c = avg (ofClass xs ys c) := classMean_spec xs ys c hc.1
      obtain ⟨B, hB⟩ := (C26_consistent he (covariance (ofClass xs ys c))).1.2 hc.2
      have hinv : (Matrix.of (covariance (ofClass xs ys c)))⁻¹ = Matrix.of B :=
        Matrix.inv_eq_right_inv (C26_gauss_jordan he hB).1
      have hscore : (Qda.fit k xs ys).score eps x c = some (some
          ((-0.5 * Real.log (determinant eps (covariance (ofClass xs ys c)))
            - 0.5 * ((x - avg (ofClass xs ys c)) ⬝ᵥ (Matrix.of B).mulVec (x - avg (ofClass xs ys c)))
            + Real.log ((ofClass xs ys c).length / xs.length) : ℝ) : WithBot ℝ)) := by
        unfold Qda.score
        rw [h1, h2, h3, hB]
        simp only [Option.bind_eq_bind, Option.bind_some, Option.pure_def, foldDot, mulVec_spec]
        rw [vecLoop (fun i => x i - avg (ofClass xs ys c) i), if_neg (by rw [hdet c hc.2]; exact not_lt.2 (covariance_det _)),
          fln_some, if_neg (not_lt.2 (hpr c hc.1).le), if_neg (hpr c hc.1).ne', Option.map_some, ← WithBot.coe_add]
        rfl
      rw [hscore, hinv]
      rfl
    · by_cases h1 : ofClass xs ys c = []
      · have hcnt : (ofClass xs ys c).length = 0 := by rw [h1]; rfl
        have h2 : (Qda.fit k xs ys).priors c = some 0 := by
          change (if (classSum (xs.zip ys) c).2 = 0 then some 0 else fdiv ((classSum (xs.zip ys) c).2 : ℝ) xs.length) = _
          rw [classCount, if_pos hcnt]
        unfold Qda.score
        rw [h2]
        cases gaussJordan eps ((Qda.fit k xs ys).covs c) with
        | none => rfl
        | some B =>
          simp only [Option.bind_eq_bind, Option.bind_some, Option.pure_def]
          split_ifs
          · rfl
          · rw [fln_some, if_neg (lt_irrefl _), if_pos rfl, Option.map_some, WithBot.add_bot]
            rfl
      · have hd : determinant eps (covariance (ofClass xs ys c)) = 0 := by
          by_contra hd
          exact hc ⟨h1, hd⟩
        have hcnt : (ofClass xs ys c).length ≠ 0 := (List.length_pos_iff.2 h1).ne'
        have h2 : (Qda.fit k xs ys).covs c = covariance (ofClass xs ys c) := by
          change (if (classSum (xs.zip ys) c).2 = 0 then fun _ _ => 0 else classCov (xs.zip ys) c) = _
          rw [classCount, if_neg hcnt, classCov_spec _ _ _ h1]
        have h3 : gaussJordan eps (covariance (ofClass xs ys c)) = none := by
          cases hg : gaussJordan eps (covariance (ofClass xs ys c)) with
          | none => rfl
          | some B => exact absurd hd ((C26_consistent he _).1.1 ⟨B, hg⟩)
        unfold Qda.score
        rw [h2, h3]
        rfl
  · intro c hc
    refine ⟨mul_pos (hpr c hc.1) (normal_pos _ _ (hpos c hc.2) _), ?_⟩
    rw [Real.log_mul (hpr c hc.1).ne' (normal_pos _ _ (hpos c hc.2) _).ne', normal_log _ _ (hpos c hc.2), hdet c hc.2]
    ring

/-- C88, refuted without the restriction: with one sample, of class 1, both classifiers answer class 0, which has no data. -/
theorem C88_fails {eps : ℝ} (he : 0 ≤ eps) (x : Fin 1 → ℝ) :
    ∃ (xs : List (Fin 1 → ℝ)) (ys : List ℕ), ofClass xs ys 0 = [] ∧ ofClass xs ys 1 ≠ [] ∧
      (Lda.fit 2 xs ys).predict eps x = 0 ∧ (Qda.fit 2 xs ys).predict eps x = 0 := by
  have hz : ∀ A : Mat ℝ 1 1, A 0 0 = 0 → gaussJordan eps A = none := by
    intro A hA
    apply C26_gauss_jordan_singular he
    simp [hA]
  refine ⟨[fun _ => 5], [1], by simp [ofClass], by simp [ofClass], ?_, ?_⟩
  · have hp : gaussJordan eps (Lda.fit 2 [fun _ => (5 : ℝ)] [1] : Lda 2 1).pooled = none := by
      apply hz
      rw [pooled_eq]
      simp [pooledCov, Fin.sum_univ_two, ofClass, covariance, avg]
    unfold Lda.predict
    refine (best_spec (fun _ => False) (fun _ => 0) _ (fun s c hc => hc.elim) (fun s c _ => ?_)).1 (fun _ h => h)
    unfold Lda.score
    rw [hp]
    rfl
  · unfold Qda.predict
    refine (best_spec (fun _ => False) (fun _ => 0) _ (fun s c hc => hc.elim) (fun s c _ => ?_)).1 (fun _ h => h)
    have hp : gaussJordan eps ((Qda.fit 2 [fun _ => (5 : ℝ)] [1] : Qda 2 1).covs c) = none := by
      apply hz
      change (if (classSum _ c).2 = 0 then fun _ _ => 0 else classCov _ c) 0 0 = (0 : ℝ)
      by_cases hc : ofClass [fun _ => (5 : ℝ)] [1] c = ([] : List (Fin 1 → ℝ))
      · rw [classCount, if_pos (by rw [hc]; rfl)]
      · rw [classCount, if_neg (List.length_pos_iff.2 hc).ne', classCov_spec _ _ _ hc]
        fin_cases c
        · simp [ofClass] at hc
        · simp [ofClass, covariance, avg]
    unfold Qda.score
    rw [hp]
    rfl

/-- Four points of two classes with covariance 2 each: the hypotheses of both theorems hold. -/
example : determinant (1 / 10 ^ 10 : ℝ) (covariance (ofClass [(![0] : Fin 1 → ℝ), ![2], ![10], ![12]] [0, 0, 1, 1] 1)) ≠ 0 := by
  rw [Ne, determinant_zero_iff (by norm_num)]
  have h1 : rng 1 0 1 = [0] := by decide
  have h2 : rng 1 1 1 = [] := by decide
  rw [h1]
  have e : covariance (ofClass [(![0] : Fin 1 → ℝ), ![2], ![10], ![12]] [0, 0, 1, 1] 1) = fun _ _ => 2 := by
    funext i j
    rw [Subsingleton.elim i 0, Subsingleton.elim j 0]
    simp [covariance, ofClass, avg]
    norm_num
  rw [e]
  simp [detStep, pivot, absV, h2, detElim]
  norm_num

end Verif.ML
