import Verif.Opt.PropsSGD
import Verif.Opt.PropsBox
import Mathlib.Analysis.PSeries
import Mathlib.Topology.Algebra.InfiniteSum.Real
import Mathlib.Data.Fin.Tuple.Basic

/-!
# Stochastic descent approaches the minimum (C153)

The objective is the mean of finitely many losses `ell i`; the sampler draws an index `i` and returns a subgradient of `ell i`. Draws are
modelled as a list of indices that the sampler uses up, and `mean m φ` is the mean of `φ` over all lists of `m` indices: the expectation
over independent uniform draws.
-/

namespace Verif.Opt

variable {n : ℕ} {I : Type} [Fintype I]

/-! ## Specification -/

/-- The mean of `φ` over all sequences of `m` indices. -/
noncomputable def mean (m : ℕ) (φ : List I → ℝ) : ℝ := (∑ s : Fin m → I, φ (List.ofFn s)) / (Fintype.card I : ℝ) ^ m

/-- The sampler: it takes the next index and returns the gradient `g` of its loss. -/
def drawing (g : I → (Fin n → ℝ) → Fin n → ℝ) (x : Fin n → ℝ) : List I → (Fin n → ℝ) × List I
  | [] => (fun _ => 0, [])
  | i :: l => (g i x, l)

/-- The objective: the mean of the losses. -/
noncomputable def total (ell : I → (Fin n → ℝ) → ℝ) (x : Fin n → ℝ) : ℝ := (∑ i, ell i x) / Fintype.card I

/-- `g` is a subgradient of `f` at `x`. -/
def Subgrad (f : (Fin n → ℝ) → ℝ) (g x : Fin n → ℝ) : Prop := ∀ y, f x + ∑ j, g j * (y j - x j) ≤ f y

/-- Within the bounds, if any are set. -/
def SFeasible (o : SGD n) (x : Fin n → ℝ) : Prop := o.hasBounds = true → InBox o.minB o.maxB x

/-- `x` is the point a run of `k` iterations from `x0` ends at, with the indices `l`. -/
def EndsAt (o : SGD n) (f : (Fin n → ℝ) → ℝ) (g : I → (Fin n → ℝ) → Fin n → ℝ) (x0 : Fin n → ℝ) (k : ℕ) (l : List I) (x : Fin n → ℝ) : Prop :=
  ∃ fx c, { o with maxIters := k, minIters := k }.minimize f (drawing g) x0 l = some (x, fx, k, c)

/-- What is assumed of the optimiser and of the samples: no momentum, a positive first learning rate that does not grow, proper bounds; each
sample is a subgradient of the loss drawn, and their mean square is at most `V` within the bounds. -/
structure Sampled (o : SGD n) (ell : I → (Fin n → ℝ) → ℝ) (g : I → (Fin n → ℝ) → Fin n → ℝ) (V : ℝ) : Prop where
  momentum : o.momentum = 0
  rate : 0 < o.lr0
  decay : 0 ≤ o.decay
  box : o.hasBounds = true → ∀ i, o.minB i ≤ o.maxB i
  sub : ∀ i x, SFeasible o x → Subgrad (ell i) (g i x) x
  square : ∀ x, SFeasible o x → (∑ i, ∑ j, g i x j ^ 2) / Fintype.card I ≤ V

/-! ## Means -/

theorem mean_zero (φ : List I → ℝ) : mean 0 φ = φ [] := by
  unfold mean
  simp

theorem mean_succ (m : ℕ) (φ : List I → ℝ) : mean (m + 1) φ = (∑ i, mean m fun l => φ (i :: l)) / Fintype.card I := by
  unfold mean
  rw [← Finset.sum_div, div_div, pow_succ]
  congr 1
  rw [← (Fin.consEquiv fun _ : Fin (m + 1) => I).sum_comp, Fintype.sum_prod_type]
  refine Finset.sum_congr rfl fun i _ => Finset.sum_congr rfl fun s _ => ?_
  congr 1
  rw [List.ofFn_succ]
  simp [Fin.consEquiv]

theorem mean_add (a b : ℕ) (φ : List I → ℝ) : mean (a + b) φ = mean a fun l => mean b fun l' => φ (l ++ l') := by
  induction a generalizing φ with
  | zero => rw [mean_zero, Nat.zero_add]; rfl
  | succ a ih =>
    rw [Nat.succ_add, mean_succ, mean_succ]
    congr 1
    exact Finset.sum_congr rfl fun i _ => by rw [ih]; rfl

theorem mean_le (m : ℕ) {φ ψ : List I → ℝ} (h : ∀ l, l.length = m → φ l ≤ ψ l) : mean m φ ≤ mean m ψ := by
  unfold mean
  apply div_le_div_of_nonneg_right _ (by positivity)
  exact Finset.sum_le_sum fun s _ => h _ (by simp)

theorem mean_const [Nonempty I] (m : ℕ) (c : ℝ) : mean (I := I) m (fun _ => c) = c := by
  unfold mean
  rw [Finset.sum_const, Finset.card_univ, Fintype.card_fun, Fintype.card_fin, nsmul_eq_mul]
  have : (Fintype.card I : ℝ) ≠ 0 := by exact_mod_cast Fintype.card_ne_zero
  push_cast
  field_simp

theorem mean_lin (m : ℕ) (φ ψ : List I → ℝ) (a b : ℝ) : mean m (fun l => a * φ l + b * ψ l) = a * mean m φ + b * mean m ψ := by
  unfold mean
  rw [Finset.sum_add_distrib, ← Finset.mul_sum, ← Finset.mul_sum]
  ring

theorem mean_sum {ι : Type} (m : ℕ) (S : Finset ι) (φ : ι → List I → ℝ) : mean m (fun l => ∑ j ∈ S, φ j l) = ∑ j ∈ S, mean m (φ j) := by
  unfold mean
  rw [Finset.sum_comm, Finset.sum_div]

/-- The mean of a sum over the draws. -/
theorem mean_map [Nonempty I] (m : ℕ) (h : I → ℝ) : mean m (fun l => (l.map h).sum) = m * ((∑ i, h i) / Fintype.card I) := by
  induction m with
  | zero => rw [mean_zero]; simp
  | succ m ih =>
    rw [mean_succ]
    have : ∀ i, mean m (fun l => ((i :: l).map h).sum) = h i + m * ((∑ i, h i) / Fintype.card I) := by
      intro i
      have := mean_lin m (fun _ : List I => h i) (fun l => (l.map h).sum) 1 1
      simp only [one_mul, mean_const, ih] at this
      simpa only [List.map_cons, List.sum_cons] using this
    simp only [this]
    rw [Finset.sum_add_distrib, Finset.sum_const, Finset.card_univ, nsmul_eq_mul]
    have : (Fintype.card I : ℝ) ≠ 0 := by exact_mod_cast Fintype.card_ne_zero
    push_cast
    field_simp
    ring

/-! ## The run -/

/-- The batch gradient for the indices `l`. -/
noncomputable def batchOf (g : I → (Fin n → ℝ) → Fin n → ℝ) (b : ℕ) (l : List I) (x : Fin n → ℝ) : Fin n → ℝ :=
  fun j => (l.map fun i => g i x j).sum / b

/-- One step with the indices `l`. -/
noncomputable def stepOf (o : SGD n) (g : I → (Fin n → ℝ) → Fin n → ℝ) (k : ℕ) (l : List I) (x : Fin n → ℝ) : Fin n → ℝ :=
  o.project fun j => x j - o.lrAt k * batchOf g (max o.batchSize 1) l x j

/-- `m` steps from iteration `k` on. -/
noncomputable def walk (o : SGD n) (g : I → (Fin n → ℝ) → Fin n → ℝ) : ℕ → ℕ → List I → (Fin n → ℝ) → Fin n → ℝ
  | 0, _, _, x => x
  | m + 1, k, l, x => walk o g m (k + 1) (l.drop (max o.batchSize 1)) (stepOf o g k (l.take (max o.batchSize 1)) x)

omit [Fintype I] in
theorem sampleSum_drawing (g : I → (Fin n → ℝ) → Fin n → ℝ) (x : Fin n → ℝ) : ∀ (b : ℕ) (l : List I) (acc : Fin n → ℝ), b ≤ l.length →
    sampleSum (drawing g) x b (acc, l) = (fun j => acc j + ((l.take b).map fun i => g i x j).sum, l.drop b)
  | 0, l, acc, _ => by simp [sampleSum]
  | b + 1, [], acc, h => by simp at h
  | b + 1, i :: l, acc, h => by
    unfold sampleSum
    simp only [drawing]
    rw [sampleSum_drawing g x b l _ (by simpa using h)]
    simp only [List.take_succ_cons, List.drop_succ_cons, List.map_cons, List.sum_cons]
    refine Prod.ext (funext fun j => ?_) rfl
    ring

omit [Fintype I] in
theorem seqBatch_drawing (g : I → (Fin n → ℝ) → Fin n → ℝ) (x : Fin n → ℝ) (b : ℕ) (l : List I) (h : max b 1 ≤ l.length) :
    seqBatch (drawing g) b x l = (batchOf g (max b 1) (l.take (max b 1)) x, l.drop (max b 1)) := by
  unfold seqBatch batchOf
  dsimp only
  rw [sampleSum_drawing g x _ l _ h]
  refine Prod.ext (funext fun j => ?_) rfl
  simp only [zero_add]
  rw [mul_one_div]

omit [Fintype I] in
theorem loop_walk (o : SGD n) (f : (Fin n → ℝ) → ℝ) (g : I → (Fin n → ℝ) → Fin n → ℝ) (stopF : ℝ → Bool) (hmom : o.momentum = 0)
    (hbound : o.biasCorrected = true → o.maxIters ≤ 2147483647) (hmin : o.minIters = o.maxIters) : ∀ (m k : ℕ) (s : SState n (List I)), m + k = o.maxIters →
    m * max o.batchSize 1 ≤ s.r.length →
    ∃ fx c, o.loop f (fun _ => seqBatch (drawing g) o.batchSize) stopF m k s = some (walk o g m k s.r s.x, fx, o.maxIters, c)
  | 0, k, s, _, _ => ⟨s.fx, false, rfl⟩
  | m + 1, k, s, hk, hl => by
    have hb : max o.batchSize 1 ≤ s.r.length := by
      have : max o.batchSize 1 ≤ (m + 1) * max o.batchSize 1 := Nat.le_mul_of_pos_left _ (by omega)
      omega
    unfold SGD.loop
    rw [seqBatch_drawing g s.x o.batchSize s.r hb]
    dsimp only
    have hnot : ¬ o.minIters ≤ k := by omega
    have hstep : o.project (fun i => s.x i + o.lrAt k * (-batchOf g (max o.batchSize 1) (List.take (max o.batchSize 1) s.r) s.x i + o.momentum * s.v i)) =
        stepOf o g k (s.r.take (max o.batchSize 1)) s.x := by
      unfold stepOf
      congr 1
      funext i
      rw [hmom]
      ring
    have ih := fun v ema fx => loop_walk o f g stopF hmom hbound hmin m (k + 1)
      ⟨stepOf o g k (s.r.take (max o.batchSize 1)) s.x, v, ema, fx, s.r.drop (max o.batchSize 1)⟩ (by omega) (by
        simp only [List.length_drop]
        rw [Nat.succ_mul] at hl
        omega)
    simp only [hnot, false_and, if_false, hstep]
    obtain ⟨fx, c, e⟩ := ih (fun i => stepOf o g k (s.r.take (max o.batchSize 1)) s.x i - s.x i)
      (o.beta * s.ema + (1 - o.beta) * norm2 (batchOf g (max o.batchSize 1) (List.take (max o.batchSize 1) s.r) s.x))
      (f (stepOf o g k (s.r.take (max o.batchSize 1)) s.x))
    refine ⟨fx, c, ?_⟩
    by_cases hc : o.biasCorrected = true
    · have hexp := emaExponent_eq k (by have := hbound hc; omega)
      rw [hexp]
      simpa [walk, hc] using e
    · simpa [walk, hc] using e

omit [Fintype I] in
theorem walk_limits (o : SGD n) (g : I → (Fin n → ℝ) → Fin n → ℝ) (a b : ℕ) : ∀ (m k : ℕ) (l : List I) (x : Fin n → ℝ),
    walk { o with maxIters := a, minIters := b } g m k l x = walk o g m k l x
  | 0, _, _, _ => rfl
  | m + 1, k, l, x => by
    unfold walk
    exact walk_limits o g a b m (k + 1) _ _

omit [Fintype I] in
theorem endsAt_walk (o : SGD n) (f : (Fin n → ℝ) → ℝ) (g : I → (Fin n → ℝ) → Fin n → ℝ) (hmom : o.momentum = 0) (x0 : Fin n → ℝ) (k : ℕ)
    (l : List I) (hk : o.biasCorrected = true → k ≤ 2147483647) (hl : k * max o.batchSize 1 ≤ l.length) : EndsAt o f g x0 k l (walk o g k 0 l x0) := by
  obtain ⟨fx, c, e⟩ := loop_walk { o with maxIters := k, minIters := k } f g (fun fx => decide (fx ≤ o.tolF)) hmom hk rfl k 0
    ⟨x0, fun _ => 0, 0, f x0, l⟩ rfl hl
  refine ⟨fx, c, ?_⟩
  rw [walk_limits] at e
  exact e

/-! ## The energy of a step -/

theorem sproject_feasible (o : SGD n) (hbox : o.hasBounds = true → ∀ i, o.minB i ≤ o.maxB i) (z : Fin n → ℝ) : SFeasible o (o.project z) := by
  intro hb i
  have := hbox hb i
  unfold SGD.project
  rw [projectBox_apply, hb]
  by_cases h1 : z i < o.minB i
  · simp [h1, this]
  · by_cases h2 : o.maxB i < z i
    · simp [h1, h2, this]
    · simp only [not_lt] at h1 h2
      simp [not_lt.2 h1, not_lt.2 h2, h1, h2]

theorem sproject_near (o : SGD n) {y : Fin n → ℝ} (hy : SFeasible o y) (z : Fin n → ℝ) :
    ∑ j, (o.project z j - y j) ^ 2 ≤ ∑ j, (z j - y j) ^ 2 := by
  refine Finset.sum_le_sum fun j _ => ?_
  unfold SGD.project
  rw [projectBox_apply]
  by_cases hb : o.hasBounds = true
  · obtain ⟨h1, h2⟩ := hy hb j
    simp only [hb, if_true]
    by_cases h3 : z j < o.minB j
    · rw [if_pos h3]; nlinarith
    · rw [if_neg h3]
      by_cases h4 : z j > o.maxB j
      · rw [if_pos h4]; nlinarith
      · rw [if_neg h4]
  · simp [hb]

omit [Fintype I] in
theorem list_sq (a : I → ℝ) : ∀ l : List I, (l.map a).sum ^ 2 ≤ l.length * (l.map fun i => a i ^ 2).sum
  | [] => by simp
  | i :: l => by
    have ih := list_sq a l
    have hq : 0 ≤ (l.map fun i => a i ^ 2).sum := List.sum_nonneg (by simp only [List.mem_map]; rintro _ ⟨j, _, rfl⟩; positivity)
    have hsq : 2 * a i * (l.map a).sum ≤ l.length * a i ^ 2 + (l.map fun i => a i ^ 2).sum := by
      rcases l with _ | ⟨j, t⟩
      · simp
      · have hN : (0 : ℝ) < ((j :: t).length : ℝ) := by simp; positivity
        generalize ((j :: t).length : ℝ) = N at *
        generalize ((j :: t).map a).sum = S at *
        generalize ((j :: t).map fun i => a i ^ 2).sum = Q at *
        have h1 : S ^ 2 / N ≤ Q := by rw [div_le_iff₀ hN]; linarith
        have h2 : 0 ≤ N * (a i - S / N) ^ 2 := by positivity
        have h3 : N * (a i - S / N) ^ 2 = N * a i ^ 2 - 2 * a i * S + S ^ 2 / N := by field_simp; ring
        linarith
    simp only [List.map_cons, List.sum_cons, List.length_cons]
    push_cast
    nlinarith

omit [Fintype I] in
theorem list_sum_comm {J : Type} (S : Finset J) (a : I → J → ℝ) : ∀ l : List I, ∑ j ∈ S, (l.map fun i => a i j).sum = (l.map fun i => ∑ j ∈ S, a i j).sum
  | [] => by simp
  | i :: l => by
    simp only [List.map_cons, List.sum_cons, Finset.sum_add_distrib]
    rw [list_sum_comm S a l]

omit [Fintype I] in
theorem list_sum_lin (u v : I → ℝ) (a b : ℝ) : ∀ l : List I, (l.map fun i => a * u i + b * v i).sum = a * (l.map u).sum + b * (l.map v).sum
  | [] => by simp
  | i :: l => by
    simp only [List.map_cons, List.sum_cons]
    rw [list_sum_lin u v a b l]
    ring

omit [Fintype I] in
theorem step_near (o : SGD n) (g : I → (Fin n → ℝ) → Fin n → ℝ) (k : ℕ) (l : List I) (hl : l.length = max o.batchSize 1) (x : Fin n → ℝ)
    {y : Fin n → ℝ} (hy : SFeasible o y) : ∑ j, (stepOf o g k l x j - y j) ^ 2 ≤ ∑ j, (x j - y j) ^ 2 +
      (l.map fun i => -2 * o.lrAt k * (∑ j, g i x j * (x j - y j)) + o.lrAt k ^ 2 * ∑ j, g i x j ^ 2).sum / (max o.batchSize 1 : ℕ) := by
  refine (sproject_near o hy _).trans ?_
  set b := max o.batchSize 1 with hb
  have hb0 : (0 : ℝ) < (b : ℝ) := by exact_mod_cast (by omega : 0 < b)
  set η := o.lrAt k
  have e1 : ∑ j, (x j - η * batchOf g b l x j - y j) ^ 2 = ∑ j, (x j - y j) ^ 2 - 2 * η * ∑ j, batchOf g b l x j * (x j - y j) +
      η ^ 2 * ∑ j, batchOf g b l x j ^ 2 := by
    rw [Finset.mul_sum, Finset.mul_sum, ← Finset.sum_sub_distrib, ← Finset.sum_add_distrib]
    exact Finset.sum_congr rfl fun j _ => by ring
  have e2 : ∑ j, batchOf g b l x j * (x j - y j) = (l.map fun i => ∑ j, g i x j * (x j - y j)).sum / b := by
    rw [← list_sum_comm, Finset.sum_div]
    refine Finset.sum_congr rfl fun j _ => ?_
    unfold batchOf
    rw [List.sum_map_mul_right]
    ring
  have e3 : ∑ j, batchOf g b l x j ^ 2 ≤ (l.map fun i => ∑ j, g i x j ^ 2).sum / b := by
    rw [← list_sum_comm, Finset.sum_div]
    refine Finset.sum_le_sum fun j _ => ?_
    unfold batchOf
    rw [div_pow, div_le_div_iff₀ (by positivity) hb0]
    have := list_sq (fun i => g i x j) l
    rw [hl] at this
    nlinarith
  rw [e1, e2, list_sum_lin]
  have h4 := mul_le_mul_of_nonneg_left e3 (sq_nonneg η)
  have e5 : (-2 * η * (l.map fun i => ∑ j, g i x j * (x j - y j)).sum + η ^ 2 * (l.map fun i => ∑ j, g i x j ^ 2).sum) / b =
    -(2 * η * ((l.map fun i => ∑ j, g i x j * (x j - y j)).sum / b)) + η ^ 2 * ((l.map fun i => ∑ j, g i x j ^ 2).sum / b) := by ring
  rw [e5]
  linarith

theorem total_sub [Nonempty I] (ell : I → (Fin n → ℝ) → ℝ) (g : I → (Fin n → ℝ) → Fin n → ℝ) (x y : Fin n → ℝ) (hg : ∀ i, Subgrad (ell i) (g i x) x) :
    total ell x - total ell y ≤ (∑ i, ∑ j, g i x j * (x j - y j)) / Fintype.card I := by
  unfold total
  rw [← sub_div, ← Finset.sum_sub_distrib]
  apply div_le_div_of_nonneg_right _ (by positivity)
  refine Finset.sum_le_sum fun i _ => ?_
  have := hg i y
  have e : ∑ j, g i x j * (x j - y j) = -∑ j, g i x j * (y j - x j) := by
    rw [← Finset.sum_neg_distrib]; exact Finset.sum_congr rfl fun j _ => by ring
  linarith

theorem lrAt_nonneg (o : SGD n) (h0 : 0 ≤ o.lr0) (hd : 0 ≤ o.decay) (k : ℕ) : 0 ≤ o.lrAt k := by unfold SGD.lrAt; positivity

theorem mean_step [Nonempty I] (o : SGD n) (ell : I → (Fin n → ℝ) → ℝ) (g : I → (Fin n → ℝ) → Fin n → ℝ) (h0 : 0 ≤ o.lr0) (hd : 0 ≤ o.decay)
    {V : ℝ} (x : Fin n → ℝ) (hg : ∀ i, Subgrad (ell i) (g i x) x) (hV : (∑ i, ∑ j, g i x j ^ 2) / Fintype.card I ≤ V) {y : Fin n → ℝ}
    (hy : SFeasible o y) (k : ℕ) :
    mean (max o.batchSize 1) (fun l => (∑ j, (stepOf o g k l x j - y j) ^ 2) / 2) ≤
      (∑ j, (x j - y j) ^ 2) / 2 - o.lrAt k * (total ell x - total ell y) + V / 2 * o.lrAt k ^ 2 := by
  have hη := lrAt_nonneg o h0 hd k
  set b := max o.batchSize 1 with hb
  have hb0 : (0 : ℝ) < (b : ℝ) := by exact_mod_cast (by omega : 0 < b)
  set η := o.lrAt k
  set D := ∑ j, (x j - y j) ^ 2
  set r : I → ℝ := fun i => -2 * η * (∑ j, g i x j * (x j - y j)) + η ^ 2 * ∑ j, g i x j ^ 2
  have h1 : mean b (fun l => (∑ j, (stepOf o g k l x j - y j) ^ 2) / 2) ≤ mean b (fun l => (1 / 2) * D + (1 / (2 * b)) * (l.map r).sum) := by
    refine mean_le b fun l hl => ?_
    have := step_near o g k l hl x hy
    have e : (1 / 2) * D + (1 / (2 * b)) * (l.map r).sum = (D + (l.map r).sum / b) / 2 := by field_simp
    rw [e]
    exact div_le_div_of_nonneg_right this (by norm_num)
  refine h1.trans ?_
  rw [mean_lin b (fun _ => D) (fun l => (l.map r).sum), mean_const, mean_map]
  have h2 := total_sub ell g x y hg
  have e2 : (∑ i, r i) / Fintype.card I = -2 * η * ((∑ i, ∑ j, g i x j * (x j - y j)) / Fintype.card I) + η ^ 2 * ((∑ i, ∑ j, g i x j ^ 2) / Fintype.card I) := by
    simp only [r]
    rw [Finset.sum_add_distrib, ← Finset.mul_sum, ← Finset.mul_sum]
    ring
  rw [e2]
  have h3 := mul_le_mul_of_nonneg_left h2 hη
  have h4 := mul_le_mul_of_nonneg_left hV (sq_nonneg η)
  generalize (∑ i, ∑ j, g i x j * (x j - y j)) / Fintype.card I = A at *
  generalize (∑ i, ∑ j, g i x j ^ 2) / Fintype.card I = B at *
  have e3 : 1 / 2 * D + 1 / (2 * (b : ℝ)) * (b * (-2 * η * A + η ^ 2 * B)) = D / 2 - η * A + η ^ 2 * B / 2 := by field_simp; ring
  rw [e3]
  linarith

theorem mean_walk [Nonempty I] (o : SGD n) (ell : I → (Fin n → ℝ) → ℝ) (g : I → (Fin n → ℝ) → Fin n → ℝ) (h0 : 0 ≤ o.lr0) (hd : 0 ≤ o.decay)
    (hbox : o.hasBounds = true → ∀ i, o.minB i ≤ o.maxB i) {V : ℝ} (hg : ∀ i x, SFeasible o x → Subgrad (ell i) (g i x) x)
    (hV : ∀ x, SFeasible o x → (∑ i, ∑ j, g i x j ^ 2) / Fintype.card I ≤ V) {y : Fin n → ℝ} (hy : SFeasible o y) :
    ∀ (K k : ℕ) (x : Fin n → ℝ), SFeasible o x →
      mean (K * max o.batchSize 1) (fun l => ∑ m ∈ Finset.range K, o.lrAt (k + m) * (total ell (walk o g m k l x) - total ell y)) ≤
        (∑ j, (x j - y j) ^ 2) / 2 + V / 2 * ∑ m ∈ Finset.range K, o.lrAt (k + m) ^ 2
  | 0, k, x, _ => by
    simp only [Nat.zero_mul, Finset.range_zero, Finset.sum_empty, mean_const, mul_zero, add_zero]
    positivity
  | K + 1, k, x, hx => by
    set b := max o.batchSize 1 with hb
    rw [show (K + 1) * b = b + K * b by ring, mean_add]
    set c := o.lrAt k * (total ell x - total ell y)
    have h1 : mean b (fun l => mean (K * b) fun l' => ∑ m ∈ Finset.range (K + 1), o.lrAt (k + m) * (total ell (walk o g m k (l ++ l') x) - total ell y)) ≤
        mean b (fun l => 1 * ((∑ j, (stepOf o g k l x j - y j) ^ 2) / 2) + 1 * (c + V / 2 * ∑ m ∈ Finset.range K, o.lrAt (k + 1 + m) ^ 2)) := by
      refine mean_le b fun l hl => ?_
      have ih := mean_walk o ell g h0 hd hbox hg hV hy K (k + 1) (stepOf o g k l x) (sproject_feasible o hbox _)
      have e : (fun l' => ∑ m ∈ Finset.range (K + 1), o.lrAt (k + m) * (total ell (walk o g m k (l ++ l') x) - total ell y)) = fun l' =>
          1 * (∑ m ∈ Finset.range K, o.lrAt (k + 1 + m) * (total ell (walk o g m (k + 1) l' (stepOf o g k l x)) - total ell y)) + 1 * c := by
        funext l'
        rw [Finset.sum_range_succ']
        simp only [walk, add_zero, one_mul]
        rw [← hb, List.take_left' hl, List.drop_left' hl]
        simp only [Nat.add_assoc, Nat.add_comm 1, c]
      rw [e, mean_lin (K * b) _ (fun _ => c), mean_const]
      linarith
    refine h1.trans ?_
    rw [mean_lin b _ (fun _ => c + V / 2 * ∑ m ∈ Finset.range K, o.lrAt (k + 1 + m) ^ 2), mean_const]
    have h2 := mean_step o ell g h0 hd x (fun i => hg i x hx) (hV x hx) hy k
    rw [Finset.sum_range_succ']
    simp only [Nat.add_assoc, Nat.add_comm 1, add_zero] at h2 ⊢
    rw [mul_add]
    linarith

omit [Fintype I] in
theorem walk_snoc (o : SGD n) (g : I → (Fin n → ℝ) → Fin n → ℝ) : ∀ (m k : ℕ) (l l' : List I) (x : Fin n → ℝ), l.length = m * max o.batchSize 1 →
    l'.length = max o.batchSize 1 → walk o g (m + 1) k (l ++ l') x = stepOf o g (k + m) l' (walk o g m k l x)
  | 0, k, l, l', x, hl, hl' => by
    have : l = [] := List.length_eq_zero_iff.1 (by simpa using hl)
    subst this
    simp only [walk, List.nil_append, add_zero]
    rw [List.take_of_length_le hl'.le]
  | m + 1, k, l, l', x, hl, hl' => by
    have hle : max o.batchSize 1 ≤ l.length := by rw [hl, Nat.succ_mul]; omega
    unfold walk
    rw [List.take_append_of_le_length hle, List.drop_append_of_le_length hle, walk_snoc o g m (k + 1) _ _ _ _ hl']
    · rw [show k + 1 + m = k + (m + 1) by omega]
    · rw [List.length_drop, hl, Nat.succ_mul]; omega

omit [Fintype I] in
theorem walk_feasible (o : SGD n) (g : I → (Fin n → ℝ) → Fin n → ℝ) (hbox : o.hasBounds = true → ∀ i, o.minB i ≤ o.maxB i) :
    ∀ (m k : ℕ) (l : List I) (x : Fin n → ℝ), SFeasible o x → SFeasible o (walk o g m k l x)
  | 0, _, _, _, h => h
  | m + 1, k, _, _, _ => walk_feasible o g hbox m (k + 1) _ _ (sproject_feasible o hbox _)

/-! ## Sequences -/

open Filter Topology

theorem lr_sq (o : SGD n) (hd : 0 < o.decay) (K : ℕ) : ∑ k ∈ Finset.range K, o.lrAt k ^ 2 ≤ o.lr0 ^ 2 * (1 + 1 / o.decay) := by
  have h : ∀ K : ℕ, ∑ k ∈ Finset.range (K + 1), o.lrAt k ^ 2 ≤ o.lr0 ^ 2 * (1 + 1 / o.decay * (1 - 1 / (1 + o.decay * K))) := by
    intro K
    induction K with
    | zero => simp [SGD.lrAt]
    | succ K ih =>
      rw [Finset.sum_range_succ]
      have hA : (0 : ℝ) < 1 + o.decay * K := by positivity
      have e : o.lrAt (K + 1) ^ 2 ≤ o.lr0 ^ 2 * (1 / o.decay * (1 / (1 + o.decay * K) - 1 / (1 + o.decay * ((K + 1 : ℕ) : ℝ)))) := by
        unfold SGD.lrAt
        rw [div_pow, div_eq_mul_one_div]
        apply mul_le_mul_of_nonneg_left _ (sq_nonneg _)
        have hB : (1 + o.decay * ((K + 1 : ℕ) : ℝ)) = (1 + o.decay * K) + o.decay := by push_cast; ring
        rw [hB]
        generalize (1 + o.decay * (K : ℝ)) = A at *
        have hB0 : 0 < A + o.decay := by positivity
        have e2 : 1 / o.decay * (1 / A - 1 / (A + o.decay)) = 1 / (A * (A + o.decay)) := by field_simp; ring
        rw [e2]
        apply one_div_le_one_div_of_le (by positivity)
        nlinarith
      calc _ ≤ _ := add_le_add ih e
        _ = _ := by ring
  rcases K with _ | K
  · simp only [Finset.range_zero, Finset.sum_empty]; positivity
  · refine (h K).trans ?_
    apply mul_le_mul_of_nonneg_left _ (sq_nonneg _)
    have : 0 ≤ 1 / (1 + o.decay * (K : ℝ)) := by positivity
    have h2 : 0 ≤ 1 / o.decay := by positivity
    nlinarith

theorem lr_sum (o : SGD n) (h0 : 0 < o.lr0) (hd : 0 ≤ o.decay) : Tendsto (fun K => ∑ k ∈ Finset.range K, o.lrAt k) atTop atTop := by
  have hM : 0 < max 1 o.decay := by positivity
  have h := Real.tendsto_sum_range_one_div_nat_succ_atTop.const_mul_atTop (show 0 < o.lr0 / max 1 o.decay by positivity)
  refine tendsto_atTop_mono (fun K => ?_) h
  rw [Finset.mul_sum]
  refine Finset.sum_le_sum fun k _ => ?_
  unfold SGD.lrAt
  rw [div_mul_div_comm, mul_one]
  apply div_le_div_of_nonneg_left h0.le (by positivity)
  have h1 : 1 ≤ max 1 o.decay := le_max_left _ _
  have h2 : o.decay * k ≤ max 1 o.decay * k := mul_le_mul_of_nonneg_right (le_max_right _ _) (by positivity)
  linarith

theorem lr_zero (o : SGD n) (hd : 0 < o.decay) : Tendsto o.lrAt atTop (𝓝 0) := by
  unfold SGD.lrAt
  apply Tendsto.const_div_atTop
  apply tendsto_atTop_add_const_left
  exact tendsto_natCast_atTop_atTop.const_mul_atTop hd

theorem seq_zero {a η : ℕ → ℝ} {μ V : ℝ} (hμ : 0 < μ) (ha : ∀ k, 0 ≤ a k) (hη : ∀ k, 0 ≤ η k)
    (h : ∀ k, a (k + 1) ≤ (1 - μ * η k) * a k + V * η k ^ 2) (hz : Tendsto η atTop (𝓝 0))
    (hs : Tendsto (fun K => ∑ k ∈ Finset.range K, η k) atTop atTop) : Tendsto a atTop (𝓝 0) := by
  rw [Metric.tendsto_atTop]
  intro ε hε
  have hε' : 0 < ε / 2 := by positivity
  obtain ⟨K1, hK1⟩ : ∃ K1, ∀ k ≥ K1, V * η k ≤ μ * (ε / 4) ∧ μ * η k ≤ 1 := by
    have t1 : Tendsto (fun k => V * η k) atTop (𝓝 0) := by simpa using hz.const_mul V
    have t2 : Tendsto (fun k => μ * η k) atTop (𝓝 0) := by simpa using hz.const_mul μ
    have := (t1.eventually_le_const (show 0 < μ * (ε / 4) by positivity)).and (t2.eventually_le_const one_pos)
    exact eventually_atTop.1 this
  have hreach : ∃ k ≥ K1, a k ≤ ε / 2 := by
    by_contra hno
    push Not at hno
    have hsum : ∀ m, μ * (ε / 4) * (∑ k ∈ Finset.range (K1 + m), η k - ∑ k ∈ Finset.range K1, η k) ≤ a K1 - a (K1 + m) := by
      intro m
      induction m with
      | zero => simp
      | succ m ih =>
        rw [← Nat.add_assoc, Finset.sum_range_succ]
        have h1 := h (K1 + m)
        have h2 := (hK1 (K1 + m) (by omega)).1
        have h3 := hno (K1 + m) (by omega)
        have h4 := hη (K1 + m)
        have h5 : V * η (K1 + m) ^ 2 ≤ μ * (ε / 4) * η (K1 + m) := by nlinarith
        have h6 : μ * η (K1 + m) * (ε / 2) ≤ μ * η (K1 + m) * a (K1 + m) := mul_le_mul_of_nonneg_left h3.le (by positivity)
        nlinarith
    obtain ⟨m, hm⟩ := (hs.eventually_ge_atTop (∑ k ∈ Finset.range K1, η k + (a K1 + 1) / (μ * (ε / 4)))).exists_forall_of_atTop
    have h7 := hm (K1 + m) (by omega)
    have h8 := hsum m
    have h9 : (a K1 + 1) / (μ * (ε / 4)) ≤ ∑ k ∈ Finset.range (K1 + m), η k - ∑ k ∈ Finset.range K1, η k := by linarith
    rw [div_le_iff₀ (by positivity)] at h9
    have := ha (K1 + m)
    linarith
  obtain ⟨k0, hk0, hak0⟩ := hreach
  refine ⟨k0, fun k hk => ?_⟩
  have hstay : ∀ m, a (k0 + m) ≤ ε / 2 := by
    intro m
    induction m with
    | zero => exact hak0
    | succ m ih =>
      have h1 := h (k0 + m)
      obtain ⟨h2, h3⟩ := hK1 (k0 + m) (by omega)
      have h4 := hη (k0 + m)
      have h5 : V * η (k0 + m) ^ 2 ≤ μ * (ε / 4) * η (k0 + m) := by nlinarith
      have h6 : (1 - μ * η (k0 + m)) * a (k0 + m) ≤ (1 - μ * η (k0 + m)) * (ε / 2) := mul_le_mul_of_nonneg_left ih (by linarith)
      have h7 : 0 ≤ μ * (ε / 4) * η (k0 + m) := by positivity
      rw [← Nat.add_assoc]
      nlinarith
  obtain ⟨m, rfl⟩ := Nat.exists_eq_add_of_le hk
  rw [Real.dist_eq, sub_zero, abs_of_nonneg (ha _)]
  linarith [hstay m]

/-! ## Properties -/

omit [Fintype I] in
theorem endsAt_unique {o : SGD n} {f : (Fin n → ℝ) → ℝ} {g : I → (Fin n → ℝ) → Fin n → ℝ} {x0 : Fin n → ℝ} {k : ℕ} {l : List I} {x y : Fin n → ℝ}
    (hx : EndsAt o f g x0 k l x) (hy : EndsAt o f g x0 k l y) : x = y := by
  obtain ⟨_, _, e1⟩ := hx
  obtain ⟨_, _, e2⟩ := hy
  rw [e1] at e2
  simp only [Option.some.injEq, Prod.mk.injEq] at e2
  exact e2.1

omit [Fintype I] in
/-- C153: with enough indices at hand a run with `k` iterations prescribed returns a point, whatever the objective and the samples (with the bias
correction on, up to the largest 32-bit number of iterations). -/
theorem C153_runs (o : SGD n) (f : (Fin n → ℝ) → ℝ) (g : I → (Fin n → ℝ) → Fin n → ℝ) (hmom : o.momentum = 0) (x0 : Fin n → ℝ) (k : ℕ) (l : List I)
    (hk : o.biasCorrected = true → k ≤ 2147483647) (hl : k * max o.batchSize 1 ≤ l.length) : ∃ x, EndsAt o f g x0 k l x :=
  ⟨_, endsAt_walk o f g hmom x0 k l hk hl⟩

/-- C153: on average over the draws, the excess of the objective at the points of the run over its value at any feasible point `y`, weighted by the
learning rates, is at most half the squared distance to `y` plus half `V` times the squares of the rates. -/
theorem C153_mean [Nonempty I] {o : SGD n} {f : (Fin n → ℝ) → ℝ} {ell : I → (Fin n → ℝ) → ℝ} {g : I → (Fin n → ℝ) → Fin n → ℝ} {V : ℝ}
    (hs : Sampled o ell g V) {x0 : Fin n → ℝ} (hx0 : SFeasible o x0) {K : ℕ} (hK : o.biasCorrected = true → K ≤ 2147483648)
    {x : ℕ → List I → Fin n → ℝ} (hx : ∀ k < K, ∀ l, l.length = K * max o.batchSize 1 → EndsAt o f g x0 k l (x k l))
    {y : Fin n → ℝ} (hy : SFeasible o y) :
    mean (K * max o.batchSize 1) (fun l => ∑ k ∈ Finset.range K, o.lr0 / (1 + o.decay * k) * (total ell (x k l) - total ell y)) ≤
      (∑ j, (x0 j - y j) ^ 2) / 2 + V / 2 * ∑ k ∈ Finset.range K, (o.lr0 / (1 + o.decay * k)) ^ 2 := by
  have h := mean_walk o ell g hs.rate.le hs.decay hs.box hs.sub hs.square hy K 0 x0 hx0
  simp only [Nat.zero_add] at h
  refine le_trans (mean_le _ fun l hl => ?_) h
  refine (Finset.sum_congr rfl fun k hk => ?_).le
  have hk' := Finset.mem_range.1 hk
  rw [endsAt_unique (hx k hk' l hl) (endsAt_walk o f g hs.momentum x0 k l (fun hb => by have := hK hb; omega)
    (by rw [hl]; exact Nat.mul_le_mul_right _ hk'.le))]
  rfl

/-- C153: on average over the draws, the best of the first `K` points is worse than any feasible point `y` by at most the quotient below. -/
theorem C153_best [Nonempty I] {o : SGD n} {f : (Fin n → ℝ) → ℝ} {ell : I → (Fin n → ℝ) → ℝ} {g : I → (Fin n → ℝ) → Fin n → ℝ} {V : ℝ}
    (hs : Sampled o ell g V) {x0 : Fin n → ℝ} (hx0 : SFeasible o x0) {K : ℕ} (hK : o.biasCorrected = true → K ≤ 2147483648) (hK0 : 0 < K)
    {x : ℕ → List I → Fin n → ℝ} (hx : ∀ k < K, ∀ l, l.length = K * max o.batchSize 1 → EndsAt o f g x0 k l (x k l))
    {best : List I → ℝ} (hbest : ∀ l, ∀ k < K, best l ≤ total ell (x k l)) {y : Fin n → ℝ} (hy : SFeasible o y) :
    mean (K * max o.batchSize 1) best ≤ total ell y +
      (∑ j, (x0 j - y j) ^ 2 + V * ∑ k ∈ Finset.range K, (o.lr0 / (1 + o.decay * k)) ^ 2) / (2 * ∑ k ∈ Finset.range K, o.lr0 / (1 + o.decay * k)) := by
  have h := C153_mean hs hx0 hK hx hy
  have hr := hs.rate
  have hd := hs.decay
  have hS : 0 < ∑ k ∈ Finset.range K, o.lr0 / (1 + o.decay * k) :=
    Finset.sum_pos (fun k _ => by positivity) ⟨0, Finset.mem_range.2 hK0⟩
  have h1 : mean (K * max o.batchSize 1) (fun l => (∑ k ∈ Finset.range K, o.lr0 / (1 + o.decay * k)) * best l +
      (-(∑ k ∈ Finset.range K, o.lr0 / (1 + o.decay * k))) * total ell y) ≤ _ := le_trans (mean_le _ fun l _ => ?_) h
  · rw [mean_lin _ best (fun _ => total ell y), mean_const] at h1
    generalize ∑ k ∈ Finset.range K, o.lr0 / (1 + o.decay * (k : ℝ)) = S at *
    rw [← sub_le_iff_le_add', le_div_iff₀ (by positivity)]
    linarith
  · rw [neg_mul, ← sub_eq_add_neg, ← mul_sub, Finset.sum_mul]
    refine Finset.sum_le_sum fun k hk => ?_
    apply mul_le_mul_of_nonneg_left _ (by positivity)
    linarith [hbest l k (Finset.mem_range.1 hk)]

open Filter Topology

/-- C153: with a decaying learning rate the best value met approaches the minimum, on average over the draws. -/
theorem C153_converges [Nonempty I] {o : SGD n} {f : (Fin n → ℝ) → ℝ} {ell : I → (Fin n → ℝ) → ℝ} {g : I → (Fin n → ℝ) → Fin n → ℝ} {V : ℝ}
    (hs : Sampled o ell g V) (hdecay : 0 < o.decay) (hbias : o.biasCorrected = false) {x0 : Fin n → ℝ} (hx0 : SFeasible o x0)
    {x : ℕ → List I → Fin n → ℝ} (hx : ∀ k l, k * max o.batchSize 1 ≤ l.length → EndsAt o f g x0 k l (x k l))
    {best : ℕ → List I → ℝ} (hbest : ∀ K l, ∀ k < K, best K l ≤ total ell (x k l)) {y : Fin n → ℝ} (hy : SFeasible o y) {ε : ℝ} (hε : 0 < ε) :
    ∃ K0, ∀ K ≥ K0, mean (K * max o.batchSize 1) (best K) ≤ total ell y + ε := by
  have hV0 : 0 ≤ V := le_trans (by positivity) (hs.square y hy)
  have ht := lr_sum o hs.rate hs.decay
  set C := ∑ j, (x0 j - y j) ^ 2 + V * (o.lr0 ^ 2 * (1 + 1 / o.decay)) with hC
  have hC0 : 0 ≤ C := by positivity
  obtain ⟨K1, hK1⟩ := eventually_atTop.1 (ht.eventually_ge_atTop ((C + 1) / (2 * ε)))
  refine ⟨K1 + 1, fun K hK => ?_⟩
  refine (C153_best hs hx0 (fun hb => by rw [hbias] at hb; cases hb) (by omega : 0 < K)
    (fun k hk l hl => hx k l (by rw [hl]; exact Nat.mul_le_mul_right _ hk.le)) (hbest K) hy).trans ?_
  have h1 := hK1 K (by omega)
  have h2 := lr_sq o hdecay K
  unfold SGD.lrAt at h1 h2
  have hS : 0 < ∑ k ∈ Finset.range K, o.lr0 / (1 + o.decay * (k : ℝ)) := lt_of_lt_of_le (by positivity) h1
  have h3 := mul_le_mul_of_nonneg_left h2 hV0
  rw [add_le_add_iff_left, div_le_iff₀ (by positivity)]
  rw [div_le_iff₀ (by positivity)] at h1
  generalize ∑ k ∈ Finset.range K, o.lr0 / (1 + o.decay * (k : ℝ)) = S at *
  nlinarith

/-- C153: if moreover the objective grows at least quadratically away from its best feasible point `y`, the returned point approaches `y` in mean
square over the draws. -/
theorem C153_point [Nonempty I] {o : SGD n} {f : (Fin n → ℝ) → ℝ} {ell : I → (Fin n → ℝ) → ℝ} {g : I → (Fin n → ℝ) → Fin n → ℝ} {V μ : ℝ}
    (hs : Sampled o ell g V) (hdecay : 0 < o.decay) (hbias : o.biasCorrected = false) {x0 : Fin n → ℝ} (hx0 : SFeasible o x0)
    {x : ℕ → List I → Fin n → ℝ} (hx : ∀ k l, k * max o.batchSize 1 ≤ l.length → EndsAt o f g x0 k l (x k l))
    {y : Fin n → ℝ} (hy : SFeasible o y) (hμ : 0 < μ) (hgrow : ∀ z, SFeasible o z → total ell y + μ / 2 * ∑ j, (z j - y j) ^ 2 ≤ total ell z) :
    Tendsto (fun k => mean (k * max o.batchSize 1) fun l => ∑ j, (x k l j - y j) ^ 2) atTop (𝓝 0) := by
  set b := max o.batchSize 1 with hb
  have hw : ∀ k l, l.length = k * b → x k l = walk o g k 0 l x0 := fun k l hl =>
    endsAt_unique (hx k l hl.ge) (endsAt_walk o f g hs.momentum x0 k l (fun hb => by rw [hbias] at hb; cases hb) hl.ge)
  refine seq_zero (η := o.lrAt) (V := V) hμ (fun k => ?_) (lrAt_nonneg o hs.rate.le hs.decay) (fun k => ?_) (lr_zero o hdecay) (lr_sum o hs.rate hs.decay)
  · rw [← mean_const (I := I) (k * b) 0]
    exact mean_le _ fun l _ => by positivity
  · rw [Nat.succ_mul, mean_add]
    have h1 : mean (k * b) (fun l => mean b fun l' => ∑ j, (x (k + 1) (l ++ l') j - y j) ^ 2) ≤
        mean (k * b) (fun l => (1 - μ * o.lrAt k) * (∑ j, (x k l j - y j) ^ 2) + 1 * (V * o.lrAt k ^ 2)) := by
      refine mean_le _ fun l hl => ?_
      set w := walk o g k 0 l x0 with hwd
      have hwf : SFeasible o w := walk_feasible o g hs.box k 0 l x0 hx0
      have h2 : mean b (fun l' => ∑ j, (x (k + 1) (l ++ l') j - y j) ^ 2) ≤
          mean b (fun l' => 2 * ((∑ j, (stepOf o g k l' w j - y j) ^ 2) / 2) + 0 * 0) := by
        refine mean_le _ fun l' hl' => ?_
        rw [hw (k + 1) (l ++ l') (by rw [List.length_append, hl, hl', Nat.succ_mul]), walk_snoc o g k 0 l l' x0 hl hl', Nat.zero_add]
        linarith
      refine h2.trans ?_
      rw [mean_lin b (fun l' => (∑ j, (stepOf o g k l' w j - y j) ^ 2) / 2) (fun _ => 0)]
      have h3 := mean_step o ell g hs.rate.le hs.decay w (fun i => hs.sub i w hwf) (hs.square w hwf) hy k
      have h4 := hgrow w hwf
      have h5 := mul_le_mul_of_nonneg_left h4 (lrAt_nonneg o hs.rate.le hs.decay k)
      rw [hw k l hl, ← hwd]
      nlinarith
    refine h1.trans ?_
    rw [mean_lin (k * b) _ (fun _ => V * o.lrAt k ^ 2), mean_const]
    linarith

/-- A case: two losses `(x - 1)²` and `(x + 1)²` on `[-2, 2]`, batches of three. -/
noncomputable def twoLosses : SGD 1 :=
  { SGD.new 1 with batchSize := 3, biasCorrected := false, hasBounds := true, minB := fun _ => -2, maxB := fun _ => 2 }

example : Sampled twoLosses (fun (i : Bool) x => (x 0 - if i then 1 else -1) ^ 2) (fun i x _ => 2 * (x 0 - if i then 1 else -1)) 20 ∧
    0 < twoLosses.decay ∧ SFeasible twoLosses (fun _ => 2) ∧
    (∀ k (l : List Bool), k * max twoLosses.batchSize 1 ≤ l.length → ∃ x, EndsAt twoLosses (fun x => x 0 ^ 2)
      (fun (i : Bool) x _ => 2 * (x 0 - if i then 1 else -1)) (fun _ => 2) k l x) ∧
    ∀ z : Fin 1 → ℝ, total (fun (i : Bool) (x : Fin 1 → ℝ) => (x 0 - if i then 1 else -1) ^ 2) (fun _ => 0) + 2 / 2 * ∑ j, (z j - 0) ^ 2 ≤
      total (fun (i : Bool) (x : Fin 1 → ℝ) => (x 0 - if i then 1 else -1) ^ 2) z := by
  refine ⟨⟨rfl, ?_, ?_, ?_, ?_, ?_⟩, ?_, ?_, ?_, ?_⟩
  · norm_num [twoLosses, SGD.new]
  · norm_num [twoLosses, SGD.new]
  · intro _ i; norm_num [twoLosses]
  · intro i x _ y
    simp only [Fin.sum_univ_one]
    cases i <;> simp <;> nlinarith [sq_nonneg (y 0 - x 0)]
  · intro x hx
    obtain ⟨h1, h2⟩ := hx rfl 0
    simp only [twoLosses] at h1 h2
    simp
    nlinarith
  · norm_num [twoLosses, SGD.new]
  · intro _ i; norm_num [twoLosses]
  · exact fun k l hl => C153_runs _ _ _ rfl _ k l (fun h => by cases h) hl
  · intro z
    simp [total]
    nlinarith

end Verif.Opt
