import Verif.ML.PropsReg

/-!
# Perceptron and linear SVM (C47, C85, C86, C87)
-/

namespace Verif.ML

open Verif.Mat Verif.Opt

variable {n : ℕ}

/-! ## Specification -/

/-- The data are separated with margin `γ` by parameters `u` of length at most one, and lie (with the constant input 1
appended) within radius `R`. A label `≥ 0` is the positive class. -/
structure Separated (u : Fin (n + 1) → ℝ) (γ R : ℝ) (data : List ((Fin n → ℝ) × ℤ)) : Prop where
  unit : ∑ j, u j ^ 2 ≤ 1
  margin : ∀ d ∈ data, γ ≤ (if d.2 ≥ 0 then 1 else -1) * lin u d.1
  radius : ∀ d ∈ data, ∑ i, d.1 i ^ 2 + 1 ≤ R ^ 2

open Classical in
/-- How many of the examples, treated one after the other, change the classifier. -/
noncomputable def updates (o : Perceptron n) : List ((Fin n → ℝ) × ℤ) → ℕ
  | [] => 0
  | d :: l => (if o.trainEpoch [d.1] [d.2] = o then 0 else 1) + updates (o.trainEpoch [d.1] [d.2]) l

/-- `g` is a subgradient of `f` at `p`. -/
def IsSubgrad {k : ℕ} (f : (Fin k → ℝ) → ℝ) (g p : Fin k → ℝ) : Prop := ∀ q, f p + ∑ j, g j * (q j - p j) ≤ f q

/-- Mean perceptron loss `max(0, -y s)`. -/
noncomputable def perceptronLoss (xs : List (Fin n → ℝ)) (ys : List ℤ) (p : Fin (n + 1) → ℝ) : ℝ :=
  ((xs.zip ys).map fun d => max 0 (-((if d.2 ≥ 0 then 1 else -1) * lin p d.1))).sum / xs.length

/-- Mean hinge loss `max(0, 1 - y s)` with penalty `lam ‖w‖²`. -/
noncomputable def hingeLoss (lam : ℝ) (xs : List (Fin n → ℝ)) (ys : List ℤ) (p : Fin (n + 1) → ℝ) : ℝ :=
  ((xs.zip ys).map fun d => max 0 (1 - (if d.2 ≥ 0 then 1 else -1) * lin p d.1)).sum / xs.length
    + lam * ∑ i : Fin n, p i.castSucc ^ 2

/-! ## C47 -/

theorem trainEpoch_single (o : Perceptron n) (d : (Fin n → ℝ) × ℤ) : o.trainEpoch [d.1] [d.2] = o.step d := rfl

open Classical in
theorem updates_cons (o : Perceptron n) (d : (Fin n → ℝ) × ℤ) (l : List ((Fin n → ℝ) × ℤ)) :
    updates o (d :: l) = (if o.step d = o then 0 else 1) + updates (o.step d) l := rfl

theorem sign_sq (y : ℤ) : sign y * sign y = 1 := by unfold sign; split_ifs <;> norm_num

theorem step_params (o : Perceptron n) (d : (Fin n → ℝ) × ℤ) :
    (sign d.2 * lin (params o.weights o.bias) d.1 ≤ 0 →
      (o.step d).lr = o.lr ∧
      params (o.step d).weights (o.step d).bias = fun j => params o.weights o.bias j + o.lr * sign d.2 * aug d.1 j) ∧
    (0 < sign d.2 * lin (params o.weights o.bias) d.1 → o.step d = o) := by
  unfold Perceptron.step
  dsimp only
  rw [score_eq]
  refine ⟨fun h => ?_, fun h => by rw [if_neg (not_le.2 h)]⟩
  rw [if_pos h]
  refine ⟨rfl, ?_⟩
  dsimp only
  rw [mapLoop (fun i w => w + o.lr * sign d.2 * d.1 i)]
  funext j
  refine Fin.lastCases ?_ (fun i => ?_) j
  · rw [params_last, params_last, aug_last, mul_one]
  · rw [params_castSucc, params_castSucc, aug_castSucc]

theorem step_eq_iff (o : Perceptron n) (d : (Fin n → ℝ) × ℤ) (hlr : o.lr ≠ 0) :
    o.step d = o ↔ 0 < sign d.2 * lin (params o.weights o.bias) d.1 := by
  refine ⟨fun h => ?_, (step_params o d).2⟩
  by_contra hc
  have := ((step_params o d).1 (not_lt.1 hc)).2
  rw [h] at this
  have := congrFun this (Fin.last n)
  rw [aug_last] at this
  have h1 : o.lr * sign d.2 = 0 := by linarith
  rcases mul_eq_zero.1 h1 with h | h
  · exact hlr h
  · have := sign_sq d.2
    rw [h] at this
    norm_num at this

theorem step_lr (o : Perceptron n) (d : (Fin n → ℝ) × ℤ) : (o.step d).lr = o.lr := by
  rcases le_or_gt (sign d.2 * lin (params o.weights o.bias) d.1) 0 with h | h
  · exact ((step_params o d).1 h).1
  · rw [(step_params o d).2 h]

/-- The two growth rates of the perceptron argument. -/
theorem updates_growth (u : Fin (n + 1) → ℝ) (γ R : ℝ) (l : List ((Fin n → ℝ) × ℤ)) (hs : Separated u γ R l) :
    ∀ o : Perceptron n, 0 < o.lr →
      let q := params (l.foldl Perceptron.step o).weights (l.foldl Perceptron.step o).bias
      let p := params o.weights o.bias
      ∑ j, p j * u j + updates o l * (o.lr * γ) ≤ ∑ j, q j * u j ∧
        ∑ j, q j ^ 2 ≤ ∑ j, p j ^ 2 + updates o l * (o.lr * R) ^ 2 := by
  induction l with
  | nil => intro o _; simp [updates]
  | cons d l ih =>
    intro o hlr
    have hs' : Separated u γ R l := ⟨hs.unit, fun e he => hs.margin e (List.mem_cons_of_mem _ he),
      fun e he => hs.radius e (List.mem_cons_of_mem _ he)⟩
    have h := ih hs' (o.step d) (by rw [step_lr]; exact hlr)
    rw [List.foldl_cons, updates_cons]
    rw [step_lr] at h
    dsimp only at h
    rcases le_or_gt (sign d.2 * lin (params o.weights o.bias) d.1) 0 with hm | hm
    · have hne : o.step d ≠ o := fun e => absurd ((step_eq_iff o d hlr.ne').1 e) (not_lt.2 hm)
      rw [if_neg hne]
      have hp := ((step_params o d).1 hm).2
      rw [hp] at h
      have hmar := hs.margin d (by simp)
      have hrad := hs.radius d (by simp)
      have e1 : ∑ j, (params o.weights o.bias j + o.lr * sign d.2 * aug d.1 j) * u j
          = ∑ j, params o.weights o.bias j * u j + o.lr * (sign d.2 * lin u d.1) := by
        rw [lin_aug, Finset.mul_sum, Finset.mul_sum, ← Finset.sum_add_distrib]
        exact Finset.sum_congr rfl fun j _ => by ring
      have e2 : ∑ j, (params o.weights o.bias j + o.lr * sign d.2 * aug d.1 j) ^ 2
          = ∑ j, params o.weights o.bias j ^ 2 + 2 * o.lr * (sign d.2 * lin (params o.weights o.bias) d.1)
            + o.lr ^ 2 * ∑ j, aug d.1 j ^ 2 := by
        rw [lin_aug, Finset.mul_sum, Finset.mul_sum, Finset.mul_sum, ← Finset.sum_add_distrib, ← Finset.sum_add_distrib]
        refine Finset.sum_congr rfl fun j _ => ?_
        have := sign_sq d.2
        linear_combination (o.lr ^ 2 * aug d.1 j ^ 2) * this
      have e3 : ∑ j, aug d.1 j ^ 2 = ∑ i, d.1 i ^ 2 + 1 := by
        rw [Fin.sum_univ_castSucc]; simp [aug_castSucc, aug_last]
      rw [e1, e2, e3] at h
      have h3 : o.lr * γ ≤ o.lr * (sign d.2 * lin u d.1) := mul_le_mul_of_nonneg_left hmar hlr.le
      have h4 : o.lr ^ 2 * (∑ i, d.1 i ^ 2 + 1) ≤ o.lr ^ 2 * R ^ 2 := mul_le_mul_of_nonneg_left hrad (sq_nonneg _)
      have h5 : 2 * o.lr * (sign d.2 * lin (params o.weights o.bias) d.1) ≤ 0 := by
        have := mul_nonpos_of_nonneg_of_nonpos hlr.le hm
        linarith
      push_cast
      refine ⟨?_, ?_⟩
      · nlinarith [h.1]
      · nlinarith [h.2]
    · have he : o.step d = o := (step_params o d).2 hm
      rw [if_pos he, he, Nat.zero_add]
      rw [he] at h
      exact h

/-- C47. The mistake bound: on separable data, treated in any order and any number of times, the number of examples that change
the classifier is at most `(R/γ + √(2‖p₀‖/(lr γ)))²`, with `p₀` the parameters at the start. -/
theorem C47_bound_any_start (o : Perceptron n) (hlr : 0 < o.lr) (u : Fin (n + 1) → ℝ) (γ R : ℝ) (hγ : 0 < γ) (hR : 0 ≤ R)
    (l : List ((Fin n → ℝ) × ℤ)) (hs : Separated u γ R l) :
    (updates o l : ℝ) ≤ (R / γ + Real.sqrt (2 * len (params o.weights o.bias) / (o.lr * γ))) ^ 2 := by
  obtain ⟨h1, h2⟩ := updates_growth u γ R l hs o hlr
  set q := params (l.foldl Perceptron.step o).weights (l.foldl Perceptron.step o).bias
  set p := params o.weights o.bias
  set k : ℝ := (updates o l : ℝ)
  have hk : 0 ≤ k := Nat.cast_nonneg _
  have hcs : ∀ v : Fin (n + 1) → ℝ, |∑ j, v j * u j| ≤ len v := by
    intro v
    have := Finset.sum_mul_sq_le_sq_mul_sq Finset.univ v u
    apply Real.abs_le_sqrt
    have h0 : 0 ≤ ∑ j, v j ^ 2 := Finset.sum_nonneg fun _ _ => sq_nonneg _
    nlinarith [hs.unit]
  have hp := abs_le.1 (hcs p)
  have hq := abs_le.1 (hcs q)
  have hsq : len q ≤ len p + Real.sqrt k * (o.lr * R) := by
    have hsp : 0 ≤ len p := Real.sqrt_nonneg _
    have hkk := Real.sq_sqrt hk
    have : 0 ≤ Real.sqrt k * (o.lr * R) := mul_nonneg (Real.sqrt_nonneg _) (mul_nonneg hlr.le hR)
    apply Real.sqrt_le_iff.2
    refine ⟨by linarith, h2.trans ?_⟩
    have e : len p ^ 2 = ∑ j, p j ^ 2 := Real.sq_sqrt (Finset.sum_nonneg fun _ _ => sq_nonneg _)
    rw [← e]
    nlinarith
  have hlin : k ≤ 2 * len p / (o.lr * γ) + R / γ * Real.sqrt k := by
    have hpos : 0 < o.lr * γ := mul_pos hlr hγ
    have : k * (o.lr * γ) ≤ 2 * len p + Real.sqrt k * (o.lr * R) := by linarith
    have h3 := (le_div_iff₀ hpos).2 this
    refine h3.trans (le_of_eq ?_)
    rw [add_div]
    congr 1
    have := hlr.ne'
    field_simp
  set a := 2 * len p / (o.lr * γ)
  set b := R / γ
  have ha : 0 ≤ a := div_nonneg (mul_nonneg (by norm_num) (Real.sqrt_nonneg _)) (mul_pos hlr hγ).le
  have hb : 0 ≤ b := div_nonneg hR hγ.le
  have hsk : Real.sqrt k ≤ b + Real.sqrt a := by
    by_contra hc
    push Not at hc
    have h1 := Real.sq_sqrt hk
    have h2 := Real.sq_sqrt ha
    have h3 := Real.sqrt_nonneg a
    have h4 := Real.sqrt_nonneg k
    nlinarith
  calc k = Real.sqrt k ^ 2 := (Real.sq_sqrt hk).symm
    _ ≤ _ := pow_le_pow_left₀ (Real.sqrt_nonneg _) hsk 2

/-- C47. The mistake bound from zero parameters: at most `(R/γ)²` updates, for every learning rate. -/
theorem C47_bound (o : Perceptron n) (hw : ∀ i, o.weights i = 0) (hb : o.bias = 0) (hlr : 0 < o.lr)
    (u : Fin (n + 1) → ℝ) (γ R : ℝ) (hγ : 0 < γ) (hR : 0 ≤ R) (l : List ((Fin n → ℝ) × ℤ)) (hs : Separated u γ R l) :
    (updates o l : ℝ) ≤ (R / γ) ^ 2 := by
  have h := C47_bound_any_start o hlr u γ R hγ hR l hs
  have hz : len (params o.weights o.bias) = 0 := by
    unfold len
    rw [Finset.sum_eq_zero, Real.sqrt_zero]
    intro j _
    refine Fin.lastCases ?_ (fun i => ?_) j
    · rw [params_last, hb]; norm_num
    · rw [params_castSucc, hw]; norm_num
  rw [hz, mul_zero, zero_div, Real.sqrt_zero, add_zero] at h
  exact h

theorem updates_append (l₁ l₂ : List ((Fin n → ℝ) × ℤ)) : ∀ o : Perceptron n,
    updates o (l₁ ++ l₂) = updates o l₁ + updates (l₁.foldl Perceptron.step o) l₂ := by
  induction l₁ with
  | nil => intro o; simp [updates]
  | cons d l ih =>
    intro o
    simp only [List.cons_append, updates_cons, List.foldl_cons, ih]
    omega

theorem updates_zero (l : List ((Fin n → ℝ) × ℤ)) : ∀ o : Perceptron n, updates o l = 0 → ∀ d ∈ l, o.step d = o := by
  induction l with
  | nil => intro o _ d hd; simp at hd
  | cons d l ih =>
    intro o h e he
    rw [updates_cons] at h
    have h1 : o.step d = o := by
      by_contra hc
      rw [if_neg hc] at h
      omega
    rw [h1, if_pos rfl, Nat.zero_add] at h
    rcases List.mem_cons.1 he with rfl | he
    · exact h1
    · exact ih o h e he

theorem fold_fixed (l : List ((Fin n → ℝ) × ℤ)) (o : Perceptron n) (h : ∀ d ∈ l, o.step d = o) :
    l.foldl Perceptron.step o = o := by
  induction l with
  | nil => rfl
  | cons d l ih =>
    rw [List.foldl_cons, h d (by simp)]
    exact ih fun e he => h e (List.mem_cons_of_mem _ he)

/-- `K` epochs over the same data. -/
noncomputable def epochs (o : Perceptron n) (xs : List (Fin n → ℝ)) (ys : List ℤ) : ℕ → Perceptron n
  | 0 => o
  | k + 1 => (epochs o xs ys k).trainEpoch xs ys

theorem epochs_eq (o : Perceptron n) (xs : List (Fin n → ℝ)) (ys : List ℤ) (k : ℕ) :
    epochs o xs ys k = (List.replicate k (xs.zip ys)).flatten.foldl Perceptron.step o := by
  induction k with
  | zero => rfl
  | succ k ih => rw [epochs, ih, List.replicate_succ', List.flatten_append, List.foldl_append]; simp [Perceptron.trainEpoch]

theorem epochs_lr (o : Perceptron n) (xs : List (Fin n → ℝ)) (ys : List ℤ) (k : ℕ) : (epochs o xs ys k).lr = o.lr := by
  rw [epochs_eq]
  generalize (List.replicate k (xs.zip ys)).flatten = l
  induction l generalizing o with
  | nil => rfl
  | cons d l ih => rw [List.foldl_cons, ih, step_lr]

/-- C47. Training ends with a correct classifier: after more than `(R/γ)²` epochs over a separable data set, from zero
parameters, every example is on the right side of the boundary and is classified as labelled, and further epochs change
nothing. -/
theorem C47_learns (o : Perceptron n) (hw : ∀ i, o.weights i = 0) (hb : o.bias = 0) (hlr : 0 < o.lr)
    (u : Fin (n + 1) → ℝ) (γ R : ℝ) (hγ : 0 < γ) (hR : 0 ≤ R) (xs : List (Fin n → ℝ)) (ys : List ℤ)
    (hs : Separated u γ R (xs.zip ys)) (K : ℕ) (hK : (R / γ) ^ 2 < K) :
    (∀ d ∈ xs.zip ys, 0 < (if d.2 ≥ 0 then 1 else -1) *
        (∑ i, (epochs o xs ys K).weights i * d.1 i + (epochs o xs ys K).bias) ∧
      (epochs o xs ys K).predict d.1 = if d.2 ≥ 0 then 1 else -1) ∧
    ∀ K' ≥ K, epochs o xs ys K' = epochs o xs ys K := by
  -- the data of any number of epochs are separated
  have hsep : ∀ k, Separated u γ R (List.replicate k (xs.zip ys)).flatten := by
    intro k
    have : ∀ d ∈ (List.replicate k (xs.zip ys)).flatten, d ∈ xs.zip ys := by
      intro d hd
      obtain ⟨l, hl, hdl⟩ := List.mem_flatten.1 hd
      rw [List.eq_of_mem_replicate hl] at hdl
      exact hdl
    exact ⟨hs.unit, fun d hd => hs.margin d (this d hd), fun d hd => hs.radius d (this d hd)⟩
  -- some epoch changes nothing
  have hex : ∃ j < K, updates (epochs o xs ys j) (xs.zip ys) = 0 := by
    by_contra hc
    push Not at hc
    have hcount : ∀ k ≤ K, k ≤ updates o (List.replicate k (xs.zip ys)).flatten := by
      intro k
      induction k with
      | zero => intro _; exact Nat.zero_le _
      | succ k ih =>
        intro hk
        rw [List.replicate_succ', List.flatten_append, updates_append, ← epochs_eq]
        have h1 := ih (by omega)
        have h2 := hc k (by omega)
        simp only [List.flatten_cons, List.flatten_nil, List.append_nil]
        omega
    have h1 := C47_bound o hw hb hlr u γ R hγ hR _ (hsep K)
    have h2 : (K : ℝ) ≤ updates o (List.replicate K (xs.zip ys)).flatten := by exact_mod_cast hcount K (le_refl _)
    linarith
  obtain ⟨j, hj, h0⟩ := hex
  have hfix := updates_zero _ _ h0
  have hstay : ∀ m, epochs o xs ys (j + m) = epochs o xs ys j := by
    intro m
    induction m with
    | zero => rfl
    | succ m ih =>
      rw [← Nat.add_assoc, epochs, ih]
      exact fold_fixed _ _ hfix
  have hKj : epochs o xs ys K = epochs o xs ys j := by
    have := hstay (K - j)
    rwa [show j + (K - j) = K by omega] at this
  refine ⟨?_, fun K' hK' => ?_⟩
  · intro d hd
    rw [hKj]
    have h1 := hfix d hd
    rw [step_eq_iff _ _ (by rw [epochs_lr]; exact hlr.ne'), lin_params] at h1
    refine ⟨h1, ?_⟩
    unfold Perceptron.predict
    rw [score_eq, lin_params]
    unfold sign at h1
    split_ifs at h1 ⊢ with h2 h3 h3 <;> first | rfl | (exfalso; linarith)
  · have := hstay (K' - j)
    rw [show j + (K' - j) = K' by omega] at this
    rw [this, hKj]

/-- A one-dimensional data set `1 ↦ +1, -1 ↦ -1` is separated by `(1, 0)` with margin one within radius `√2`. -/
example : Separated (![1, 0] : Fin 2 → ℝ) 1 (Real.sqrt 2) [(![1], 1), (![-1], -1)] := by
  refine ⟨by simp [Fin.sum_univ_two], ?_, ?_⟩
  · intro d hd
    simp only [List.mem_cons, List.not_mem_nil, or_false] at hd
    rcases hd with rfl | rfl <;> simp [lin]
  · intro d hd
    rw [Real.sq_sqrt (by norm_num)]
    simp only [List.mem_cons, List.not_mem_nil, or_false] at hd
    rcases hd with rfl | rfl <;> simp <;> norm_num

/-- The first example of that data set changes a fresh classifier: the count is not always zero. -/
example : updates (Perceptron.new 1) [(![1], 1)] = 1 := by
  have h : (Perceptron.new 1).step (![1], 1) ≠ Perceptron.new 1 := by
    rw [Ne, step_eq_iff _ _ (by simp [Perceptron.new])]
    simp [Perceptron.new, lin_params]
  rw [updates_cons, if_neg h, updates]

/-! ## C85 -/

theorem accum_if {β : Type*} (e : (Fin n → ℝ) × β → ℝ) (P : (Fin n → ℝ) × β → Prop) [DecidablePred P]
    (data : List ((Fin n → ℝ) × β)) :
    data.foldl (fun g d => if P d then accumP (e d) d.1 g else g) (fun _ => 0)
      = fun j => (data.map fun d => (if P d then e d else 0) * aug d.1 j).sum := by
  rw [← sumsP_eq (fun d => if P d then e d else 0)]
  apply List.foldl_ext
  intro g d _
  by_cases h : P d
  · simp only [h, if_true]
  · simp only [h, if_false, accumP_eq]
    simp

theorem loss_if {β : Type*} (f : β → ℝ) (P : β → Prop) [DecidablePred P] (data : List β) :
    data.foldl (fun s d => if P d then s + f d else s) 0 = (data.map fun d => if P d then f d else 0).sum := by
  have := lossLoop (fun d => if P d then f d else 0) data 0
  rw [zero_add] at this
  rw [← this]
  apply List.foldl_ext
  intro s d _
  split_ifs <;> simp

/-- C85. Fitting the perceptron with the optimiser hands over the mean perceptron loss and, at every point, a subgradient of
it; the point that comes back is stored. -/
theorem C85_perceptron (o : Perceptron n) (xs : List (Fin n → ℝ)) (ys : List ℤ) (opt : GD ℝ (n + 1)) (fuel : ℕ) :
    (xs = [] → o.fit xs ys opt fuel = some o) ∧
    (xs ≠ [] → ∃ g, (∀ p, IsSubgrad (perceptronLoss xs ys) (g p) p) ∧
      o.fit xs ys opt fuel = (opt.minimize (perceptronLoss xs ys) g fuel (params o.weights o.bias)).map fun r =>
        ⟨fun i => r.1 i.castSucc, r.1 (Fin.last n), o.lr⟩) := by
  refine ⟨?_, fun hne => ⟨Perceptron.gradient xs.length (xs.zip ys), fun p q => ?_, ?_⟩⟩
  · rintro rfl; rfl
  · have hg : Perceptron.gradient xs.length (xs.zip ys) p
        = fun j => ((xs.zip ys).map fun d => (if -sign d.2 * lin p d.1 > 0 then -sign d.2 else 0) * aug d.1 j).sum
          / xs.length := by
      unfold Perceptron.gradient
      simp only [scoreP_eq]
      rw [accum_if (fun d : (Fin n → ℝ) × ℤ => -sign d.2) (fun d => -sign d.2 * lin p d.1 > 0), divAll_eq]
    rw [hg]
    exact mean_convex (fun s y => max 0 (-(sign y * s))) (fun s y => if -sign y * s > 0 then -sign y else 0)
      (fun s t y => by
        split_ifs with h
        · rw [max_eq_right (by linarith)]
          have := le_max_right 0 (-(sign y * t))
          linarith
        · rw [max_eq_left (by linarith)]
          have := le_max_left 0 (-(sign y * t))
          linarith) (xs.zip ys) xs.length (by positivity) p q
  · have hf : Perceptron.objective xs.length (xs.zip ys) = perceptronLoss xs ys := by
      funext p
      unfold Perceptron.objective perceptronLoss
      dsimp only
      rw [loss_if (fun d : (Fin n → ℝ) × ℤ => -sign d.2 * scoreP p d.1) (fun d => -sign d.2 * scoreP p d.1 > 0)]
      congr 2
      apply List.map_congr_left
      intro d _
      rw [scoreP_eq]
      change _ = max 0 (-(sign d.2 * lin p d.1))
      split_ifs with h
      · rw [max_eq_right (by linarith)]; ring
      · rw [max_eq_left (by linarith)]
    unfold Perceptron.fit
    rw [if_neg (by simpa using hne)]
    simp only [hf, pack_eq, unpackW_eq]

theorem hinge_convex (s t : ℝ) (y : ℤ) :
    max 0 (1 - sign y * s) + (if sign y * s < 1 then -sign y else 0) * (t - s) ≤ max 0 (1 - sign y * t) := by
  split_ifs with h
  · rw [max_eq_right (by linarith)]
    have := le_max_right 0 (1 - sign y * t)
    linarith
  · rw [max_eq_left (by linarith)]
    have := le_max_left 0 (1 - sign y * t)
    linarith

theorem hinge_subgrad (lam : ℝ) (hl : 0 ≤ lam) (xs : List (Fin n → ℝ)) (ys : List ℤ) (p : Fin (n + 1) → ℝ) :
    IsSubgrad (hingeLoss lam xs ys) (fun j =>
      ((xs.zip ys).map fun d => (if sign d.2 * lin p d.1 < 1 then -sign d.2 else 0) * aug d.1 j).sum / xs.length
      + (Fin.snoc (α := fun _ => ℝ) (fun i : Fin n => 2 * lam * p i.castSucc) 0 : Fin (n + 1) → ℝ) j) p := by
  intro q
  have h1 := mean_convex (fun s y => max 0 (1 - sign y * s)) (fun s y => if sign y * s < 1 then -sign y else 0) hinge_convex
    (xs.zip ys) xs.length (by positivity) p q
  have h4 : lam * ∑ i : Fin n, p i.castSucc ^ 2 + ∑ i : Fin n, 2 * lam * p i.castSucc * (q i.castSucc - p i.castSucc)
      ≤ lam * ∑ i : Fin n, q i.castSucc ^ 2 := by
    rw [Finset.mul_sum, Finset.mul_sum, ← Finset.sum_add_distrib]
    refine Finset.sum_le_sum fun i _ => ?_
    nlinarith [mul_nonneg hl (sq_nonneg (q i.castSucc - p i.castSucc))]
  have h5 : ∑ j, (Fin.snoc (α := fun _ => ℝ) (fun i : Fin n => 2 * lam * p i.castSucc) 0 : Fin (n + 1) → ℝ) j * (q j - p j)
      = ∑ i : Fin n, 2 * lam * p i.castSucc * (q i.castSucc - p i.castSucc) := by
    rw [Fin.sum_univ_castSucc]
    simp
  simp only [add_mul, Finset.sum_add_distrib, h5]
  unfold hingeLoss
  change ((xs.zip ys).map fun d => max 0 (1 - sign d.2 * lin p d.1)).sum / xs.length + _ + _
    ≤ ((xs.zip ys).map fun d => max 0 (1 - sign d.2 * lin q d.1)).sum / xs.length + _
  linarith

/-- C85. Fitting the linear SVM (with `c > 0`) hands over the mean hinge loss with penalty `‖w‖²/(2c)` and, at every point, a
subgradient of it; the point that comes back is stored. -/
theorem C85_svm (o : Svm n) (hc : 0 < o.c) (xs : List (Fin n → ℝ)) (ys : List ℤ) (opt : GD ℝ (n + 1)) (fuel : ℕ) :
    (xs = [] → o.fit xs ys opt fuel = some o) ∧
    (xs ≠ [] → ∃ g, (∀ p, IsSubgrad (hingeLoss (1 / (2 * o.c)) xs ys) (g p) p) ∧
      o.fit xs ys opt fuel = (opt.minimize (hingeLoss (1 / (2 * o.c)) xs ys) g fuel (params o.weights o.bias)).map fun r =>
        ⟨fun i => r.1 i.castSucc, r.1 (Fin.last n), o.lr, o.c⟩) := by
  refine ⟨?_, fun hne => ⟨Svm.gradient o.c xs.length (xs.zip ys), fun p => ?_, ?_⟩⟩
  · rintro rfl; rfl
  · have hg : Svm.gradient o.c xs.length (xs.zip ys) p = fun j =>
        ((xs.zip ys).map fun d => (if sign d.2 * lin p d.1 < 1 then -sign d.2 else 0) * aug d.1 j).sum / xs.length
        + (Fin.snoc (α := fun _ => ℝ) (fun i : Fin n => 2 * (1 / (2 * o.c)) * p i.castSucc) 0 : Fin (n + 1) → ℝ) j := by
      unfold Svm.gradient
      simp only [scoreP_eq]
      rw [accum_if (fun d : (Fin n → ℝ) × ℤ => -sign d.2) (fun d => sign d.2 * lin p d.1 < 1)]
      have h := castLoop (fun g i => g i.castSucc / (xs.length : ℝ) + p i.castSucc / o.c) (fun p q i e => by rw [e])
        (fun j => ((xs.zip ys).map fun d => (if sign d.2 * lin p d.1 < 1 then -sign d.2 else 0) * aug d.1 j).sum)
      funext j
      refine Fin.lastCases ?_ (fun i => ?_) j
      · rw [Function.update_self, h.2, Fin.snoc_last, add_zero]
      · rw [Function.update_of_ne (Fin.castSucc_lt_last _).ne, h.1, Fin.snoc_castSucc]
        field_simp
    rw [hg]
    exact hinge_subgrad _ (by positivity) xs ys p
  · have hf : Svm.objective o.c xs.length (xs.zip ys) = hingeLoss (1 / (2 * o.c)) xs ys := by
      funext p
      unfold Svm.objective hingeLoss
      dsimp only
      rw [loss_if (fun d : (Fin n → ℝ) × ℤ => 1 - sign d.2 * scoreP p d.1) (fun d => sign d.2 * scoreP p d.1 < 1), sqLoop]
      congr 1
      · congr 2
        apply List.map_congr_left
        intro d _
        rw [scoreP_eq]
        change _ = max 0 (1 - sign d.2 * lin p d.1)
        split_ifs with h
        · rw [max_eq_right (by linarith)]
        · rw [max_eq_left (by linarith)]
      · rw [show (1 + 1 : ℝ) = 2 by norm_num]; ring
    unfold Svm.fit
    rw [if_neg (by simpa using hne)]
    simp only [hf, pack_eq, unpackW_eq]

/-! ## C86, C87 -/

theorem svm_sums (w : Fin n → ℝ) (b : ℝ) (data : List ((Fin n → ℝ) × ℤ)) :
    data.foldl (fun g d =>
      let margin := sign d.2 * score w b d.1
      if margin ≥ 1 then ((rng n 0 n).foldl (fun gw i => Function.update gw i (gw i + 0)) g.1, g.2 + 0)
      else accum (-sign d.2) d.1 g) (fun _ => 0, 0)
    = (fun i => (data.map fun d => (if sign d.2 * lin (params w b) d.1 < 1 then -sign d.2 else 0) * d.1 i).sum,
        (data.map fun d => if sign d.2 * lin (params w b) d.1 < 1 then -sign d.2 else 0).sum) := by
  rw [← sums_eq (fun d : (Fin n → ℝ) × ℤ => if sign d.2 * lin (params w b) d.1 < 1 then -sign d.2 else 0)]
  apply List.foldl_ext
  intro g d _
  dsimp only
  rw [score_eq]
  by_cases h : sign d.2 * lin (params w b) d.1 < 1
  · rw [if_neg (not_le.2 h), if_pos h]
  · rw [if_pos (not_lt.1 h), if_neg h, mapLoop (fun _ v => v + 0), accum_eq]
    simp

/-- C86. One epoch of the linear SVM (with `c > 0`) moves the parameters by minus the rate times a subgradient of the mean hinge
loss with penalty `‖w‖²/(c m)`, where `m` is the number of examples. -/
theorem C86_epoch (o : Svm n) (hc : 0 < o.c) (xs : List (Fin n → ℝ)) (ys : List ℤ) :
    (xs = [] → o.trainEpoch xs ys = o) ∧ (o.trainEpoch xs ys).lr = o.lr ∧ (o.trainEpoch xs ys).c = o.c ∧
    (xs ≠ [] → ∃ g, IsSubgrad (hingeLoss (1 / (o.c * xs.length)) xs ys) g (params o.weights o.bias) ∧
      params (o.trainEpoch xs ys).weights (o.trainEpoch xs ys).bias = fun j => params o.weights o.bias j - o.lr * g j) := by
  refine ⟨?_, ?_, ?_, ?_⟩
  · rintro rfl; simp [Svm.trainEpoch]
  · unfold Svm.trainEpoch; split_ifs <;> rfl
  · unfold Svm.trainEpoch; split_ifs <;> rfl
  · intro hne
    refine ⟨_, hinge_subgrad _ (by positivity) xs ys _, ?_⟩
    unfold Svm.trainEpoch
    rw [if_neg (by simpa using hne), svm_sums]
    dsimp only
    rw [mapLoop (fun i w => w - o.lr * ((((xs.zip ys).map fun d =>
      (if sign d.2 * lin (params o.weights o.bias) d.1 < 1 then -sign d.2 else 0) * d.1 i).sum / xs.length)
        + (1 + 1) / (o.c * xs.length) * w))]
    funext j
    refine Fin.lastCases ?_ (fun i => ?_) j
    · simp only [params_last, aug_last, mul_one, Fin.snoc_last, add_zero]
    · simp only [params_castSucc, aug_castSucc, Fin.snoc_castSucc]
      ring

/-- C87, refuted: an epoch and the fit with the optimiser do not minimise the same objective. For one example the step of an
epoch is not along any subgradient of the objective of the fit: the penalty `‖w‖²/(c m)` of the epoch is twice the penalty
`‖w‖²/(2c)` of the fit. -/
theorem C87_fails :
    ∃ (o : Svm 1) (xs : List (Fin 1 → ℝ)) (ys : List ℤ), 0 < o.c ∧ o.lr ≠ 0 ∧ xs ≠ [] ∧
      ¬ ∃ g, IsSubgrad (hingeLoss (1 / (2 * o.c)) xs ys) g (params o.weights o.bias) ∧
        params (o.trainEpoch xs ys).weights (o.trainEpoch xs ys).bias = fun j => params o.weights o.bias j - o.lr * g j := by
  refine ⟨⟨![2], 0, 1, 1⟩, [![1]], [1], by norm_num, by norm_num, by simp, ?_⟩
  rintro ⟨g, hg, he⟩
  obtain ⟨g', hg', he'⟩ := (C86_epoch (⟨![2], 0, 1, 1⟩ : Svm 1) (by norm_num) [![1]] [1]).2.2.2 (by simp)
  have hgg : g' = g := by
    funext j
    have h1 := congrFun he j
    have h2 := congrFun he' j
    rw [h1] at h2
    dsimp only at h2
    linarith
  rw [hgg] at hg'
  have h1 := hg (params ![3] 0)
  have h2 := hg' (params ![1] 0)
  unfold hingeLoss at h1 h2
  simp only [List.zip_cons_cons, List.zip_nil_right, List.map_cons, List.map_nil, lin_params] at h1 h2
  rw [Fin.sum_univ_castSucc (n := 1)] at h1 h2
  norm_num [params, Fin.snoc] at h1 h2
  linarith

end Verif.ML
