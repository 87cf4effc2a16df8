import Verif.ML.Lemmas
import Verif.Opt.PropsGD
import Mathlib.Analysis.SpecialFunctions.Log.Deriv
import Mathlib.Analysis.SpecialFunctions.ExpDeriv
import Mathlib.Analysis.Convex.SpecificFunctions.Basic
import Mathlib.Analysis.Calculus.LocalExtr.Basic

/-!
# Regression (C45, C46)

Vocabulary (`Verif.ML.Lemmas`): `params w b` is the vector `(w₀, …, b)`; `lin p x = ∑ wᵢ xᵢ + b`; `IsGrad f g p` says that the
Fréchet derivative of `f` at `p` is `v ↦ ∑ gᵢ vᵢ`.
-/

namespace Verif.ML

open Verif.Mat Verif.Opt

variable {n : ℕ}

/-- Mean squared error over the data set. -/
noncomputable def mse (xs : List (Fin n → ℝ)) (ys : List ℝ) (p : Fin (n + 1) → ℝ) : ℝ :=
  ((xs.zip ys).map fun d => (lin p d.1 - d.2) ^ 2).sum / xs.length

/-- Mean squared error with penalty `α ‖w‖²` (the bias is not penalised). -/
noncomputable def ridgeLoss (α : ℝ) (xs : List (Fin n → ℝ)) (ys : List ℝ) (p : Fin (n + 1) → ℝ) : ℝ :=
  mse xs ys p + α * ∑ i : Fin n, p i.castSucc ^ 2

/-- Mean cross-entropy; a label 0 is negative, any other label positive. -/
noncomputable def crossEntropy (xs : List (Fin n → ℝ)) (ys : List UInt8) (p : Fin (n + 1) → ℝ) : ℝ :=
  ((xs.zip ys).map fun d =>
    let q := 1 / (1 + Real.exp (-lin p d.1))
    if d.2 = 0 then -Real.log (1 - q) else -Real.log q).sum / xs.length

/-! ## Gradients of the losses -/

theorem mse_grad (xs : List (Fin n → ℝ)) (ys : List ℝ) (p : Fin (n + 1) → ℝ) :
    IsGrad (mse xs ys) (fun j => ((xs.zip ys).map fun d => 2 * (lin p d.1 - d.2) * aug d.1 j).sum / xs.length) p := by
  have := isGrad_mean (fun s y => (s - y) ^ 2) (fun s y => 2 * (s - y)) (fun s y => by
    have h := (hasDerivAt_pow 2 (s - y)).comp s ((hasDerivAt_id' s).sub_const y)
    refine HasDerivAt.congr_deriv h ?_
    simp) (xs.zip ys) xs.length p
  exact this

theorem ridge_grad (α : ℝ) (xs : List (Fin n → ℝ)) (ys : List ℝ) (p : Fin (n + 1) → ℝ) :
    IsGrad (ridgeLoss α xs ys) (fun j => ((xs.zip ys).map fun d => 2 * (lin p d.1 - d.2) * aug d.1 j).sum / xs.length
      + (Fin.snoc (α := fun _ => ℝ) (fun i : Fin n => 2 * α * p i.castSucc) 0 : Fin (n + 1) → ℝ) j) p :=
  isGrad_add (mse_grad xs ys p) (isGrad_ridge α p)

theorem sigmoid_pos (s : ℝ) : 0 < sigmoid s := by unfold sigmoid; positivity
theorem sigmoid_lt_one (s : ℝ) : sigmoid s < 1 := by
  unfold sigmoid
  rw [div_lt_one (by positivity)]
  linarith [Real.exp_pos (-s)]

theorem hasDerivAt_sigmoid (s : ℝ) : HasDerivAt sigmoid (sigmoid s * (1 - sigmoid s)) s := by
  have h1 : HasDerivAt (fun s : ℝ => 1 + Real.exp (-s)) (-Real.exp (-s)) s := by
    have := ((hasDerivAt_id' s).neg.exp).const_add 1
    simpa using this
  have hne : (1 + Real.exp (-s)) ≠ 0 := by positivity
  have h2 := (hasDerivAt_const s (1 : ℝ)).div h1 hne
  unfold sigmoid
  refine HasDerivAt.congr_deriv h2 ?_
  field_simp
  ring

/-- The loss of one example and its derivative in the score. -/
theorem entropy_deriv (s : ℝ) (y : UInt8) :
    HasDerivAt (fun s => if y = 0 then -Real.log (1 - sigmoid s) else -Real.log (sigmoid s)) (sigmoid s - labelF y) s := by
  have h0 := sigmoid_pos s
  have h1 := sigmoid_lt_one s
  by_cases hy : y = 0
  · simp only [hy, if_true, labelF]
    have := (((hasDerivAt_sigmoid s).const_sub 1).log (by linarith)).neg
    refine HasDerivAt.congr_deriv this ?_
    have : 1 - sigmoid s ≠ 0 := by linarith
    field_simp
    ring
  · simp only [hy, if_false, labelF]
    have := ((hasDerivAt_sigmoid s).log h0.ne').neg
    refine HasDerivAt.congr_deriv this ?_
    field_simp
    ring

theorem entropy_grad (xs : List (Fin n → ℝ)) (ys : List UInt8) (p : Fin (n + 1) → ℝ) :
    IsGrad (crossEntropy xs ys)
      (fun j => ((xs.zip ys).map fun d => (sigmoid (lin p d.1) - labelF d.2) * aug d.1 j).sum / xs.length) p :=
  isGrad_mean (fun s y => if y = 0 then -Real.log (1 - sigmoid s) else -Real.log (sigmoid s))
    (fun s y => sigmoid s - labelF y) entropy_deriv (xs.zip ys) xs.length p

/-! ## C45 -/

theorem sum_two_mul {β : Type*} (l : List β) (f : β → ℝ) : 2 * (l.map f).sum = (l.map fun d => 2 * f d).sum := by
  induction l with
  | nil => simp
  | cons d l ih => simp only [List.map_cons, List.sum_cons, mul_add, ih]

/-- C45. One epoch of linear regression on a non-empty data set moves the parameters by minus the rate times the gradient of
the mean squared error; without data nothing changes. -/
theorem C45_linear_epoch (o : Linear n) (xs : List (Fin n → ℝ)) (ys : List ℝ) :
    (xs = [] → o.trainEpoch xs ys = o) ∧ (o.trainEpoch xs ys).lr = o.lr ∧
    (xs ≠ [] → ∃ g, IsGrad (mse xs ys) g (params o.weights o.bias) ∧
      params (o.trainEpoch xs ys).weights (o.trainEpoch xs ys).bias = fun j => params o.weights o.bias j - o.lr * g j) := by
  refine ⟨?_, ?_, ?_⟩
  · rintro rfl; simp [Linear.trainEpoch]
  · unfold Linear.trainEpoch; split_ifs <;> rfl
  · intro hne
    refine ⟨_, mse_grad xs ys _, ?_⟩
    unfold Linear.trainEpoch
    rw [if_neg (by simpa using hne), sums_eq]
    dsimp only
    rw [mapLoop (fun i w => w - o.lr * ((1 + 1) * ((xs.zip ys).map fun d => (score o.weights o.bias d.1 - d.2) * d.1 i).sum
      / xs.length))]
    funext j
    refine Fin.lastCases ?_ (fun i => ?_) j
    · simp only [params_last, aug_last, score_eq, mul_one]
      rw [show (1 + 1 : ℝ) = 2 by norm_num, sum_two_mul]
    · simp only [params_castSucc, aug_castSucc, score_eq]
      rw [show (1 + 1 : ℝ) = 2 by norm_num, sum_two_mul]
      simp only [mul_assoc]

/-- C45. One epoch of ridge regression moves the parameters by minus the rate times the gradient of the mean squared error
with penalty `α ‖w‖²`. -/
theorem C45_ridge_epoch (o : Ridge n) (xs : List (Fin n → ℝ)) (ys : List ℝ) :
    (xs = [] → o.trainEpoch xs ys = o) ∧ (o.trainEpoch xs ys).lr = o.lr ∧ (o.trainEpoch xs ys).alpha = o.alpha ∧
    (xs ≠ [] → ∃ g, IsGrad (ridgeLoss o.alpha xs ys) g (params o.weights o.bias) ∧
      params (o.trainEpoch xs ys).weights (o.trainEpoch xs ys).bias = fun j => params o.weights o.bias j - o.lr * g j) := by
  refine ⟨?_, ?_, ?_, ?_⟩
  · rintro rfl; simp [Ridge.trainEpoch]
  · unfold Ridge.trainEpoch; split_ifs <;> rfl
  · unfold Ridge.trainEpoch; split_ifs <;> rfl
  · intro hne
    refine ⟨_, ridge_grad _ xs ys _, ?_⟩
    unfold Ridge.trainEpoch
    rw [if_neg (by simpa using hne), sums_eq]
    dsimp only
    rw [mapLoop (fun i w => w - o.lr * (((1 + 1) * ((xs.zip ys).map fun d => (score o.weights o.bias d.1 - d.2) * d.1 i).sum
      / xs.length) + (1 + 1) * o.alpha * w))]
    funext j
    refine Fin.lastCases ?_ (fun i => ?_) j
    · simp only [params_last, aug_last, score_eq, mul_one, Fin.snoc_last, add_zero]
      rw [show (1 + 1 : ℝ) = 2 by norm_num, sum_two_mul]
    · simp only [params_castSucc, aug_castSucc, score_eq, Fin.snoc_castSucc]
      rw [show (1 + 1 : ℝ) = 2 by norm_num, sum_two_mul]
      simp only [mul_assoc]

theorem linear_objective (xs : List (Fin n → ℝ)) (ys : List ℝ) : Linear.objective xs.length (xs.zip ys) = mse xs ys := by
  funext p
  unfold Linear.objective mse
  rw [lossLoop (fun d : (Fin n → ℝ) × ℝ => (scoreP p d.1 - d.2) * (scoreP p d.1 - d.2)), zero_add]
  simp only [scoreP_eq, sq]

theorem linear_gradient (xs : List (Fin n → ℝ)) (ys : List ℝ) (p : Fin (n + 1) → ℝ) :
    Linear.gradient xs.length (xs.zip ys) p
      = fun j => ((xs.zip ys).map fun d => 2 * (lin p d.1 - d.2) * aug d.1 j).sum / xs.length := by
  unfold Linear.gradient
  dsimp only
  rw [sumsP_eq (fun d => (1 + 1) * (scoreP p d.1 - d.2)), divAll_eq]
  simp only [scoreP_eq, show (1 + 1 : ℝ) = 2 by norm_num]

/-- C45. Fitting linear regression with the optimiser hands over the mean squared error as objective, its gradient as gradient
and the current parameters as start, and stores the point that comes back. -/
theorem C45_linear_fit (o : Linear n) (xs : List (Fin n → ℝ)) (ys : List ℝ) (opt : GD ℝ (n + 1)) (fuel : ℕ) :
    (xs = [] → o.fit xs ys opt fuel = some o) ∧
    (xs ≠ [] → ∃ g, (∀ p, IsGrad (mse xs ys) (g p) p) ∧
      o.fit xs ys opt fuel = (opt.minimize (mse xs ys) g fuel (params o.weights o.bias)).map fun r =>
        ⟨fun i => r.1 i.castSucc, r.1 (Fin.last n), o.lr⟩) := by
  refine ⟨?_, fun hne => ⟨Linear.gradient xs.length (xs.zip ys), fun p => ?_, ?_⟩⟩
  · rintro rfl; rfl
  · rw [linear_gradient]; exact mse_grad xs ys p
  · unfold Linear.fit
    rw [if_neg (by simpa using hne)]
    simp only [linear_objective, pack_eq, unpackW_eq]

theorem ridge_objective (α : ℝ) (xs : List (Fin n → ℝ)) (ys : List ℝ) :
    Ridge.objective α xs.length (xs.zip ys) = ridgeLoss α xs ys := by
  funext p
  unfold Ridge.objective ridgeLoss mse
  dsimp only
  rw [lossLoop (fun d : (Fin n → ℝ) × ℝ => (scoreP p d.1 - d.2) * (scoreP p d.1 - d.2)), zero_add, sqLoop]
  simp only [scoreP_eq, sq]

theorem ridge_gradient (α : ℝ) (xs : List (Fin n → ℝ)) (ys : List ℝ) (p : Fin (n + 1) → ℝ) :
    Ridge.gradient α xs.length (xs.zip ys) p
      = fun j => ((xs.zip ys).map fun d => 2 * (lin p d.1 - d.2) * aug d.1 j).sum / xs.length
        + (Fin.snoc (α := fun _ => ℝ) (fun i : Fin n => 2 * α * p i.castSucc) 0 : Fin (n + 1) → ℝ) j := by
  unfold Ridge.gradient
  dsimp only
  rw [sumsP_eq (fun d => (1 + 1) * (scoreP p d.1 - d.2))]
  have h := castLoop (fun g i => g i.castSucc / xs.length + (1 + 1) * α * p i.castSucc) (fun p q i e => by rw [e])
    (fun j => ((xs.zip ys).map fun d => (1 + 1) * (scoreP p d.1 - d.2) * aug d.1 j).sum)
  funext j
  refine Fin.lastCases ?_ (fun i => ?_) j
  · rw [Function.update_self, h.2]
    simp only [scoreP_eq, show (1 + 1 : ℝ) = 2 by norm_num, Fin.snoc_last, add_zero]
  · rw [Function.update_of_ne (Fin.castSucc_lt_last _).ne, h.1]
    simp only [scoreP_eq, show (1 + 1 : ℝ) = 2 by norm_num, Fin.snoc_castSucc]

/-- C45. The same for ridge regression and the penalised error. -/
theorem C45_ridge_fit (o : Ridge n) (xs : List (Fin n → ℝ)) (ys : List ℝ) (opt : GD ℝ (n + 1)) (fuel : ℕ) :
    (xs = [] → o.fit xs ys opt fuel = some o) ∧
    (xs ≠ [] → ∃ g, (∀ p, IsGrad (ridgeLoss o.alpha xs ys) (g p) p) ∧
      o.fit xs ys opt fuel = (opt.minimize (ridgeLoss o.alpha xs ys) g fuel (params o.weights o.bias)).map fun r =>
        ⟨fun i => r.1 i.castSucc, r.1 (Fin.last n), o.lr, o.alpha⟩) := by
  refine ⟨?_, fun hne => ⟨Ridge.gradient o.alpha xs.length (xs.zip ys), fun p => ?_, ?_⟩⟩
  · rintro rfl; rfl
  · rw [ridge_gradient]; exact ridge_grad _ xs ys p
  · unfold Ridge.fit
    rw [if_neg (by simpa using hne)]
    simp only [ridge_objective, pack_eq, unpackW_eq]

/-! ### Fixed points of training -/

theorem isGrad_unique {k : ℕ} {f : (Fin k → ℝ) → ℝ} {g g' p : Fin k → ℝ} (h : IsGrad f g p) (h' : IsGrad f g' p) : g = g' := by
  have e := HasFDerivAt.unique h h'
  funext i
  have := congrArg (fun L : (Fin k → ℝ) →L[ℝ] ℝ => L (Pi.single i 1)) e
  simpa [Pi.single_apply] using this

theorem isGrad_min {k : ℕ} {f : (Fin k → ℝ) → ℝ} {g p : Fin k → ℝ} (h : IsGrad f g p) (hm : ∀ q, f p ≤ f q) : g = 0 := by
  have hz : IsLocalMin f p := Filter.Eventually.of_forall hm
  have := hz.hasFDerivAt_eq_zero h
  refine isGrad_unique h ?_
  unfold IsGrad
  unfold IsGrad at h
  rw [this] at h
  simpa using h

/-- A mean of convex losses lies above its tangent. -/
theorem mean_convex {β : Type*} (ell ell' : ℝ → β → ℝ) (h : ∀ s t y, ell s y + ell' s y * (t - s) ≤ ell t y)
    (data : List ((Fin n → ℝ) × β)) (m : ℝ) (hm : 0 ≤ m) (p q : Fin (n + 1) → ℝ) :
    (data.map fun d => ell (lin p d.1) d.2).sum / m
      + ∑ j, (data.map fun d => ell' (lin p d.1) d.2 * aug d.1 j).sum / m * (q j - p j)
      ≤ (data.map fun d => ell (lin q d.1) d.2).sum / m := by
  have H : (data.map fun d => ell (lin p d.1) d.2).sum
      + ∑ j, (data.map fun d => ell' (lin p d.1) d.2 * aug d.1 j).sum * (q j - p j)
      ≤ (data.map fun d => ell (lin q d.1) d.2).sum := by
    induction data with
    | nil => simp
    | cons d l ih =>
      simp only [List.map_cons, List.sum_cons, add_mul, Finset.sum_add_distrib]
      have h1 := h (lin p d.1) (lin q d.1) d.2
      have h2 : ∑ j, ell' (lin p d.1) d.2 * aug d.1 j * (q j - p j) = ell' (lin p d.1) d.2 * (lin q d.1 - lin p d.1) := by
        rw [lin_aug, lin_aug, ← Finset.sum_sub_distrib, Finset.mul_sum]
        exact Finset.sum_congr rfl fun j _ => by ring
      rw [h2]
      linarith
  have e : ∑ j, (data.map fun d => ell' (lin p d.1) d.2 * aug d.1 j).sum / m * (q j - p j)
      = (∑ j, (data.map fun d => ell' (lin p d.1) d.2 * aug d.1 j).sum * (q j - p j)) / m := by
    rw [Finset.sum_div]
    exact Finset.sum_congr rfl fun j _ => by ring
  rw [e, ← add_div]
  exact div_le_div_of_nonneg_right H hm

theorem epoch_fixed_iff {k : ℕ} {f : (Fin k → ℝ) → ℝ} {g p : Fin k → ℝ} {lr : ℝ} (hlr : lr ≠ 0) (hg : IsGrad f g p)
    (hc : ∀ q, f p + ∑ j, g j * (q j - p j) ≤ f q) : ((fun j => p j - lr * g j) = p) ↔ ∀ q, f p ≤ f q := by
  constructor
  · intro h q
    have hz : ∀ j, g j = 0 := by
      intro j
      have := congrFun h j
      have h1 : lr * g j = 0 := by linarith
      exact (mul_eq_zero.1 h1).resolve_left hlr
    have := hc q
    simpa [hz] using this
  · intro h
    have := isGrad_min hg h
    subst this
    simp

/-- C45. Training linear regression stops changing the parameters exactly at the least-squares solutions. -/
theorem C45_least_squares (o : Linear n) (xs : List (Fin n → ℝ)) (ys : List ℝ) (hne : xs ≠ []) (hlr : o.lr ≠ 0) :
    o.trainEpoch xs ys = o ↔ ∀ q, mse xs ys (params o.weights o.bias) ≤ mse xs ys q := by
  obtain ⟨-, h2, h3⟩ := C45_linear_epoch o xs ys
  obtain ⟨g, hg, he⟩ := h3 hne
  have hc : ∀ q, mse xs ys (params o.weights o.bias) + ∑ j, g j * (q j - params o.weights o.bias j) ≤ mse xs ys q := by
    intro q
    rw [isGrad_unique hg (mse_grad xs ys _)]
    exact mean_convex (fun s y => (s - y) ^ 2) (fun s y => 2 * (s - y)) (fun s t y => by nlinarith [sq_nonneg (t - s)])
      (xs.zip ys) xs.length (by positivity) _ q
  rw [← epoch_fixed_iff hlr hg hc, ← he]
  constructor
  · intro h; rw [h]
  · intro h
    have hw : (o.trainEpoch xs ys).weights = o.weights := by
      funext i
      have := congrFun h i.castSucc
      simpa [params_castSucc] using this
    have hb : (o.trainEpoch xs ys).bias = o.bias := by
      have := congrFun h (Fin.last n)
      simpa [params_last] using this
    cases hq : o.trainEpoch xs ys
    cases o
    simp_all

/-- C45. Training ridge regression (penalty not negative) stops changing the parameters exactly at the minimisers of the
penalised error. -/
theorem C45_ridge_optimum (o : Ridge n) (xs : List (Fin n → ℝ)) (ys : List ℝ) (hne : xs ≠ []) (hlr : o.lr ≠ 0)
    (ha : 0 ≤ o.alpha) :
    o.trainEpoch xs ys = o ↔ ∀ q, ridgeLoss o.alpha xs ys (params o.weights o.bias) ≤ ridgeLoss o.alpha xs ys q := by
  obtain ⟨-, h2, h2', h3⟩ := C45_ridge_epoch o xs ys
  obtain ⟨g, hg, he⟩ := h3 hne
  have hc : ∀ q, ridgeLoss o.alpha xs ys (params o.weights o.bias) + ∑ j, g j * (q j - params o.weights o.bias j)
      ≤ ridgeLoss o.alpha xs ys q := by
    intro q
    rw [isGrad_unique hg (ridge_grad _ xs ys _)]
    have h1 := mean_convex (fun s y => (s - y) ^ 2) (fun s y => 2 * (s - y)) (fun s t y => by nlinarith [sq_nonneg (t - s)])
      (xs.zip ys) xs.length (by positivity) (params o.weights o.bias) q
    have h4 : o.alpha * ∑ i : Fin n, params o.weights o.bias i.castSucc ^ 2
        + ∑ i : Fin n, 2 * o.alpha * params o.weights o.bias i.castSucc * (q i.castSucc - params o.weights o.bias i.castSucc)
        ≤ o.alpha * ∑ i : Fin n, q i.castSucc ^ 2 := by
      rw [Finset.mul_sum, Finset.mul_sum, ← Finset.sum_add_distrib]
      refine Finset.sum_le_sum fun i _ => ?_
      nlinarith [mul_nonneg ha (sq_nonneg (q i.castSucc - params o.weights o.bias i.castSucc))]
    have h5 : ∑ j, (Fin.snoc (α := fun _ => ℝ) (fun i : Fin n => 2 * o.alpha * params o.weights o.bias i.castSucc) 0 :
        Fin (n + 1) → ℝ) j * (q j - params o.weights o.bias j)
        = ∑ i : Fin n, 2 * o.alpha * params o.weights o.bias i.castSucc * (q i.castSucc - params o.weights o.bias i.castSucc) := by
      rw [Fin.sum_univ_castSucc]
      simp
    simp only [add_mul, Finset.sum_add_distrib, h5]
    unfold ridgeLoss mse
    linarith
  rw [← epoch_fixed_iff hlr hg hc, ← he]
  constructor
  · intro h; rw [h]
  · intro h
    have hw : (o.trainEpoch xs ys).weights = o.weights := by
      funext i
      have := congrFun h i.castSucc
      simpa [params_castSucc] using this
    have hb : (o.trainEpoch xs ys).bias = o.bias := by
      have := congrFun h (Fin.last n)
      simpa [params_last] using this
    cases hq : o.trainEpoch xs ys
    cases o
    simp_all

/-! ### Convergence of the fit -/

/-- The squared error expands exactly to second order. -/
theorem mse_expand (xs : List (Fin n → ℝ)) (ys : List ℝ) (p d : Fin (n + 1) → ℝ) :
    mse xs ys (fun i => p i + d i) ≤ mse xs ys p
      + inner (fun j => ((xs.zip ys).map fun d => 2 * (lin p d.1 - d.2) * aug d.1 j).sum / xs.length) d
      + (2 * ((xs.zip ys).map fun e => ∑ j, aug e.1 j ^ 2).sum / xs.length) / 2 * inner d d := by
  have hadd : ∀ x : Fin n → ℝ, lin (fun i => p i + d i) x = lin p x + ∑ j, d j * aug x j := by
    intro x
    rw [lin_aug, lin_aug, ← Finset.sum_add_distrib]
    exact Finset.sum_congr rfl fun j _ => by ring
  have H : ∀ data : List ((Fin n → ℝ) × ℝ), (data.map fun e => (lin (fun i => p i + d i) e.1 - e.2) ^ 2).sum
      ≤ (data.map fun e => (lin p e.1 - e.2) ^ 2).sum
        + ∑ j, (data.map fun e => 2 * (lin p e.1 - e.2) * aug e.1 j).sum * d j
        + (data.map fun e => ∑ j, aug e.1 j ^ 2).sum * inner d d := by
    intro data
    induction data with
    | nil => simp
    | cons e l ih =>
      simp only [List.map_cons, List.sum_cons, add_mul, Finset.sum_add_distrib]
      rw [hadd]
      have h2 : ∑ j, 2 * (lin p e.1 - e.2) * aug e.1 j * d j = 2 * (lin p e.1 - e.2) * ∑ j, d j * aug e.1 j := by
        rw [Finset.mul_sum]
        exact Finset.sum_congr rfl fun j _ => by ring
      have h3 : (∑ j, d j * aug e.1 j) ^ 2 ≤ (∑ j, aug e.1 j ^ 2) * inner d d := by
        have := Finset.sum_mul_sq_le_sq_mul_sq Finset.univ d (aug e.1)
        have e1 : inner d d = ∑ j, d j ^ 2 := by
          unfold inner; exact Finset.sum_congr rfl fun j _ => (sq _).symm
        rw [e1, mul_comm]
        exact this
      rw [h2]
      nlinarith
  have hm : (0 : ℝ) ≤ xs.length := by positivity
  have := div_le_div_of_nonneg_right (H (xs.zip ys)) hm
  unfold mse inner
  unfold inner at this
  rw [add_div, add_div, Finset.sum_div] at this
  refine this.trans (le_of_eq ?_)
  congr 1
  · congr 1
    exact Finset.sum_congr rfl fun j _ => by ring
  · ring

/-- C45. Fitting converges. With the line search, no momentum, no bounds and a step tolerance of zero, and step lengths that
stay above the optimiser's `1e-20` cut-off: once the iteration limit exceeds
`mse(start) / (c₁ s tol²)`, `s = min lr (2 τ (1 - c₁) / L)`, `L ≥ 2/m ∑ (‖x‖² + 1)`, the fitted parameters have a mean
squared error whose gradient is within the tolerance, and which is not above that of the start. -/
theorem C45_linear_converges (o : Linear n) (xs : List (Fin n → ℝ)) (ys : List ℝ) (opt : GD ℝ (n + 1)) (L s : ℝ) (hLpos : 0 < L)
    (hne : xs ≠ []) (hL : 2 * ((xs.zip ys).map fun e => ∑ i, e.1 i ^ 2 + 1).sum / xs.length ≤ L)
    (hb : opt.useBacktracking = true) (hmu : opt.momentum = 0) (hbox : opt.hasBounds = false)
    (hc0 : 0 < opt.armijoC1) (hc1 : opt.armijoC1 < 1) (hlr : 0 < opt.lr) (ht0 : 0 < opt.tau)
    (htg : 0 < opt.tolGrad) (hts : opt.tolStep = 0) (hcut : 1e-20 < 2 * (1 - opt.armijoC1) / L * opt.tau)
    (hs : s = min opt.lr (2 * opt.tau * (1 - opt.armijoC1) / L))
    (hmax : mse xs ys (params o.weights o.bias) / (opt.armijoC1 * s * opt.tolGrad ^ 2) < opt.maxIters)
    (fuel : ℕ) (o' : Linear n) (h : o.fit xs ys opt fuel = some o') :
    (∃ g, IsGrad (mse xs ys) g (params o'.weights o'.bias) ∧ len g ≤ opt.tolGrad) ∧
      mse xs ys (params o'.weights o'.bias) ≤ mse xs ys (params o.weights o.bias) := by
  have hfit : o.fit xs ys opt fuel
      = (opt.minimize (mse xs ys) (Linear.gradient xs.length (xs.zip ys)) fuel (params o.weights o.bias)).map fun r =>
        ⟨fun i => r.1 i.castSucc, r.1 (Fin.last n), o.lr⟩ := by
    unfold Linear.fit
    rw [if_neg (by simpa using hne)]
    simp only [linear_objective, pack_eq, unpackW_eq]
  rw [hfit, Option.map_eq_some_iff] at h
  obtain ⟨⟨x, fx, K, c⟩, hmin, rfl⟩ := h
  have hp : params (fun i => x i.castSucc) (x (Fin.last n)) = x := by
    have := params_unpack (fun _ => 0) x
    rwa [unpackW_eq] at this
  have hinner : ∀ d : Fin (n + 1) → ℝ, 0 ≤ inner d d := fun d => Finset.sum_nonneg fun j _ => mul_self_nonneg _
  have := C40_converges opt (mse xs ys) (Linear.gradient xs.length (xs.zip ys)) L 0 (params o.weights o.bias) hLpos
    (fun p => div_nonneg (List.sum_nonneg (by
      intro a ha
      obtain ⟨d, -, rfl⟩ := List.mem_map.1 ha
      exact sq_nonneg _)) (by positivity))
    (fun p d => by
      rw [linear_gradient]
      refine (mse_expand xs ys p d).trans ?_
      have e : ((xs.zip ys).map fun e => ∑ j, aug e.1 j ^ 2) = (xs.zip ys).map fun e => ∑ i, e.1 i ^ 2 + 1 := by
        apply List.map_congr_left
        intro e _
        rw [Fin.sum_univ_castSucc]
        simp [aug_castSucc, aug_last]
      rw [e]
      have := mul_le_mul_of_nonneg_right (div_le_div_of_nonneg_right hL (by norm_num : (0 : ℝ) ≤ 2)) (hinner d)
      linarith)
    hb hmu hbox hc0 hc1 hlr ht0 htg hts hcut s hs (by rw [sub_zero]; exact hmax) fuel x fx K c hmin
  dsimp only
  rw [hp]
  exact ⟨⟨_, mse_grad xs ys x, by rw [← linear_gradient]; exact this.2.1⟩, this.2.2.2⟩

/-! ## C46 -/

/-- C46. Probabilities are strictly between 0 and 1, and the predicted class is 1 exactly when the score is positive. -/
theorem C46_predict (o : Logistic n) (x : Fin n → ℝ) :
    o.prob x = 1 / (1 + Real.exp (-(∑ i, o.weights i * x i + o.bias))) ∧ 0 < o.prob x ∧ o.prob x < 1 ∧
      (o.predict x = if 0 < ∑ i, o.weights i * x i + o.bias then 1 else 0) := by
  have e : o.prob x = sigmoid (∑ i, o.weights i * x i + o.bias) := by
    unfold Logistic.prob; rw [score_eq, lin_params]
  refine ⟨e, by rw [e]; exact sigmoid_pos _, by rw [e]; exact sigmoid_lt_one _, ?_⟩
  unfold Logistic.predict
  rw [e]
  generalize ∑ i, o.weights i * x i + o.bias = s
  have : sigmoid s > 1 / (1 + 1) ↔ 0 < s := by
    unfold sigmoid
    rw [gt_iff_lt, one_div_lt_one_div (by norm_num) (by positivity), add_lt_add_iff_left, Real.exp_lt_one_iff]
    constructor <;> intro h <;> linarith
  simp only [this]

/-- C46. One epoch of logistic regression moves the parameters by minus the rate times the gradient of the mean
cross-entropy. -/
theorem C46_epoch (o : Logistic n) (xs : List (Fin n → ℝ)) (ys : List UInt8) :
    (xs = [] → o.trainEpoch xs ys = o) ∧ (o.trainEpoch xs ys).lr = o.lr ∧
    (xs ≠ [] → ∃ g, IsGrad (crossEntropy xs ys) g (params o.weights o.bias) ∧
      params (o.trainEpoch xs ys).weights (o.trainEpoch xs ys).bias = fun j => params o.weights o.bias j - o.lr * g j) := by
  refine ⟨?_, ?_, ?_⟩
  · rintro rfl; simp [Logistic.trainEpoch]
  · unfold Logistic.trainEpoch; split_ifs <;> rfl
  · intro hne
    refine ⟨_, entropy_grad xs ys _, ?_⟩
    unfold Logistic.trainEpoch
    rw [if_neg (by simpa using hne), sums_eq (fun d : (Fin n → ℝ) × UInt8 => o.prob d.1 - labelF d.2)]
    dsimp only
    rw [mapLoop (fun i w => w - o.lr * (((xs.zip ys).map fun d => (o.prob d.1 - labelF d.2) * d.1 i).sum / xs.length))]
    funext j
    refine Fin.lastCases ?_ (fun i => ?_) j
    · simp only [params_last, aug_last, mul_one, Logistic.prob, score_eq]
    · simp only [params_castSucc, aug_castSucc, Logistic.prob, score_eq]

/-- The loss of one example lies above its tangents. -/
theorem entropy_convex (s t : ℝ) (y : UInt8) :
    (if y = 0 then -Real.log (1 - sigmoid s) else -Real.log (sigmoid s)) + (sigmoid s - labelF y) * (t - s)
      ≤ if y = 0 then -Real.log (1 - sigmoid t) else -Real.log (sigmoid t) := by
  -- both losses are `log (1 + e^s) - y s`
  have h1 : ∀ s, -Real.log (1 - sigmoid s) = Real.log (1 + Real.exp s) := by
    intro s
    have : 1 - sigmoid s = (1 + Real.exp s)⁻¹ := by
      unfold sigmoid
      rw [Real.exp_neg]
      have := Real.exp_pos s
      field_simp
      ring
    rw [this, Real.log_inv, neg_neg]
  have h2 : ∀ s, -Real.log (sigmoid s) = Real.log (1 + Real.exp s) - s := by
    intro s
    have : sigmoid s = Real.exp s / (1 + Real.exp s) := by
      unfold sigmoid
      rw [Real.exp_neg]
      have := Real.exp_pos s
      field_simp
      ring
    rw [this, Real.log_div (Real.exp_pos s).ne' (by positivity), Real.log_exp]
    ring
  have key : Real.log (1 + Real.exp s) + sigmoid s * (t - s) ≤ Real.log (1 + Real.exp t) := by
    have hc := convexOn_exp.2 (Set.mem_univ (0 : ℝ)) (Set.mem_univ (t - s)) (sub_nonneg.2 (sigmoid_lt_one s).le)
      (sigmoid_pos s).le (by ring)
    simp only [smul_eq_mul, mul_zero, zero_add, Real.exp_zero, mul_one] at hc
    have e : (1 + Real.exp s) * (1 - sigmoid s + sigmoid s * Real.exp (t - s)) = 1 + Real.exp t := by
      unfold sigmoid
      rw [Real.exp_neg, Real.exp_sub]
      have := Real.exp_pos s
      field_simp
      ring
    rw [← e, Real.log_mul (by positivity) (by
      have := sigmoid_pos s; have := sigmoid_lt_one s; have := Real.exp_pos (t - s)
      nlinarith [mul_pos (sigmoid_pos s) (Real.exp_pos (t - s))])]
    have := Real.log_le_log (Real.exp_pos _) hc
    rw [Real.log_exp] at this
    linarith
  by_cases hy : y = 0
  · simp only [hy, if_true, labelF, h1, sub_zero]; exact key
  · simp only [hy, if_false, labelF, h2]; linarith

/-- C46. Training logistic regression stops changing the parameters exactly at the minimisers of the cross-entropy, i.e. at
the maximum-likelihood estimates. -/
theorem C46_optimum (o : Logistic n) (xs : List (Fin n → ℝ)) (ys : List UInt8) (hne : xs ≠ []) (hlr : o.lr ≠ 0) :
    o.trainEpoch xs ys = o ↔ ∀ q, crossEntropy xs ys (params o.weights o.bias) ≤ crossEntropy xs ys q := by
  obtain ⟨-, h2, h3⟩ := C46_epoch o xs ys
  obtain ⟨g, hg, he⟩ := h3 hne
  have hc : ∀ q, crossEntropy xs ys (params o.weights o.bias) + ∑ j, g j * (q j - params o.weights o.bias j)
      ≤ crossEntropy xs ys q := by
    intro q
    rw [isGrad_unique hg (entropy_grad xs ys _)]
    exact mean_convex _ (fun s y => sigmoid s - labelF y) entropy_convex (xs.zip ys) xs.length (by positivity) _ q
  rw [← epoch_fixed_iff hlr hg hc, ← he]
  constructor
  · intro h; rw [h]
  · intro h
    have hw : (o.trainEpoch xs ys).weights = o.weights := by
      funext i
      have := congrFun h i.castSucc
      simpa [params_castSucc] using this
    have hb : (o.trainEpoch xs ys).bias = o.bias := by
      have := congrFun h (Fin.last n)
      simpa [params_last] using this
    cases hq : o.trainEpoch xs ys
    cases o
    simp_all

/-- C46, what holds of the fit with the optimiser: the gradient handed over is that of the mean cross-entropy. Missing: the
objective handed over is not the cross-entropy (next theorem). -/
theorem C46_fit_partial (o : Logistic n) (xs : List (Fin n → ℝ)) (ys : List UInt8) (opt : GD ℝ (n + 1)) (fuel : ℕ) :
    (xs = [] → o.fit xs ys opt fuel = some o) ∧
    (xs ≠ [] → ∃ f g, (∀ p, IsGrad (crossEntropy xs ys) (g p) p) ∧
      (∀ p, f p = ((xs.zip ys).map fun d =>
        let q := 1 / (1 + Real.exp (-lin p d.1))
        if d.2 = 0 then -Real.log (1 - q + 1 / 3) else -Real.log (q + 1 / 3)).sum / xs.length) ∧
      o.fit xs ys opt fuel = (opt.minimize f g fuel (params o.weights o.bias)).map fun r =>
        ⟨fun i => r.1 i.castSucc, r.1 (Fin.last n), o.lr⟩) := by
  refine ⟨?_, fun hne => ⟨Logistic.objective xs.length (xs.zip ys), Logistic.gradient xs.length (xs.zip ys), fun p => ?_,
    fun p => ?_, ?_⟩⟩
  · rintro rfl; rfl
  · have : Logistic.gradient xs.length (xs.zip ys) p
        = fun j => ((xs.zip ys).map fun d => (sigmoid (lin p d.1) - labelF d.2) * aug d.1 j).sum / xs.length := by
      unfold Logistic.gradient
      rw [sumsP_eq (fun d : (Fin n → ℝ) × UInt8 => sigmoid (scoreP p d.1) - labelF d.2), divAll_eq]
      simp only [scoreP_eq]
    rw [this]
    exact entropy_grad xs ys p
  · unfold Logistic.objective
    dsimp only
    have := lossLoop (fun d : (Fin n → ℝ) × UInt8 => -(labelF d.2 * Real.log (sigmoid (scoreP p d.1) + 1 / (1 + (1 + 1)))
      + (1 - labelF d.2) * Real.log (1 - sigmoid (scoreP p d.1) + 1 / (1 + (1 + 1))))) (xs.zip ys) 0
    simp only [← sub_eq_add_neg] at this
    rw [this, zero_add]
    congr 2
    apply List.map_congr_left
    intro d _
    rw [show (1 / (1 + (1 + 1)) : ℝ) = 1 / 3 by norm_num, scoreP_eq]
    unfold labelF sigmoid
    split_ifs <;> ring_nf
  · unfold Logistic.fit
    rw [if_neg (by simpa using hne)]
    simp only [pack_eq, unpackW_eq]

/-- C46, refuted for the fit with the optimiser: the gradient handed over is not the gradient of the objective handed over
(the logarithms are taken of `p + 1/3`). Already for one example without features. -/
theorem C46_fit_fails :
    ∃ (xs : List (Fin 0 → ℝ)) (ys : List UInt8) (p : Fin 1 → ℝ), xs ≠ [] ∧
      ¬ IsGrad (Logistic.objective xs.length (xs.zip ys)) (Logistic.gradient xs.length (xs.zip ys) p) p := by
  refine ⟨[fun i => i.elim0], [1], fun _ => 0, by simp, fun h => ?_⟩
  have hobj : Logistic.objective (([fun i => i.elim0] : List (Fin 0 → ℝ)).length : ℝ)
      ([fun i => i.elim0].zip ([1] : List UInt8)) = fun p : Fin 1 → ℝ => -Real.log (sigmoid (p 0) + 1 / 3) := by
    funext p
    simp [Logistic.objective, labelF, scoreP, rng]
    norm_num
  have hgr : Logistic.gradient (([fun i => i.elim0] : List (Fin 0 → ℝ)).length : ℝ)
      ([fun i => i.elim0].zip ([1] : List UInt8)) (fun _ => 0) = fun _ => -(1 / 2) := by
    funext j
    have : j = Fin.last 0 := by ext; omega
    subst this
    simp [Logistic.gradient, divAll_eq, accumP_eq, labelF, scoreP, rng, sigmoid]
    norm_num
    exact aug_last _
  rw [hobj, hgr] at h
  have hs : sigmoid 0 = 1 / 2 := by unfold sigmoid; norm_num
  have h0 : HasDerivAt (fun s => -Real.log (sigmoid s + 1 / 3)) (-(3 / 10)) ((fun p : Fin 1 → ℝ => p 0) (fun _ => 0)) := by
    have := (((hasDerivAt_sigmoid 0).add_const (1 / 3)).log (by rw [hs]; norm_num)).neg
    refine HasDerivAt.congr_deriv this ?_
    rw [hs]; norm_num
  have h1 := isGrad_comp (isGrad_coord (0 : Fin 1) (fun _ => 0)) h0
  have := congrFun (isGrad_unique h h1) 0
  norm_num at this

/-! ## Concrete cases -/

noncomputable example : Linear 2 := ⟨![1, 2], 3, 1 / 100⟩

/-- The data set `(0, 1), (1, 3)` has the exact fit `w = 2, b = 1`, which training leaves alone. -/
example : (Linear.mk ![2] 1 (1 / 10)).trainEpoch [![0], ![1]] [1, 3] = Linear.mk ![2] 1 (1 / 10) := by
  rw [C45_least_squares _ _ _ (by simp) (by norm_num)]
  intro q
  have h : mse [![0], ![1]] [1, 3] (params (![2] : Fin 1 → ℝ) 1) = 0 := by
    unfold mse
    simp [lin_params]
    norm_num
  dsimp only
  rw [h]
  unfold mse
  simp
  positivity

/-- The hypotheses of the convergence theorem are met by one example, rate 1/4, `L = 4` and a tolerance of one. -/
example : ∃ (opt : GD ℝ 2) (o : Linear 1) (L s : ℝ),
    2 * ((([![1]] : List (Fin 1 → ℝ)).zip ([1] : List ℝ)).map fun e => ∑ i, e.1 i ^ 2 + 1).sum / (1 : ℕ) ≤ L ∧
    opt.useBacktracking = true ∧ opt.momentum = 0 ∧ opt.hasBounds = false ∧ 0 < opt.armijoC1 ∧ opt.armijoC1 < 1 ∧ 0 < opt.lr ∧
    0 < opt.tau ∧ 0 < opt.tolGrad ∧ opt.tolStep = 0 ∧ 1e-20 < 2 * (1 - opt.armijoC1) / L * opt.tau ∧
    s = min opt.lr (2 * opt.tau * (1 - opt.armijoC1) / L) ∧
    mse [![1]] [1] (params o.weights o.bias) / (opt.armijoC1 * s * opt.tolGrad ^ 2) < opt.maxIters := by
  refine ⟨⟨1 / 8, true, 1 / 2, 1 / 2, 0, 1, 0, 100, false, fun _ => 0, fun _ => 0⟩, ⟨fun _ => 0, 0, 1⟩, 4, 1 / 8, ?_⟩
  refine ⟨by norm_num, rfl, rfl, rfl, by norm_num, by norm_num, by norm_num, by norm_num, by norm_num, rfl, by norm_num,
    by norm_num, ?_⟩
  unfold mse
  simp [lin_params]
  norm_num

end Verif.ML
