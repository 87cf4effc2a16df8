import Verif.ML.PropsConv
import Verif.ML.Defaults
import Mathlib.Analysis.SpecificLimits.Basic

/-!
# C184: whether an epoch of training can make the fit worse
-/

namespace Verif.ML

open Verif.Mat Verif.Opt Filter

variable {n : ℕ}

theorem step_descends {f : (Fin n → ℝ) → ℝ} {g : (Fin n → ℝ) → Fin n → ℝ} {μ L : ℝ} (hs : Smooth f g μ L) {lr : ℝ} (hlr : 0 < lr) (hL : lr * L < 2)
    (p : Fin n → ℝ) : f (fun j => p j - lr * g p j) ≤ f p ∧ (f (fun j => p j - lr * g p j) = f p → (fun j => p j - lr * g p j) = p) := by
  have h := hs.upper p (fun j => -(lr * g p j))
  have e1 : (fun i => p i + -(lr * g p i)) = fun j => p j - lr * g p j := funext fun i => by ring
  have e2 : inner (g p) (fun j => -(lr * g p j)) = -(lr * inner (g p) (g p)) := by
    unfold Opt.inner
    rw [Finset.mul_sum, ← Finset.sum_neg_distrib]
    exact Finset.sum_congr rfl fun i _ => by ring
  have e3 : inner (fun j => -(lr * g p j)) (fun j => -(lr * g p j)) = lr ^ 2 * inner (g p) (g p) := by
    unfold Opt.inner
    rw [Finset.mul_sum]
    exact Finset.sum_congr rfl fun i _ => by ring
  rw [e1, e2, e3] at h
  have hn := inner_self_nonneg (g p)
  have h2 : f (fun j => p j - lr * g p j) ≤ f p - lr * (1 - lr * L / 2) * inner (g p) (g p) := h.trans (le_of_eq (by ring))
  have hc : 0 < lr * (1 - lr * L / 2) := mul_pos hlr (by linarith)
  refine ⟨h2.trans (by have := mul_nonneg hc.le hn; linarith), fun he => ?_⟩
  have h0 : inner (g p) (g p) = 0 := by
    by_contra hne
    have := mul_pos hc (lt_of_le_of_ne hn (Ne.symm hne))
    linarith
  have hg := (dotProduct_self_eq_zero (v := g p)).1 h0
  rw [hg]; funext j; simp

/-- C184, partial: with a learning rate below an explicit bound from the data an epoch of linear regression does not raise the mean squared error,
and lowers it unless the parameters stay as they are. Missing: larger learning rates, see `C184_fails`. -/
theorem C184_linear_partial (o : Linear n) (xs : List (Fin n → ℝ)) (ys : List ℝ) (hl : xs.length ≤ ys.length) (hlr : 0 < o.lr)
    (hb : o.lr * (meanSq xs + 1) < 1) :
    let o' := o.trainEpoch xs ys
    mse xs ys (params o'.weights o'.bias) ≤ mse xs ys (params o.weights o.bias) ∧
      (mse xs ys (params o'.weights o'.bias) = mse xs ys (params o.weights o.bias) → params o'.weights o'.bias = params o.weights o.bias) := by
  intro o'
  obtain ⟨h1, -, h3⟩ := C45_linear_epoch o xs ys
  by_cases hne : xs = []
  · have : o' = o := h1 hne
    rw [this]; exact ⟨le_rfl, fun _ => rfl⟩
  · obtain ⟨g, hg, he⟩ := h3 hne
    rw [isGrad_unique hg (mse_grad xs ys _)] at he
    have := step_descends (mse_smooth xs ys hne hl) hlr (by linarith) (params o.weights o.bias)
    show mse xs ys (params (o.trainEpoch xs ys).weights (o.trainEpoch xs ys).bias) ≤ _ ∧ _
    rw [he]
    exact this

/-- C184, partial: the same for ridge regression and its penalised error. -/
theorem C184_ridge_partial (o : Ridge n) (xs : List (Fin n → ℝ)) (ys : List ℝ) (hl : xs.length ≤ ys.length) (hlr : 0 < o.lr) (ha : 0 < o.alpha)
    (hb : o.lr * (meanSq xs + 1 + o.alpha) < 1) :
    let o' := o.trainEpoch xs ys
    ridgeLoss o.alpha xs ys (params o'.weights o'.bias) ≤ ridgeLoss o.alpha xs ys (params o.weights o.bias) ∧
      (ridgeLoss o.alpha xs ys (params o'.weights o'.bias) = ridgeLoss o.alpha xs ys (params o.weights o.bias) →
        params o'.weights o'.bias = params o.weights o.bias) := by
  intro o'
  obtain ⟨h1, -, -, h3⟩ := C45_ridge_epoch o xs ys
  by_cases hne : xs = []
  · have : o' = o := h1 hne
    rw [this]; exact ⟨le_rfl, fun _ => rfl⟩
  · obtain ⟨g, hg, he⟩ := h3 hne
    rw [isGrad_unique hg (ridge_grad _ xs ys _)] at he
    have := step_descends (ridge_smooth o.alpha ha xs ys hne hl) hlr (by linarith) (params o.weights o.bias)
    show ridgeLoss o.alpha xs ys (params (o.trainEpoch xs ys).weights (o.trainEpoch xs ys).bias) ≤ _ ∧ _
    rw [he]
    exact this

/-- C184, partial: the same for logistic regression and its cross-entropy. -/
theorem C184_logistic_partial (o : Logistic n) (xs : List (Fin n → ℝ)) (ys : List UInt8) (hl : xs.length ≤ ys.length) (hlr : 0 < o.lr)
    (hb : o.lr * (meanSq xs + 1) < 8) :
    let o' := o.trainEpoch xs ys
    crossEntropy xs ys (params o'.weights o'.bias) ≤ crossEntropy xs ys (params o.weights o.bias) ∧
      (crossEntropy xs ys (params o'.weights o'.bias) = crossEntropy xs ys (params o.weights o.bias) →
        params o'.weights o'.bias = params o.weights o.bias) := by
  intro o'
  obtain ⟨h1, -, h3⟩ := C46_epoch o xs ys
  by_cases hne : xs = []
  · have : o' = o := h1 hne
    rw [this]; exact ⟨le_rfl, fun _ => rfl⟩
  · obtain ⟨g, hg, he⟩ := h3 hne
    rw [isGrad_unique hg (entropy_grad xs ys _)] at he
    have := step_descends (entropy_smooth xs ys hne hl) hlr (by linarith) (params o.weights o.bias)
    show crossEntropy xs ys (params (o.trainEpoch xs ys).weights (o.trainEpoch xs ys).bias) ≤ _ ∧ _
    rw [he]
    exact this

/-- C184: what happens with a single example `x` with target `y`, for any learning rate: every epoch multiplies the error of the prediction by
`1 - 2 lr (|x|² + 1)`. -/
theorem C184_one_example (o : Linear n) (x : Fin n → ℝ) (y : ℝ) (k : ℕ) :
    let o' := (fun o => Linear.trainEpoch o [x] [y])^[k] o
    lin (params o'.weights o'.bias) x - y = (1 - 2 * o.lr * (∑ i, x i ^ 2 + 1)) ^ k * (lin (params o.weights o.bias) x - y) := by
  induction k generalizing o with
  | zero => simp
  | succ k ih =>
    intro o'
    obtain ⟨-, h2, h3⟩ := C45_linear_epoch o [x] [y]
    obtain ⟨g, hg, he⟩ := h3 (by simp)
    rw [isGrad_unique hg (mse_grad [x] [y] _)] at he
    have e0 := ih (o.trainEpoch [x] [y])
    simp only [h2] at e0
    show lin (params ((fun o => Linear.trainEpoch o [x] [y])^[k] (o.trainEpoch [x] [y])).weights
      ((fun o => Linear.trainEpoch o [x] [y])^[k] (o.trainEpoch [x] [y])).bias) x - y = _
    rw [e0, he]
    have key : ∀ (p : Fin (n + 1) → ℝ) (c : ℝ), lin (fun j => p j - c * aug x j) x = lin p x - c * (∑ i, x i ^ 2 + 1) := by
      intro p c
      rw [← aug_sq, lin_aug, lin_aug, Finset.mul_sum, ← Finset.sum_sub_distrib]
      exact Finset.sum_congr rfl fun j _ => by ring
    have e1 : (fun j => params o.weights o.bias j - o.lr * ((([x].zip [y]).map fun d => 2 * (lin (params o.weights o.bias) d.1 - d.2) * aug d.1 j).sum /
        (([x].length : ℕ) : ℝ))) = fun j => params o.weights o.bias j - (o.lr * 2 * (lin (params o.weights o.bias) x - y)) * aug x j := by
      funext j
      simp
      ring
    show _ * (lin (fun j => params o.weights o.bias j - o.lr * ((([x].zip [y]).map fun d => 2 * (lin (params o.weights o.bias) d.1 - d.2) * aug d.1 j).sum /
        (([x].length : ℕ) : ℝ))) x - y) = _
    rw [e1, key]
    ring

/-- C184 fails: let `lr (|x|² + 1) > 1`. Training on the single example, which can be fitted exactly, multiplies the error without bound, whatever
the start, unless the example is already fitted. -/
theorem C184_fails (o : Linear n) (x : Fin n → ℝ) (y : ℝ) (hlr : 1 < o.lr * (∑ i, x i ^ 2 + 1)) (h0 : lin (params o.weights o.bias) x ≠ y) :
    (∃ p, mse [x] [y] p = 0) ∧ mse [x] [y] (params o.weights o.bias) < mse [x] [y] (params (o.trainEpoch [x] [y]).weights (o.trainEpoch [x] [y]).bias) ∧
      Tendsto (fun k => mse [x] [y] (params ((fun o => Linear.trainEpoch o [x] [y])^[k] o).weights ((fun o => Linear.trainEpoch o [x] [y])^[k] o).bias))
        atTop atTop := by
  have hm : ∀ p, mse [x] [y] p = (lin p x - y) ^ 2 := fun p => by simp [mse]
  have hq : 1 < (1 - 2 * o.lr * (∑ i, x i ^ 2 + 1)) ^ 2 := by nlinarith
  have he : 0 < (lin (params o.weights o.bias) x - y) ^ 2 := by
    have := sub_ne_zero.2 h0
    positivity
  refine ⟨⟨params 0 y, ?_⟩, ?_, ?_⟩
  · rw [hm]; simp [lin, params]
  · have := C184_one_example o x y 1
    simp only [Function.iterate_one, pow_one] at this
    rw [hm, hm, this, mul_pow]
    nlinarith
  · have e : (fun k => mse [x] [y] (params ((fun o => Linear.trainEpoch o [x] [y])^[k] o).weights ((fun o => Linear.trainEpoch o [x] [y])^[k] o).bias))
        = fun k => ((1 - 2 * o.lr * (∑ i, x i ^ 2 + 1)) ^ 2) ^ k * (lin (params o.weights o.bias) x - y) ^ 2 := by
      funext k
      rw [hm, C184_one_example o x y k, mul_pow, ← pow_mul, ← pow_mul, mul_comm k 2]
    rw [e]
    exact (tendsto_pow_atTop_atTop_of_one_lt hq).atTop_mul_const he

/-- C184 fails with the rate a new model has: training a new model on a single example with a nonzero input and a nonzero target makes the error grow
without bound. -/
theorem C184_new_fails (x : Fin n → ℝ) (y : ℝ) (hx : x ≠ 0) (hy : y ≠ 0) :
    Tendsto (fun k => mse [x] [y] (params ((fun o => Linear.trainEpoch o [x] [y])^[k] (Linear.new n)).weights
      ((fun o => Linear.trainEpoch o [x] [y])^[k] (Linear.new n)).bias)) atTop atTop := by
  refine (C184_fails (Linear.new n) x y ?_ ?_).2.2
  · obtain ⟨i, hi⟩ : ∃ i, x i ≠ 0 := Function.ne_iff.1 hx
    have h1 : 0 < ∑ i, x i ^ 2 := Finset.sum_pos' (fun j _ => sq_nonneg _) ⟨i, Finset.mem_univ i, by positivity⟩
    show 1 < 1 * (∑ i, x i ^ 2 + 1)
    linarith
  · simp [Linear.new, lin, params]
    exact fun h => hy h.symm

/-- A new logistic model has a rate that is small enough for features of squared length below seven. -/
theorem C184_new_logistic_partial (xs : List (Fin n → ℝ)) (ys : List UInt8) (hl : xs.length ≤ ys.length) (hb : meanSq xs < 7) (k : ℕ) :
    let at' := fun k => (fun o => Logistic.trainEpoch o xs ys)^[k] (Logistic.new n)
    crossEntropy xs ys (params (at' (k + 1)).weights (at' (k + 1)).bias) ≤ crossEntropy xs ys (params (at' k).weights (at' k).bias) := by
  intro at'
  have hr : ∀ k, (at' k).lr = 1 := by
    intro k
    induction k with
    | zero => rfl
    | succ k ih => rw [← ih]; simp only [at', Function.iterate_succ_apply']; exact (C46_epoch _ xs ys).2.1
  have e : at' (k + 1) = (at' k).trainEpoch xs ys := by simp only [at', Function.iterate_succ_apply']
  rw [e]
  exact (C184_logistic_partial (at' k) xs ys hl (by rw [hr]; norm_num) (by rw [hr]; linarith)).1

/-- The rate `0.01` is small enough for the feature `3` and too large for the feature `10`. -/
example : (0.01 : ℝ) * (meanSq [![(3 : ℝ)]] + 1) < 1 ∧ 1 < (0.01 : ℝ) * (∑ i, (![(10 : ℝ)]) i ^ 2 + 1) ∧
    lin (params ![(0 : ℝ)] 0) ![(10 : ℝ)] ≠ 5 := by
  refine ⟨?_, ?_, ?_⟩
  · norm_num [meanSq]
  · norm_num
  · simp [lin, params]

end Verif.ML
