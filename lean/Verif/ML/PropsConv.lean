import Verif.ML.PropsReg
import Verif.Opt.PropsBox
import Mathlib.Topology.MetricSpace.Contracting
import Mathlib.Analysis.Calculus.MeanValue
import Mathlib.LinearAlgebra.Matrix.DotProduct

/-!
# Training converges (C147)

`(trainEpoch xs ys)^[k] o` is the model after `k` epochs from the model `o`. `meanSq xs` is the mean of `‖x‖²` over the data set.
-/

namespace Verif.ML

open Verif.Mat Verif.Opt

variable {n : ℕ}

/-- The mean of `‖x‖²`. -/
noncomputable def meanSq (xs : List (Fin n → ℝ)) : ℝ := (xs.map fun x => ∑ i, x i ^ 2).sum / xs.length

/-! ## Lemmas -/

theorem aug_sq (x : Fin n → ℝ) : ∑ j, aug x j ^ 2 = ∑ i, x i ^ 2 + 1 := by
  rw [Fin.sum_univ_castSucc]; simp [aug_castSucc, aug_last]

theorem lin_add (p d : Fin (n + 1) → ℝ) (x : Fin n → ℝ) : lin (fun i => p i + d i) x = lin p x + lin d x := by
  rw [lin_aug, lin_aug, lin_aug, ← Finset.sum_add_distrib]
  exact Finset.sum_congr rfl fun j _ => by ring

theorem lin_sq_le (d : Fin (n + 1) → ℝ) (x : Fin n → ℝ) : lin d x ^ 2 ≤ (∑ j, aug x j ^ 2) * inner d d := by
  rw [lin_aug]
  have := Finset.sum_mul_sq_le_sq_mul_sq Finset.univ d (aug x)
  have e1 : inner d d = ∑ j, d j ^ 2 := by
    unfold Opt.inner; exact Finset.sum_congr rfl fun j _ => (sq _).symm
  rw [e1, mul_comm]
  exact this

/-- The gradient of a mean loss. -/
noncomputable def meanGrad {β : Type*} (ell' : ℝ → β → ℝ) (data : List ((Fin n → ℝ) × β)) (m : ℝ) (p : Fin (n + 1) → ℝ) : Fin (n + 1) → ℝ :=
  fun j => (data.map fun d => ell' (lin p d.1) d.2 * aug d.1 j).sum / m

theorem inner_meanGrad {β : Type*} (ell' : ℝ → β → ℝ) (data : List ((Fin n → ℝ) × β)) (m : ℝ) (p d : Fin (n + 1) → ℝ) :
    inner (meanGrad ell' data m p) d = (data.map fun e => ell' (lin p e.1) e.2 * lin d e.1).sum / m := by
  unfold Opt.inner meanGrad
  have : ∀ j, (data.map fun d => ell' (lin p d.1) d.2 * aug d.1 j).sum / m * d j =
      (data.map fun e => ell' (lin p e.1) e.2 * aug e.1 j).sum * d j / m := fun j => by ring
  simp only [this]
  rw [← Finset.sum_div]
  congr 1
  induction data with
  | nil => simp
  | cons e l ih =>
    simp only [List.map_cons, List.sum_cons, add_mul, Finset.sum_add_distrib, ih (fun j => by ring)]
    congr 1
    rw [lin_aug d, Finset.mul_sum]
    exact Finset.sum_congr rfl fun j _ => by ring

theorem sum_div_le {β : Type*} (data : List β) (f g : β → ℝ) (m : ℝ) (hm : 0 ≤ m) (h : ∀ e ∈ data, f e ≤ g e) :
    (data.map f).sum / m ≤ (data.map g).sum / m := by
  apply div_le_div_of_nonneg_right _ hm
  exact List.sum_le_sum h

theorem sum_add_map {β : Type*} (data : List β) (f g : β → ℝ) : (data.map fun e => f e + g e).sum = (data.map f).sum + (data.map g).sum := by
  induction data with
  | nil => simp
  | cons e l ih => simp only [List.map_cons, List.sum_cons, ih]; ring

theorem sum_mul_map {β : Type*} (data : List β) (f : β → ℝ) (c : ℝ) : (data.map fun e => f e * c).sum = (data.map f).sum * c := by
  induction data with
  | nil => simp
  | cons e l ih => simp only [List.map_cons, List.sum_cons, ih]; ring

/-- A mean of losses of curvature at most `c`. -/
theorem mean_smooth {β : Type*} (ell ell' : ℝ → β → ℝ) (c : ℝ) (hc : 0 ≤ c) (hlow : ∀ s t y, ell s y + ell' s y * t ≤ ell (s + t) y)
    (hup : ∀ s t y, ell (s + t) y ≤ ell s y + ell' s y * t + c / 2 * t ^ 2) (data : List ((Fin n → ℝ) × β)) (m : ℝ) (hm : 0 ≤ m) :
    Smooth (fun p => (data.map fun d => ell (lin p d.1) d.2).sum / m) (meanGrad ell' data m) 0
      (c * (data.map fun e => ∑ j, aug e.1 j ^ 2).sum / m) := by
  refine ⟨fun p d => ?_, fun p d => ?_⟩
  · rw [inner_meanGrad, zero_div, zero_mul, add_zero, ← add_div, ← sum_add_map]
    refine sum_div_le data _ _ m hm fun e _ => ?_
    rw [lin_add]
    exact hlow _ _ _
  · rw [inner_meanGrad]
    have e : c * (data.map fun e => ∑ j, aug e.1 j ^ 2).sum / m / 2 * inner d d =
        (data.map fun e => (∑ j, aug e.1 j ^ 2) * (c / 2 * inner d d)).sum / m := by
      rw [sum_mul_map]; ring
    rw [e, ← add_div, ← add_div, ← sum_add_map, ← sum_add_map]
    refine sum_div_le data _ _ m hm fun e _ => ?_
    rw [lin_add]
    refine (hup _ _ _).trans ?_
    have := mul_le_mul_of_nonneg_left (lin_sq_le d e.1) (by linarith : 0 ≤ c / 2)
    linarith

theorem zip_map_fst {β : Type*} (xs : List (Fin n → ℝ)) (ys : List β) (hl : xs.length ≤ ys.length) (f : (Fin n → ℝ) → ℝ) :
    ((xs.zip ys).map fun e => f e.1).sum = (xs.map f).sum := by
  have : ((xs.zip ys).map fun e => f e.1) = ((xs.zip ys).map Prod.fst).map f := by rw [List.map_map]; rfl
  rw [this, List.map_fst_zip hl]

theorem aug_mean (xs : List (Fin n → ℝ)) (hne : xs ≠ []) : (xs.map fun x => ∑ j, aug x j ^ 2).sum / xs.length = meanSq xs + 1 := by
  have hm : (xs.length : ℝ) ≠ 0 := by simpa using hne
  have : ∀ l : List (Fin n → ℝ), (l.map fun x => ∑ j, aug x j ^ 2).sum = (l.map fun x => ∑ i, x i ^ 2).sum + l.length := by
    intro l
    induction l with
    | nil => simp
    | cons x l ih => rw [List.map_cons, List.sum_cons, ih, aug_sq, List.map_cons, List.sum_cons, List.length_cons]; push_cast; ring
  rw [this, add_div, div_self hm]; rfl

theorem mse_smooth (xs : List (Fin n → ℝ)) (ys : List ℝ) (hne : xs ≠ []) (hl : xs.length ≤ ys.length) :
    Smooth (mse xs ys) (meanGrad (fun s y => 2 * (s - y)) (xs.zip ys) xs.length) 0 (2 * (meanSq xs + 1)) := by
  have := mean_smooth (fun s y => (s - y) ^ 2) (fun s y => 2 * (s - y)) 2 (by norm_num) (fun s t y => by nlinarith [sq_nonneg t])
    (fun s t y => by nlinarith) (xs.zip ys) (xs.length : ℝ) (by positivity)
  rw [zip_map_fst xs ys hl (fun x => ∑ j, aug x j ^ 2), mul_div_assoc, aug_mean xs hne] at this
  exact this

/-! ### The logistic loss -/

theorem sigmoid_lipschitz (s t : ℝ) : |sigmoid t - sigmoid s| ≤ 1 / 4 * |t - s| := by
  have := Convex.norm_image_sub_le_of_norm_hasDerivWithin_le (f := sigmoid) (f' := fun s => sigmoid s * (1 - sigmoid s)) (C := 1 / 4)
    (s := Set.univ) (fun x _ => (hasDerivAt_sigmoid x).hasDerivWithinAt) (fun x _ => by
      rw [Real.norm_eq_abs, abs_of_nonneg (mul_nonneg (sigmoid_pos x).le (by linarith [sigmoid_lt_one x]))]
      nlinarith [sq_nonneg (sigmoid x - 1 / 2)]) convex_univ (Set.mem_univ s) (Set.mem_univ t)
  simpa [Real.norm_eq_abs] using this

theorem entropy_upper (s t : ℝ) (y : UInt8) :
    (if y = 0 then -Real.log (1 - sigmoid (s + t)) else -Real.log (sigmoid (s + t))) ≤
      (if y = 0 then -Real.log (1 - sigmoid s) else -Real.log (sigmoid s)) + (sigmoid s - labelF y) * t + (1 / 4) / 2 * t ^ 2 := by
  set ell : ℝ → ℝ := fun s => if y = 0 then -Real.log (1 - sigmoid s) else -Real.log (sigmoid s) with hell
  set h : ℝ → ℝ := fun t => ell s + (sigmoid s - labelF y) * t + (1 / 4) / 2 * t ^ 2 - ell (s + t) with hh
  have hd : ∀ t, HasDerivAt h (sigmoid s + 1 / 4 * t - sigmoid (s + t)) t := by
    intro t
    have h1 : HasDerivAt (fun t => ell (s + t)) (sigmoid (s + t) - labelF y) t := by
      have := (entropy_deriv (s + t) y).comp t ((hasDerivAt_id t).const_add s)
      rw [mul_one] at this
      exact this
    have h2 := ((((hasDerivAt_id t).const_mul (sigmoid s - labelF y)).const_add (ell s)).add
      ((hasDerivAt_pow 2 t).const_mul ((1 / 4) / 2))).sub h1
    refine h2.congr_deriv ?_
    norm_num
    ring
  have h0 : h 0 = 0 := by simp [hh]
  have hnn : 0 ≤ h t := by
    rcases le_total 0 t with ht | ht
    · have hm : MonotoneOn h (Set.Ici 0) := monotoneOn_of_deriv_nonneg (convex_Ici 0)
        (fun x _ => (hd x).continuousAt.continuousWithinAt) (fun x _ => (hd x).differentiableAt.differentiableWithinAt) (fun x hx => by
          rw [interior_Ici] at hx
          have hx : 0 < x := hx
          rw [(hd x).deriv]
          have := abs_le.1 (sigmoid_lipschitz s (s + x))
          rw [add_sub_cancel_left, abs_of_pos hx] at this
          linarith [this.2])
      have := hm (Set.mem_Ici.2 le_rfl) (Set.mem_Ici.2 ht) ht
      linarith
    · have hm : AntitoneOn h (Set.Iic 0) := antitoneOn_of_deriv_nonpos (convex_Iic 0)
        (fun x _ => (hd x).continuousAt.continuousWithinAt) (fun x _ => (hd x).differentiableAt.differentiableWithinAt) (fun x hx => by
          rw [interior_Iic] at hx
          have hx : x < 0 := hx
          rw [(hd x).deriv]
          have := abs_le.1 (sigmoid_lipschitz s (s + x))
          rw [add_sub_cancel_left, abs_of_neg hx] at this
          linarith [this.1])
      have := hm (Set.mem_Iic.2 ht) (Set.mem_Iic.2 le_rfl) ht
      linarith
  have : 0 ≤ ell s + (sigmoid s - labelF y) * t + (1 / 4) / 2 * t ^ 2 - ell (s + t) := hnn
  change ell (s + t) ≤ ell s + (sigmoid s - labelF y) * t + (1 / 4) / 2 * t ^ 2
  linarith

theorem entropy_smooth (xs : List (Fin n → ℝ)) (ys : List UInt8) (hne : xs ≠ []) (hl : xs.length ≤ ys.length) :
    Smooth (crossEntropy xs ys) (meanGrad (fun s y => sigmoid s - labelF y) (xs.zip ys) xs.length) 0 (1 / 4 * (meanSq xs + 1)) := by
  have := mean_smooth (fun s y => if y = 0 then -Real.log (1 - sigmoid s) else -Real.log (sigmoid s)) (fun s y => sigmoid s - labelF y) (1 / 4)
    (by norm_num) (fun s t y => by have := entropy_convex s (s + t) y; rwa [add_sub_cancel_left] at this)
    entropy_upper (xs.zip ys) (xs.length : ℝ) (by positivity)
  rw [zip_map_fst xs ys hl (fun x => ∑ j, aug x j ^ 2), mul_div_assoc, aug_mean xs hne] at this
  exact this

/-! ### Ridge -/

/-- The gradient of the penalised error. -/
noncomputable def ridgeGrad (α : ℝ) (xs : List (Fin n → ℝ)) (ys : List ℝ) (p : Fin (n + 1) → ℝ) : Fin (n + 1) → ℝ :=
  fun j => meanGrad (fun s y => 2 * (s - y)) (xs.zip ys) xs.length p j
    + (Fin.snoc (α := fun _ => ℝ) (fun i : Fin n => 2 * α * p i.castSucc) 0 : Fin (n + 1) → ℝ) j

theorem inner_split (d : Fin (n + 1) → ℝ) : inner d d = ∑ i : Fin n, d i.castSucc ^ 2 + d (Fin.last n) ^ 2 := by
  unfold Opt.inner; rw [Fin.sum_univ_castSucc]
  congr 1
  · exact Finset.sum_congr rfl fun i _ => (sq _).symm
  · exact (sq _).symm

theorem ridge_expand (α : ℝ) (xs : List (Fin n → ℝ)) (ys : List ℝ) (p d : Fin (n + 1) → ℝ) :
    ridgeLoss α xs ys (fun i => p i + d i) = ridgeLoss α xs ys p + inner (ridgeGrad α xs ys p) d
      + (((xs.zip ys).map fun e => lin d e.1 ^ 2).sum / xs.length + α * ∑ i : Fin n, d i.castSucc ^ 2) := by
  have h1 : inner (ridgeGrad α xs ys p) d = inner (meanGrad (fun s y => 2 * (s - y)) (xs.zip ys) xs.length p) d
      + ∑ i : Fin n, 2 * α * p i.castSucc * d i.castSucc := by
    unfold Opt.inner ridgeGrad
    simp only [add_mul, Finset.sum_add_distrib]
    congr 1
    rw [Fin.sum_univ_castSucc]; simp
  have h2 : mse xs ys (fun i => p i + d i) = mse xs ys p + inner (meanGrad (fun s y => 2 * (s - y)) (xs.zip ys) xs.length p) d
      + ((xs.zip ys).map fun e => lin d e.1 ^ 2).sum / xs.length := by
    rw [inner_meanGrad]
    unfold mse
    rw [← add_div, ← add_div, ← sum_add_map, ← sum_add_map]
    congr 2
    apply List.map_congr_left
    intro e _
    rw [lin_add]; ring
  have h3 : ∑ i : Fin n, (p i.castSucc + d i.castSucc) ^ 2 = ∑ i : Fin n, p i.castSucc ^ 2 + ∑ i : Fin n, 2 * p i.castSucc * d i.castSucc
      + ∑ i : Fin n, d i.castSucc ^ 2 := by
    rw [← Finset.sum_add_distrib, ← Finset.sum_add_distrib]
    exact Finset.sum_congr rfl fun i _ => by ring
  have h4 : ∑ i : Fin n, 2 * α * p i.castSucc * d i.castSucc = α * ∑ i : Fin n, 2 * p i.castSucc * d i.castSucc := by
    rw [Finset.mul_sum]; exact Finset.sum_congr rfl fun i _ => by ring
  unfold ridgeLoss
  rw [h1, h2, h3, h4]
  ring

theorem ridge_smooth (α : ℝ) (ha : 0 < α) (xs : List (Fin n → ℝ)) (ys : List ℝ) (hne : xs ≠ []) (hl : xs.length ≤ ys.length) :
    Smooth (ridgeLoss α xs ys) (ridgeGrad α xs ys) (min 1 (2 * α / (2 * meanSq xs + 1))) (2 * (meanSq xs + 1) + 2 * α) := by
  have hm : (0 : ℝ) < xs.length := by
    have : xs.length ≠ 0 := by simpa using hne
    positivity
  have hR : 0 ≤ meanSq xs := div_nonneg (List.sum_nonneg (by
    intro a h
    obtain ⟨x, -, rfl⟩ := List.mem_map.1 h
    exact Finset.sum_nonneg fun i _ => sq_nonneg _)) hm.le
  refine ⟨fun p d => ?_, fun p d => ?_⟩ <;> rw [ridge_expand]
  · rw [add_le_add_iff_left]
    set W := ∑ i : Fin n, d i.castSucc ^ 2 with hW
    set b := d (Fin.last n) with hb
    set A := ((xs.zip ys).map fun e => lin d e.1 ^ 2).sum / xs.length with hA
    have hW0 : 0 ≤ W := Finset.sum_nonneg fun i _ => sq_nonneg _
    have hA0 : 0 ≤ A := div_nonneg (List.sum_nonneg (by
      intro a h
      obtain ⟨x, -, rfl⟩ := List.mem_map.1 h
      exact sq_nonneg _)) hm.le
    have hbA : b ^ 2 ≤ 2 * A + 2 * W * meanSq xs := by
      have h1 : ∀ e ∈ xs.zip ys, b ^ 2 ≤ lin d e.1 ^ 2 * 2 + (∑ i, e.1 i ^ 2) * (2 * W) := by
        intro e _
        have h2 : (∑ i : Fin n, d i.castSucc * e.1 i) ^ 2 ≤ W * ∑ i, e.1 i ^ 2 := Finset.sum_mul_sq_le_sq_mul_sq _ _ _
        have h3 : lin d e.1 = ∑ i : Fin n, d i.castSucc * e.1 i + b := rfl
        rw [h3]
        nlinarith [sq_nonneg (2 * (∑ i : Fin n, d i.castSucc * e.1 i) + b)]
      have h2 := sum_div_le (xs.zip ys) (fun _ => b ^ 2) _ (xs.length : ℝ) hm.le h1
      rw [sum_add_map, sum_mul_map, sum_mul_map, zip_map_fst xs ys hl (fun x => ∑ i, x i ^ 2)] at h2
      have h3 : ((xs.zip ys).map fun _ => b ^ 2).sum / (xs.length : ℝ) = b ^ 2 := by
        rw [List.map_const', List.sum_replicate, List.length_zip, min_eq_left hl, nsmul_eq_mul, mul_div_assoc, mul_div_cancel₀]
        exact hm.ne'
      rw [h3] at h2
      refine h2.trans (le_of_eq ?_)
      rw [hA]; unfold meanSq; ring
    rw [inner_split, ← hW, ← hb]
    set c := min 1 (2 * α / (2 * meanSq xs + 1)) with hc
    have hc1 : c ≤ 1 := min_le_left _ _
    have hden : 0 < 2 * meanSq xs + 1 := by linarith
    have hc2 : c * (2 * meanSq xs + 1) ≤ 2 * α := (le_div_iff₀ hden).1 (min_le_right _ _)
    have hc0 : 0 ≤ c := le_min (by norm_num) (by positivity)
    have h1 := mul_le_mul_of_nonneg_left hbA hc0
    have h2 := mul_le_mul_of_nonneg_right hc2 hW0
    have h3 := mul_le_mul_of_nonneg_right hc1 hA0
    nlinarith
  · rw [add_le_add_iff_left, inner_split]
    set W := ∑ i : Fin n, d i.castSucc ^ 2 with hW
    set b := d (Fin.last n) with hb
    have hW0 : 0 ≤ W := Finset.sum_nonneg fun i _ => sq_nonneg _
    have h1 := sum_div_le (xs.zip ys) (fun e => lin d e.1 ^ 2) (fun e => (∑ j, aug e.1 j ^ 2) * inner d d) (xs.length : ℝ) hm.le
      (fun e _ => lin_sq_le d e.1)
    rw [sum_mul_map, zip_map_fst xs ys hl (fun x => ∑ j, aug x j ^ 2), mul_div_right_comm, aug_mean xs hne, inner_split] at h1
    have h2 := mul_nonneg ha.le (sq_nonneg b)
    nlinarith

/-! ## C147 -/

/-- The options of the optimiser that stand for plain steps. -/
noncomputable def plain (k : ℕ) : GD ℝ k := { GD.new k with hasBounds := false }

theorem plain_project (k : ℕ) (x : Fin k → ℝ) : (plain k).project x = x := project_free _ rfl _

/-- C147. Linear regression with a rate of at most `1 / (2 (meanSq + 1))`: after `k` epochs the mean squared error exceeds that of any
parameters `p` by at most `‖p₀ - p‖² / (2 lr k)`. -/
theorem C147_linear (o : Linear n) (xs : List (Fin n → ℝ)) (ys : List ℝ) (hne : xs ≠ []) (hl : xs.length ≤ ys.length) (hlr : 0 < o.lr)
    (hlr1 : o.lr * (2 * (meanSq xs + 1)) ≤ 1) (p : Fin (n + 1) → ℝ) (k : ℕ) :
    let o' := (fun o => Linear.trainEpoch o xs ys)^[k] o
    2 * o.lr * k * (mse xs ys (params o'.weights o'.bias) - mse xs ys p) ≤ len (params o.weights o.bias - p) ^ 2 := by
  intro o'
  set seq : ℕ → Linear n := fun k => (fun o => Linear.trainEpoch o xs ys)^[k] o with hseq
  have hrate : ∀ k, (seq k).lr = o.lr := by
    intro k
    induction k with
    | zero => rfl
    | succ k ih => rw [← ih]; simp only [hseq, Function.iterate_succ_apply']; exact (C45_linear_epoch _ xs ys).2.1
  have hstep : ∀ k, params (seq (k + 1)).weights (seq (k + 1)).bias = (plain (n + 1)).project (params (seq k).weights (seq k).bias
      - o.lr • meanGrad (fun s y => 2 * (s - y)) (xs.zip ys) xs.length (params (seq k).weights (seq k).bias)) := by
    intro k
    rw [plain_project]
    obtain ⟨g, hg, he⟩ := (C45_linear_epoch (seq k) xs ys).2.2 hne
    have : seq (k + 1) = (seq k).trainEpoch xs ys := by simp only [hseq, Function.iterate_succ_apply']
    rw [this, he, hrate, isGrad_unique hg (mse_grad xs ys _)]
    rfl
  have := steps_values (mse_smooth xs ys hne hl) hlr hlr1 (o := plain (n + 1)) (fun h => by cases h) (y := p) (fun h => by cases h)
    (fun k => params (seq k).weights (seq k).bias) k (fun k _ => hstep k)
  rw [len_mul_self]
  exact this

/-- C147. Logistic regression with a rate of at most `4 / (meanSq + 1)`: after `k` epochs the mean cross-entropy exceeds that of any
parameters `p` by at most `‖p₀ - p‖² / (2 lr k)`. -/
theorem C147_logistic (o : Logistic n) (xs : List (Fin n → ℝ)) (ys : List UInt8) (hne : xs ≠ []) (hl : xs.length ≤ ys.length) (hlr : 0 < o.lr)
    (hlr1 : o.lr * (1 / 4 * (meanSq xs + 1)) ≤ 1) (p : Fin (n + 1) → ℝ) (k : ℕ) :
    let o' := (fun o => Logistic.trainEpoch o xs ys)^[k] o
    2 * o.lr * k * (crossEntropy xs ys (params o'.weights o'.bias) - crossEntropy xs ys p) ≤ len (params o.weights o.bias - p) ^ 2 := by
  intro o'
  set seq : ℕ → Logistic n := fun k => (fun o => Logistic.trainEpoch o xs ys)^[k] o with hseq
  have hrate : ∀ k, (seq k).lr = o.lr := by
    intro k
    induction k with
    | zero => rfl
    | succ k ih => rw [← ih]; simp only [hseq, Function.iterate_succ_apply']; exact (C46_epoch _ xs ys).2.1
  have hstep : ∀ k, params (seq (k + 1)).weights (seq (k + 1)).bias = (plain (n + 1)).project (params (seq k).weights (seq k).bias
      - o.lr • meanGrad (fun s y => sigmoid s - labelF y) (xs.zip ys) xs.length (params (seq k).weights (seq k).bias)) := by
    intro k
    rw [plain_project]
    obtain ⟨g, hg, he⟩ := (C46_epoch (seq k) xs ys).2.2 hne
    have : seq (k + 1) = (seq k).trainEpoch xs ys := by simp only [hseq, Function.iterate_succ_apply']
    rw [this, he, hrate, isGrad_unique hg (entropy_grad xs ys _)]
    rfl
  have := steps_values (entropy_smooth xs ys hne hl) hlr hlr1 (o := plain (n + 1)) (fun h => by cases h) (y := p) (fun h => by cases h)
    (fun k => params (seq k).weights (seq k).bias) k (fun k _ => hstep k)
  rw [len_mul_self]
  exact this

/-- A strongly convex objective has a minimiser. -/
theorem exists_best {k : ℕ} {f : (Fin k → ℝ) → ℝ} {g : (Fin k → ℝ) → Fin k → ℝ} {μ L : ℝ} (hs : Smooth f g μ L) (hμ : 0 < μ) (hL : 0 < L)
    (hμL : μ ≤ L) : ∃ best, (∀ y, f best ≤ f y) ∧ g best = 0 := by
  have hc0 : 0 ≤ 1 - L⁻¹ * μ * (2 - L⁻¹ * L) := by
    rw [inv_mul_cancel₀ hL.ne']
    have : L⁻¹ * μ ≤ 1 := by rw [inv_mul_le_iff₀ hL]; linarith
    linarith
  have hc1 : 1 - L⁻¹ * μ * (2 - L⁻¹ * L) < 1 := by
    rw [inv_mul_cancel₀ hL.ne']
    have : 0 < L⁻¹ * μ := by positivity
    linarith
  set q : ℝ := Real.sqrt (1 - L⁻¹ * μ * (2 - L⁻¹ * L)) with hq
  have hq1 : q < 1 := by rw [hq, Real.sqrt_lt' one_pos]; simpa using hc1
  let T : EuclideanSpace ℝ (Fin k) → EuclideanSpace ℝ (Fin k) := fun x => WithLp.toLp 2 (WithLp.ofLp x - L⁻¹ • g (WithLp.ofLp x))
  have hT : ContractingWith ⟨q, Real.sqrt_nonneg _⟩ T := by
    refine ⟨by exact_mod_cast hq1, LipschitzWith.of_dist_le_mul fun x y => ?_⟩
    rw [dist_eq_norm, dist_eq_norm]
    have e1 : ‖T x - T y‖ = len ((WithLp.ofLp x - L⁻¹ • g (WithLp.ofLp x)) - (WithLp.ofLp y - L⁻¹ • g (WithLp.ofLp y))) := by
      rw [len_norm]; rfl
    have e2 : ‖x - y‖ = len (WithLp.ofLp x - WithLp.ofLp y) := by rw [len_norm]; rfl
    rw [e1, e2]
    have h1 := hs.contract hμ.le hL (lr := L⁻¹) (by positivity) (by rw [inv_mul_cancel₀ hL.ne']; norm_num) (WithLp.ofLp y) (WithLp.ofLp x)
    rw [← len_mul_self, ← len_mul_self] at h1
    have h2 : q ^ 2 = 1 - L⁻¹ * μ * (2 - L⁻¹ * L) := Real.sq_sqrt hc0
    rw [← h2, ← mul_pow] at h1
    have h3 := abs_le_of_sq_le_sq h1 (mul_nonneg (Real.sqrt_nonneg _) (len_nonneg _))
    rw [abs_of_nonneg (len_nonneg _)] at h3
    exact h3
  have hfix := hT.fixedPoint_isFixedPt
  set z := ContractingWith.fixedPoint T hT with hz
  have hg : g (WithLp.ofLp z) = 0 := by
    have h1 : WithLp.ofLp z - L⁻¹ • g (WithLp.ofLp z) = WithLp.ofLp z := congrArg WithLp.ofLp hfix
    have h2 : L⁻¹ • g (WithLp.ofLp z) = 0 := by simpa using h1
    exact (smul_eq_zero.1 h2).resolve_left (inv_ne_zero hL.ne')
  refine ⟨WithLp.ofLp z, fun y => ?_, hg⟩
  have := hs.lower (WithLp.ofLp z) (y - WithLp.ofLp z)
  rw [show (fun i => WithLp.ofLp z i + (y - WithLp.ofLp z) i) = y from funext fun i => by simp, hg] at this
  have h0 : inner (0 : Fin k → ℝ) (y - WithLp.ofLp z) = 0 := by simp [Opt.inner]
  have h1 := mul_nonneg (by linarith : 0 ≤ μ / 2) (inner_self_nonneg (y - WithLp.ofLp z))
  linarith

/-- C147. Ridge regression with a positive penalty and a rate below `2 / L`, `L = 2 (meanSq + 1) + 2 α`: there is one minimiser of the penalised
error, and each epoch brings the parameters closer to it by a factor `q < 1` that does not depend on where training starts. -/
theorem C147_ridge (alpha lr : ℝ) (ha : 0 < alpha) (xs : List (Fin n → ℝ)) (ys : List ℝ) (hne : xs ≠ []) (hl : xs.length ≤ ys.length)
    (hlr : 0 < lr) (hlr2 : lr * (2 * (meanSq xs + 1) + 2 * alpha) < 2) :
    ∃ (best : Fin (n + 1) → ℝ) (q : ℝ), (∀ p, p ≠ best → ridgeLoss alpha xs ys best < ridgeLoss alpha xs ys p) ∧ 0 ≤ q ∧ q < 1 ∧
      q ^ 2 = 1 - lr * min 1 (2 * alpha / (2 * meanSq xs + 1)) * (2 - lr * (2 * (meanSq xs + 1) + 2 * alpha)) ∧
      ∀ (o : Ridge n), o.alpha = alpha → o.lr = lr → ∀ k : ℕ,
        let o' := (fun o => Ridge.trainEpoch o xs ys)^[k] o
        len (params o'.weights o'.bias - best) ≤ q ^ k * len (params o.weights o.bias - best) := by
  have hs := ridge_smooth alpha ha xs ys hne hl
  set μ := min 1 (2 * alpha / (2 * meanSq xs + 1)) with hμdef
  set L := 2 * (meanSq xs + 1) + 2 * alpha with hLdef
  have hR : 0 ≤ meanSq xs := div_nonneg (List.sum_nonneg (by
    intro a h
    obtain ⟨x, -, rfl⟩ := List.mem_map.1 h
    exact Finset.sum_nonneg fun i _ => sq_nonneg _)) (by positivity)
  have hμ : 0 < μ := lt_min one_pos (by positivity)
  have hμ1 : μ ≤ 1 := min_le_left _ _
  have hL : 0 < L := by rw [hLdef]; linarith
  have hμL : μ ≤ L := by rw [hLdef]; linarith
  obtain ⟨best, hbest, hg⟩ := exists_best hs hμ hL hμL
  have hc0 : 0 ≤ 1 - lr * μ * (2 - lr * L) := by
    have h1 : lr * μ * (2 - lr * L) ≤ lr * L * (2 - lr * L) :=
      mul_le_mul_of_nonneg_right (mul_le_mul_of_nonneg_left hμL hlr.le) (by linarith)
    nlinarith [sq_nonneg (lr * L - 1)]
  have hc1 : 1 - lr * μ * (2 - lr * L) < 1 := by
    have : 0 < lr * μ * (2 - lr * L) := mul_pos (mul_pos hlr hμ) (by linarith)
    linarith
  have hq2 : Real.sqrt (1 - lr * μ * (2 - lr * L)) ^ 2 = 1 - lr * μ * (2 - lr * L) := Real.sq_sqrt hc0
  have hq1 : Real.sqrt (1 - lr * μ * (2 - lr * L)) < 1 := by rw [Real.sqrt_lt' one_pos]; simpa using hc1
  have hq0 := Real.sqrt_nonneg (1 - lr * μ * (2 - lr * L))
  generalize Real.sqrt (1 - lr * μ * (2 - lr * L)) = q at hq2 hq1 hq0
  refine ⟨best, q, fun p hp => ?_, hq0, hq1, hq2, fun o hoa hol k => ?_⟩
  · have := hs.lower best (p - best)
    rw [show (fun i => best i + (p - best) i) = p from funext fun i => by simp, hg] at this
    have h0 : inner (0 : Fin (n + 1) → ℝ) (p - best) = 0 := by simp [Opt.inner]
    have h1 : 0 < inner (p - best) (p - best) := by
      refine lt_of_le_of_ne (inner_self_nonneg _) fun h => hp ?_
      have := (dotProduct_self_eq_zero (v := p - best)).1 h.symm
      exact sub_eq_zero.1 this
    have := mul_pos (by linarith : 0 < μ / 2) h1
    linarith
  · intro o'
    set seq : ℕ → Ridge n := fun k => (fun o => Ridge.trainEpoch o xs ys)^[k] o with hseq
    have hsucc : ∀ k, seq (k + 1) = (seq k).trainEpoch xs ys := fun k => by simp only [hseq, Function.iterate_succ_apply']
    have hrate : ∀ k, (seq k).lr = lr ∧ (seq k).alpha = alpha := by
      intro k
      induction k with
      | zero => exact ⟨hol, hoa⟩
      | succ k ih =>
        rw [hsucc]
        exact ⟨(C45_ridge_epoch _ xs ys).2.1.trans ih.1, (C45_ridge_epoch _ xs ys).2.2.1.trans ih.2⟩
    have key : ∀ k, len (params (seq k).weights (seq k).bias - best) ≤ q ^ k * len (params o.weights o.bias - best) := by
      intro k
      induction k with
      | zero => simp [hseq]
      | succ k ih =>
        obtain ⟨g, hg', he⟩ := (C45_ridge_epoch (seq k) xs ys).2.2.2 hne
        rw [(hrate k).2] at hg'
        have e : params (seq (k + 1)).weights (seq (k + 1)).bias - best =
            (params (seq k).weights (seq k).bias - lr • ridgeGrad alpha xs ys (params (seq k).weights (seq k).bias)) -
              (best - lr • ridgeGrad alpha xs ys best) := by
          rw [hsucc, he, (hrate k).1, isGrad_unique hg' (ridge_grad alpha xs ys _), hg, smul_zero, sub_zero]
          rfl
        have h1 := hs.contract hμ.le hL hlr.le hlr2.le best (params (seq k).weights (seq k).bias)
        rw [← e, ← len_mul_self, ← len_mul_self, ← hq2, ← mul_pow] at h1
        have h2 := abs_le_of_sq_le_sq h1 (mul_nonneg hq0 (len_nonneg _))
        rw [abs_of_nonneg (len_nonneg _)] at h2
        rw [pow_succ', mul_assoc]
        exact h2.trans (mul_le_mul_of_nonneg_left ih hq0)
    exact key k

-- Data sets and rates that meet the hypotheses.
example : ([![1], ![2]] : List (Fin 1 → ℝ)) ≠ [] ∧ (1 / 10 : ℝ) * (2 * (meanSq [![1], ![2]] + 1)) ≤ 1 ∧
    (1 / 10 : ℝ) * (2 * (meanSq [![1], ![2]] + 1) + 2 * 1) < 2 ∧ (1 : ℝ) * (1 / 4 * (meanSq [![1], ![2]] + 1)) ≤ 1 := by
  refine ⟨by simp, ?_, ?_, ?_⟩ <;> (unfold meanSq; norm_num)

end Verif.ML
