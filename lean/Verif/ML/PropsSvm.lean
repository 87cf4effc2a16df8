import Verif.ML.PropsMargin
import Verif.ML.PropsConv

/-!
# Training of the linear SVM (C150)

`(trainEpoch xs ys)^[k] o` is the model after `k` epochs from the model `o`. `hingeLoss (1 / (c m)) xs ys` is the loss that one epoch takes a
subgradient of (C86). The loss may rise in single epochs, so the bounds are on the mean over the epochs and on the best of them.
-/

namespace Verif.ML

open Verif.Mat Verif.Opt

variable {n : ℕ}

/-- The mean of vectors of signs times inputs is no longer than the inputs. -/
theorem meanGrad_sq {β : Type*} (s : ℝ → β → ℝ) (hs : ∀ t y, |s t y| ≤ 1) (xs : List (Fin n → ℝ)) (ys : List β) (hne : xs ≠ [])
    (hl : xs.length ≤ ys.length) (p : Fin (n + 1) → ℝ) :
    inner (meanGrad s (xs.zip ys) xs.length p) (meanGrad s (xs.zip ys) xs.length p) ≤ meanSq xs + 1 := by
  have hm : (0 : ℝ) < xs.length := by exact_mod_cast List.length_pos_iff.2 hne
  set h := meanGrad s (xs.zip ys) xs.length p with hh
  have e1 := inner_meanGrad s (xs.zip ys) xs.length p h
  rw [← hh] at e1
  have e2 : ((xs.zip ys).map fun e => s (lin p e.1) e.2 * lin h e.1).sum / xs.length ≤
      ((xs.zip ys).map fun e => 1 / 2 * inner h h + (∑ j, aug e.1 j ^ 2) * (1 / 2)).sum / xs.length := by
    refine sum_div_le _ _ _ _ hm.le fun e _ => ?_
    have h1 := lin_sq_le h e.1
    have h2 := hs (lin p e.1) e.2
    have h3 : s (lin p e.1) e.2 * lin h e.1 ≤ |lin h e.1| := by
      refine (le_abs_self _).trans ?_
      rw [abs_mul]
      exact mul_le_of_le_one_left (abs_nonneg _) h2
    have h4 : 0 ≤ ∑ j, aug e.1 j ^ 2 := Finset.sum_nonneg fun j _ => sq_nonneg _
    have h5 : 0 ≤ inner h h := Finset.sum_nonneg fun j _ => mul_self_nonneg _
    have h6 : |lin h e.1| ≤ 1 / 2 * inner h h + (∑ j, aug e.1 j ^ 2) * (1 / 2) := by
      apply abs_le_of_sq_le_sq _ (by positivity)
      generalize (∑ j, aug e.1 j ^ 2) = A at *
      nlinarith [sq_nonneg (A - inner h h)]
    exact h3.trans h6
  have e3 : ((xs.zip ys).map fun e => 1 / 2 * inner h h + (∑ j, aug e.1 j ^ 2) * (1 / 2)).sum / xs.length =
      1 / 2 * inner h h + 1 / 2 * (meanSq xs + 1) := by
    rw [sum_add_map, sum_mul_map _ (fun e : (Fin n → ℝ) × β => ∑ j, aug e.1 j ^ 2), zip_map_fst xs ys hl (fun x => ∑ j, aug x j ^ 2), ← aug_mean xs hne]
    have : ((xs.zip ys).map fun _ => 1 / 2 * inner h h).sum = xs.length * (1 / 2 * inner h h) := by
      rw [List.map_const', List.sum_replicate, List.length_zip, min_eq_left hl, nsmul_eq_mul]
    rw [this]
    field_simp
  rw [e3] at e2
  linarith

/-- The subgradient one epoch takes. -/
noncomputable def hingePart (xs : List (Fin n → ℝ)) (ys : List ℤ) (p : Fin (n + 1) → ℝ) : Fin (n + 1) → ℝ :=
  meanGrad (fun s y => if sign y * s < 1 then -sign y else 0) (xs.zip ys) xs.length p

theorem hingePart_sq (xs : List (Fin n → ℝ)) (ys : List ℤ) (hne : xs ≠ []) (hl : xs.length ≤ ys.length) (p : Fin (n + 1) → ℝ) :
    ∑ j, hingePart xs ys p j ^ 2 ≤ meanSq xs + 1 := by
  have := meanGrad_sq (fun s (y : ℤ) => if sign y * s < 1 then -sign y else 0) (fun t y => by
    split_ifs
    · unfold sign; split_ifs <;> norm_num
    · norm_num) xs ys hne hl p
  unfold hingePart
  unfold Opt.inner at this
  simpa only [sq] using this

/-- One epoch, weights and bias. -/
theorem epoch_params (o : Svm n) (xs : List (Fin n → ℝ)) (ys : List ℤ) (hc : 0 < o.c) (hne : xs ≠ []) :
    IsSubgrad (hingeLoss (1 / (o.c * xs.length)) xs ys)
      (fun j => hingePart xs ys (params o.weights o.bias) j +
        (Fin.snoc (α := fun _ => ℝ) (fun i : Fin n => 2 / (o.c * xs.length) * o.weights i) 0 : Fin (n + 1) → ℝ) j) (params o.weights o.bias) ∧
    params (o.trainEpoch xs ys).weights (o.trainEpoch xs ys).bias = fun j => params o.weights o.bias j - o.lr *
      (hingePart xs ys (params o.weights o.bias) j +
        (Fin.snoc (α := fun _ => ℝ) (fun i : Fin n => 2 / (o.c * xs.length) * o.weights i) 0 : Fin (n + 1) → ℝ) j) := by
  constructor
  · have := hinge_subgrad (1 / (o.c * xs.length)) (by positivity) xs ys (params o.weights o.bias)
    simp only [params_castSucc] at this
    have e : (2 * (1 / (o.c * (xs.length : ℝ)))) = 2 / (o.c * xs.length) := by ring
    rw [e] at this
    exact this
  · unfold Svm.trainEpoch hingePart meanGrad
    rw [if_neg (by simpa using hne), svm_sums]
    dsimp only
    rw [mapLoop (fun i w => w - o.lr * ((((xs.zip ys).map fun d =>
      (if sign d.2 * lin (params o.weights o.bias) d.1 < 1 then -sign d.2 else 0) * d.1 i).sum / xs.length)
        + (1 + 1) / (o.c * xs.length) * w))]
    funext j
    refine Fin.lastCases ?_ (fun i => ?_) j
    · simp only [params_last, aug_last, mul_one, Fin.snoc_last, add_zero]
    · simp only [params_castSucc, aug_castSucc, Fin.snoc_castSucc]
      ring

/-- One epoch keeps the weights within the bound. -/
theorem weights_bound (o : Svm n) (xs : List (Fin n → ℝ)) (ys : List ℤ) (hc : 0 < o.c) (hne : xs ≠ []) (hl : xs.length ≤ ys.length)
    (hlr : 0 < o.lr) (hlr1 : o.lr * (2 / (o.c * xs.length)) ≤ 1) (hw : (2 / (o.c * xs.length)) ^ 2 * ∑ i, o.weights i ^ 2 ≤ meanSq xs + 1) :
    (2 / (o.c * xs.length)) ^ 2 * ∑ i, (o.trainEpoch xs ys).weights i ^ 2 ≤ meanSq xs + 1 := by
  have hm : (0 : ℝ) < xs.length := by exact_mod_cast List.length_pos_iff.2 hne
  set lam := 2 / (o.c * (xs.length : ℝ)) with hlam
  have hlam0 : 0 < lam := by positivity
  have hstep : ∀ i, (o.trainEpoch xs ys).weights i = o.weights i - o.lr * (hingePart xs ys (params o.weights o.bias) i.castSucc + lam * o.weights i) := by
    intro i
    have := congrFun (epoch_params o xs ys hc hne).2 i.castSucc
    rw [params_castSucc, params_castSucc, Fin.snoc_castSucc] at this
    exact this
  have hh := hingePart_sq xs ys hne hl (params o.weights o.bias)
  rw [Fin.sum_univ_castSucc] at hh
  have hlast := sq_nonneg (hingePart xs ys (params o.weights o.bias) (Fin.last n))
  set h := hingePart xs ys (params o.weights o.bias)
  have key : ∀ i, lam ^ 2 * (o.trainEpoch xs ys).weights i ^ 2 ≤ (1 - o.lr * lam) * (lam ^ 2 * o.weights i ^ 2) + o.lr * lam * h i.castSucc ^ 2 := by
    intro i
    rw [hstep]
    have ha : 0 ≤ o.lr * lam := by positivity
    generalize o.weights i = w
    generalize h i.castSucc = t
    have : (1 - o.lr * lam) * (lam ^ 2 * w ^ 2) + o.lr * lam * t ^ 2 - lam ^ 2 * (w - o.lr * (t + lam * w)) ^ 2 =
        (1 - o.lr * lam) * (o.lr * lam) * (lam * w + t) ^ 2 := by ring
    have h2 : 0 ≤ (1 - o.lr * lam) * (o.lr * lam) * (lam * w + t) ^ 2 := by
      apply mul_nonneg (mul_nonneg (by linarith) ha) (sq_nonneg _)
    linarith
  rw [Finset.mul_sum]
  have hsum := Finset.sum_le_sum fun i (_ : i ∈ Finset.univ) => key i
  refine hsum.trans ?_
  rw [Finset.sum_add_distrib, ← Finset.mul_sum, ← Finset.mul_sum, ← Finset.mul_sum]
  have ha : 0 ≤ o.lr * lam := by positivity
  have h1 := mul_le_mul_of_nonneg_left hw (show 0 ≤ 1 - o.lr * lam by linarith)
  have h2 : o.lr * lam * ∑ i : Fin n, h i.castSucc ^ 2 ≤ o.lr * lam * (meanSq xs + 1) := mul_le_mul_of_nonneg_left (by linarith) ha
  linarith

/-- The step of one epoch is bounded. -/
theorem step_sq (o : Svm n) (xs : List (Fin n → ℝ)) (ys : List ℤ) (hne : xs ≠ []) (hl : xs.length ≤ ys.length)
    (hw : (2 / (o.c * xs.length)) ^ 2 * ∑ i, o.weights i ^ 2 ≤ meanSq xs + 1) :
    ∑ j, (hingePart xs ys (params o.weights o.bias) j +
      (Fin.snoc (α := fun _ => ℝ) (fun i : Fin n => 2 / (o.c * xs.length) * o.weights i) 0 : Fin (n + 1) → ℝ) j) ^ 2 ≤ 4 * (meanSq xs + 1) := by
  have hh := hingePart_sq xs ys hne hl (params o.weights o.bias)
  set r : Fin (n + 1) → ℝ := Fin.snoc (α := fun _ => ℝ) (fun i : Fin n => 2 / (o.c * xs.length) * o.weights i) 0 with hr
  have hrs : ∑ j, r j ^ 2 ≤ meanSq xs + 1 := by
    rw [Fin.sum_univ_castSucc]
    simp only [hr, Fin.snoc_castSucc, Fin.snoc_last, mul_pow]
    rw [← Finset.mul_sum]
    simpa using hw
  have : ∀ j, (hingePart xs ys (params o.weights o.bias) j + r j) ^ 2 ≤ 2 * hingePart xs ys (params o.weights o.bias) j ^ 2 + 2 * r j ^ 2 := fun j => by
    nlinarith [sq_nonneg (hingePart xs ys (params o.weights o.bias) j - r j)]
  refine (Finset.sum_le_sum fun j _ => this j).trans ?_
  rw [Finset.sum_add_distrib, ← Finset.mul_sum, ← Finset.mul_sum]
  linarith

/-- A step along a subgradient, seen from any point. -/
theorem descend {k : ℕ} {f : (Fin k → ℝ) → ℝ} {g q : Fin k → ℝ} (hg : IsSubgrad f g q) {lr : ℝ} (hlr : 0 ≤ lr) (p : Fin k → ℝ) :
    2 * lr * (f q - f p) ≤ ∑ j, (q j - p j) ^ 2 - ∑ j, (q j - lr * g j - p j) ^ 2 + lr ^ 2 * ∑ j, g j ^ 2 := by
  have e : ∑ j, (q j - lr * g j - p j) ^ 2 = ∑ j, (q j - p j) ^ 2 + 2 * lr * ∑ j, g j * (p j - q j) + lr ^ 2 * ∑ j, g j ^ 2 := by
    rw [Finset.mul_sum, Finset.mul_sum, ← Finset.sum_add_distrib, ← Finset.sum_add_distrib]
    exact Finset.sum_congr rfl fun j _ => by ring
  rw [e]
  have h3 := mul_le_mul_of_nonneg_left (hg p) (show 0 ≤ 2 * lr by linarith)
  linarith

/-- One epoch of training towards any parameters. -/
theorem toward (o : Svm n) (xs : List (Fin n → ℝ)) (ys : List ℤ) (hc : 0 < o.c) (hne : xs ≠ []) (hl : xs.length ≤ ys.length)
    (hlr : 0 < o.lr) (hw : (2 / (o.c * xs.length)) ^ 2 * ∑ i, o.weights i ^ 2 ≤ meanSq xs + 1) (p : Fin (n + 1) → ℝ) :
    2 * o.lr * (hingeLoss (1 / (o.c * xs.length)) xs ys (params o.weights o.bias) - hingeLoss (1 / (o.c * xs.length)) xs ys p) ≤
      ∑ j, (params o.weights o.bias j - p j) ^ 2
        - ∑ j, (params (o.trainEpoch xs ys).weights (o.trainEpoch xs ys).bias j - p j) ^ 2 + o.lr ^ 2 * (4 * (meanSq xs + 1)) := by
  obtain ⟨hg, he⟩ := epoch_params o xs ys hc hne
  have hs := step_sq o xs ys hne hl hw
  rw [he]
  exact (descend hg hlr.le p).trans (add_le_add_right (mul_le_mul_of_nonneg_left hs (sq_nonneg o.lr)) _)

theorem len_conv {B M : ℝ} (hB : 0 < B) (hM : 0 ≤ M) (w : Fin n → ℝ) : len w ≤ √M * (B / 2) ↔ (2 / B) ^ 2 * ∑ i, w i ^ 2 ≤ M := by
  have hs : 0 ≤ ∑ i, w i ^ 2 := Finset.sum_nonneg fun i _ => sq_nonneg _
  have e : √M * (B / 2) = √(M * (B / 2) ^ 2) := by rw [Real.sqrt_mul hM, Real.sqrt_sq (by positivity)]
  rw [e]
  unfold len
  rw [Real.sqrt_le_sqrt_iff (by positivity)]
  generalize (∑ i, w i ^ 2) = S at *
  have e2 : (2 / B) ^ 2 * S = S / (B / 2) ^ 2 := by field_simp
  rw [e2, div_le_iff₀ (by positivity)]

/-- C150. The weights stay bounded: with a rate of at most `c m / 2` and weights no longer than `√(meanSq + 1) c m / 2` at the start, they
are no longer than that after any number of epochs. -/
theorem C150_bounded (o : Svm n) (xs : List (Fin n → ℝ)) (ys : List ℤ) (hc : 0 < o.c) (hne : xs ≠ []) (hl : xs.length ≤ ys.length)
    (hlr : 0 < o.lr) (hlr1 : o.lr ≤ o.c * xs.length / 2) (hw : len o.weights ≤ √(meanSq xs + 1) * (o.c * xs.length / 2)) (k : ℕ) :
    let o' := (fun o => Svm.trainEpoch o xs ys)^[k] o
    o'.lr = o.lr ∧ o'.c = o.c ∧ len o'.weights ≤ √(meanSq xs + 1) * (o.c * xs.length / 2) := by
  have hm : (0 : ℝ) < xs.length := by exact_mod_cast List.length_pos_iff.2 hne
  have hlr2 : o.lr * (2 / (o.c * xs.length)) ≤ 1 := by
    rw [mul_div_assoc', div_le_one (by positivity)]
    linarith
  have hM : 0 ≤ meanSq xs + 1 := by
    have := hingePart_sq xs ys hne hl 0
    exact (Finset.sum_nonneg fun j _ => sq_nonneg _).trans this
  have conv := len_conv (n := n) (show 0 < o.c * (xs.length : ℝ) by positivity) hM
  induction k with
  | zero => exact ⟨rfl, rfl, hw⟩
  | succ k ih =>
    simp only [Function.iterate_succ_apply']
    obtain ⟨a, b, c⟩ := ih
    set q := (fun o => Svm.trainEpoch o xs ys)^[k] o
    obtain ⟨_, h2, h3, _⟩ := C86_epoch q (by rw [b]; exact hc) xs ys
    refine ⟨h2.trans a, h3.trans b, ?_⟩
    rw [conv] at c ⊢
    have := weights_bound q xs ys (by rw [b]; exact hc) hne hl (by rw [a]; exact hlr) (by rw [a, b]; exact hlr2) (by rw [b]; exact c)
    rwa [b] at this

/-- C150. The losses of the first `k` epochs exceed that of any parameters `p`, on average, by at most
`‖p₀ - p‖² / (2 lr k) + 2 lr (meanSq + 1)`. -/
theorem C150_mean (o : Svm n) (xs : List (Fin n → ℝ)) (ys : List ℤ) (hc : 0 < o.c) (hne : xs ≠ []) (hl : xs.length ≤ ys.length)
    (hlr : 0 < o.lr) (hlr1 : o.lr ≤ o.c * xs.length / 2) (hw : len o.weights ≤ √(meanSq xs + 1) * (o.c * xs.length / 2))
    (p : Fin (n + 1) → ℝ) {k : ℕ} (hk : 0 < k) :
    let loss := hingeLoss (1 / (o.c * xs.length)) xs ys
    let after := fun t => (fun o => Svm.trainEpoch o xs ys)^[t] o
    (∑ t ∈ Finset.range k, loss (params (after t).weights (after t).bias)) / k ≤
      loss p + len (params o.weights o.bias - p) ^ 2 / (2 * o.lr * k) + 2 * o.lr * (meanSq xs + 1) := by
  intro loss after
  have hm : (0 : ℝ) < xs.length := by exact_mod_cast List.length_pos_iff.2 hne
  have hM : 0 ≤ meanSq xs + 1 := by
    have := hingePart_sq xs ys hne hl 0
    exact (Finset.sum_nonneg fun j _ => sq_nonneg _).trans this
  have conv := len_conv (n := n) (show 0 < o.c * (xs.length : ℝ) by positivity) hM
  have tele : ∀ k, 2 * o.lr * ∑ t ∈ Finset.range k, (loss (params (after t).weights (after t).bias) - loss p) ≤
      ∑ j, (params o.weights o.bias j - p j) ^ 2 - ∑ j, (params (after k).weights (after k).bias j - p j) ^ 2 + k * (o.lr ^ 2 * (4 * (meanSq xs + 1))) := by
    intro k
    induction k with
    | zero => simp [after]
    | succ k ih =>
      rw [Finset.sum_range_succ, mul_add]
      obtain ⟨a, b, c⟩ := C150_bounded o xs ys hc hne hl hlr hlr1 hw k
      have := toward (after k) xs ys (by rw [b]; exact hc) hne hl (by rw [a]; exact hlr) (by rw [b]; exact (conv _).1 c) p
      rw [a, b] at this
      have e : after (k + 1) = (after k).trainEpoch xs ys := Function.iterate_succ_apply' _ _ _
      rw [← e] at this
      push_cast
      linarith
  have h1 := tele k
  rw [Finset.sum_sub_distrib, Finset.sum_const, Finset.card_range, nsmul_eq_mul] at h1
  have h2 : 0 ≤ ∑ j, (params (after k).weights (after k).bias j - p j) ^ 2 := Finset.sum_nonneg fun j _ => sq_nonneg _
  have e : len (params o.weights o.bias - p) ^ 2 = ∑ j, (params o.weights o.bias j - p j) ^ 2 := by
    unfold len
    rw [Real.sq_sqrt (Finset.sum_nonneg fun j _ => sq_nonneg _)]
    rfl
  rw [e]
  have hk0 : (0 : ℝ) < k := by exact_mod_cast hk
  generalize (∑ t ∈ Finset.range k, loss (params (after t).weights (after t).bias)) = S at *
  generalize (∑ j, (params o.weights o.bias j - p j) ^ 2) = D at *
  rw [div_le_iff₀ hk0]
  have e2 : (loss p + D / (2 * o.lr * k) + 2 * o.lr * (meanSq xs + 1)) * k = (2 * o.lr * (k * loss p) + D + k * (o.lr ^ 2 * (4 * (meanSq xs + 1)))) / (2 * o.lr) := by
    field_simp
    ring
  rw [e2, le_div_iff₀ (by positivity)]
  linarith

/-- C150. Among the first `k` epochs there is one with a loss within that distance of the loss of any given `p`. -/
theorem C150_best (o : Svm n) (xs : List (Fin n → ℝ)) (ys : List ℤ) (hc : 0 < o.c) (hne : xs ≠ []) (hl : xs.length ≤ ys.length)
    (hlr : 0 < o.lr) (hlr1 : o.lr ≤ o.c * xs.length / 2) (hw : len o.weights ≤ √(meanSq xs + 1) * (o.c * xs.length / 2))
    (p : Fin (n + 1) → ℝ) {k : ℕ} (hk : 0 < k) :
    ∃ t < k, let o' := (fun o => Svm.trainEpoch o xs ys)^[t] o
      hingeLoss (1 / (o.c * xs.length)) xs ys (params o'.weights o'.bias) ≤ hingeLoss (1 / (o.c * xs.length)) xs ys p
        + len (params o.weights o.bias - p) ^ 2 / (2 * o.lr * k) + 2 * o.lr * (meanSq xs + 1) := by
  have h := C150_mean o xs ys hc hne hl hlr hlr1 hw p hk
  by_contra hcon
  push Not at hcon
  have hk0 : (0 : ℝ) < k := by exact_mod_cast hk
  dsimp only at h hcon
  rw [div_le_iff₀ hk0] at h
  have := Finset.sum_lt_sum_of_nonempty (s := Finset.range k) (Finset.nonempty_range_iff.2 hk.ne') (fun t ht => not_le.1 (hcon t (Finset.mem_range.1 ht)))
  rw [Finset.sum_const, Finset.card_range, nsmul_eq_mul] at this
  linarith

-- Two examples on a line, from zero weights: a hundred epochs at rate 1/10 suffice for a loss within 5 of any loss at distance ten.
example (p : Fin 2 → ℝ) : ∃ t < 100, let o' := (fun o => Svm.trainEpoch o [![1], ![-1]] [1, -1])^[t] (⟨![0], 0, 1 / 10, 1⟩ : Svm 1)
    hingeLoss (1 / (1 * (2 : ℕ))) [![1], ![-1]] [1, -1] (params o'.weights o'.bias) ≤
      hingeLoss (1 / (1 * (2 : ℕ))) [![1], ![-1]] [1, -1] p + len (params (![0] : Fin 1 → ℝ) 0 - p) ^ 2 / 20 + 2 * (1 / 10) * 2 := by
  have e : meanSq [(![1] : Fin 1 → ℝ), ![-1]] = 1 := by norm_num [meanSq]
  have h := C150_best (⟨![0], 0, 1 / 10, 1⟩ : Svm 1) [![1], ![-1]] [1, -1] (by norm_num) (by simp) (by simp) (by norm_num) (by norm_num)
    (by
      have : len (![0] : Fin 1 → ℝ) = 0 := by simp [len]
      rw [this]
      positivity) p (k := 100) (by norm_num)
  rw [e] at h
  obtain ⟨t, ht, h⟩ := h
  refine ⟨t, ht, ?_⟩
  dsimp only at h ⊢
  norm_num at h ⊢
  exact h

end Verif.ML
