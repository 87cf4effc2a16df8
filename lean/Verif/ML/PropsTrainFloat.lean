import Verif.ML.LinearFloat
import Verif.ML.PropsConv
import Verif.Stats.PropsCovFloat

/-!
# Training in rounded arithmetic (C188)

`Fl fl` is the reals with every operation rounded by `fl`; `Accurate fl u`: one rounding moves a number by at most the fraction `u` of it;
`growth u d = (1 - u)⁻ᵈ - 1` is the accumulated effect of `d` roundings.  `mse`, `ridgeLoss`, `meanSq` and `len` are those of C45 and C147: exact
functions of the values of the data.
-/

namespace Verif.ML

open Verif.Mat Verif.Opt Verif.Simd Verif.Round Verif.Stats

variable {n : ℕ} {fl : ℝ → ℝ} {u : ℝ}

/-- The values of the labels. -/
def labels (ys : List (Fl fl)) : List ℝ := ys.map Fl.val

/-- Conversion of a count: rounded. -/
noncomputable def flCount (k : ℕ) : Fl fl := ⟨fl k⟩

/-- The parameters `(w₀, …, b)` as real numbers. -/
def Gen.Linear.par (o : Gen.Linear (Fl fl) n) : Fin (n + 1) → ℝ := params (fun i => (o.weights i).val) o.bias.val

/-- The parameters `(w₀, …, b)` as real numbers. -/
def Gen.Ridge.par (o : Gen.Ridge (Fl fl) n) : Fin (n + 1) → ℝ := params (fun i => (o.weights i).val) o.bias.val

/-- Twice the mean of `|y| √(‖x‖² + 1)`: the size of the labels as the gradient sees it. -/
noncomputable def meanPull (xs : List (Fin n → ℝ)) (ys : List ℝ) : ℝ :=
  2 * (((xs.zip ys).map fun d => |d.2| * √(∑ i, d.1 i ^ 2 + 1)).sum / xs.length)

/-! ## Rounding errors of the pieces -/

theorem _root_.Verif.Stats.Err.mono' (h0 : 0 ≤ u) (hu : u < 1) {d e : ℕ} (hde : d ≤ e) {a s A : ℝ} (h : Err u d a s A) : Err u e a s A := by
  refine ⟨h.1.trans (mul_le_mul_of_nonneg_right ?_ ((abs_nonneg _).trans h.2)), h.2⟩
  unfold growth
  have h1 : 0 < (1 - u) ^ e := pow_pos (by linarith) e
  have h2 : (1 - u) ^ e ≤ (1 - u) ^ d := pow_le_pow_of_le_one (by linarith) (by linarith) hde
  linarith [inv_anti₀ h1 h2]

theorem _root_.Verif.Stats.Err.size {d : ℕ} {a s A B : ℝ} (h0 : 0 ≤ u) (hu : u < 1) (h : Err u d a s A) (hAB : A ≤ B) : Err u d a s B :=
  ⟨h.1.trans (mul_le_mul_of_nonneg_left hAB (growth_pos h0 hu d)), h.2.trans hAB⟩

theorem _root_.Verif.Stats.Err.val (x : ℝ) : Err u 0 x x |x| := by simp [Err, growth]

theorem _root_.Verif.Stats.Err.round (h : Accurate fl u) (hu : u < 1) {d : ℕ} {a s A : ℝ} (ha : Err u d a s A) : Err u (d + 1) (fl a) s A := by
  obtain ⟨t, ht, e⟩ := accurate_fac h hu a
  rw [e]
  exact ha.fac (accurate_nonneg h) hu ht

theorem _root_.Verif.Stats.Err.plus {d : ℕ} {a s A b t B : ℝ} (ha : Err u d a s A) (hb : Err u d b t B) : Err u d (a + b) (s + t) (A + B) := by
  refine ⟨?_, (abs_add_le _ _).trans (add_le_add ha.2 hb.2)⟩
  rw [show a + b - (s + t) = (a - s) + (b - t) by ring, mul_add]
  exact (abs_add_le _ _).trans (add_le_add ha.1 hb.1)

theorem _root_.Verif.Stats.Err.neg {d : ℕ} {a s A : ℝ} (ha : Err u d a s A) : Err u d (-a) (-s) A := by
  refine ⟨?_, by rw [abs_neg]; exact ha.2⟩
  rw [show -a - -s = -(a - s) by ring, abs_neg]; exact ha.1

theorem _root_.Verif.Stats.Err.minus {d : ℕ} {a s A b t B : ℝ} (ha : Err u d a s A) (hb : Err u d b t B) : Err u d (a - b) (s - t) (A + B) := by
  rw [sub_eq_add_neg, sub_eq_add_neg]; exact ha.plus hb.neg

theorem _root_.Verif.Stats.Err.times {d : ℕ} {a s A : ℝ} (ha : Err u d a s A) (x : ℝ) : Err u d (a * x) (s * x) (A * |x|) := by
  refine ⟨?_, ?_⟩
  · rw [← sub_mul, abs_mul, ← mul_assoc]; exact mul_le_mul_of_nonneg_right ha.1 (abs_nonneg _)
  · rw [abs_mul]; exact mul_le_mul_of_nonneg_right ha.2 (abs_nonneg _)

/-- `two * g / m` with its rounded count. -/
theorem _root_.Verif.Stats.Err.twoOver (h : Accurate fl u) (hu : u < 1) {d : ℕ} {a s A : ℝ} (ha : Err u d a s A) (m : ℕ) (_hm : 0 < m) :
    Err u (d + 4) (fl (fl (fl (1 + 1) * a) / fl m)) (2 * (s / m)) (2 * (A / m)) := by
  have h0 := accurate_nonneg h
  obtain ⟨t, ht, e⟩ := accurate_fac h hu (1 + 1)
  obtain ⟨r, hr, e'⟩ := accurate_fac h hu (m : ℝ)
  have h1 : Err u (d + 2) (fl (fl (1 + 1) * a)) (s * 2) (A * 2) := by
    have := ((ha.times (1 + 1)).fac h0 hu ht).round h hu
    rw [e, show (1 + 1) * t * a = a * (1 + 1) * t by ring]
    norm_num at this ⊢
    exact this
  have h2 := ((h1.times ((m : ℝ)⁻¹)).fac h0 hu (hr.inv hu)).round h hu
  rw [e', show fl (fl (1 + 1) * a) / ((m : ℝ) * r) = fl (fl (1 + 1) * a) * (m : ℝ)⁻¹ * r⁻¹ by rw [div_eq_mul_inv, mul_inv]; ring]
  rw [abs_of_nonneg (by positivity)] at h2
  rw [show 2 * (s / m) = s * 2 * (m : ℝ)⁻¹ by rw [div_eq_mul_inv]; ring, show 2 * (A / m) = A * 2 * (m : ℝ)⁻¹ by rw [div_eq_mul_inv]; ring]
  exact h2

/-- A rounded running sum of terms with errors. -/
theorem foldl_err (h : Accurate fl u) (hu : u < 1) {P : Type*} (y z Z : P → ℝ) {e : ℕ} : ∀ (ps : List P) {d : ℕ} {a s A : ℝ}, e ≤ d →
    (∀ p ∈ ps, Err u e (y p) (z p) (Z p)) → Err u d a s A →
    Err u (d + ps.length) (ps.foldl (fun acc p => fl (acc + y p)) a) (s + (ps.map z).sum) (A + (ps.map Z).sum)
  | [], d, a, s, A, _, _, ha => by simpa using ha
  | p :: ps, d, a, s, A, hd, hy, ha => by
    have h1 := (ha.plus ((hy p (by simp)).mono' (accurate_nonneg h) hu hd)).round h hu
    have h2 := foldl_err h hu y z Z ps (show e ≤ d + 1 by omega) (fun q hq => hy q (by simp [hq])) h1
    rw [List.foldl_cons]
    simp only [List.map_cons, List.sum_cons, List.length_cons]
    rw [show d + (ps.length + 1) = d + 1 + ps.length by omega, ← add_assoc, ← add_assoc]
    exact h2

theorem fl_foldl {P : Type*} (y : P → Fl fl) : ∀ (ps : List P) (a : Fl fl),
    (ps.foldl (fun acc p => acc + y p) a).val = ps.foldl (fun acc p => fl (acc + (y p).val)) a.val
  | [], _ => rfl
  | p :: ps, a => by rw [List.foldl_cons, List.foldl_cons, fl_foldl y ps]; rfl

theorem gen_mapLoop {α : Type*} {k : ℕ} (F : Fin k → α → α) (g : Fin k → α) :
    (rng k 0 k).foldl (fun g i => Function.update g i (F i (g i))) g = fun i => F i (g i) := by
  funext i
  rw [foldl_update (fun (g : Fin k → α) i => F i (g i)) _ (nodup_rng _ _ _)]
  · simp [mem_rng]
  · intro b b' r _ h1 _
    simp only [h1]

theorem gen_sums {α β : Type*} [Add α] [Mul α] (e : (Fin n → α) × β → α) (data : List ((Fin n → α) × β)) : ∀ g : (Fin n → α) × α,
    data.foldl (fun g d => Gen.accum (e d) d.1 g) g =
      (fun i => data.foldl (fun a d => a + e d * d.1 i) (g.1 i), data.foldl (fun a d => a + e d) g.2) := by
  induction data with
  | nil => intro g; rfl
  | cons d l ih =>
    intro g
    rw [List.foldl_cons, ih]
    simp only [Gen.accum, List.foldl_cons]
    rw [gen_mapLoop (fun i v => v + e d * d.1 i)]

/-- The sizes of the terms of a prediction error. -/
noncomputable def reach (p : Fin (n + 1) → ℝ) (d : (Fin n → ℝ) × ℝ) : ℝ := ∑ j, |p j| * |aug d.1 j| + |d.2|

theorem score_err (h : Accurate fl u) (hu : u < 1) (w : Fin n → Fl fl) (b : Fl fl) (x : Fin n → Fl fl) (y : Fl fl) :
    Err u (n + 2) (Gen.score w b x - y).val (lin (params (fun i => (w i).val) b.val) (valV x) - y.val)
      (reach (params (fun i => (w i).val) b.val) (valV x, y.val)) := by
  have h0 := accurate_nonneg h
  have h1 : Err u (1 + (rng n 0 n).length) (Gen.score w b x).val (b.val + ((rng n 0 n).map fun i => (w i).val * (x i).val).sum)
      (|b.val| + ((rng n 0 n).map fun i => |(w i).val| * |(x i).val|).sum) := by
    unfold Gen.score
    rw [fl_foldl]
    exact foldl_err h hu (fun i => fl ((w i).val * (x i).val)) _ _ (e := 1) _ le_rfl (fun i _ =>
      ((Err.val (w i).val).times (x i).val).round h hu) ((Err.val b.val).mono' h0 hu (by omega))
  rw [rng_full, List.length_finRange, ← Fin.sum_univ_def, ← Fin.sum_univ_def] at h1
  have h2 := (h1.minus ((Err.val y.val).mono' h0 hu (show 0 ≤ 1 + n by omega))).round h hu
  have e1 : lin (params (fun i => (w i).val) b.val) (valV x) = b.val + ∑ i, (w i).val * (x i).val := by
    rw [lin_params, add_comm]; rfl
  have e2 : reach (params (fun i => (w i).val) b.val) (valV x, y.val) = |b.val| + ∑ i, |(w i).val| * |(x i).val| + |y.val| := by
    unfold reach
    rw [Fin.sum_univ_castSucc]
    simp only [params_castSucc, params_last, aug_castSucc, aug_last, abs_one, mul_one]
    rw [add_comm |b.val|]; rfl
  rw [e1, e2, show n + 2 = 1 + n + 1 by omega]
  exact h2

/-- One example as real numbers. -/
def pairVal (d : (Fin n → Fl fl) × Fl fl) : (Fin n → ℝ) × ℝ := (valV d.1, d.2.val)

theorem pairs_val (xs : List (Fin n → Fl fl)) (ys : List (Fl fl)) : (xs.zip ys).map pairVal = (vals xs).zip (labels ys) := by
  unfold vals labels
  rw [List.zip_map]
  rfl

/-- Component `i` of the accumulated gradient. -/
theorem gradW_err (h : Accurate fl u) (hu : u < 1) (w : Fin n → Fl fl) (b : Fl fl) (data : List ((Fin n → Fl fl) × Fl fl)) (i : Fin n) :
    let p := params (fun i => (w i).val) b.val
    Err u (n + 3 + data.length) (data.foldl (fun a d => a + (Gen.score w b d.1 - d.2) * d.1 i) 0).val
      ((data.map pairVal).map fun d => (lin p d.1 - d.2) * aug d.1 i.castSucc).sum
      ((data.map pairVal).map fun d => reach p d * |aug d.1 i.castSucc|).sum := by
  intro p
  rw [fl_foldl, List.map_map, List.map_map]
  have := foldl_err h hu (fun d : (Fin n → Fl fl) × Fl fl => ((Gen.score w b d.1 - d.2) * d.1 i).val)
    ((fun d => (lin p d.1 - d.2) * aug d.1 i.castSucc) ∘ pairVal) ((fun d => reach p d * |aug d.1 i.castSucc|) ∘ pairVal) data (e := n + 3)
    le_rfl (fun d _ => by
      have := ((score_err h hu w b d.1 d.2).times (d.1 i).val).round h hu
      simp only [Function.comp, aug_castSucc]
      exact this) (err_zero _)
  rw [zero_add, zero_add] at this
  exact this

/-- The bias component of the accumulated gradient. -/
theorem gradB_err (h : Accurate fl u) (hu : u < 1) (w : Fin n → Fl fl) (b : Fl fl) (data : List ((Fin n → Fl fl) × Fl fl)) :
    let p := params (fun i => (w i).val) b.val
    Err u (n + 3 + data.length) (data.foldl (fun a d => a + (Gen.score w b d.1 - d.2)) 0).val
      ((data.map pairVal).map fun d => (lin p d.1 - d.2) * aug d.1 (Fin.last n)).sum
      ((data.map pairVal).map fun d => reach p d * |aug d.1 (Fin.last n)|).sum := by
  intro p
  rw [fl_foldl, List.map_map, List.map_map]
  have := foldl_err h hu (fun d : (Fin n → Fl fl) × Fl fl => (Gen.score w b d.1 - d.2).val)
    ((fun d => (lin p d.1 - d.2) * aug d.1 (Fin.last n)) ∘ pairVal) ((fun d => reach p d * |aug d.1 (Fin.last n)|) ∘ pairVal) data (e := n + 3)
    le_rfl (fun d _ => by
      have := (score_err h hu w b d.1 d.2).mono' (accurate_nonneg h) hu (show n + 2 ≤ n + 3 by omega)
      simp only [Function.comp, aug_last, mul_one, abs_one]
      exact this) (err_zero _)
  rw [zero_add, zero_add] at this
  exact this

/-- The sizes of the terms of component `j` of the gradient. -/
noncomputable def pushes (data : List ((Fin n → ℝ) × ℝ)) (p : Fin (n + 1) → ℝ) (j : Fin (n + 1)) : ℝ :=
  (data.map fun d => reach p d * |aug d.1 j|).sum

theorem meanGrad_two (data : List ((Fin n → ℝ) × ℝ)) (m : ℝ) (p : Fin (n + 1) → ℝ) (j : Fin (n + 1)) :
    meanGrad (fun s y => 2 * (s - y)) data m p j = 2 * ((data.map fun d => (lin p d.1 - d.2) * aug d.1 j).sum / m) := by
  unfold meanGrad
  rw [← mul_div_assoc, sum_two_mul]
  simp only [mul_assoc]

/-- One epoch of linear regression, component by component. -/
theorem linear_step_err (h : Accurate fl u) (hu : u < 1) (o : Gen.Linear (Fl fl) n) (xs : List (Fin n → Fl fl)) (ys : List (Fl fl)) (hne : xs ≠ [])
    (hl : xs.length ≤ ys.length) (hlr : 0 ≤ o.lr.val) (j : Fin (n + 1)) :
    Err u (n + xs.length + 9) ((o.trainEpoch flCount xs ys).par j)
      (o.par j - o.lr.val * meanGrad (fun s y => 2 * (s - y)) ((vals xs).zip (labels ys)) xs.length o.par j)
      (|o.par j| + o.lr.val * (2 * (pushes ((vals xs).zip (labels ys)) o.par j / xs.length))) := by
  have h0 := accurate_nonneg h
  have hm : 0 < xs.length := List.length_pos_iff.2 hne
  have hz : (xs.zip ys).length = xs.length := by simp [hl]
  have hz' : ((vals xs).zip (labels ys)).length = xs.length := by simp [vals, labels, hl]
  have main : ∀ (z g : Fl fl) (s A : ℝ), Err u (n + 3 + xs.length) g.val s A →
      Err u (n + xs.length + 9) (z - o.lr * ((1 + 1) * g / flCount xs.length)).val (z.val - o.lr.val * (2 * (s / xs.length)))
        (|z.val| + o.lr.val * (2 * (A / xs.length))) := by
    intro z g s A hg
    have h1 := ((hg.twoOver h hu xs.length hm).times o.lr.val).round h hu
    rw [mul_comm _ o.lr.val, mul_comm _ o.lr.val, mul_comm _ |o.lr.val|, abs_of_nonneg hlr] at h1
    have h2 := (((Err.val z.val).mono' h0 hu (Nat.zero_le _)).minus h1).round h hu
    rw [show n + xs.length + 9 = n + 3 + xs.length + 4 + 1 + 1 by omega]
    exact h2
  unfold Gen.Linear.trainEpoch
  rw [if_neg (by omega), gen_sums]
  dsimp only
  rw [gen_mapLoop (fun i w => w - o.lr * ((1 + 1) * (xs.zip ys).foldl (fun a d => a + (Gen.score o.weights o.bias d.1 - d.2) * d.1 i) 0
    / flCount xs.length))]
  rw [meanGrad_two]
  refine Fin.lastCases ?_ (fun i => ?_) j
  · have hg := gradB_err h hu o.weights o.bias (xs.zip ys)
    rw [pairs_val, hz] at hg
    have := main o.bias _ _ _ hg
    unfold Gen.Linear.par
    simp only [params_last]
    exact this
  · have hg := gradW_err h hu o.weights o.bias (xs.zip ys) i
    dsimp only at hg
    rw [pairs_val, hz] at hg
    have := main (o.weights i) _ _ _ hg
    unfold Gen.Linear.par
    simp only [params_castSucc]
    exact this

/-- One epoch of ridge regression, component by component. -/
theorem ridge_step_err (h : Accurate fl u) (hu : u < 1) (o : Gen.Ridge (Fl fl) n) (xs : List (Fin n → Fl fl)) (ys : List (Fl fl)) (hne : xs ≠ [])
    (hl : xs.length ≤ ys.length) (hlr : 0 ≤ o.lr.val) (ha : 0 ≤ o.alpha.val) (j : Fin (n + 1)) :
    Err u (n + xs.length + 10) ((o.trainEpoch flCount xs ys).par j)
      (o.par j - o.lr.val * ridgeGrad o.alpha.val (vals xs) (labels ys) o.par j)
      (|o.par j| + o.lr.val * (2 * (pushes ((vals xs).zip (labels ys)) o.par j / xs.length) + 2 * o.alpha.val * |o.par j|)) := by
  have h0 := accurate_nonneg h
  have hm : 0 < xs.length := List.length_pos_iff.2 hne
  have hz : (xs.zip ys).length = xs.length := by simp [hl]
  have hz' : ((vals xs).zip (labels ys)).length = xs.length := by simp [vals, labels, hl]
  have main : ∀ (z g : Fl fl) (s A : ℝ), Err u (n + 3 + xs.length) g.val s A →
      Err u (n + xs.length + 10) (z - o.lr * ((1 + 1) * g / flCount xs.length)).val (z.val - o.lr.val * (2 * (s / xs.length)))
        (|z.val| + o.lr.val * (2 * (A / xs.length) + 2 * o.alpha.val * |z.val|)) := by
    intro z g s A hg
    have h1 := ((hg.twoOver h hu xs.length hm).times o.lr.val).round h hu
    rw [mul_comm _ o.lr.val, mul_comm _ o.lr.val, mul_comm _ |o.lr.val|, abs_of_nonneg hlr] at h1
    have h2 := (((Err.val z.val).mono' h0 hu (Nat.zero_le _)).minus h1).round h hu
    refine Err.size h0 hu (Err.mono' h0 hu (show n + 3 + xs.length + 4 + 1 + 1 ≤ n + xs.length + 10 by omega) h2) ?_
    have : 0 ≤ o.lr.val * (2 * o.alpha.val * |z.val|) := by positivity
    rw [mul_add]; linarith
  have main' : ∀ (z g : Fl fl) (s A : ℝ), Err u (n + 3 + xs.length) g.val s A →
      Err u (n + xs.length + 10) (z - o.lr * ((1 + 1) * g / flCount xs.length + (1 + 1) * o.alpha * z)).val
        (z.val - o.lr.val * (2 * (s / xs.length) + 2 * o.alpha.val * z.val))
        (|z.val| + o.lr.val * (2 * (A / xs.length) + 2 * o.alpha.val * |z.val|)) := by
    intro z g s A hg
    have h1 := hg.twoOver h hu xs.length hm
    have hpen : Err u (n + 3 + xs.length + 4) (fl (fl (fl (1 + 1) * o.alpha.val) * z.val)) (2 * o.alpha.val * z.val)
        (2 * o.alpha.val * |z.val|) := by
      have e1 := ((((Err.val (u := u) (1 + 1)).round h hu).times o.alpha.val).round h hu)
      have e2 := (e1.times z.val).round h hu
      rw [abs_of_nonneg ha, abs_of_nonneg (by norm_num : (0 : ℝ) ≤ 1 + 1), show (1 + 1 : ℝ) = 2 by norm_num] at e2
      rw [show (1 + 1 : ℝ) = 2 by norm_num]
      exact e2.mono' h0 hu (by omega)
    have h3 := (((h1.plus hpen).round h hu).times o.lr.val).round h hu
    rw [mul_comm _ o.lr.val, mul_comm _ o.lr.val, mul_comm _ |o.lr.val|, abs_of_nonneg hlr] at h3
    have h2 := (((Err.val z.val).mono' h0 hu (Nat.zero_le _)).minus h3).round h hu
    rw [show n + xs.length + 10 = n + 3 + xs.length + 4 + 1 + 1 + 1 by omega]
    exact h2
  unfold Gen.Ridge.trainEpoch
  rw [if_neg (by omega), gen_sums]
  dsimp only
  rw [gen_mapLoop (fun i w => w - o.lr * ((1 + 1) * (xs.zip ys).foldl (fun a d => a + (Gen.score o.weights o.bias d.1 - d.2) * d.1 i) 0
    / flCount xs.length + (1 + 1) * o.alpha * w))]
  have hx : ((vals xs).length : ℝ) = xs.length := by simp [vals]
  refine Fin.lastCases ?_ (fun i => ?_) j
  · have hg := gradB_err h hu o.weights o.bias (xs.zip ys)
    rw [pairs_val, hz] at hg
    have := main o.bias _ _ _ hg
    unfold Gen.Ridge.par ridgeGrad
    simp only [params_last, Fin.snoc_last, add_zero, meanGrad_two, hx]
    exact this
  · have hg := gradW_err h hu o.weights o.bias (xs.zip ys) i
    dsimp only at hg
    rw [pairs_val, hz] at hg
    have := main' (o.weights i) _ _ _ hg
    unfold Gen.Ridge.par ridgeGrad
    simp only [params_castSucc, Fin.snoc_castSucc, meanGrad_two, hx]
    exact this

/-! ## From components to lengths -/

theorem len_mono {k : ℕ} {a b : Fin k → ℝ} (h : ∀ j, |a j| ≤ b j) : len a ≤ len b := by
  unfold len
  refine Real.sqrt_le_sqrt (Finset.sum_le_sum fun j _ => ?_)
  rw [← sq_abs]
  exact pow_le_pow_left₀ (abs_nonneg _) (h j) 2

theorem len_smul {k : ℕ} (c : ℝ) (hc : 0 ≤ c) (a : Fin k → ℝ) : len (fun j => c * a j) = c * len a := by
  unfold len
  simp only [mul_pow]
  rw [← Finset.mul_sum, Real.sqrt_mul (sq_nonneg c), Real.sqrt_sq hc]

theorem len_abs {k : ℕ} (a : Fin k → ℝ) : len (fun j => |a j|) = len a := by
  unfold len
  simp only [sq_abs]

theorem len_zero' {k : ℕ} : len (fun _ : Fin k => (0 : ℝ)) = 0 := by simp [len]

theorem len_aug (x : Fin n → ℝ) : len (aug x) = √(∑ i, x i ^ 2 + 1) := by unfold len; rw [aug_sq]

theorem reach_nonneg (p : Fin (n + 1) → ℝ) (d : (Fin n → ℝ) × ℝ) : 0 ≤ reach p d :=
  add_nonneg (Finset.sum_nonneg fun _ _ => mul_nonneg (abs_nonneg _) (abs_nonneg _)) (abs_nonneg _)

theorem reach_le (p : Fin (n + 1) → ℝ) (d : (Fin n → ℝ) × ℝ) : reach p d ≤ len p * len (aug d.1) + |d.2| := by
  have := inner_le_len (fun j => |p j|) (fun j => |aug d.1 j|)
  rw [len_abs, len_abs] at this
  unfold reach
  exact add_le_add_left this _

theorem pushes_len (p : Fin (n + 1) → ℝ) : ∀ data : List ((Fin n → ℝ) × ℝ),
    len (pushes data p) ≤ len p * (data.map fun d => ∑ j, aug d.1 j ^ 2).sum + (data.map fun d => |d.2| * √(∑ i, d.1 i ^ 2 + 1)).sum
  | [] => by
    have : pushes ([] : List ((Fin n → ℝ) × ℝ)) p = fun _ => 0 := by funext j; simp [pushes]
    rw [this, len_zero']; simp
  | d :: l => by
    have e : pushes (d :: l) p = (fun j => reach p d * |aug d.1 j|) + pushes l p := by
      funext j; simp [pushes]
    rw [e]
    refine (len_add _ _).trans ?_
    have h1 := pushes_len p l
    rw [len_smul _ (reach_nonneg p d), len_abs]
    have h2 := mul_le_mul_of_nonneg_right (reach_le p d) (len_nonneg (aug d.1))
    have h3 : len (aug d.1) * len (aug d.1) = ∑ j, aug d.1 j ^ 2 := by
      unfold len; exact Real.mul_self_sqrt (Finset.sum_nonneg fun _ _ => sq_nonneg _)
    rw [List.map_cons, List.sum_cons, List.map_cons, List.sum_cons, ← len_aug, ← h3]
    nlinarith

theorem push_bound (xs : List (Fin n → ℝ)) (ys : List ℝ) (hne : xs ≠ []) (hl : xs.length ≤ ys.length) (p : Fin (n + 1) → ℝ) :
    len (fun j => 2 * (pushes (xs.zip ys) p j / xs.length)) ≤ 2 * (meanSq xs + 1) * len p + meanPull xs ys := by
  have hm : (0 : ℝ) < xs.length := by exact_mod_cast List.length_pos_iff.2 hne
  have e : (fun j => 2 * (pushes (xs.zip ys) p j / xs.length)) = fun j => (2 / xs.length : ℝ) * pushes (xs.zip ys) p j := by
    funext j; ring
  rw [e, len_smul _ (by positivity)]
  have h1 := mul_le_mul_of_nonneg_left (pushes_len p (xs.zip ys)) (show (0 : ℝ) ≤ 2 / xs.length by positivity)
  rw [zip_map_fst xs ys hl (fun x => ∑ j, aug x j ^ 2)] at h1
  refine h1.trans (le_of_eq ?_)
  rw [← aug_mean xs hne]
  unfold meanPull
  ring

theorem meanPull_nonneg (xs : List (Fin n → ℝ)) (ys : List ℝ) : 0 ≤ meanPull xs ys := by
  unfold meanPull
  refine mul_nonneg (by norm_num) (div_nonneg (List.sum_nonneg ?_) (by positivity))
  intro a ha
  obtain ⟨d, -, rfl⟩ := List.mem_map.1 ha
  positivity

/-- A rounded gradient step with a rate of at most `2 / L` brings the parameters closer up to rounding. -/
theorem rounded_contract {k : ℕ} {f : (Fin k → ℝ) → ℝ} {g : (Fin k → ℝ) → Fin k → ℝ} {μ L lr q c Y : ℝ} (hs : Smooth f g μ L) (hμ : 0 ≤ μ) (hL : 0 < L)
    (hlr : 0 < lr) (hlr2 : lr * L ≤ 2) (hq0 : 0 ≤ q) (hq : q ^ 2 = 1 - lr * μ * (2 - lr * L)) (hc : 0 ≤ c) {best p p' : Fin k → ℝ}
    (hbest : g best = 0) (herr : len (p' - (p - lr • g p)) ≤ c * (3 * len p + lr * Y)) :
    len (p' - best) ≤ q * len (p - best) + 3 * c * (len (p - best) + (len best + lr * Y / 3)) := by
  have h1 := hs.contract hμ hL hlr.le hlr2 best p
  rw [hbest, smul_zero, sub_zero, ← len_mul_self, ← len_mul_self, ← hq, ← mul_pow] at h1
  have h2 := abs_le_of_sq_le_sq h1 (mul_nonneg hq0 (len_nonneg _))
  rw [abs_of_nonneg (len_nonneg _)] at h2
  have h3 := len_add (p' - (p - lr • g p)) (p - lr • g p - best)
  rw [sub_add_sub_cancel] at h3
  have h4 := len_add (p - best) best
  rw [sub_add_cancel] at h4
  have h5 := mul_le_mul_of_nonneg_left h4 hc
  nlinarith

/-- Iterating it without strict contraction. -/
theorem steady_iter {D : ℕ → ℝ} {c B : ℝ} (hc : 0 ≤ c) (hD : ∀ k, D (k + 1) ≤ 1 * D k + c * (D k + B)) (T : ℕ) :
    D T + B ≤ (1 + c) ^ T * (D 0 + B) := by
  induction T with
  | zero => simp
  | succ T ih =>
    rw [pow_succ', mul_assoc]
    have := mul_le_mul_of_nonneg_left ih (show 0 ≤ 1 + c by linarith)
    nlinarith [hD T]

/-- Iterating it with strict contraction. -/
theorem contract_iter {D : ℕ → ℝ} {q c B : ℝ} (hq : 0 ≤ q) (hc : 0 ≤ c) (hqc : q + c < 1) (hB : 0 ≤ B) (hD : ∀ k, D (k + 1) ≤ q * D k + c * (D k + B))
    (T : ℕ) : D T ≤ (q + c) ^ T * D 0 + c * B / (1 - (q + c)) := by
  have h0 : 0 < 1 - (q + c) := by linarith
  induction T with
  | zero => have : 0 ≤ c * B / (1 - (q + c)) := by positivity
            simpa using this
  | succ T ih =>
    have h1 := mul_le_mul_of_nonneg_left ih (show 0 ≤ q + c by linarith)
    have h2 : (q + c) * (c * B / (1 - (q + c))) + c * B = c * B / (1 - (q + c)) := by field_simp; ring
    rw [pow_succ', mul_assoc]
    nlinarith [hD T]

theorem err_len (h0 : 0 ≤ u) (hu : u < 1) {k d : ℕ} {a s A : Fin k → ℝ} (h : ∀ j, Err u d (a j) (s j) (A j)) :
    len (a - s) ≤ growth u d * len A := by
  rw [← len_smul _ (growth_pos h0 hu d)]
  exact len_mono fun j => (h j).1

theorem linear_step_len (h : Accurate fl u) (hu : u < 1) (o : Gen.Linear (Fl fl) n) (xs : List (Fin n → Fl fl)) (ys : List (Fl fl)) (hne : xs ≠ [])
    (hl : xs.length ≤ ys.length) (hlr : 0 < o.lr.val) (hlr2 : o.lr.val * (2 * (meanSq (vals xs) + 1)) ≤ 2) :
    len ((o.trainEpoch flCount xs ys).par -
        (o.par - o.lr.val • meanGrad (fun s y => 2 * (s - y)) ((vals xs).zip (labels ys)) (vals xs).length o.par)) ≤
      growth u (n + xs.length + 9) * (3 * len o.par + o.lr.val * meanPull (vals xs) (labels ys)) := by
  have h0 := accurate_nonneg h
  have hx : ((vals xs).length : ℝ) = xs.length := by simp [vals]
  have h1 := err_len h0 hu (linear_step_err h hu o xs ys hne hl hlr.le)
  rw [hx]
  refine h1.trans (mul_le_mul_of_nonneg_left ?_ (growth_pos h0 hu _))
  have h2 := push_bound (vals xs) (labels ys) (by simpa [vals] using hne) (by simpa [vals, labels] using hl) o.par
  rw [hx] at h2
  have h3 := len_add (fun j => |o.par j|) (fun j => o.lr.val * (2 * (pushes ((vals xs).zip (labels ys)) o.par j / xs.length)))
  rw [len_abs, len_smul _ hlr.le] at h3
  refine h3.trans ?_
  have h4 := mul_le_mul_of_nonneg_left h2 hlr.le
  have h5 := mul_le_mul_of_nonneg_right hlr2 (len_nonneg o.par)
  nlinarith

theorem ridge_step_len (h : Accurate fl u) (hu : u < 1) (o : Gen.Ridge (Fl fl) n) (xs : List (Fin n → Fl fl)) (ys : List (Fl fl)) (hne : xs ≠ [])
    (hl : xs.length ≤ ys.length) (hlr : 0 < o.lr.val) (ha : 0 ≤ o.alpha.val)
    (hlr2 : o.lr.val * (2 * (meanSq (vals xs) + 1) + 2 * o.alpha.val) ≤ 2) :
    len ((o.trainEpoch flCount xs ys).par - (o.par - o.lr.val • ridgeGrad o.alpha.val (vals xs) (labels ys) o.par)) ≤
      growth u (n + xs.length + 10) * (3 * len o.par + o.lr.val * meanPull (vals xs) (labels ys)) := by
  have h0 := accurate_nonneg h
  have hx : ((vals xs).length : ℝ) = xs.length := by simp [vals]
  have h1 := err_len h0 hu (ridge_step_err h hu o xs ys hne hl hlr.le ha)
  refine h1.trans (mul_le_mul_of_nonneg_left ?_ (growth_pos h0 hu _))
  have h2 := push_bound (vals xs) (labels ys) (by simpa [vals] using hne) (by simpa [vals, labels] using hl) o.par
  rw [hx] at h2
  have h3 := len_add (fun j => |o.par j|) (fun j => o.lr.val *
    (2 * (pushes ((vals xs).zip (labels ys)) o.par j / xs.length) + 2 * o.alpha.val * |o.par j|))
  rw [len_abs, len_smul _ hlr.le] at h3
  refine h3.trans ?_
  have h6 := len_add (fun j => 2 * (pushes ((vals xs).zip (labels ys)) o.par j / xs.length)) (fun j => 2 * o.alpha.val * |o.par j|)
  rw [len_smul (2 * o.alpha.val) (by linarith), len_abs] at h6
  have h7 := mul_le_mul_of_nonneg_left (h6.trans (add_le_add_left h2 _)) hlr.le
  have h5 := mul_le_mul_of_nonneg_right hlr2 (len_nonneg o.par)
  have h8 : len (fun j => 2 * (pushes ((vals xs).zip (labels ys)) o.par j / xs.length) + 2 * o.alpha.val * |o.par j|) =
    len ((fun j => 2 * (pushes ((vals xs).zip (labels ys)) o.par j / xs.length)) + fun j => 2 * o.alpha.val * |o.par j|) := rfl
  rw [h8]
  nlinarith

/-- The squared error is curved as much as the data spread. -/
theorem mse_curved (xs : List (Fin n → ℝ)) (ys : List ℝ) (hne : xs ≠ []) (hl : xs.length ≤ ys.length) (μ : ℝ)
    (hμ : ∀ v, μ * inner v v ≤ 2 * ((xs.map fun x => lin v x ^ 2).sum / xs.length)) :
    Smooth (mse xs ys) (meanGrad (fun s y => 2 * (s - y)) (xs.zip ys) xs.length) μ (2 * (meanSq xs + 1)) := by
  refine ⟨fun p d => ?_, (mse_smooth xs ys hne hl).upper⟩
  rw [inner_meanGrad]
  have h1 := hμ d
  rw [← zip_map_fst xs ys hl (fun x => lin d x ^ 2)] at h1
  have e : mse xs ys (fun i => p i + d i) = mse xs ys p + ((xs.zip ys).map fun e => 2 * (lin p e.1 - e.2) * lin d e.1).sum / xs.length +
      ((xs.zip ys).map fun e => lin d e.1 ^ 2).sum / xs.length := by
    unfold mse
    rw [← add_div, ← add_div, ← sum_add_map, ← sum_add_map]
    congr 2
    refine List.map_congr_left fun e _ => ?_
    rw [lin_add]; ring
  rw [e]
  linarith

theorem flat_curved (xs : List (Fin n → ℝ)) (v : Fin (n + 1) → ℝ) : 0 * inner v v ≤ 2 * ((xs.map fun x => lin v x ^ 2).sum / xs.length) := by
  rw [zero_mul]
  refine mul_nonneg (by norm_num) (div_nonneg (List.sum_nonneg ?_) (by positivity))
  intro a ha
  obtain ⟨d, -, rfl⟩ := List.mem_map.1 ha
  positivity

theorem meanSq_nonneg (xs : List (Fin n → ℝ)) : 0 ≤ meanSq xs := by
  refine div_nonneg (List.sum_nonneg ?_) (by positivity)
  intro a h
  obtain ⟨x, -, rfl⟩ := List.mem_map.1 h
  exact Finset.sum_nonneg fun i _ => sq_nonneg _

/-- The distances from the best parameters along the epochs. -/
theorem linear_dist (h : Accurate fl u) (hu : u < 1) (o : Gen.Linear (Fl fl) n) (xs : List (Fin n → Fl fl)) (ys : List (Fl fl)) (hne : xs ≠ [])
    (hl : xs.length ≤ ys.length) (hlr : 0 < o.lr.val) (hlr2 : o.lr.val * (2 * (meanSq (vals xs) + 1)) ≤ 2)
    (best : Fin (n + 1) → ℝ) (hbest : ∀ p, mse (vals xs) (labels ys) best ≤ mse (vals xs) (labels ys) p) (μ q : ℝ) (hμ0 : 0 ≤ μ)
    (hμ : ∀ v, μ * inner v v ≤ 2 * (((vals xs).map fun x => lin v x ^ 2).sum / (vals xs).length)) (hq0 : 0 ≤ q)
    (hq : q ^ 2 = 1 - o.lr.val * μ * (2 - o.lr.val * (2 * (meanSq (vals xs) + 1)))) (k : ℕ) :
    let D := fun k => len (((fun o => Gen.Linear.trainEpoch flCount o xs ys)^[k] o).par - best)
    D (k + 1) ≤ q * D k + 3 * growth u (n + xs.length + 9) * (D k + (len best + o.lr.val * meanPull (vals xs) (labels ys) / 3)) := by
  intro D
  have hrate : ((fun o => Gen.Linear.trainEpoch flCount o xs ys)^[k] o).lr = o.lr := by
    induction k with
    | zero => rfl
    | succ k ih => rw [← ih, Function.iterate_succ_apply']; unfold Gen.Linear.trainEpoch; split_ifs <;> rfl
  have hnev : vals xs ≠ [] := by simpa [vals] using hne
  have hlv : (vals xs).length ≤ (labels ys).length := by simpa [vals, labels] using hl
  have hg : meanGrad (fun s y => 2 * (s - y)) ((vals xs).zip (labels ys)) (vals xs).length best = 0 :=
    isGrad_min (mse_grad (vals xs) (labels ys) best) hbest
  have hstep := linear_step_len h hu ((fun o => Gen.Linear.trainEpoch flCount o xs ys)^[k] o) xs ys hne hl (by rw [hrate]; exact hlr)
    (by rw [hrate]; exact hlr2)
  rw [hrate] at hstep
  have := rounded_contract (mse_curved (vals xs) (labels ys) hnev hlv μ hμ) hμ0 (by linarith [meanSq_nonneg (vals xs)]) hlr hlr2 hq0 hq
    (growth_pos (accurate_nonneg h) hu _) hg hstep
  simp only [D, Function.iterate_succ_apply']
  exact this

theorem ridge_dist (h : Accurate fl u) (hu : u < 1) (o : Gen.Ridge (Fl fl) n) (xs : List (Fin n → Fl fl)) (ys : List (Fl fl)) (hne : xs ≠ [])
    (hl : xs.length ≤ ys.length) (hlr : 0 < o.lr.val) (ha : 0 < o.alpha.val)
    (hlr2 : o.lr.val * (2 * (meanSq (vals xs) + 1) + 2 * o.alpha.val) ≤ 2)
    (best : Fin (n + 1) → ℝ) (hbest : ∀ p, ridgeLoss o.alpha.val (vals xs) (labels ys) best ≤ ridgeLoss o.alpha.val (vals xs) (labels ys) p) (q : ℝ)
    (hq0 : 0 ≤ q) (hq : q ^ 2 = 1 - o.lr.val * min 1 (2 * o.alpha.val / (2 * meanSq (vals xs) + 1)) *
      (2 - o.lr.val * (2 * (meanSq (vals xs) + 1) + 2 * o.alpha.val))) (k : ℕ) :
    let D := fun k => len (((fun o => Gen.Ridge.trainEpoch flCount o xs ys)^[k] o).par - best)
    D (k + 1) ≤ q * D k + 3 * growth u (n + xs.length + 10) * (D k + (len best + o.lr.val * meanPull (vals xs) (labels ys) / 3)) := by
  intro D
  have hrate : ((fun o => Gen.Ridge.trainEpoch flCount o xs ys)^[k] o).lr = o.lr ∧
      ((fun o => Gen.Ridge.trainEpoch flCount o xs ys)^[k] o).alpha = o.alpha := by
    induction k with
    | zero => exact ⟨rfl, rfl⟩
    | succ k ih => rw [← ih.1, ← ih.2, Function.iterate_succ_apply']; unfold Gen.Ridge.trainEpoch; split_ifs <;> exact ⟨rfl, rfl⟩
  have hnev : vals xs ≠ [] := by simpa [vals] using hne
  have hlv : (vals xs).length ≤ (labels ys).length := by simpa [vals, labels] using hl
  have hg : ridgeGrad o.alpha.val (vals xs) (labels ys) best = 0 := isGrad_min (ridge_grad o.alpha.val (vals xs) (labels ys) best) hbest
  have hstep := ridge_step_len h hu ((fun o => Gen.Ridge.trainEpoch flCount o xs ys)^[k] o) xs ys hne hl (by rw [hrate.1]; exact hlr)
    (by rw [hrate.2]; exact ha.le) (by rw [hrate.1, hrate.2]; exact hlr2)
  rw [hrate.1, hrate.2] at hstep
  have hR := meanSq_nonneg (vals xs)
  have := rounded_contract (ridge_smooth o.alpha.val ha (vals xs) (labels ys) hnev hlv) (le_min (by norm_num) (by positivity)) (by linarith) hlr hlr2
    hq0 hq (growth_pos (accurate_nonneg h) hu _) hg hstep
  simp only [D, Function.iterate_succ_apply']
  exact this

/-! ## C188 -/

/-- C188. Linear regression in rounded arithmetic with a rate of at most `1 / (meanSq + 1)`: let `best` be any least-squares solution, `c` three times
the accumulated effect of the roundings of one epoch, and `B = ‖best‖ + lr · meanPull / 3`. After any number `T` of epochs the distance from `best` plus
`B` is at most `(1 + c)ᵀ` times the same quantity at the start: the parameters move away only at the pace of the roundings, and not at all in exact
arithmetic. -/
theorem C188_linear (h : Accurate fl u) (hu : u < 1) (o : Gen.Linear (Fl fl) n) (xs : List (Fin n → Fl fl)) (ys : List (Fl fl)) (hne : xs ≠ [])
    (hl : xs.length ≤ ys.length) (hlr : 0 < o.lr.val) (hlr2 : o.lr.val * (meanSq (vals xs) + 1) ≤ 1)
    (best : Fin (n + 1) → ℝ) (hbest : ∀ p, mse (vals xs) (labels ys) best ≤ mse (vals xs) (labels ys) p) (T : ℕ) :
    let c := 3 * growth u (n + xs.length + 9)
    let B := len best + o.lr.val * meanPull (vals xs) (labels ys) / 3
    len (((fun o => Gen.Linear.trainEpoch flCount o xs ys)^[T] o).par - best) + B ≤ (1 + c) ^ T * (len (o.par - best) + B) := by
  intro c B
  refine steady_iter (D := fun k => len (((fun o => Gen.Linear.trainEpoch flCount o xs ys)^[k] o).par - best))
    (mul_nonneg (by norm_num) (growth_pos (accurate_nonneg h) hu _)) (fun k => ?_) T
  exact linear_dist h hu o xs ys hne hl hlr (by linarith) best hbest 0 1 le_rfl (flat_curved _) zero_le_one (by ring) k

/-- C188. If moreover the data determine the fit (`μ > 0`: the mean of `(v · (x, 1))²` is at least `μ/2 ‖v‖²`) and the contraction `q` of an exact
epoch outweighs the roundings, the parameters come within `c B / (1 - q - c)` of the least-squares solution at a geometric rate and stay there. -/
theorem C188_converges (h : Accurate fl u) (hu : u < 1) (o : Gen.Linear (Fl fl) n) (xs : List (Fin n → Fl fl)) (ys : List (Fl fl)) (hne : xs ≠ [])
    (hl : xs.length ≤ ys.length) (hlr : 0 < o.lr.val) (hlr2 : o.lr.val * (meanSq (vals xs) + 1) ≤ 1)
    (best : Fin (n + 1) → ℝ) (hbest : ∀ p, mse (vals xs) (labels ys) best ≤ mse (vals xs) (labels ys) p) (μ q : ℝ) (hμ0 : 0 ≤ μ)
    (hμ : ∀ v, μ * inner v v ≤ 2 * (((vals xs).map fun x => lin v x ^ 2).sum / (vals xs).length)) (hq0 : 0 ≤ q)
    (hq : q ^ 2 = 1 - o.lr.val * μ * (2 - o.lr.val * (2 * (meanSq (vals xs) + 1))))
    (hqc : q + 3 * growth u (n + xs.length + 9) < 1) (T : ℕ) :
    let c := 3 * growth u (n + xs.length + 9)
    let B := len best + o.lr.val * meanPull (vals xs) (labels ys) / 3
    len (((fun o => Gen.Linear.trainEpoch flCount o xs ys)^[T] o).par - best) ≤ (q + c) ^ T * len (o.par - best) + c * B / (1 - (q + c)) := by
  intro c B
  have hB : 0 ≤ B := add_nonneg (len_nonneg _) (by have := meanPull_nonneg (vals xs) (labels ys); positivity)
  refine contract_iter (D := fun k => len (((fun o => Gen.Linear.trainEpoch flCount o xs ys)^[k] o).par - best)) hq0
    (mul_nonneg (by norm_num) (growth_pos (accurate_nonneg h) hu _)) hqc hB (fun k => ?_) T
  exact linear_dist h hu o xs ys hne hl hlr (by linarith) best hbest μ q hμ0 hμ hq0 hq k

/-- C188. Ridge regression with a positive penalty and a rate of at most `2 / L`, `L = 2 (meanSq + 1) + 2 α`, when the contraction `q` of an exact epoch
(C147) outweighs the roundings: the parameters come within `c B / (1 - q - c)` of the minimiser of the penalised error at a geometric rate. -/
theorem C188_ridge (h : Accurate fl u) (hu : u < 1) (o : Gen.Ridge (Fl fl) n) (xs : List (Fin n → Fl fl)) (ys : List (Fl fl)) (hne : xs ≠ [])
    (hl : xs.length ≤ ys.length) (hlr : 0 < o.lr.val) (ha : 0 < o.alpha.val)
    (hlr2 : o.lr.val * (2 * (meanSq (vals xs) + 1) + 2 * o.alpha.val) ≤ 2)
    (best : Fin (n + 1) → ℝ) (hbest : ∀ p, ridgeLoss o.alpha.val (vals xs) (labels ys) best ≤ ridgeLoss o.alpha.val (vals xs) (labels ys) p) (q : ℝ)
    (hq0 : 0 ≤ q) (hq : q ^ 2 = 1 - o.lr.val * min 1 (2 * o.alpha.val / (2 * meanSq (vals xs) + 1)) *
      (2 - o.lr.val * (2 * (meanSq (vals xs) + 1) + 2 * o.alpha.val)))
    (hqc : q + 3 * growth u (n + xs.length + 10) < 1) (T : ℕ) :
    let c := 3 * growth u (n + xs.length + 10)
    let B := len best + o.lr.val * meanPull (vals xs) (labels ys) / 3
    len (((fun o => Gen.Ridge.trainEpoch flCount o xs ys)^[T] o).par - best) ≤ (q + c) ^ T * len (o.par - best) + c * B / (1 - (q + c)) := by
  intro c B
  have hB : 0 ≤ B := add_nonneg (len_nonneg _) (by have := meanPull_nonneg (vals xs) (labels ys); positivity)
  refine contract_iter (D := fun k => len (((fun o => Gen.Ridge.trainEpoch flCount o xs ys)^[k] o).par - best)) hq0
    (mul_nonneg (by norm_num) (growth_pos (accurate_nonneg h) hu _)) hqc hB (fun k => ?_) T
  exact ridge_dist h hu o xs ys hne hl hlr ha hlr2 best hbest q hq0 hq k

/-- Double precision, the line `y = 2 x + 1` through `x = -1, 1`, and a rate of `1/4` meet the hypotheses of the theorems on linear regression. -/
example : ∃ (fl : ℝ → ℝ) (o : Gen.Linear (Fl fl) 1) (xs : List (Fin 1 → Fl fl)) (ys : List (Fl fl)) (best : Fin 2 → ℝ) (q : ℝ),
    Accurate fl (2 ^ (-53 : ℤ)) ∧ xs ≠ [] ∧ xs.length ≤ ys.length ∧ 0 < o.lr.val ∧ o.lr.val * (meanSq (vals xs) + 1) ≤ 1 ∧
    (∀ p, mse (vals xs) (labels ys) best ≤ mse (vals xs) (labels ys) p) ∧
    (∀ v, 2 * inner v v ≤ 2 * (((vals xs).map fun x => lin v x ^ 2).sum / (vals xs).length)) ∧ 0 ≤ q ∧
    q ^ 2 = 1 - o.lr.val * 2 * (2 - o.lr.val * (2 * (meanSq (vals xs) + 1))) ∧ q + 3 * growth (2 ^ (-53 : ℤ)) (1 + xs.length + 9) < 1 := by
  have hms : meanSq (vals (fl := Float.rnd 53) [fun _ : Fin 1 => ⟨-1⟩, fun _ => ⟨1⟩]) = 1 := by
    norm_num [meanSq, vals, valV]
  refine ⟨Float.rnd 53, ⟨fun _ => ⟨0⟩, ⟨0⟩, ⟨1 / 4⟩⟩, [fun _ => ⟨-1⟩, fun _ => ⟨1⟩], [⟨-1⟩, ⟨3⟩], ![2, 1], √(1 / 2),
    (Float.rnd_nearest (by norm_num)).accurate (by norm_num), by simp, by simp, by norm_num, by rw [hms]; norm_num, fun p => ?_, fun v => ?_, by positivity,
    ?_, ?_⟩
  · have : mse (vals (fl := Float.rnd 53) [fun _ : Fin 1 => ⟨-1⟩, fun _ => ⟨1⟩]) (labels (fl := Float.rnd 53) [⟨-1⟩, ⟨3⟩]) ![2, 1] = 0 := by
      norm_num [mse, vals, valV, labels, lin, show Fin.last 1 = (1 : Fin 2) from rfl]
    rw [this]
    refine div_nonneg (List.sum_nonneg ?_) (by positivity)
    intro a ha
    obtain ⟨d, -, rfl⟩ := List.mem_map.1 ha
    positivity
  · simp only [vals, valV, lin, Opt.inner, List.map_cons, List.map_nil, List.sum_cons, List.sum_nil, List.length_cons, List.length_nil,
      Fin.sum_univ_one]
    apply le_of_eq
    rw [Fin.sum_univ_two]
    simp only [show (Fin.castSucc (0 : Fin 1)) = (0 : Fin 2) from rfl, show Fin.last 1 = (1 : Fin 2) from rfl]
    push_cast
    ring
  · rw [hms, Real.sq_sqrt (by norm_num)]; norm_num
  · have h1 : √(1 / 2 : ℝ) < 3 / 4 := by rw [Real.sqrt_lt' (by norm_num)]; norm_num
    have h2 : growth (2 ^ (-53 : ℤ)) (1 + [fun _ : Fin 1 => (⟨-1⟩ : Fl (Float.rnd 53)), fun _ => ⟨1⟩].length + 9) < 1 / 20 := by
      unfold growth
      simp only [List.length_cons, List.length_nil]
      norm_num
    linarith

/-- The same data with a penalty of 1 meet the hypotheses of the theorem on ridge regression. -/
example : ∃ (fl : ℝ → ℝ) (o : Gen.Ridge (Fl fl) 1) (xs : List (Fin 1 → Fl fl)) (ys : List (Fl fl)) (best : Fin 2 → ℝ) (q : ℝ),
    Accurate fl (2 ^ (-53 : ℤ)) ∧ xs ≠ [] ∧ xs.length ≤ ys.length ∧ 0 < o.lr.val ∧ 0 < o.alpha.val ∧
    o.lr.val * (2 * (meanSq (vals xs) + 1) + 2 * o.alpha.val) ≤ 2 ∧
    (∀ p, ridgeLoss o.alpha.val (vals xs) (labels ys) best ≤ ridgeLoss o.alpha.val (vals xs) (labels ys) p) ∧ 0 ≤ q ∧
    q ^ 2 = 1 - o.lr.val * min 1 (2 * o.alpha.val / (2 * meanSq (vals xs) + 1)) * (2 - o.lr.val * (2 * (meanSq (vals xs) + 1) + 2 * o.alpha.val)) ∧
    q + 3 * growth (2 ^ (-53 : ℤ)) (1 + xs.length + 10) < 1 := by
  have hms : meanSq (vals (fl := Float.rnd 53) [fun _ : Fin 1 => ⟨-1⟩, fun _ => ⟨1⟩]) = 1 := by
    norm_num [meanSq, vals, valV]
  have hloss : ∀ p : Fin 2 → ℝ, ridgeLoss 1 (vals (fl := Float.rnd 53) [fun _ : Fin 1 => ⟨-1⟩, fun _ => ⟨1⟩])
      (labels (fl := Float.rnd 53) [⟨-1⟩, ⟨3⟩]) p = (p 0 - 2) ^ 2 + (p 1 - 1) ^ 2 + p 0 ^ 2 := by
    intro p
    simp only [ridgeLoss, mse, vals, valV, labels, lin, List.map_cons, List.map_nil, List.zip_cons_cons, List.zip_nil_right, List.sum_cons,
      List.sum_nil, List.length_cons, List.length_nil, Fin.sum_univ_one, show (Fin.castSucc (0 : Fin 1)) = (0 : Fin 2) from rfl,
      show Fin.last 1 = (1 : Fin 2) from rfl]
    push_cast
    ring
  refine ⟨Float.rnd 53, ⟨fun _ => ⟨0⟩, ⟨0⟩, ⟨1 / 4⟩, ⟨1⟩⟩, [fun _ => ⟨-1⟩, fun _ => ⟨1⟩], [⟨-1⟩, ⟨3⟩], ![1, 1], √(11 / 12),
    (Float.rnd_nearest (by norm_num)).accurate (by norm_num), by simp, by simp, by norm_num, by norm_num, by rw [hms]; norm_num, fun p => ?_,
    by positivity, ?_, ?_⟩
  · rw [hloss, hloss]
    norm_num
    nlinarith [sq_nonneg (p 0 - 1), sq_nonneg (p 1 - 1)]
  · rw [hms, Real.sq_sqrt (by norm_num)]; norm_num
  · have h1 : √(11 / 12 : ℝ) < 24 / 25 := by rw [Real.sqrt_lt' (by norm_num)]; norm_num
    have h2 : growth (2 ^ (-53 : ℤ)) (1 + [fun _ : Fin 1 => (⟨-1⟩ : Fl (Float.rnd 53)), fun _ => ⟨1⟩].length + 10) < 1 / 100 := by
      unfold growth
      simp only [List.length_cons, List.length_nil]
      norm_num
    linarith

end Verif.ML

namespace Verif.ML.Gen

variable {n : ℕ}

/-- At the reals this is the model of `Verif/ML/Model.lean`. -/
theorem linear_real (w : Fin n → ℝ) (b lr : ℝ) (xs : List (Fin n → ℝ)) (ys : List ℝ) :
    let o := (Linear.trainEpoch (fun k => (k : ℝ)) ⟨w, b, lr⟩ xs ys : Linear ℝ n)
    (⟨o.weights, o.bias, o.lr⟩ : ML.Linear n) = ML.Linear.trainEpoch ⟨w, b, lr⟩ xs ys := by
  unfold Linear.trainEpoch ML.Linear.trainEpoch
  split_ifs <;> rfl

/-- At the reals this is the model of `Verif/ML/Model.lean`. -/
theorem ridge_real (w : Fin n → ℝ) (b lr alpha : ℝ) (xs : List (Fin n → ℝ)) (ys : List ℝ) :
    let o := (Ridge.trainEpoch (fun k => (k : ℝ)) ⟨w, b, lr, alpha⟩ xs ys : Ridge ℝ n)
    (⟨o.weights, o.bias, o.lr, o.alpha⟩ : ML.Ridge n) = ML.Ridge.trainEpoch ⟨w, b, lr, alpha⟩ xs ys := by
  unfold Ridge.trainEpoch ML.Ridge.trainEpoch
  split_ifs <;> rfl

end Verif.ML.Gen
