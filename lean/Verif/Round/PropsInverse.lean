import Verif.Round.Inverse
import Verif.Float.Lemmas
import Mathlib.LinearAlgebra.Matrix.NonsingularInverse
import Mathlib.LinearAlgebra.Matrix.Adjugate

/-! # C206: the inverse of a 3 × 3 matrix in floating-point arithmetic -/

namespace Verif.Round

open Verif.Simd (Fl Accurate)
open Verif.Mat
open Matrix

variable {fl : ℝ → ℝ} {u : ℝ}

/-! ## Lemmas -/

/-- The determinants of two matrices with entries up to `M` which differ by at most `ε M`. -/
theorem det3_near {A D : Matrix (Fin 3) (Fin 3) ℝ} {M ε : ℝ} (hA : ∀ i j, |A i j| ≤ M) (hD : ∀ i j, |D i j| ≤ ε * M) (h0 : 0 ≤ ε) :
    |(A + D).det - A.det| ≤ 6 * ((1 + ε) ^ 3 - 1) * M ^ 3 ∧ |A.det| ≤ 6 * M ^ 3 := by
  have M0 : 0 ≤ M := (abs_nonneg _).trans (hA 0 0)
  have t0 : ∀ i j k l m n, |A i j * A k l * A m n| ≤ M ^ 3 := fun i j k l m n => by
    rw [abs_mul, abs_mul, show M ^ 3 = M * M * M by ring]
    exact mul_le_mul (mul_le_mul (hA _ _) (hA _ _) (abs_nonneg _) M0) (hA _ _) (abs_nonneg _) (mul_nonneg M0 M0)
  have S : ∀ i j, |(A + D) i j| ≤ (1 + ε) * M := fun i j => by
    rw [Matrix.add_apply]
    refine (abs_add_le _ _).trans ?_
    linarith [hA i j, hD i j]
  have t1 : ∀ i j k l m n, |(A + D) i j * (A + D) k l * (A + D) m n - A i j * A k l * A m n| ≤ ((1 + ε) ^ 3 - 1) * M ^ 3 := fun i j k l m n => by
    have e : (A + D) i j * (A + D) k l * (A + D) m n - A i j * A k l * A m n =
        D i j * ((A + D) k l * (A + D) m n) + A i j * (D k l * (A + D) m n) + A i j * (A k l * D m n) := by
      simp only [Matrix.add_apply]; ring
    rw [e]
    refine (abs_add_three _ _ _).trans ?_
    simp only [abs_mul]
    have b1 : |D i j| * (|(A + D) k l| * |(A + D) m n|) ≤ ε * M * ((1 + ε) * M * ((1 + ε) * M)) :=
      mul_le_mul (hD _ _) (mul_le_mul (S _ _) (S _ _) (abs_nonneg _) (by positivity)) (by positivity) (by positivity)
    have b2 : |A i j| * (|D k l| * |(A + D) m n|) ≤ M * (ε * M * ((1 + ε) * M)) :=
      mul_le_mul (hA _ _) (mul_le_mul (hD _ _) (S _ _) (abs_nonneg _) (by positivity)) (by positivity) M0
    have b3 : |A i j| * (|A k l| * |D m n|) ≤ M * (M * (ε * M)) :=
      mul_le_mul (hA _ _) (mul_le_mul (hA _ _) (hD _ _) (abs_nonneg _) M0) (by positivity) M0
    nlinarith only [b1, b2, b3]
  rw [det_fin_three, det_fin_three]
  constructor
  · have := t1 0 0 1 1 2 2
    have := t1 0 0 1 2 2 1
    have := t1 0 1 1 0 2 2
    have := t1 0 1 1 2 2 0
    have := t1 0 2 1 0 2 1
    have := t1 0 2 1 1 2 0
    simp only [abs_le] at *
    constructor <;> linarith
  · have := t0 0 0 1 1 2 2
    have := t0 0 0 1 2 2 1
    have := t0 0 1 1 0 2 2
    have := t0 0 1 1 2 2 0
    have := t0 0 2 1 0 2 1
    have := t0 0 2 1 1 2 0
    simp only [abs_le] at *
    constructor <;> linarith

theorem unit_nonneg (h : Accurate fl u) : 0 ≤ u := by
  have := (abs_nonneg _).trans (h 1)
  rwa [abs_one, mul_one] at this

/-- The computed determinant of a 3 × 3 matrix, when no pivot is refused. -/
theorem det3_error (h : Accurate fl u) (hu : u ≤ 1 / 1000000) {eps : Fl fl} (he : 0 ≤ eps.val) {A : Mat (Fl fl) 3 3} {M : ℝ}
    (hA : ∀ i j, |val A i j| ≤ M) (hd : luDecompose eps A ≠ none) :
    |(determinant eps A).val - (val A).det| ≤ 700 * u * M ^ 3 := by
  have h0 := unit_nonneg h
  obtain ⟨D, hD, hdet⟩ := C113_determinant h (by linarith) he hA hd
  have M0 : 0 ≤ M := (abs_nonneg _).trans (hA 0 0)
  have g := C111_growth (n := 3) h (by norm_num; linarith)
  have g3 : growth u 3 ≤ 3.001 * u := by
    refine g.trans ?_
    rw [div_le_iff₀ (by norm_num; linarith)]
    norm_num
    nlinarith only [h0, hu]
  have g0 := growth_nonneg h (by linarith : u < 1) 3
  have p7 : 3 * (1 + u) * (2 * (1 + u) ^ 3) ^ 2 ≤ 12.001 := by
    have : (1 + u) ^ 7 ≤ (1 + 1 / 1000000) ^ 7 := pow_le_pow_left₀ (by linarith) (by linarith) 7
    norm_num at this
    nlinarith only [this]
  have hD' : ∀ i j, |D i j| ≤ 37 * u * M := fun i j => by
    refine (hD i j).trans ?_
    have e1 : growth u 3 * (3 * (1 + u) * (2 * (1 + u) ^ 3) ^ 2) ≤ 3.001 * u * 12.001 := mul_le_mul g3 p7 (by positivity) (by positivity)
    have e2 : growth u 3 * (((3 : ℕ) : ℝ) * (1 + u) * (2 * (1 + u) ^ 3) ^ (3 - 1) * M) = growth u 3 * (3 * (1 + u) * (2 * (1 + u) ^ 3) ^ 2) * M := by
      norm_num; ring
    rw [e2]
    refine mul_le_mul_of_nonneg_right (e1.trans ?_) M0
    nlinarith only [h0]
  obtain ⟨n1, n2⟩ := det3_near hA hD' (by positivity)
  have c1 : 6 * ((1 + 37 * u) ^ 3 - 1) ≤ 667 * u := by
    nlinarith only [h0, hu, mul_nonneg h0 h0, mul_le_mul_of_nonneg_left hu h0, mul_le_mul_of_nonneg_left (mul_le_mul_of_nonneg_left hu h0) h0]
  have c2 : (1 + u) ^ 3 - 1 ≤ 3.001 * u := by
    nlinarith only [h0, hu, mul_nonneg h0 h0, mul_le_mul_of_nonneg_left hu h0, mul_le_mul_of_nonneg_left (mul_le_mul_of_nonneg_left hu h0) h0]
  have M3 : 0 ≤ M ^ 3 := by positivity
  have n1' := n1.trans (mul_le_mul_of_nonneg_right c1 M3)
  have n3 : |(val A + D).det| ≤ 6.001 * M ^ 3 := by
    have := abs_sub_abs_le_abs_sub (val A + D).det (val A).det
    nlinarith only [this, n1', n2, mul_le_mul_of_nonneg_right hu M3, M3]
  have n4 : ((1 + u) ^ 3 - 1) * |(val A + D).det| ≤ 3.001 * u * (6.001 * M ^ 3) := mul_le_mul c2 n3 (abs_nonneg _) (by positivity)
  rw [show (determinant eps A).val - (val A).det = ((determinant eps A).val - (val A + D).det) + ((val A + D).det - (val A).det) by ring]
  refine (abs_add_le _ _).trans ?_
  nlinarith only [hdet.trans n4, n1', mul_nonneg h0 M3]

/-- One entry of the adjugate, multiplied by the reciprocal of the determinant. -/
theorem entry_error (h : Accurate fl u) (hu : u ≤ 1 / 1000000) {a b c e d : Fl fl} {M t σ : ℝ} (hσ : |σ| = 1) (ha : |a.val| ≤ M) (hb : |b.val| ≤ M) (hc : |c.val| ≤ M)
    (he : |e.val| ≤ M) (ht : 0 < |t|) (htM : |t| ≤ 6 * M ^ 3) (hd : |d.val - t| ≤ 700 * u * M ^ 3) (hκ : 1400 * u * M ^ 3 ≤ |t|) :
    |fl (σ * (a * b - c * e).val * (1 / d : Fl fl).val) - σ * ((a.val * b.val - c.val * e.val) / t)| ≤ 3000 * u * M ^ 5 / t ^ 2 := by
  have h0 := unit_nonneg h
  have M0 : 0 ≤ M := (abs_nonneg _).trans ha
  have t0 : t ≠ 0 := abs_pos.1 ht
  have pr : ∀ {x y : ℝ}, |x| ≤ M → |y| ≤ M → |x * y| ≤ M * M := fun hx hy => by rw [abs_mul]; exact mul_le_mul hx hy (abs_nonneg _) M0
  have hd2 : |t| / 2 ≤ |d.val| := by
    have := abs_sub_abs_le_abs_sub t d.val
    rw [abs_sub_comm] at this
    linarith
  have d0 : d.val ≠ 0 := abs_pos.1 (by linarith)
  have ep := h (a.val * b.val)
  have eq := h (c.val * e.val)
  have ew := h (fl (a.val * b.val) - fl (c.val * e.val))
  have er := h (1 / d.val)
  have ev := h (σ * fl (fl (a.val * b.val) - fl (c.val * e.val)) * fl (1 / d.val))
  show |fl (σ * fl (fl (a.val * b.val) - fl (c.val * e.val)) * fl (1 / d.val)) - _| ≤ _
  have hab := pr ha hb
  have hce := pr hc he
  generalize a.val * b.val = x at *
  generalize c.val * e.val = y at *
  generalize fl x = p at *
  generalize fl y = q at *
  generalize fl (p - q) = w at *
  generalize fl (1 / d.val) = r at *
  generalize fl (σ * w * r) = v at *
  generalize d.val = D at *
  have m0 : 0 ≤ M * M := mul_nonneg M0 M0
  have p1 : |p - x| ≤ u * (M * M) := ep.trans (mul_le_mul_of_nonneg_left hab h0)
  have q1 : |q - y| ≤ u * (M * M) := eq.trans (mul_le_mul_of_nonneg_left hce h0)
  have p2 : |p - q| ≤ 2 * ((1 + u) * (M * M)) := by
    rw [show p - q = (p - x) + x + ((y - q) - y) by ring]
    have := abs_add_le (p - x + x) (y - q - y)
    have := abs_add_le (p - x) x
    have := abs_sub (y - q) y
    rw [abs_sub_comm y q] at this
    linarith
  have w1 : |w - (x - y)| ≤ 4.001 * u * (M * M) := by
    rw [show w - (x - y) = (w - (p - q)) + ((p - x) + (y - q)) by ring]
    have i1 := abs_add_le (w - (p - q)) ((p - x) + (y - q))
    have i2 := abs_add_le (p - x) (y - q)
    rw [abs_sub_comm y q] at i2
    have i3 := mul_le_mul_of_nonneg_left p2 h0
    have i4 := mul_nonneg h0 m0
    have i5 := mul_le_mul_of_nonneg_right hu (mul_nonneg h0 m0)
    linarith
  have s1 : |x - y| ≤ 2 * (M * M) := (abs_sub _ _).trans (by linarith)
  have w2 : |w| ≤ 2.001 * (M * M) := by
    have := abs_sub_abs_le_abs_sub w (x - y)
    nlinarith only [this, w1, s1, mul_le_mul_of_nonneg_right hu m0]
  -- reciprocals
  obtain ⟨X, hX⟩ : ∃ X, X = |1 / t| := ⟨_, rfl⟩
  have X0 : 0 ≤ X := by rw [hX]; exact abs_nonneg _
  have Y1 : |1 / D| ≤ 2 * X := by
    rw [hX, abs_div, abs_div, abs_one, show 2 * (1 / |t|) = 1 / (|t| / 2) by field_simp]
    exact one_div_le_one_div_of_le (by linarith) hd2
  have r1 : |r - 1 / D| ≤ u * (2 * X) := er.trans (mul_le_mul_of_nonneg_left Y1 h0)
  have r2 : |r| ≤ 2.001 * X := by
    have := abs_sub_abs_le_abs_sub r (1 / D)
    nlinarith only [this, r1, Y1, mul_le_mul_of_nonneg_right hu X0, X0]
  have Z1 : |1 / D - 1 / t| ≤ 700 * u * M ^ 3 * (2 * X * X) := by
    have e1 : 1 / D - 1 / t = (t - D) * (1 / D * (1 / t)) := by field_simp
    rw [e1, abs_mul, abs_mul, abs_sub_comm, ← hX]
    exact mul_le_mul hd (mul_le_mul_of_nonneg_right Y1 X0) (by positivity) (by positivity)
  have one : 1 ≤ 6 * M ^ 3 * X := by
    rw [hX, abs_div, abs_one, mul_one_div, le_div_iff₀ ht, one_mul]; exact htM
  have big : M * M * X ≤ 6 * M ^ 5 * (X * X) := by
    have := mul_le_mul_of_nonneg_left one (mul_nonneg m0 X0)
    nlinarith only [this]
  have k1 : |v - σ * w * r| ≤ u * (2.001 * (M * M) * (2.001 * X)) := by
    refine ev.trans (mul_le_mul_of_nonneg_left ?_ h0)
    rw [abs_mul, abs_mul, hσ, one_mul]
    exact mul_le_mul w2 r2 (abs_nonneg _) (by positivity)
  have k2 : |w * (r - 1 / D)| ≤ 2.001 * (M * M) * (u * (2 * X)) := by
    rw [abs_mul]; exact mul_le_mul w2 r1 (abs_nonneg _) (by positivity)
  have k3 : |(w - (x - y)) * (1 / D)| ≤ 4.001 * u * (M * M) * (2 * X) := by
    rw [abs_mul]; exact mul_le_mul w1 Y1 (abs_nonneg _) (by positivity)
  have k4 : |(x - y) * (1 / D - 1 / t)| ≤ 2 * (M * M) * (700 * u * M ^ 3 * (2 * X * X)) := by
    rw [abs_mul]; exact mul_le_mul s1 Z1 (abs_nonneg _) (by positivity)
  have fin : 3000 * u * M ^ 5 / t ^ 2 = 3000 * u * M ^ 5 * (X * X) := by
    rw [hX, abs_mul_abs_self]; field_simp
  rw [fin, show v - σ * ((x - y) / t) = (v - σ * w * r) + σ * (w * (r - 1 / D) + (w - (x - y)) * (1 / D) + (x - y) * (1 / D - 1 / t)) by ring]
  have a1 := abs_add_le (v - σ * w * r) (σ * (w * (r - 1 / D) + (w - (x - y)) * (1 / D) + (x - y) * (1 / D - 1 / t)))
  rw [abs_mul, hσ, one_mul] at a1
  have a2 := abs_add_three (w * (r - 1 / D)) ((w - (x - y)) * (1 / D)) ((x - y) * (1 / D - 1 / t))
  have b1 := mul_le_mul_of_nonneg_left big h0
  have b2 : 0 ≤ u * (M ^ 5 * (X * X)) := by positivity
  nlinarith only [a1, a2, k1, k2, k3, k4, b1, b2]

/-! ## C206 -/

theorem lu_of_some {eps : Fl fl} (h : Accurate fl u) (he : 0 ≤ eps.val) {A B : Mat (Fl fl) 3 3} (hB : inverse3Of eps A = some B) : luDecompose eps A ≠ none := by
  intro hd
  have := C113_threshold h hd
  unfold inverse3Of at hB
  dsimp only at hB
  rw [if_pos (show absV (determinant eps A) ≤ eps from show |(determinant eps A).val| ≤ eps.val by rw [this, abs_zero]; exact he)] at hB
  cases hB

/-- **C206**. When `inverse` of a 3 × 3 matrix with entries up to `M` returns a matrix, and `M³` is not so large compared to the determinant that 1400 roundings
of it reach the determinant, then every entry of the returned matrix is that of the inverse up to `3000 u M⁵ / det²`. -/
theorem C206_inverse (h : Accurate fl u) (hu : u ≤ 1 / 1000000) {eps : Fl fl} (he : 0 ≤ eps.val) {A B : Mat (Fl fl) 3 3} {M : ℝ}
    (hA : ∀ i j, |val A i j| ≤ M) (h0 : (val A).det ≠ 0) (hκ : 1400 * u * M ^ 3 ≤ |(val A).det|) (hB : inverse3Of eps A = some B) (i j : Fin 3) :
    |val B i j - (val A)⁻¹ i j| ≤ 3000 * u * M ^ 5 / (val A).det ^ 2 := by
  have hd := det3_error h hu he hA (lu_of_some h he hB)
  have htM : |(val A).det| ≤ 6 * M ^ 3 := (det3_near (D := 0) (ε := 0) hA (fun i j => by simp) le_rfl).2
  unfold inverse3Of at hB
  dsimp only at hB
  split_ifs at hB with hc
  have ht := abs_pos.2 h0
  have eI : (val A)⁻¹ i j = (val A).adjugate i j / (val A).det := by
    rw [Matrix.inv_def, Ring.inverse_eq_inv', Matrix.smul_apply, smul_eq_mul]; ring
  have hA' : ∀ i j, |(A i j).val| ≤ M := hA
  have pos : ∀ a b c e : Fl fl, |a.val| ≤ M → |b.val| ≤ M → |c.val| ≤ M → |e.val| ≤ M →
      |((a * b - c * e) * (1 / determinant eps A)).val - (a.val * b.val - c.val * e.val) / (val A).det| ≤ 3000 * u * M ^ 5 / (val A).det ^ 2 :=
    fun a b c e ha hb hc he => by
      have := entry_error h hu (σ := 1) abs_one ha hb hc he ht htM hd hκ
      rw [one_mul, one_mul] at this
      exact this
  have neg : ∀ a b c e : Fl fl, |a.val| ≤ M → |b.val| ≤ M → |c.val| ≤ M → |e.val| ≤ M →
      |(-(a * b - c * e) * (1 / determinant eps A)).val - (-(a.val * b.val) + c.val * e.val) / (val A).det| ≤ 3000 * u * M ^ 5 / (val A).det ^ 2 := by
    intro a b c e ha hb hc he
    have := entry_error h hu (σ := -1) (by norm_num) ha hb hc he ht htM hd hκ
    rw [neg_one_mul, neg_one_mul, show -((a.val * b.val - c.val * e.val) / (val A).det) = (-(a.val * b.val) + c.val * e.val) / (val A).det by ring] at this
    exact this
  have hB' := Option.some.inj hB
  rw [eI, adjugate_fin_three]
  show |(B i j).val - _| ≤ _
  rw [← hB']
  have p := fun a b c e a' b' c' e' => pos (A a a') (A b b') (A c c') (A e e') (hA' _ _) (hA' _ _) (hA' _ _) (hA' _ _)
  have n := fun a b c e a' b' c' e' => neg (A a a') (A b b') (A c c') (A e e') (hA' _ _) (hA' _ _) (hA' _ _) (hA' _ _)
  fin_cases i <;> fin_cases j
  · exact p 1 2 1 2 1 2 2 1
  · exact n 0 2 0 2 1 2 2 1
  · exact p 0 1 0 1 1 2 2 1
  · exact n 1 2 1 2 0 2 2 0
  · exact p 0 2 0 2 0 2 2 0
  · have := n 0 1 1 0 0 2 0 2
    rw [mul_comm (A 1 0).val] at this
    exact this
  · exact p 1 2 1 2 0 1 1 0
  · exact n 0 2 0 2 0 1 1 0
  · exact p 0 1 0 1 0 1 1 0

/-- **C206**. Multiplied with the matrix on either side, what is returned is the identity up to `9000 u M⁶ / det²`. -/
theorem C206_product (h : Accurate fl u) (hu : u ≤ 1 / 1000000) {eps : Fl fl} (he : 0 ≤ eps.val) {A B : Mat (Fl fl) 3 3} {M : ℝ}
    (hA : ∀ i j, |val A i j| ≤ M) (h0 : (val A).det ≠ 0) (hκ : 1400 * u * M ^ 3 ≤ |(val A).det|) (hB : inverse3Of eps A = some B) (i j : Fin 3) :
    |(val A * val B) i j - (1 : Matrix (Fin 3) (Fin 3) ℝ) i j| ≤ 9000 * u * M ^ 6 / (val A).det ^ 2 ∧
      |(val B * val A) i j - (1 : Matrix (Fin 3) (Fin 3) ℝ) i j| ≤ 9000 * u * M ^ 6 / (val A).det ^ 2 := by
  have hI := C206_inverse h hu he hA h0 hκ hB
  have M0 : 0 ≤ M := (abs_nonneg _).trans (hA 0 0)
  have hunit : IsUnit (val A).det := isUnit_iff_ne_zero.2 h0
  obtain ⟨q, hq⟩ : ∃ q, q = 3000 * u * M ^ 5 / (val A).det ^ 2 := ⟨_, rfl⟩
  have e : 9000 * u * M ^ 6 / (val A).det ^ 2 = M * q + M * q + M * q := by rw [hq]; ring
  rw [← hq] at hI
  have t : ∀ a b c d, |val A a b * (val B c d - (val A)⁻¹ c d)| ≤ M * q := fun a b c d => by
    rw [abs_mul]; exact mul_le_mul (hA _ _) (hI _ _) (abs_nonneg _) M0
  rw [e]
  constructor
  · rw [← Matrix.mul_nonsing_inv (val A) hunit, Matrix.mul_apply, Matrix.mul_apply, Fin.sum_univ_three, Fin.sum_univ_three]
    have := abs_add_three (val A i 0 * (val B 0 j - (val A)⁻¹ 0 j)) (val A i 1 * (val B 1 j - (val A)⁻¹ 1 j)) (val A i 2 * (val B 2 j - (val A)⁻¹ 2 j))
    refine le_trans (le_of_eq ?_) (this.trans (add_le_add (add_le_add (t _ _ _ _) (t _ _ _ _)) (t _ _ _ _)))
    congr 1; ring
  · rw [← Matrix.nonsing_inv_mul (val A) hunit, Matrix.mul_apply, Matrix.mul_apply, Fin.sum_univ_three, Fin.sum_univ_three]
    have := abs_add_three (val A 0 j * (val B i 0 - (val A)⁻¹ i 0)) (val A 1 j * (val B i 1 - (val A)⁻¹ i 1)) (val A 2 j * (val B i 2 - (val A)⁻¹ i 2))
    refine le_trans (le_of_eq ?_) (this.trans (add_le_add (add_le_add (t _ _ _ _) (t _ _ _ _)) (t _ _ _ _)))
    congr 1; ring

/-- **C206**. `inverse` refuses a matrix only if elimination meets a pivot not above the threshold, or the determinant is at most twice the threshold. -/
theorem C206_refused (h : Accurate fl u) (hu : u ≤ 1 / 1000000) {eps : Fl fl} (he : 0 ≤ eps.val) {A : Mat (Fl fl) 3 3} {M : ℝ}
    (hA : ∀ i j, |val A i j| ≤ M) (hκ : 1400 * u * M ^ 3 ≤ |(val A).det|) (hB : inverse3Of eps A = none) :
    luDecompose eps A = none ∨ |(val A).det| ≤ 2 * eps.val := by
  by_cases hl : luDecompose eps A = none
  · exact Or.inl hl
  · right
    have hd := det3_error h hu he hA hl
    unfold inverse3Of at hB
    dsimp only at hB
    split_ifs at hB with hc
    have hc' : |(determinant eps A).val| ≤ eps.val := hc
    have := abs_sub_abs_le_abs_sub (val A).det (determinant eps A).val
    rw [abs_sub_comm] at this
    linarith

-- The hypotheses are met: an upper triangular matrix, in double precision.
open Verif.Float in
example : ∃ A B : Mat (Fl (rnd 53)) 3 3, ∃ M : ℝ, Accurate (rnd 53) (2 ^ (-(53 : ℕ) : ℤ)) ∧ (2 : ℝ) ^ (-(53 : ℕ) : ℤ) ≤ 1 / 1000000 ∧
    (∀ i j, |val A i j| ≤ M) ∧ (val A).det ≠ 0 ∧ 1400 * (2 : ℝ) ^ (-(53 : ℕ) : ℤ) * M ^ 3 ≤ |(val A).det| ∧
    inverse3Of (⟨0⟩ : Fl (rnd 53)) A = some B := by
  have hn : Nearest 53 (rnd 53) := rnd_nearest (by norm_num)
  have fz : rnd 53 0 = 0 := hn.fix isFloat_zero
  have fint : ∀ m : ℤ, |m| < 2 ^ 53 → rnd 53 (m : ℝ) = m := fun m hm => hn.fix ⟨m, 0, hm, by simp⟩
  have f1 : rnd 53 1 = 1 := by simpa using fint 1 (by norm_num)
  have f2 : rnd 53 2 = 2 := by simpa using fint 2 (by norm_num)
  have f4 : rnd 53 4 = 4 := by simpa using fint 4 (by norm_num)
  have f8 : rnd 53 8 = 8 := by simpa using fint 8 (by norm_num)
  obtain ⟨T, hT⟩ : ∃ T : Mat (Fl (rnd 53)) 3 3, T = ![![⟨2⟩, ⟨1⟩, ⟨1⟩], ![⟨0⟩, ⟨2⟩, ⟨1⟩], ![⟨0⟩, ⟨0⟩, ⟨2⟩]] := ⟨_, rfl⟩
  have T00 : T 0 0 = ⟨2⟩ := by rw [hT]; rfl
  have T11 : T 1 1 = ⟨2⟩ := by rw [hT]; rfl
  have T22 : T 2 2 = ⟨2⟩ := by rw [hT]; rfl
  have T01 : T 0 1 = ⟨1⟩ := by rw [hT]; rfl
  have T02 : T 0 2 = ⟨1⟩ := by rw [hT]; rfl
  have T12 : T 1 2 = ⟨1⟩ := by rw [hT]; rfl
  have T10 : T 1 0 = ⟨0⟩ := by rw [hT]; rfl
  have T20 : T 2 0 = ⟨0⟩ := by rw [hT]; rfl
  have T21 : T 2 1 = ⟨0⟩ := by rw [hT]; rfl
  have sb : ∀ a b : ℝ, (⟨a⟩ - ⟨b⟩ : Fl (rnd 53)) = ⟨rnd 53 (a - b)⟩ := fun _ _ => rfl
  have ml : ∀ a b : ℝ, (⟨a⟩ * ⟨b⟩ : Fl (rnd 53)) = ⟨rnd 53 (a * b)⟩ := fun _ _ => rfl
  have dv : ∀ a b : ℝ, (⟨a⟩ / ⟨b⟩ : Fl (rnd 53)) = ⟨rnd 53 (a / b)⟩ := fun _ _ => rfl
  have hE : ∀ k, detElim T k = T := fun k => by
    funext i j
    rw [detElim_apply]
    fin_cases k <;> fin_cases i <;> fin_cases j <;>
      simp [T00, T11, T22, T01, T02, T12, T10, T20, T21, sb, ml, dv, fz, f1, f2]
  have le : ∀ a b : Fl (rnd 53), (a ≤ b) = (a.val ≤ b.val) := fun _ _ => rfl
  have gt : ∀ a b : Fl (rnd 53), (a > b) = (b.val < a.val) := fun _ _ => rfl
  have ab : ∀ a : Fl (rnd 53), (absV a).val = |a.val| := fun _ => rfl
  have r0 : rng 3 0 3 = [0, 1, 2] := by decide
  have r1 : rng 3 1 3 = [1, 2] := by decide
  have r2 : rng 3 2 3 = [2] := by decide
  have r3 : rng 3 3 3 = [] := by decide
  have hP : ∀ k, pivot T k = (k, absV (T k k)) := fun k => by
    have n2 : ¬ (2 : ℝ) < 0 := by norm_num
    fin_cases k <;> simp [pivot, r1, r2, r3, gt, ab, T00, T11, T22, T10, T20, T21, n2]
  have hS : ∀ (k : Fin 3) (x : Fl (rnd 53)), detStep ⟨0⟩ (T, x) k = some (T, x * ⟨2⟩) := fun k x => by
    have hk : T k k = ⟨2⟩ := by fin_cases k <;> assumption
    unfold detStep
    dsimp only
    rw [hP, if_neg (by rw [le, ab, hk]; norm_num)]
    simp only [ne_eq, not_true_eq_false, if_false]
    rw [hE, hk]
  have hdet : determinant (⟨0⟩ : Fl (rnd 53)) T = ⟨8⟩ := by
    unfold determinant
    rw [r0]
    simp only [List.foldlM_cons, List.foldlM_nil, hS, Option.bind_eq_bind, Option.bind_some]
    show (⟨1⟩ * ⟨2⟩ * ⟨2⟩ * ⟨2⟩ : Fl (rnd 53)) = ⟨8⟩
    rw [ml, ml, ml]
    norm_num [f2, f4, f8]
  have hv : val T = !![2, 1, 1; 0, 2, 1; 0, 0, 2] := by
    ext i j
    show (T i j).val = _
    fin_cases i <;> fin_cases j <;> simp [T00, T11, T22, T01, T02, T12, T10, T20, T21]
  have hd : (val T).det = 8 := by
    rw [det_fin_three]
    show (T 0 0).val * (T 1 1).val * (T 2 2).val - (T 0 0).val * (T 1 2).val * (T 2 1).val - (T 0 1).val * (T 1 0).val * (T 2 2).val +
      (T 0 1).val * (T 1 2).val * (T 2 0).val + (T 0 2).val * (T 1 0).val * (T 2 1).val - (T 0 2).val * (T 1 1).val * (T 2 0).val = 8
    rw [T00, T11, T22, T01, T02, T12, T10, T20, T21]
    norm_num
  refine ⟨T, _, 2, hn.accurate (by norm_num), by norm_num, fun i j => ?_, by rw [hd]; norm_num, by rw [hd]; norm_num, if_neg ?_⟩
  · rw [hv]
    fin_cases i <;> fin_cases j <;> norm_num
  · rw [le, ab, hdet]; norm_num

/-- Over the reals this is the inverse of `Mat/Model.lean`. -/
theorem inverse3Of_real (eps : ℝ) (A : Mat ℝ 3 3) : inverse3Of eps A = inverse3 eps A := rfl

end Verif.Round
