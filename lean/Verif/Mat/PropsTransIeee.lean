import Verif.Stats.PropsCovOfIeee
import Verif.Ieee.PropsCast
import Verif.Ieee.PropsDot
import Verif.Mat.PropsAlg

/-!
# Products and transposes in machine arithmetic (C242)
-/

namespace Verif.Mat.Ie

open Verif.Ieee Verif.Mat Verif.Stats.Ie

variable {F : Format} {fl : ℝ → ℝ} {m n p : ℕ}

/-- A rounding to a given number, of either sign. -/
theorem double_to (h : Rounds binary64 fl) {x : ℝ} (k e : ℤ) (he : -1074 ≤ e) (he' : e ≤ 0) (hk : |k| ≤ 2 ^ 53) (h1 : 2 ^ (52 + e) ≤ |x|) (h2 : |x - k * 2 ^ e| < 2 ^ e / 2) :
    (IE.ofReal x : IE binary64 fl) = IE.num (k * 2 ^ e) := by
  have hfl : fl x = k * 2 ^ e := by
    rcases le_total 0 x with hx | hx
    · rw [abs_of_nonneg hx] at h1
      exact rounds_to (F := binary64) (by decide) h he hk (by simpa [binary64] using h1) h2
    · rw [abs_of_nonpos hx] at h1
      have := rounds_to (F := binary64) (by decide) h.negate (x := -x) (m := -k) (e := e) he (by rwa [abs_neg]) (by simpa [binary64] using h1) (by
        push_cast
        rwa [show -x - -(k : ℝ) * 2 ^ e = -(x - k * 2 ^ e) by ring, abs_neg])
      rw [neg_neg] at this
      push_cast at this
      linarith
  rw [← hfl]
  refine ofReal_num ?_
  rw [hfl, abs_mul, abs_of_pos (by positivity : (0 : ℝ) < 2 ^ e)]
  have hk' : |(k : ℝ)| ≤ 2 ^ 53 := by exact_mod_cast hk
  have he2 : (2 : ℝ) ^ e ≤ 1 := zpow_le_one_of_nonpos₀ (by norm_num) he'
  calc |(k : ℝ)| * 2 ^ e ≤ 2 ^ 53 * 1 := mul_le_mul hk' he2 (by positivity) (by positivity)
    _ < 2 ^ binary64.emax := by
      rw [mul_one, ← zpow_natCast]
      exact zpow_lt_zpow_right₀ (by norm_num) (by decide)

/-! ## Properties -/

/-- **C242, products**: matrices of any size and values, also infinite ones and NaN, in any format. The transpose of a product is exactly the product of the transposes in the
other order. -/
theorem C242_transpose (a : Mat (IE F fl) m n) (b : Mat (IE F fl) n p) : transpose (mul a b) = mul (transpose b) (transpose a) := by
  funext j i
  rw [transpose_apply, C21_mul_entry, C21_mul_entry]
  congr 1
  funext s k
  rw [transpose_apply, transpose_apply, ie_mul_comm]

/-- **C242, squares**: the product of any matrix and its transpose is exactly symmetric, in either order, and the scalar product does not depend on the order. -/
theorem C242_gram (a : Mat (IE F fl) m n) (u v : Fin n → IE F fl) : transpose (mul a (transpose a)) = mul a (transpose a) ∧
    transpose (mul (transpose a) a) = mul (transpose a) a ∧ dot u v = dot v u := by
  have tt : transpose (transpose a) = a := by
    funext i j
    rw [transpose_apply, transpose_apply]
  refine ⟨by rw [C242_transpose, tt], by rw [C242_transpose, tt], ?_⟩
  rw [C22_dot, C22_dot]
  congr 1
  funext s k
  rw [ie_mul_comm]

/-- The rotation by the angle of the triangle 3, 4, 5 about the third axis, in `f64`. -/
noncomputable def turn (fl : ℝ → ℝ) : Mat (IE binary64 fl) 3 3 :=
  ![![IE.ofReal 0.6, -IE.ofReal 0.8, 0], ![IE.ofReal 0.8, IE.ofReal 0.6, 0], ![0, 0, 1]]

/-- **C242** does not extend to the product of three factors by which `attributes.rs:63` turns an inertia tensor: for the rotation `turn` and a body with the same moment of
inertia 9 about every axis the computed tensor is not symmetric: it has `-2 ^ -50` above the diagonal and `2 ^ -50` below it. -/
theorem C242_fails (h : Rounds binary64 fl) :
    mul (mul (turn fl) (diag fun _ => IE.num 9)) (transpose (turn fl)) 0 1 = IE.num (-2 ^ (-50 : ℤ)) ∧
      mul (mul (turn fl) (diag fun _ => IE.num 9)) (transpose (turn fl)) 1 0 = IE.num (2 ^ (-50 : ℤ)) := by
  obtain ⟨c, hc⟩ : ∃ c : ℝ, c = 5404319552844595 * 2 ^ (-53 : ℤ) := ⟨_, rfl⟩
  obtain ⟨s, hs⟩ : ∃ s : ℝ, s = 7205759403792794 * 2 ^ (-53 : ℤ) := ⟨_, rfl⟩
  obtain ⟨p, hp⟩ : ∃ p : ℝ, p = 6079859496950169 * 2 ^ (-50 : ℤ) := ⟨_, rfl⟩
  obtain ⟨q, hq⟩ : ∃ q : ℝ, q = 8106479329266893 * 2 ^ (-50 : ℤ) := ⟨_, rfl⟩
  obtain ⟨P, hP⟩ : ∃ P : ℝ, P = 4863887597560135 * 2 ^ (-50 : ℤ) := ⟨_, rfl⟩
  obtain ⟨Q, hQ⟩ : ∃ Q : ℝ, Q = 4863887597560136 * 2 ^ (-50 : ℤ) := ⟨_, rfl⟩
  have ec : (IE.ofReal 0.6 : IE binary64 fl) = IE.num c := by
    rw [hc]; exact_mod_cast double_to h (x := 0.6) 5404319552844595 (-53) (by norm_num) (by norm_num) (by norm_num) (by norm_num) (by rw [abs_lt]; norm_num)
  have es : (IE.ofReal 0.8 : IE binary64 fl) = IE.num s := by
    rw [hs]; exact_mod_cast double_to h (x := 0.8) 7205759403792794 (-53) (by norm_num) (by norm_num) (by norm_num) (by norm_num) (by rw [abs_lt]; norm_num)
  have ep : (IE.ofReal (c * 9) : IE binary64 fl) = IE.num p := by
    rw [hp]; exact_mod_cast double_to h (x := c * 9) 6079859496950169 (-50) (by norm_num) (by norm_num) (by norm_num) (by rw [hc]; norm_num) (by rw [hc, abs_lt]; norm_num)
  have eq : (IE.ofReal (s * 9) : IE binary64 fl) = IE.num q := by
    rw [hq]; exact_mod_cast double_to h (x := s * 9) 8106479329266893 (-50) (by norm_num) (by norm_num) (by norm_num) (by rw [hs]; norm_num) (by rw [hs, abs_lt]; norm_num)
  have eq' : (IE.ofReal (-s * 9) : IE binary64 fl) = IE.num (-q) := by
    have := double_to h (x := -s * 9) (-8106479329266893) (-50) (by norm_num) (by norm_num) (by norm_num) (by rw [hs]; norm_num) (by rw [hs, abs_lt]; norm_num)
    rw [this, hq]; push_cast; rw [neg_mul]
  have eP : (IE.ofReal (p * s) : IE binary64 fl) = IE.num P := by
    rw [hP]; exact_mod_cast double_to h (x := p * s) 4863887597560135 (-50) (by norm_num) (by norm_num) (by norm_num) (by rw [hp, hs]; norm_num) (by rw [hp, hs, abs_lt]; norm_num)
  have eP' : (IE.ofReal (p * -s) : IE binary64 fl) = IE.num (-P) := by
    have := double_to h (x := p * -s) (-4863887597560135) (-50) (by norm_num) (by norm_num) (by norm_num) (by rw [hp, hs]; norm_num) (by rw [hp, hs, abs_lt]; norm_num)
    rw [this, hP]; push_cast; rw [neg_mul]
  have eQ : (IE.ofReal (q * c) : IE binary64 fl) = IE.num Q := by
    rw [hQ]; exact_mod_cast double_to h (x := q * c) 4863887597560136 (-50) (by norm_num) (by norm_num) (by norm_num) (by rw [hq, hc]; norm_num) (by rw [hq, hc, abs_lt]; norm_num)
  have eQ' : (IE.ofReal (-q * c) : IE binary64 fl) = IE.num (-Q) := by
    have := double_to h (x := -q * c) (-4863887597560136) (-50) (by norm_num) (by norm_num) (by norm_num) (by rw [hq, hc]; norm_num) (by rw [hq, hc, abs_lt]; norm_num)
    rw [this, hQ]; push_cast; rw [neg_mul]
  have ef : ∀ k : ℤ, |k| ≤ 2 ^ 53 → 2 ^ 52 ≤ |k| → (IE.ofReal (k * 2 ^ (-50 : ℤ)) : IE binary64 fl) = IE.num (k * 2 ^ (-50 : ℤ)) := by
    intro k hk hk2
    refine double_to h k (-50) (by norm_num) (by norm_num) hk ?_ (by rw [sub_self, abs_zero]; positivity)
    have : (2 : ℝ) ^ 52 ≤ |(k : ℝ)| := by exact_mod_cast hk2
    rw [abs_mul, abs_of_pos (by positivity : (0 : ℝ) < 2 ^ (-50 : ℤ)), zpow_add₀ (by norm_num)]
    exact mul_le_mul_of_nonneg_right (by exact_mod_cast this) (by positivity)
  have fp : (IE.ofReal p : IE binary64 fl) = IE.num p := by rw [hp]; exact_mod_cast ef 6079859496950169 (by norm_num) (by norm_num)
  have fq : (IE.ofReal q : IE binary64 fl) = IE.num q := by rw [hq]; exact_mod_cast ef 8106479329266893 (by norm_num) (by norm_num)
  have fq' : (IE.ofReal (-q) : IE binary64 fl) = IE.num (-q) := by
    have := ef (-8106479329266893) (by norm_num) (by norm_num)
    push_cast at this
    rw [hq, ← neg_mul]
    exact this
  have fP : (IE.ofReal P : IE binary64 fl) = IE.num P := by rw [hP]; exact_mod_cast ef 4863887597560135 (by norm_num) (by norm_num)
  have fQ : (IE.ofReal Q : IE binary64 fl) = IE.num Q := by rw [hQ]; exact_mod_cast ef 4863887597560136 (by norm_num) (by norm_num)
  have z : (IE.ofReal 0 : IE binary64 fl) = IE.num 0 := ofReal_finite h cov_zero
  have fd : (IE.ofReal (P + -Q) : IE binary64 fl) = IE.num (-2 ^ (-50 : ℤ)) := by
    rw [show P + -Q = -2 ^ (-50 : ℤ) by rw [hP, hQ]; norm_num]
    refine ofReal_finite h ?_
    have := pow_finite (e := -50) (by norm_num) (by norm_num)
    exact ⟨this.1.neg, by rw [abs_neg]; exact this.2⟩
  have fd' : (IE.ofReal (Q + -P) : IE binary64 fl) = IE.num (2 ^ (-50 : ℤ)) := by
    rw [show Q + -P = 2 ^ (-50 : ℤ) by rw [hP, hQ]; norm_num]
    exact ofReal_finite h (pow_finite (by norm_num) (by norm_num))
  have fe : (IE.ofReal (2 ^ (-50 : ℤ)) : IE binary64 fl) = IE.num (2 ^ (-50 : ℤ)) := ofReal_finite h (pow_finite (by norm_num) (by norm_num))
  have fe' : (IE.ofReal (-2 ^ (-50 : ℤ)) : IE binary64 fl) = IE.num (-2 ^ (-50 : ℤ)) := by
    have := pow_finite (e := -50) (by norm_num) (by norm_num)
    exact ofReal_finite h ⟨this.1.neg, by rw [abs_neg]; exact this.2⟩
  have et : turn fl = ![![IE.num c, IE.num (-s), IE.num 0], ![IE.num s, IE.num c, IE.num 0], ![IE.num 0, IE.num 0, IE.num 1]] := by
    unfold turn
    rw [ec, es]
    rfl
  have l3 : List.finRange 3 = [0, 1, 2] := by decide
  obtain ⟨t, ht⟩ : ∃ t, t = -s := ⟨_, rfl⟩
  obtain ⟨r, hr⟩ : ∃ r, r = -q := ⟨_, rfl⟩
  obtain ⟨P', hP'⟩ : ∃ P', P' = -P := ⟨_, rfl⟩
  obtain ⟨Q', hQ'⟩ : ∃ Q', Q' = -Q := ⟨_, rfl⟩
  obtain ⟨d, hd⟩ : ∃ d : ℝ, d = 2 ^ (-50 : ℤ) := ⟨_, rfl⟩
  obtain ⟨d', hd'⟩ : ∃ d', d' = -d := ⟨_, rfl⟩
  rw [← hd] at fd fd' fe fe' ⊢
  rw [← hd'] at fd fe' ⊢
  rw [← hQ'] at fd eQ'
  rw [← hP'] at fd' eP'
  rw [← hr] at eq' fq' eQ'
  rw [← ht] at eq' eP' et
  clear hc hs hp hq hP hQ ht hr hP' hQ' hd hd' ec es
  constructor
  all_goals
    simp [C21_mul_entry, transpose_apply, diag_apply, et, l3, ie_zero, mul_num, add_num, z, ep, eq, eq', eP, eP', eQ, eQ', fp, fq, fq', fP, fQ, fd, fd', fe, fe']

/-- The product of two matrices with three columns and rows, of bounded entries. -/
theorem product3 (h : Rounds binary64 fl) {A B : Fin 3 → Fin 3 → ℝ} {α β M : ℝ} (hα : 0 ≤ α) (hβ : 0 ≤ β) (hA : ∀ i j, |A i j| ≤ α) (hB : ∀ i j, |B i j| ≤ β)
    (hM : 3 * (α * β) ≤ M) (hb : M ≤ 2 ^ (1020 : ℤ)) (i j : Fin 3) :
    ∃ r, mul (fun i l => (IE.num (A i l) : IE binary64 fl)) (fun l j => IE.num (B l j)) i j = IE.num r ∧ Finite binary64 r ∧
      |r - ∑ l, A i l * B l j| ≤ 3 * 2 ^ (-52 : ℤ) * M + 4 * tiny binary64 := by
  have hsum : ∑ l, |A i l * B l j| ≤ M := by
    refine le_trans ?_ hM
    rw [Fin.sum_univ_three]
    have : ∀ l, |A i l * B l j| ≤ α * β := fun l => by rw [abs_mul]; exact mul_le_mul (hA i l) (hB l j) (abs_nonneg _) hα
    linarith [this 0, this 1, this 2]
  have hs0 : 0 ≤ ∑ l, |A i l * B l j| := Finset.sum_nonneg fun _ _ => abs_nonneg _
  have hpow := pow_f64 3 (by norm_num)
  have ht : tiny binary64 ≤ 1 := zpow_le_one_of_nonpos₀ (by norm_num) (by decide)
  have ht0 : 0 ≤ tiny binary64 := by unfold tiny; positivity
  have hbig : (2 : ℝ) ^ binary64.emax = 16 * 2 ^ (1020 : ℤ) := by
    rw [show binary64.emax = 4 + 1020 from rfl, zpow_add₀ (by norm_num)]
    norm_num
  have h1 : (1 : ℝ) ≤ 2 ^ (1020 : ℤ) := one_le_zpow₀ (by norm_num) (by norm_num)
  have hp2 : (1 + unit binary64) ^ 3 ≤ 5 / 4 := hpow.trans (by norm_num)
  have hp0 : 0 ≤ (1 + unit binary64) ^ 3 := by have := unit_pos (F := binary64); positivity
  obtain ⟨r, e, f, b⟩ := C140_matrix_matrix (by decide) h A B i j (by
    rw [hbig]
    clear hbig
    generalize (2 : ℝ) ^ (1020 : ℤ) = b at *
    have : (1 + unit binary64) ^ 3 * (∑ l, |A i l * B l j| + (3 : ℕ) * tiny binary64) ≤ 5 / 4 * (b + 3) :=
      mul_le_mul hp2 (by push_cast; linarith) (by push_cast; positivity) (by norm_num)
    refine lt_of_le_of_lt this ?_
    clear this hpow
    linarith)
  refine ⟨r, e, f, b.trans ?_⟩
  push_cast at hpow ⊢
  generalize (2 : ℝ) ^ (-52 : ℤ) = d at *
  have hd : 0 ≤ 3 * d := by
    have : (1 : ℝ) ≤ (1 + unit binary64) ^ 3 := one_le_pow₀ (by have := unit_pos (F := binary64); linarith)
    linarith
  have t1 : ((1 + unit binary64) ^ 3 - 1) * ∑ l, |A i l * B l j| ≤ 3 * d * M := mul_le_mul (by linarith) hsum hs0 hd
  have t2 : 3 * tiny binary64 * (1 + unit binary64) ^ 3 ≤ 3 * tiny binary64 * (5 / 4) := mul_le_mul_of_nonneg_left hp2 (by positivity)
  linarith

/-- **C242**, the proved part of the last clause: for any computed rotation (entries of size at most 5/4) and any symmetric inertia tensor of numbers of size at most `M`, up to
`2 ^ 1000`, the turned tensor consists of finite numbers within `90 * 2 ^ -52 * M` of the exact one (and `2 ^ -1070` for underflow), so that entries across the diagonal agree up to
twice that. Missing: that they are equal, which `C242_fails` refutes. -/
theorem C242_turned_partial (h : Rounds binary64 fl) {R I : Fin 3 → Fin 3 → ℝ} {M : ℝ} (hR : ∀ i j, |R i j| ≤ 5 / 4) (hI : ∀ i j, |I i j| ≤ M) (hs : ∀ i j, I i j = I j i)
    (hM : M ≤ 2 ^ (1000 : ℤ)) :
    ∃ S : Fin 3 → Fin 3 → ℝ,
      mul (mul (fun i j => (IE.num (R i j) : IE binary64 fl)) (fun i j => IE.num (I i j))) (transpose fun i j => IE.num (R i j)) = (fun i j => IE.num (S i j)) ∧
      ∀ i j, Finite binary64 (S i j) ∧ |S i j - ∑ l, ∑ k, R i k * I k l * R j l| ≤ 90 * 2 ^ (-52 : ℤ) * M + 2 ^ (-1070 : ℤ) ∧
        |S i j - S j i| ≤ 180 * 2 ^ (-52 : ℤ) * M + 2 ^ (-1069 : ℤ) := by
  have hM0 : 0 ≤ M := (abs_nonneg _).trans (hI 0 0)
  have ht0 : 0 ≤ tiny binary64 := by unfold tiny; positivity
  have hB : 100 * (2 : ℝ) ^ (1000 : ℤ) ≤ 2 ^ (1020 : ℤ) := by
    rw [show (1020 : ℤ) = 20 + 1000 from rfl, zpow_add₀ (by norm_num)]
    exact mul_le_mul_of_nonneg_right (by norm_num) (by positivity)
  have hB1 : (1 : ℝ) ≤ 2 ^ (1000 : ℤ) := one_le_zpow₀ (by norm_num) (by norm_num)
  have ht1 : tiny binary64 ≤ 1 := zpow_le_one_of_nonpos₀ (by norm_num) (by decide)
  have first := product3 h (A := R) (B := I) (by norm_num) hM0 hR hI (M := 15 / 4 * M) (by linarith) (by
    refine le_trans ?_ hB
    clear hB
    generalize (2 : ℝ) ^ (1000 : ℤ) = b at *
    linarith)
  choose A e1 f1 b1 using first
  have hd : (2 : ℝ) ^ (-52 : ℤ) ≤ 1 / 1000 := by norm_num
  have hd0 : (0 : ℝ) < 2 ^ (-52 : ℤ) := by positivity
  have hA : ∀ i j, |A i j| ≤ 4 * M + 4 * tiny binary64 := by
    intro i j
    have h1 : |∑ l, R i l * I l j| ≤ 15 / 4 * M := by
      have hl : ∀ l, |R i l * I l j| ≤ 5 / 4 * M := fun l => by rw [abs_mul]; exact mul_le_mul (hR i l) (hI l j) (abs_nonneg _) (by norm_num)
      refine (Finset.abs_sum_le_sum_abs _ _).trans ?_
      rw [Fin.sum_univ_three]
      linarith [hl 0, hl 1, hl 2]
    have h2 := b1 i j
    have h3 := abs_sub_abs_le_abs_sub (A i j) (∑ l, R i l * I l j)
    generalize (2 : ℝ) ^ (-52 : ℤ) = d at *
    nlinarith
  have second := product3 h (A := A) (B := fun l j => R j l) (by positivity) (by norm_num : (0 : ℝ) ≤ 5 / 4) hA (fun i j => hR j i) (M := 15 * M + 15 * tiny binary64)
    (by linarith) (by
      refine le_trans ?_ hB
      clear hB
      generalize (2 : ℝ) ^ (1000 : ℤ) = b at *
      linarith)
  choose S e2 f2 b2 using second
  have em : mul (fun i j => (IE.num (R i j) : IE binary64 fl)) (fun i j => IE.num (I i j)) = fun i j => IE.num (A i j) := by
    funext i j
    exact e1 i j
  have et : (transpose fun i j => (IE.num (R i j) : IE binary64 fl)) = fun i j => IE.num (R j i) := by
    funext i j
    rw [transpose_apply]
  have main : ∀ i j, |S i j - ∑ l, ∑ k, R i k * I k l * R j l| ≤ 90 * 2 ^ (-52 : ℤ) * M + 20 * tiny binary64 := by
    intro i j
    have e : ∑ l, ∑ k, R i k * I k l * R j l = ∑ l, (∑ k, R i k * I k l) * R j l := by
      simp_rw [Finset.sum_mul]
    have hprop : |∑ l, A i l * R j l - ∑ l, (∑ k, R i k * I k l) * R j l| ≤ 15 / 4 * (3 * 2 ^ (-52 : ℤ) * (15 / 4 * M) + 4 * tiny binary64) := by
      rw [← Finset.sum_sub_distrib]
      have hl : ∀ l, |A i l * R j l - (∑ k, R i k * I k l) * R j l| ≤ (3 * 2 ^ (-52 : ℤ) * (15 / 4 * M) + 4 * tiny binary64) * (5 / 4) := fun l => by
        rw [← sub_mul, abs_mul]
        exact mul_le_mul (b1 i l) (hR j l) (abs_nonneg _) (by positivity)
      refine (Finset.abs_sum_le_sum_abs _ _).trans ?_
      rw [Fin.sum_univ_three]
      linarith [hl 0, hl 1, hl 2]
    rw [e]
    have h1 := b2 i j
    have h2 := abs_sub_le (S i j) (∑ l, A i l * R j l) (∑ l, (∑ k, R i k * I k l) * R j l)
    generalize (2 : ℝ) ^ (-52 : ℤ) = d at *
    nlinarith
  have ht : 20 * tiny binary64 ≤ 2 ^ (-1070 : ℤ) := by
    have : (2 : ℝ) ^ (-1070 : ℤ) = 32 * tiny binary64 := by
      unfold tiny
      rw [show (-1070 : ℤ) = 5 + (binary64.emin - 1) from rfl, zpow_add₀ (by norm_num)]
      norm_num
    linarith
  have h69 : (2 : ℝ) ^ (-1069 : ℤ) = 2 * 2 ^ (-1070 : ℤ) := by
    rw [show (-1069 : ℤ) = 1 + -1070 from rfl, zpow_add₀ (by norm_num), zpow_one]
  refine ⟨S, ?_, fun i j => ⟨f2 i j, (main i j).trans (by linarith), ?_⟩⟩
  · rw [em, et]
    funext i j
    exact e2 i j
  · have hsym : ∑ l, ∑ k, R j k * I k l * R i l = ∑ l, ∑ k, R i k * I k l * R j l := by
      rw [Finset.sum_comm]
      refine Finset.sum_congr rfl fun l _ => Finset.sum_congr rfl fun k _ => ?_
      rw [hs l k]
      ring
    have a := main i j
    have b := main j i
    rw [hsym, abs_sub_comm] at b
    have := abs_sub_le (S i j) (∑ l, ∑ k, R i k * I k l * R j l) (S j i)
    rw [h69]
    linarith

/-- The unit rotation and three equal moments of inertia. -/
example : (∀ i j : Fin 3, |(if i = j then (1 : ℝ) else 0)| ≤ 5 / 4) ∧ (∀ i j : Fin 3, |(if i = j then (9 : ℝ) else 0)| ≤ 9) ∧ (9 : ℝ) ≤ 2 ^ (1000 : ℤ) := by
  refine ⟨fun i j => by split_ifs <;> norm_num, fun i j => by split_ifs <;> norm_num, ?_⟩
  calc (9 : ℝ) ≤ 2 ^ (4 : ℤ) := by norm_num
    _ ≤ 2 ^ (1000 : ℤ) := zpow_le_zpow_right₀ (by norm_num) (by norm_num)

end Verif.Mat.Ie
