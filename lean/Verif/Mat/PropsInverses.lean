import Verif.Mat.PropsSolve

/-! # C207: the two inverses of a 3 × 3 matrix -/

namespace Verif.Mat

open Matrix

section
variable {K : Type*} [Field K] [LinearOrder K] [IsStrictOrderedRing K]

/-- **C207**. The inverse for 3 × 3 matrices returns a matrix exactly if the general one does and the determinant is above the threshold; they return the
same matrix. -/
theorem C207_iff {eps : K} (he : 0 ≤ eps) (A B : Mat K 3 3) :
    inverse3 eps A = some B ↔ gaussJordan eps A = some B ∧ eps < |(of A).det| := by
  have hcons := C26_consistent he A
  constructor
  · intro h
    have h0 := C26_inverse3 he h
    have hdet : ¬ |determinant eps A| ≤ eps := fun hc => by
      unfold inverse3 at h
      dsimp only at h
      rw [if_pos hc] at h
      cases h
    have hne : determinant eps A ≠ 0 := fun e => hdet (by rw [e, abs_zero]; exact he)
    obtain ⟨B', hB'⟩ := hcons.1.2 hne
    have h1 := C26_gauss_jordan he hB'
    have e : of B = of B' := by
      calc of B = of B' * of A * of B := by rw [h1.2, Matrix.one_mul]
        _ = of B' := by rw [Matrix.mul_assoc, h0.1, Matrix.mul_one]
    refine ⟨by rw [hB', of.injective e], ?_⟩
    rw [← hcons.2.2 (hcons.2.1.2 hne)]
    exact not_le.1 hdet
  · rintro ⟨h, hd⟩
    have hne : determinant eps A ≠ 0 := hcons.1.1 ⟨B, h⟩
    have ed := hcons.2.2 (hcons.2.1.2 hne)
    have h1 := C26_gauss_jordan he h
    cases h3 : inverse3 eps A with
    | none =>
      exfalso
      unfold inverse3 at h3
      dsimp only at h3
      rw [if_neg (by rw [ed]; exact not_le.2 hd)] at h3
      cases h3
    | some B' =>
      have h0 := C26_inverse3 he h3
      have e : of B' = of B := by
        calc of B' = of B * of A * of B' := by rw [h1.2, Matrix.one_mul]
          _ = of B := by rw [Matrix.mul_assoc, h0.1, Matrix.mul_one]
      rw [of.injective e]

/-- **C207**, one direction: whatever the inverse for 3 × 3 matrices returns, the general one returns too.
Missing: the converse, see `C207_fails`. -/
theorem C207_partial {eps : K} (he : 0 ≤ eps) {A B : Mat K 3 3} (h : inverse3 eps A = some B) : gaussJordan eps A = some B :=
  ((C207_iff he A B).1 h).1

/-- **C207**: the threshold applies to the determinant, which has the third power of the unit of the entries: every regular matrix, divided by a large enough
number, is refused by the inverse for 3 × 3 matrices. -/
theorem C207_units {eps : K} (he : 0 < eps) (A : Mat K 3 3) : ∃ C : K, 0 < C ∧ ∀ c, 0 < c → c ≤ C → inverse3 eps (fun i j => c * A i j) = none := by
  obtain ⟨D, hD⟩ : ∃ D, D = |(of A).det| := ⟨_, rfl⟩
  have D0 : 0 ≤ D := by rw [hD]; exact abs_nonneg _
  refine ⟨min 1 (eps / (D + 1)), lt_min one_pos (div_pos he (by linarith)), fun c hc hC => ?_⟩
  have c1 : c ≤ 1 := hC.trans (min_le_left _ _)
  have c2 : c * (D + 1) ≤ eps := (le_div_iff₀ (by linarith)).1 (hC.trans (min_le_right _ _))
  cases h : inverse3 eps (fun i j => c * A i j) with
  | none => rfl
  | some B =>
    exfalso
    have := ((C207_iff he.le _ B).1 h).2
    have e : (of fun i j => c * A i j) = c • of A := by ext i j; rfl
    rw [e, det_smul, Fintype.card_fin, abs_mul, abs_of_pos (pow_pos hc 3), ← hD] at this
    have c3 : c ^ 3 ≤ c := by
      calc c ^ 3 = c * (c * c) := by ring
        _ ≤ c * 1 := mul_le_mul_of_nonneg_left (mul_le_one₀ c1 hc.le c1) hc.le
        _ = c := mul_one c
    have := mul_le_mul_of_nonneg_right c3 D0
    linarith

end

/-- **C207 fails**: a tenth of a thousandth of the identity is refused by the inverse for 3 × 3 matrices, with the threshold of the code, and inverted by the
general one. -/
theorem C207_fails : inverse3 (1 / 10 ^ 12 : ℚ) ![![1 / 10 ^ 4, 0, 0], ![0, 1 / 10 ^ 4, 0], ![0, 0, 1 / 10 ^ 4]] = none ∧
    gaussJordan (1 / 10 ^ 12 : ℚ) ![![1 / 10 ^ 4, 0, 0], ![0, 1 / 10 ^ 4, 0], ![0, 0, 1 / 10 ^ 4]] =
      some ![![10 ^ 4, 0, 0], ![0, 10 ^ 4, 0], ![0, 0, 10 ^ 4]] := by
  decide +kernel

-- The hypotheses are met.
example : inverse3 (1 / 10 ^ 12 : ℚ) ![![0, 2, 1], ![1, 1, 0], ![3, 0, 1]] ≠ none := by decide +kernel

end Verif.Mat
