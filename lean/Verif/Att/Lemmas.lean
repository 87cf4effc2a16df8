import Verif.Att.Model
import Verif.Mat.PropsVec
import Mathlib.Tactic.LinearCombination
import Mathlib.Tactic.Ring
import Mathlib.Tactic.FieldSimp
import Mathlib.Tactic.Positivity

/-!
# Lemmas about the attitude model
-/

namespace Verif.Att

open Verif.Mat

section
variable {K : Type*} [Field K]

theorem norm2_eq (q : Quat K) : q.norm2 = q.w ^ 2 + q.i ^ 2 + q.j ^ 2 + q.k ^ 2 := by
  unfold Quat.norm2
  rw [C22_dot, foldl_finRange_sum]
  simp [Fin.sum_univ_succ]; ring

theorem dcmApply_apply (a : Mat K 3 3) (v : Fin 3 → K) (i : Fin 3) :
    dcmApply a v i = a i 0 * v 0 + a i 1 * v 1 + a i 2 * v 2 := by
  unfold dcmApply
  rw [C22_mulVec_entry, foldl_finRange_sum, Fin.sum_univ_three]

theorem dcmMul_apply (a b : Mat K 3 3) (i j : Fin 3) :
    dcmMul a b i j = a i 0 * b 0 j + a i 1 * b 1 j + a i 2 * b 2 j := by
  unfold dcmMul
  rw [Mat.mul_apply, foldl_finRange_sum, Fin.sum_univ_three]

theorem dcmTranspose_apply (a : Mat K 3 3) (i j : Fin 3) : dcmTranspose a i j = a j i :=
  fillLoop_apply _ _ _ _

end

theorem norm2_pos {q : Quat ℝ} (hq : q ≠ ⟨0, 0, 0, 0⟩) : 0 < q.norm2 := by
  rw [norm2_eq]
  by_contra h
  apply hq
  have h1 : q.w ^ 2 = 0 := by nlinarith [sq_nonneg q.w, sq_nonneg q.i, sq_nonneg q.j, sq_nonneg q.k]
  have h2 : q.i ^ 2 = 0 := by nlinarith [sq_nonneg q.w, sq_nonneg q.i, sq_nonneg q.j, sq_nonneg q.k]
  have h3 : q.j ^ 2 = 0 := by nlinarith [sq_nonneg q.w, sq_nonneg q.i, sq_nonneg q.j, sq_nonneg q.k]
  have h4 : q.k ^ 2 = 0 := by nlinarith [sq_nonneg q.w, sq_nonneg q.i, sq_nonneg q.j, sq_nonneg q.k]
  ext <;> simp at * <;> assumption

theorem norm_pos {q : Quat ℝ} (hq : q ≠ ⟨0, 0, 0, 0⟩) : 0 < q.norm := Real.sqrt_pos.2 (norm2_pos hq)

theorem normalized_unit {q : Quat ℝ} (hq : q ≠ ⟨0, 0, 0, 0⟩) : q.normalized.norm2 = 1 := by
  have hp := norm_pos hq
  have hs : q.norm ^ 2 = q.w ^ 2 + q.i ^ 2 + q.j ^ 2 + q.k ^ 2 := by
    unfold Quat.norm
    rw [Real.sq_sqrt (le_of_lt (norm2_pos hq)), norm2_eq]
  rw [norm2_eq]
  unfold Quat.normalized
  simp only [div_pow]
  rw [← add_div, ← add_div, ← add_div, ← hs]
  exact div_self (ne_of_gt (pow_pos hp 2))

theorem normalized_of_unit {q : Quat ℝ} (hq : q.norm2 = 1) : q.normalized = q := by
  unfold Quat.normalized Quat.norm
  rw [hq, Real.sqrt_one]
  ext <;> simp

theorem ne_zero_of_unit {q : Quat ℝ} (hq : q.norm2 = 1) : q ≠ ⟨0, 0, 0, 0⟩ := by
  rintro rfl
  rw [norm2_eq] at hq
  norm_num at hq

section
variable {K : Type*} [Field K]

/-- The sandwich is the matrix of `DirectionCosineMatrix::from`, applied. -/
theorem sandwich_eq (q : Quat K) (v : Fin 3 → K) : q.sandwich v = dcmApply (dcmOfQuat q) v := by
  funext i
  rw [dcmApply_apply]
  fin_cases i <;> simp [Quat.sandwich, Quat.conj, dcmOfQuat] <;> ring

theorem norm2_mul (p q : Quat K) : (p.mul q).norm2 = p.norm2 * q.norm2 := by
  rw [norm2_eq, norm2_eq, norm2_eq]; unfold Quat.mul; ring

/-- Sandwiching by a product: the left factor acts first. -/
theorem sandwich_mul (p q : Quat K) (v : Fin 3 → K) :
    (p.mul q).sandwich v = q.sandwich (p.sandwich v) := by
  funext i
  fin_cases i <;> simp [Quat.sandwich, Quat.conj, Quat.mul] <;> ring

/-- The matrix of `to_dcm` is the transpose of the matrix of `DirectionCosineMatrix::from`. -/
theorem dcmActive_eq (q : Quat K) : q.dcmActive = dcmTranspose (dcmOfQuat q) := by
  funext i j
  rw [dcmTranspose_apply]
  fin_cases i <;> fin_cases j <;> simp [Quat.dcmActive, dcmOfQuat] <;> ring

theorem dcmActive_mul (p q : Quat K) : (p.mul q).dcmActive = dcmMul p.dcmActive q.dcmActive := by
  funext i j
  rw [dcmMul_apply]
  fin_cases i <;> fin_cases j <;> simp [Quat.dcmActive, Quat.mul] <;> ring

end

theorem norm_mul (p q : Quat ℝ) : (p.mul q).norm = p.norm * q.norm := by
  unfold Quat.norm
  rw [norm2_mul, Real.sqrt_mul]
  rw [norm2_eq]; positivity

theorem normalized_mul (p q : Quat ℝ) : (p.mul q).normalized = p.normalized.mul q.normalized := by
  unfold Quat.normalized
  rw [norm_mul]
  unfold Quat.mul
  ext <;> simp only <;> ring

/-- A 3×3 matrix is a rotation: orthogonal with determinant one. -/
def IsRotation (m : Mat ℝ 3 3) : Prop := Matrix.of m * (Matrix.of m).transpose = 1 ∧ (Matrix.of m).det = 1

theorem isRotation_iff (m : Mat ℝ 3 3) : IsRotation m ↔
    (m 0 0 * m 0 0 + m 0 1 * m 0 1 + m 0 2 * m 0 2 = 1 ∧
     m 1 0 * m 1 0 + m 1 1 * m 1 1 + m 1 2 * m 1 2 = 1 ∧
     m 2 0 * m 2 0 + m 2 1 * m 2 1 + m 2 2 * m 2 2 = 1 ∧
     m 0 0 * m 1 0 + m 0 1 * m 1 1 + m 0 2 * m 1 2 = 0 ∧
     m 0 0 * m 2 0 + m 0 1 * m 2 1 + m 0 2 * m 2 2 = 0 ∧
     m 1 0 * m 2 0 + m 1 1 * m 2 1 + m 1 2 * m 2 2 = 0) ∧
    m 0 0 * m 1 1 * m 2 2 - m 0 0 * m 1 2 * m 2 1 - m 0 1 * m 1 0 * m 2 2 + m 0 1 * m 1 2 * m 2 0
      + m 0 2 * m 1 0 * m 2 1 - m 0 2 * m 1 1 * m 2 0 = 1 := by
  unfold IsRotation
  rw [Matrix.det_fin_three]
  simp only [Matrix.of_apply]
  refine and_congr ?_ Iff.rfl
  constructor
  · intro h
    have e : ∀ i j, m i 0 * m j 0 + m i 1 * m j 1 + m i 2 * m j 2 = (1 : Matrix (Fin 3) (Fin 3) ℝ) i j := by
      intro i j
      rw [← h, Matrix.mul_apply, Fin.sum_univ_three]
      rfl
    refine ⟨?_, ?_, ?_, ?_, ?_, ?_⟩
    · simpa using e 0 0
    · simpa using e 1 1
    · simpa using e 2 2
    · simpa using e 0 1
    · simpa using e 0 2
    · simpa using e 1 2
  · rintro ⟨h1, h2, h3, h4, h5, h6⟩
    ext i j
    rw [Matrix.mul_apply, Fin.sum_univ_three]
    fin_cases i <;> fin_cases j <;> simp [Matrix.transpose_apply] <;> linarith

end Verif.Att
