import Verif.Att.PropsQuat
import Mathlib.Analysis.SpecialFunctions.Complex.Arg

/-!
# C33: Euler angles, matrices and quaternions describe the same rotation
-/

namespace Verif.Att

open Verif.Mat Real

theorem isRotation_mul {a b : Mat ℝ 3 3} (ha : IsRotation a) (hb : IsRotation b) : IsRotation (dcmMul a b) := by
  have e : Matrix.of (dcmMul a b) = Matrix.of a * Matrix.of b := by
    ext i j
    rw [Matrix.mul_apply, Fin.sum_univ_three]
    exact dcmMul_apply a b i j
  unfold IsRotation
  rw [e]
  refine ⟨?_, by rw [Matrix.det_mul, ha.2, hb.2, one_mul]⟩
  rw [Matrix.transpose_mul, mul_assoc, ← mul_assoc (Matrix.of b), hb.1, one_mul, ha.1]

theorem isRotation_transpose {a : Mat ℝ 3 3} (ha : IsRotation a) : IsRotation (dcmTranspose a) := by
  have e : Matrix.of (dcmTranspose a) = (Matrix.of a).transpose := by
    ext i j
    exact dcmTranspose_apply a i j
  unfold IsRotation
  rw [e, Matrix.transpose_transpose, Matrix.det_transpose]
  exact ⟨mul_eq_one_comm.1 ha.1, ha.2⟩

/-- C33. The matrix of Euler angles: roll about x, after pitch about y, after yaw about z. -/
theorem C33_entries (e : Euler) :
    dcmOfEuler e =
      ![![cos e.pitch * cos e.yaw, cos e.pitch * sin e.yaw, -sin e.pitch],
        ![sin e.roll * sin e.pitch * cos e.yaw - cos e.roll * sin e.yaw,
          sin e.roll * sin e.pitch * sin e.yaw + cos e.roll * cos e.yaw, sin e.roll * cos e.pitch],
        ![cos e.roll * sin e.pitch * cos e.yaw + sin e.roll * sin e.yaw,
          cos e.roll * sin e.pitch * sin e.yaw - sin e.roll * cos e.yaw, cos e.roll * cos e.pitch]] := by
  unfold dcmOfEuler
  funext i j
  simp only [dcmMul_apply]
  fin_cases i <;> fin_cases j <;> simp [rotX, rotY, rotZ] <;> ring

/-- C33. It is a rotation matrix for all angles, and applying it turns by yaw, then pitch, then roll. -/
theorem C33_product (e : Euler) (v : Fin 3 → ℝ) :
    IsRotation (dcmOfEuler e) ∧
      dcmApply (dcmOfEuler e) v = dcmApply (rotX e.roll) (dcmApply (rotY e.pitch) (dcmApply (rotZ e.yaw) v)) := by
  refine ⟨isRotation_mul (isRotation_mul (C32_elementary _).1 (C32_elementary _).2.1) (C32_elementary _).2.2, ?_⟩
  unfold dcmOfEuler
  funext i
  simp only [dcmApply_apply, dcmMul_apply]
  ring

/-- C33. The quaternion built from Euler angles has norm one, and its matrix is the matrix of the angles. -/
theorem C33_quaternion (e : Euler) :
    (quatOfEuler e).norm2 = 1 ∧ dcmOfQuat (quatOfEuler e) = dcmOfEuler e := by
  have hr := sin_sq_add_cos_sq (e.roll * (1 / (1 + 1)))
  have hp := sin_sq_add_cos_sq (e.pitch * (1 / (1 + 1)))
  have hy := sin_sq_add_cos_sq (e.yaw * (1 / (1 + 1)))
  have dbl : ∀ x : ℝ, cos x = cos (x * (1 / (1 + 1))) ^ 2 - sin (x * (1 / (1 + 1))) ^ 2 ∧
      sin x = 2 * sin (x * (1 / (1 + 1))) * cos (x * (1 / (1 + 1))) := by
    intro x
    have h : x = 2 * (x * (1 / (1 + 1))) := by ring
    constructor
    · conv_lhs => rw [h]
      rw [cos_two_mul']
    · conv_lhs => rw [h]
      rw [sin_two_mul]
  rw [C33_entries]
  rw [(dbl e.roll).1, (dbl e.roll).2, (dbl e.pitch).1, (dbl e.pitch).2, (dbl e.yaw).1, (dbl e.yaw).2]
  unfold quatOfEuler
  dsimp only
  generalize cos (e.roll * (1 / (1 + 1))) = a at *
  generalize sin (e.roll * (1 / (1 + 1))) = b at *
  generalize cos (e.pitch * (1 / (1 + 1))) = c at *
  generalize sin (e.pitch * (1 / (1 + 1))) = d at *
  generalize cos (e.yaw * (1 / (1 + 1))) = f at *
  generalize sin (e.yaw * (1 / (1 + 1))) = g at *
  constructor
  · rw [norm2_eq]; simp only
    linear_combination (d ^ 2 + c ^ 2) * (g ^ 2 + f ^ 2) * hr + (g ^ 2 + f ^ 2) * hp + hy
  · funext i j
    fin_cases i <;> fin_cases j <;> simp [dcmOfQuat]
    · linear_combination ((c ^ 2 - d ^ 2) * (f ^ 2 - g ^ 2)) * hr
    · linear_combination ((c ^ 2 - d ^ 2) * (2 * g * f)) * hr
    · linear_combination (-(2 * d * c)) * hr + (-(2 * d * c)) * (b ^ 2 + a ^ 2) * hy
    · linear_combination (-((a ^ 2 - b ^ 2) * (2 * g * f))) * hp
    · linear_combination ((a ^ 2 - b ^ 2) * (f ^ 2 - g ^ 2)) * hp
    · linear_combination ((2 * b * a) * (c ^ 2 - d ^ 2)) * hy
    · linear_combination ((2 * b * a) * (2 * g * f)) * hp
    · linear_combination (-((2 * b * a) * (f ^ 2 - g ^ 2))) * hp
    · linear_combination ((a ^ 2 - b ^ 2) * (c ^ 2 - d ^ 2)) * hy

/-- C33. So rotating by the quaternion is applying the matrix. -/
theorem C33_rotate (e : Euler) (v : Fin 3 → ℝ) :
    (quatOfEuler e).rotate v = dcmApply (dcmOfEuler e) v := by
  obtain ⟨h1, h2⟩ := C33_quaternion e
  rw [(C29_from h1 v).1, h2]

/-- C33. The two extraction formulas, from a quaternion and from its matrix, agree for every unit quaternion. -/
theorem C33_extract_agree {q : Quat ℝ} (hq : q.norm2 = 1) : eulerOfQuat q = eulerOfDcm (dcmOfQuat q) := by
  have h02 : -1 ≤ 2 * (q.w * q.j - q.k * q.i) ∧ 2 * (q.w * q.j - q.k * q.i) ≤ 1 := by
    rw [norm2_eq] at hq
    constructor
    · nlinarith [sq_nonneg (q.w + q.j), sq_nonneg (q.k - q.i)]
    · nlinarith [sq_nonneg (q.w - q.j), sq_nonneg (q.k + q.i)]
  rw [norm2_eq] at hq
  unfold eulerOfQuat eulerOfDcm
  ext
  · simp only [dcmOfQuat]
    congr 1
    · simp; ring
    · simp; linear_combination (-1) * hq
  · simp only
    have e : dcmOfQuat q 0 2 = -(2 * (q.w * q.j - q.k * q.i)) := by simp [dcmOfQuat]; ring
    rw [e, arcsin_neg, neg_neg]
    have e2 : ((1 : ℝ) + 1) = 2 := by norm_num
    rw [e2]
    generalize 2 * (q.w * q.j - q.k * q.i) = s at *
    split_ifs with h
    · unfold signum
      rcases le_abs'.1 h with h' | h'
      · have : s = -1 := le_antisymm h' h02.1
        rw [if_pos (by linarith), this, arcsin_neg, arcsin_one]; ring
      · have : s = 1 := le_antisymm h02.2 h'
        rw [if_neg (by linarith), this, arcsin_one]; ring
    · rfl
  · simp only [dcmOfQuat]
    congr 1
    · simp; ring
    · simp; linear_combination (-1) * hq

theorem atan2_polar {r t : ℝ} (hr : 0 < r) (h1 : -π < t) (h2 : t ≤ π) : atan2 (sin t * r) (cos t * r) = t := by
  unfold atan2
  have : (⟨cos t * r, sin t * r⟩ : ℂ) = r * (Complex.cos t + Complex.sin t * Complex.I) := by
    apply Complex.ext <;>
      simp [← Complex.ofReal_cos, ← Complex.ofReal_sin, Complex.ofReal_re, Complex.ofReal_im, mul_comm]
  rw [this]
  exact Complex.arg_mul_cos_add_sin_mul_I hr ⟨h1, h2⟩

/-- C33. Away from gimbal lock the angles are recovered, from the matrix and from the quaternion. -/
theorem C33_recover {e : Euler} (hr : -π < e.roll ∧ e.roll ≤ π) (hp : -(π / 2) < e.pitch ∧ e.pitch < π / 2)
    (hy : -π < e.yaw ∧ e.yaw ≤ π) :
    eulerOfDcm (dcmOfEuler e) = e ∧ eulerOfQuat (quatOfEuler e) = e := by
  have hc : 0 < cos e.pitch := cos_pos_of_mem_Ioo hp
  have h : eulerOfDcm (dcmOfEuler e) = e := by
    rw [C33_entries]
    unfold eulerOfDcm
    ext
    · simpa using atan2_polar hc hr.1 hr.2
    · simp [arcsin_neg, arcsin_sin hp.1.le hp.2.le]
    · have := atan2_polar hc hy.1 hy.2
      rw [mul_comm, mul_comm (cos e.yaw)] at this
      simpa using this
  refine ⟨h, ?_⟩
  rw [C33_extract_agree (C33_quaternion e).1, (C33_quaternion e).2, h]

/-- C33. Conversely every rotation matrix away from gimbal lock is the matrix of the angles extracted from it. -/
theorem C33_reconstruct {m : Mat ℝ 3 3} (h : IsRotation m) (hg : |m 0 2| < 1) :
    dcmOfEuler (eulerOfDcm m) = m := by
  obtain ⟨f00, f01, f02, f10, f11, f12, f20, f21, f22⟩ := rotation_cofactors h
  obtain ⟨⟨r00, -, -, -, -, -⟩, -⟩ := (isRotation_iff m).1 h
  have c22 := rotation_cols h 2 2
  simp at c22
  obtain ⟨g1, g2⟩ := abs_lt.1 hg
  have hpos : 0 < 1 - m 0 2 ^ 2 := by nlinarith
  set c := √(1 - m 0 2 ^ 2) with hc
  have hcpos : 0 < c := Real.sqrt_pos.2 hpos
  have hc2 : c ^ 2 = 1 - m 0 2 ^ 2 := Real.sq_sqrt hpos.le
  have key : ∀ x y : ℝ, x ^ 2 + y ^ 2 = c ^ 2 → cos (atan2 y x) = x / c ∧ sin (atan2 y x) = y / c := by
    intro x y hxy
    have hn : ‖(⟨x, y⟩ : ℂ)‖ = c := by
      rw [Complex.norm_def, Complex.normSq_mk, show x * x + y * y = c ^ 2 by linarith,
        Real.sqrt_sq hcpos.le]
    have hne : (⟨x, y⟩ : ℂ) ≠ 0 := by
      intro h0; rw [h0, norm_zero] at hn; exact hcpos.ne hn
    unfold atan2
    refine ⟨?_, ?_⟩
    · rw [Complex.cos_arg hne, hn]
    · rw [Complex.sin_arg, hn]
  have k1 := key (m 0 0) (m 0 1) (by linarith)
  have k2 := key (m 2 2) (m 1 2) (by linarith)
  have hcp : cos (-arcsin (m 0 2)) = c := by rw [cos_neg, cos_arcsin]
  have hsp : sin (-arcsin (m 0 2)) = -m 0 2 := by rw [sin_neg, sin_arcsin g1.le g2.le]
  have q10 : m 1 0 * c ^ 2 = -m 0 2 * m 0 0 * m 1 2 - m 0 1 * m 2 2 := by
    rw [hc2]; linear_combination f10 + m 0 2 * f21
  have q11 : m 1 1 * c ^ 2 = -m 0 2 * m 0 1 * m 1 2 + m 0 0 * m 2 2 := by
    rw [hc2]; linear_combination f11 - m 0 2 * f20
  have q20 : m 2 0 * c ^ 2 = -m 0 2 * m 0 0 * m 2 2 + m 0 1 * m 1 2 := by
    rw [hc2]; linear_combination f20 - m 0 2 * f11
  have q21 : m 2 1 * c ^ 2 = -m 0 2 * m 0 1 * m 2 2 - m 0 0 * m 1 2 := by
    rw [hc2]; linear_combination f21 + m 0 2 * f10
  rw [C33_entries]
  unfold eulerOfDcm
  dsimp only
  rw [hcp, hsp, k1.1, k1.2, k2.1, k2.2]
  funext i j
  fin_cases i <;> fin_cases j <;> simp <;> field_simp <;> linarith

/-- C33, the boundary. At gimbal lock (pitch a quarter turn up) the extraction returns zero roll and yaw
whatever the angles were, so the rotation itself is lost unless roll and yaw cancel. -/
theorem C33_gimbal_lock (roll yaw : ℝ) :
    eulerOfDcm (dcmOfEuler ⟨roll, π / 2, yaw⟩) = ⟨0, π / 2, 0⟩ ∧
      (dcmOfEuler ⟨0, π / 2, 0⟩ = dcmOfEuler ⟨roll, π / 2, yaw⟩ ↔ cos (roll - yaw) = 1) := by
  constructor
  · rw [C33_entries]
    unfold eulerOfDcm atan2
    have h0 : Complex.arg (⟨0, 0⟩ : ℂ) = 0 := by
      have : (⟨0, 0⟩ : ℂ) = 0 := rfl
      rw [this, Complex.arg_zero]
    ext <;> simp [cos_pi_div_two, sin_pi_div_two, arcsin_neg, arcsin_one, h0]
  · rw [C33_entries, C33_entries]
    simp only [cos_pi_div_two, sin_pi_div_two]
    constructor
    · intro h
      have := congrFun (congrFun h 1) 1
      simp at this
      rw [cos_sub]; linarith
    · intro h
      have hs : sin (roll - yaw) = 0 := by
        have := sin_sq_add_cos_sq (roll - yaw)
        rw [h] at this
        have : sin (roll - yaw) ^ 2 = 0 := by linarith
        exact pow_eq_zero_iff (two_ne_zero) |>.1 this
      rw [cos_sub] at h
      rw [sin_sub] at hs
      funext i j
      fin_cases i <;> fin_cases j <;> simp <;> linarith

/-- A case within the hypotheses: roll a half turn, at the edge of its range. -/
example : ∃ e : Euler, (-π < e.roll ∧ e.roll ≤ π) ∧ (-(π / 2) < e.pitch ∧ e.pitch < π / 2) ∧
    (-π < e.yaw ∧ e.yaw ≤ π) ∧ e.roll = π :=
  ⟨⟨π, π / 4, -π / 3⟩, by constructor <;> linarith [pi_pos], by constructor <;> linarith [pi_pos],
    by constructor <;> linarith [pi_pos], rfl⟩

example : IsRotation (rotZ 1) ∧ |rotZ 1 0 2| < 1 := ⟨(C32_elementary 1).2.2, by simp [rotZ]⟩

end Verif.Att
