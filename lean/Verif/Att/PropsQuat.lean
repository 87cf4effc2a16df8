import Verif.Att.Lemmas
import Mathlib.Analysis.Calculus.Deriv.Mul
import Mathlib.Analysis.SpecialFunctions.Trigonometric.Deriv

/-!
# C28–C32, C77: quaternions, direction cosine matrices and attitude integration, over the reals

`IsRotation m` says that `m` is orthogonal with determinant one.
-/

namespace Verif.Att

open Verif.Mat

/-! ## C28 -/

theorem rotation_mat {q : Quat ℝ} (hq : q.norm2 = 1) : IsRotation (dcmOfQuat q) := by
  rw [norm2_eq] at hq
  rw [isRotation_iff]
  generalize hN : q.w ^ 2 + q.i ^ 2 + q.j ^ 2 + q.k ^ 2 = N at hq
  have h2 : N ^ 2 = 1 := by rw [hq]; norm_num
  have h3 : N ^ 3 = 1 := by rw [hq]; norm_num
  refine ⟨⟨?_, ?_, ?_, ?_, ?_, ?_⟩, ?_⟩ <;> simp [dcmOfQuat]
  · refine Eq.trans ?_ h2; rw [← hN]; ring
  · refine Eq.trans ?_ h2; rw [← hN]; ring
  · refine Eq.trans ?_ h2; rw [← hN]; ring
  · ring
  · ring
  · ring
  · refine Eq.trans ?_ h3; rw [← hN]; ring

theorem rotate_apply (q : Quat ℝ) (v : Fin 3 → ℝ) (i : Fin 3) :
    q.rotate v i = dcmOfQuat q.normalized i 0 * v 0 + dcmOfQuat q.normalized i 1 * v 1
      + dcmOfQuat q.normalized i 2 * v 2 := by
  unfold Quat.rotate
  rw [sandwich_eq, dcmApply_apply]

/-- The transposed relations: the columns of a rotation are orthonormal too. -/
theorem rotation_cols {m : Mat ℝ 3 3} (h : IsRotation m) (i j : Fin 3) :
    m 0 i * m 0 j + m 1 i * m 1 j + m 2 i * m 2 j = if i = j then 1 else 0 := by
  have h1 := mul_eq_one_comm.1 h.1
  have := congrFun (congrFun h1 i) j
  rw [Matrix.mul_apply, Fin.sum_univ_three, Matrix.one_apply] at this
  exact this

/-- C28. Rotating by a nonzero quaternion preserves inner products (hence lengths and angles). -/
theorem C28_inner {q : Quat ℝ} (hq : q ≠ ⟨0, 0, 0, 0⟩) (u v : Fin 3 → ℝ) :
    ∑ i, q.rotate u i * q.rotate v i = ∑ i, u i * v i := by
  have hr := rotation_mat (normalized_unit hq)
  have c := rotation_cols hr
  simp only [Fin.sum_univ_three, rotate_apply]
  have c00 := c 0 0; have c11 := c 1 1; have c22 := c 2 2
  have c01 := c 0 1; have c02 := c 0 2; have c12 := c 1 2
  simp at c00 c11 c22 c01 c02 c12
  linear_combination (u 0 * v 0) * c00 + (u 1 * v 1) * c11 + (u 2 * v 2) * c22
    + (u 0 * v 1 + u 1 * v 0) * c01 + (u 0 * v 2 + u 2 * v 0) * c02 + (u 1 * v 2 + u 2 * v 1) * c12

/-- C28. In particular it preserves lengths. -/
theorem C28_length {q : Quat ℝ} (hq : q ≠ ⟨0, 0, 0, 0⟩) (v : Fin 3 → ℝ) :
    Mat.norm Real.sqrt (q.rotate v) = Mat.norm Real.sqrt v := by
  rw [C22_norm_real, C22_norm_real]
  have := C28_inner hq v v
  simp only [pow_two]
  rw [this]

/-- C28. Rotating is linear. -/
theorem C28_linear {q : Quat ℝ} (_hq : q ≠ ⟨0, 0, 0, 0⟩) (a b : ℝ) (u v : Fin 3 → ℝ) (i : Fin 3) :
    q.rotate (fun t => a * u t + b * v t) i = a * q.rotate u i + b * q.rotate v i := by
  simp only [rotate_apply]; ring

/-- C28. Rotating preserves handedness: it commutes with the cross product. -/
theorem C28_cross {q : Quat ℝ} (hq : q ≠ ⟨0, 0, 0, 0⟩) (u v : Fin 3 → ℝ) :
    q.rotate (cross u v) = cross (q.rotate u) (q.rotate v) := by
  have hn := normalized_unit hq
  rw [norm2_eq] at hn
  have e : ∀ v i, q.rotate v i = q.normalized.sandwich v i := fun _ _ => rfl
  funext i
  generalize q.normalized = p at *
  have h1 : ∀ v, q.rotate v = p.sandwich v := fun v => funext (e v)
  rw [h1, h1, h1]
  fin_cases i <;> simp [Quat.sandwich, Quat.conj, cross]
  · linear_combination (-((u 1 * v 2 - u 2 * v 1) * (p.w ^ 2 + p.i ^ 2 - p.j ^ 2 - p.k ^ 2)
      + (u 2 * v 0 - u 0 * v 2) * (2 * (p.i * p.j + p.w * p.k))
      + (u 0 * v 1 - u 1 * v 0) * (2 * (p.i * p.k - p.w * p.j)))) * hn
  · linear_combination (-((u 1 * v 2 - u 2 * v 1) * (2 * (p.i * p.j - p.w * p.k))
      + (u 2 * v 0 - u 0 * v 2) * (p.w ^ 2 - p.i ^ 2 + p.j ^ 2 - p.k ^ 2)
      + (u 0 * v 1 - u 1 * v 0) * (2 * (p.j * p.k + p.w * p.i)))) * hn
  · linear_combination (-((u 1 * v 2 - u 2 * v 1) * (2 * (p.i * p.k + p.w * p.j))
      + (u 2 * v 0 - u 0 * v 2) * (2 * (p.j * p.k - p.w * p.i))
      + (u 0 * v 1 - u 1 * v 0) * (p.w ^ 2 - p.i ^ 2 - p.j ^ 2 + p.k ^ 2))) * hn

/-- C28. The vector part of the quaternion is the axis: it is not moved. -/
theorem C28_axis {q : Quat ℝ} (hq : q ≠ ⟨0, 0, 0, 0⟩) : q.rotate ![q.i, q.j, q.k] = ![q.i, q.j, q.k] := by
  have hn := normalized_unit hq
  have hp := norm_pos hq
  rw [norm2_eq] at hn
  have hi : q.i = q.norm * q.normalized.i := by unfold Quat.normalized; field_simp
  have hj : q.j = q.norm * q.normalized.j := by unfold Quat.normalized; field_simp
  have hk : q.k = q.norm * q.normalized.k := by unfold Quat.normalized; field_simp
  rw [hi, hj, hk]
  unfold Quat.rotate
  generalize q.normalized = p at *
  generalize q.norm = n at *
  funext i
  fin_cases i <;> simp [Quat.sandwich, Quat.conj]
  · linear_combination (n * p.i) * hn
  · linear_combination (n * p.j) * hn
  · linear_combination (n * p.k) * hn

/-- C28. A quaternion built from an axis and an angle rotates by that angle about that axis (Rodrigues' formula;
the coordinates turn, so a vector turns by `-angle`). The axis need not have unit length. -/
theorem C28_axis_angle (axis : Fin 3 → ℝ) (hax : axis ≠ 0) (angle : ℝ) (v : Fin 3 → ℝ) (r : ℝ)
    (hr : r = Real.sqrt (axis 0 ^ 2 + axis 1 ^ 2 + axis 2 ^ 2)) (x y z : ℝ) (hx : x = axis 0 / r)
    (hy : y = axis 1 / r) (hz : z = axis 2 / r) :
    (Quat.ofAxisAngle axis angle).norm2 = 1 ∧ (Quat.ofAxisAngle axis angle).rotate v =
      ![Real.cos angle * v 0 - Real.sin angle * (y * v 2 - z * v 1)
          + (1 - Real.cos angle) * (x * v 0 + y * v 1 + z * v 2) * x,
        Real.cos angle * v 1 - Real.sin angle * (z * v 0 - x * v 2)
          + (1 - Real.cos angle) * (x * v 0 + y * v 1 + z * v 2) * y,
        Real.cos angle * v 2 - Real.sin angle * (x * v 1 - y * v 0)
          + (1 - Real.cos angle) * (x * v 0 + y * v 1 + z * v 2) * z] := by
  have hnr : Mat.norm Real.sqrt axis = r := by
    rw [hr, C22_norm_real, Fin.sum_univ_three]
  have hsq : axis 0 ^ 2 + axis 1 ^ 2 + axis 2 ^ 2 ≠ 0 := by
    intro h
    refine hax (funext fun i => ?_)
    have h0 : axis 0 = 0 := by nlinarith [sq_nonneg (axis 0), sq_nonneg (axis 1), sq_nonneg (axis 2)]
    have h1 : axis 1 = 0 := by nlinarith [sq_nonneg (axis 0), sq_nonneg (axis 1), sq_nonneg (axis 2)]
    have h2 : axis 2 = 0 := by nlinarith [sq_nonneg (axis 0), sq_nonneg (axis 1), sq_nonneg (axis 2)]
    fin_cases i
    · exact h0
    · exact h1
    · exact h2
  have hpos : 0 < axis 0 ^ 2 + axis 1 ^ 2 + axis 2 ^ 2 := lt_of_le_of_ne (by positivity) hsq.symm
  have hr2 : r ^ 2 = axis 0 ^ 2 + axis 1 ^ 2 + axis 2 ^ 2 := by rw [hr, Real.sq_sqrt hpos.le]
  have hr0 : r ≠ 0 := by rw [hr]; exact (Real.sqrt_pos.2 hpos).ne'
  have hu : x ^ 2 + y ^ 2 + z ^ 2 = 1 := by
    rw [hx, hy, hz, div_pow, div_pow, div_pow, ← add_div, ← add_div, ← hr2, div_self (pow_ne_zero 2 hr0)]
  obtain ⟨a, rfl⟩ : ∃ a, angle = 2 * a := ⟨angle / 2, by ring⟩
  have hcs := Real.sin_sq_add_cos_sq a
  let q : Quat ℝ := ⟨Real.cos a, x * Real.sin a, y * Real.sin a, z * Real.sin a⟩
  have hqu : q.norm2 = 1 := by
    rw [norm2_eq]; simp only [q]
    linear_combination Real.sin a ^ 2 * hu + hcs
  have hq : Quat.ofAxisAngle axis (2 * a) = q := by
    have e : Quat.ofAxisAngle axis (2 * a) = q.normalized := by
      unfold Quat.ofAxisAngle Mat.normalize vdiv
      simp only [hnr, q, ← hx, ← hy, ← hz]
      rw [show 2 * a * (1 / (1 + 1)) = a by ring]
    rw [e, normalized_of_unit hqu]
  refine ⟨by rw [hq, hqu], ?_⟩
  rw [hq]
  unfold Quat.rotate
  rw [normalized_of_unit hqu, Real.cos_two_mul', Real.sin_two_mul]
  have h1 : 1 - (Real.cos a ^ 2 - Real.sin a ^ 2) = 2 * Real.sin a ^ 2 := by linear_combination -hcs
  rw [h1]
  simp only [q]
  generalize Real.cos a = c
  generalize Real.sin a = t
  funext i
  fin_cases i <;> simp [Quat.sandwich, Quat.conj]
  · linear_combination (-t ^ 2 * v 0) * hu
  · linear_combination (-t ^ 2 * v 1) * hu
  · linear_combination (-t ^ 2 * v 2) * hu

example : (![1, 2, 2] : Fin 3 → ℝ) ≠ 0 := by
  intro h
  have := congrFun h 0
  norm_num at this

/-- C28. Scaling (in particular negating) the quaternion does not change the rotation. -/
theorem C28_scale {q : Quat ℝ} (_hq : q ≠ ⟨0, 0, 0, 0⟩) {c : ℝ} (hc : c ≠ 0) (v : Fin 3 → ℝ) :
    (q.scale c).rotate v = q.rotate v ∧ q.neg.rotate v = q.rotate v := by
  have key : ∀ c : ℝ, c ≠ 0 → (q.scale c).rotate v = q.rotate v := by
    intro c hc
    have hn : (q.scale c).norm = |c| * q.norm := by
      unfold Quat.norm
      have : (q.scale c).norm2 = c ^ 2 * q.norm2 := by
        rw [norm2_eq, norm2_eq]; unfold Quat.scale; ring
      rw [this, Real.sqrt_mul (sq_nonneg c), Real.sqrt_sq_eq_abs]
    have hsgn : c / |c| = 1 ∨ c / |c| = -1 := by
      rcases lt_or_gt_of_ne hc with h | h
      · right; rw [abs_of_neg h]; field_simp
      · left; rw [abs_of_pos h]; field_simp
    have e : (q.scale c).normalized = q.normalized.scale (c / |c|) := by
      have habs : |c| ≠ 0 := abs_ne_zero.2 hc
      unfold Quat.normalized
      rw [hn]
      unfold Quat.scale
      ext <;> simp only <;> rw [mul_comm |c|, div_mul_div_comm]
    unfold Quat.rotate
    rw [e]
    generalize q.normalized = p
    funext i
    rcases hsgn with h | h <;> rw [h] <;> fin_cases i <;>
      simp [Quat.sandwich, Quat.conj, Quat.scale] <;> ring
  refine ⟨key c hc, ?_⟩
  have : q.neg = q.scale (-1) := by unfold Quat.neg Quat.scale; ext <;> simp
  rw [this]
  exact key (-1) (by norm_num)

example : (⟨1, 2, -2, 4⟩ : Quat ℝ) ≠ ⟨0, 0, 0, 0⟩ := by
  intro h; have := congrArg Quat.w h; simp at this

/-! ## C29 -/

/-- C29. For a unit quaternion, rotating a vector is multiplying by `DirectionCosineMatrix::from(q)`, which is
a rotation matrix. -/
theorem C29_from {q : Quat ℝ} (hq : q.norm2 = 1) (v : Fin 3 → ℝ) :
    q.rotate v = dcmApply (dcmOfQuat q) v ∧ IsRotation (dcmOfQuat q) := by
  refine ⟨?_, rotation_mat hq⟩
  unfold Quat.rotate
  rw [normalized_of_unit hq, sandwich_eq]

/-- C29. For every nonzero quaternion `to_dcm` gives the transposed, that is the inverse, rotation: rotating
and then multiplying by `to_dcm` returns the vector. -/
theorem C29_to_dcm_inverse {q : Quat ℝ} (hq : q ≠ ⟨0, 0, 0, 0⟩) (v : Fin 3 → ℝ) :
    dcmApply q.toDcm (q.rotate v) = v := by
  have hr := rotation_mat (normalized_unit hq)
  have c := rotation_cols hr
  have c00 := c 0 0; have c11 := c 1 1; have c22 := c 2 2
  have c01 := c 0 1; have c02 := c 0 2; have c12 := c 1 2
  simp at c00 c11 c22 c01 c02 c12
  unfold Quat.toDcm
  rw [dcmActive_eq]
  funext i
  rw [dcmApply_apply]
  simp only [dcmTranspose_apply, rotate_apply]
  fin_cases i <;> simp only [Fin.zero_eta, Fin.mk_one, Fin.reduceFinMk]
  · linear_combination (v 0) * c00 + (v 1) * c01 + (v 2) * c02
  · linear_combination (v 0) * c01 + (v 1) * c11 + (v 2) * c12
  · linear_combination (v 0) * c02 + (v 1) * c12 + (v 2) * c22

/-- C29 fails for `to_dcm`: for the unit quaternion `(3/5, 0, 0, 4/5)` the two disagree on the x axis. -/
theorem C29_to_dcm_fails :
    (⟨3 / 5, 0, 0, 4 / 5⟩ : Quat ℝ).norm2 = 1 ∧
      dcmApply (⟨3 / 5, 0, 0, 4 / 5⟩ : Quat ℝ).toDcm ![1, 0, 0] ≠
        (⟨3 / 5, 0, 0, 4 / 5⟩ : Quat ℝ).rotate ![1, 0, 0] := by
  have h1 : (⟨3 / 5, 0, 0, 4 / 5⟩ : Quat ℝ).norm2 = 1 := by rw [norm2_eq]; norm_num
  refine ⟨h1, ?_⟩
  intro h
  have := congrFun h 1
  unfold Quat.toDcm Quat.rotate at this
  rw [normalized_of_unit h1, dcmApply_apply] at this
  simp [Quat.dcmActive, Quat.sandwich, Quat.conj] at this
  norm_num at this

example : (⟨3 / 5, 0, 0, 4 / 5⟩ : Quat ℝ).norm2 = 1 := by rw [norm2_eq]; norm_num

/-! ## C30 -/

/-- C30 (as the code behaves). Rotating by `p * q` applies `p` first and then `q`; for direction cosine
matrices `(a * b)` applies `b` first. The product of quaternions therefore composes in the order opposite to
the frame types and to the matrices. -/
theorem C30_order_partial {p q : Quat ℝ} (hp : p ≠ ⟨0, 0, 0, 0⟩) (hq : q ≠ ⟨0, 0, 0, 0⟩)
    (a b : Mat ℝ 3 3) (v : Fin 3 → ℝ) :
    (p.mul q).rotate v = q.rotate (p.rotate v) ∧ p.mul q ≠ ⟨0, 0, 0, 0⟩ ∧
      dcmApply (dcmMul a b) v = dcmApply a (dcmApply b v) := by
  refine ⟨?_, ?_, ?_⟩
  · unfold Quat.rotate
    rw [normalized_mul, sandwich_mul]
  · intro h
    have h1 := norm2_mul p q
    rw [h] at h1
    have h2 : (⟨0, 0, 0, 0⟩ : Quat ℝ).norm2 = 0 := by rw [norm2_eq]; norm_num
    rw [h2] at h1
    exact ne_of_lt (mul_pos (norm2_pos hp) (norm2_pos hq)) h1
  · funext i
    simp only [dcmApply_apply, dcmMul_apply]; ring

/-- C30. Through `to_dcm` the product does chain like matrices. -/
theorem C30_to_dcm (p q : Quat ℝ) : (p.mul q).toDcm = dcmMul p.toDcm q.toDcm := by
  unfold Quat.toDcm
  rw [normalized_mul, dcmActive_mul]

/-- C30 fails for `rotate_vector`: with `p` a rotation about z and `q` a rotation about x, rotating by
`p * q` is not rotating by `q` first and `p` second, as `(Mid → To) * (From → Mid)` promises. The same
quaternions refute `Rotation::compose`. -/
theorem C30_order_fails :
    ∃ (p q : Quat ℝ) (v : Fin 3 → ℝ), p.norm2 = 1 ∧ q.norm2 = 1 ∧
      (p.mul q).rotate v ≠ p.rotate (q.rotate v) ∧
      (composeRotation q p).rotate v ≠ p.rotate (q.rotate v) := by
  have hp : (⟨3 / 5, 0, 0, 4 / 5⟩ : Quat ℝ).norm2 = 1 := by rw [norm2_eq]; norm_num
  have hq : (⟨3 / 5, 4 / 5, 0, 0⟩ : Quat ℝ).norm2 = 1 := by rw [norm2_eq]; norm_num
  have hne : ((⟨3 / 5, 0, 0, 4 / 5⟩ : Quat ℝ).mul ⟨3 / 5, 4 / 5, 0, 0⟩).rotate ![1, 0, 0] ≠
      (⟨3 / 5, 0, 0, 4 / 5⟩ : Quat ℝ).rotate ((⟨3 / 5, 4 / 5, 0, 0⟩ : Quat ℝ).rotate ![1, 0, 0]) := by
    rw [(C30_order_partial (ne_zero_of_unit hp) (ne_zero_of_unit hq) 0 0 _).1]
    intro h
    have := congrFun h 1
    unfold Quat.rotate at this
    rw [normalized_of_unit hp, normalized_of_unit hq] at this
    simp [Quat.sandwich, Quat.conj] at this
    norm_num at this
  exact ⟨⟨3 / 5, 0, 0, 4 / 5⟩, ⟨3 / 5, 4 / 5, 0, 0⟩, ![1, 0, 0], hp, hq, hne, hne⟩

/-! ## C31 -/

/-- C31. The product is associative with the identity as unit; conjugation reverses products; the squared norm
is multiplicative; a nonzero quaternion times its inverse, in either order, is the identity. Over any field
where `norm2` does not vanish. -/
theorem C31_algebra {K : Type*} [Field K] (p q r : Quat K) :
    (p.mul q).mul r = p.mul (q.mul r) ∧ Quat.identity.mul p = p ∧ p.mul Quat.identity = p ∧
      (p.mul q).conj = q.conj.mul p.conj ∧ (p.mul q).norm2 = p.norm2 * q.norm2 ∧
      (p.norm2 ≠ 0 → p.mul p.inv = Quat.identity ∧ p.inv.mul p = Quat.identity) := by
  refine ⟨?_, ?_, ?_, ?_, norm2_mul p q, ?_⟩
  · unfold Quat.mul; ext <;> simp only <;> ring
  · unfold Quat.mul Quat.identity; ext <;> simp
  · unfold Quat.mul Quat.identity; ext <;> simp
  · unfold Quat.mul Quat.conj; ext <;> simp only <;> ring
  · intro h
    have hn := norm2_eq p
    generalize hN : p.norm2 = N at *
    refine ⟨?_, ?_⟩ <;> unfold Quat.mul Quat.inv Quat.identity <;> rw [hN] <;> ext <;> simp only <;>
      field_simp <;> (try rw [hn]) <;> ring

/-- C31. The norm is multiplicative, and a normalised nonzero quaternion has norm one. -/
theorem C31_norm (p q : Quat ℝ) :
    (p.mul q).norm = p.norm * q.norm ∧ (p ≠ ⟨0, 0, 0, 0⟩ → p.normalized.norm = 1) := by
  refine ⟨norm_mul p q, fun hp => ?_⟩
  unfold Quat.norm
  rw [normalized_unit hp, Real.sqrt_one]

/-- C31. Rotating by the inverse undoes the rotation, for every nonzero quaternion. -/
theorem C31_inverse_rotate {q : Quat ℝ} (hq : q ≠ ⟨0, 0, 0, 0⟩) (v : Fin 3 → ℝ) :
    q.inv.rotate (q.rotate v) = v ∧ q.rotate (q.inv.rotate v) = v := by
  have h := (C31_algebra q q q).2.2.2.2.2 (ne_of_gt (norm2_pos hq))
  have hid : ∀ v, (Quat.identity : Quat ℝ).rotate v = v := by
    intro v
    have h1 : (Quat.identity : Quat ℝ).norm2 = 1 := by rw [norm2_eq]; simp [Quat.identity]
    unfold Quat.rotate
    rw [normalized_of_unit h1]
    funext i
    fin_cases i <;> simp [Quat.sandwich, Quat.conj, Quat.identity]
  have comp : ∀ (a b : Quat ℝ), (a.mul b).rotate v = b.rotate (a.rotate v) := by
    intro a b
    unfold Quat.rotate
    rw [normalized_mul, sandwich_mul]
  refine ⟨?_, ?_⟩
  · rw [← comp, h.1, hid]
  · rw [← comp, h.2, hid]

example : (⟨1, 2, -2, 4⟩ : Quat ℚ).norm2 ≠ 0 := by rw [norm2_eq]; norm_num

/-! ## C32 -/

/-- C32. Conversion from a matrix never fails, whatever the matrix. -/
theorem C32_never_error (m : Mat ℝ 3 3) : quatOfDcm m ≠ none := by
  unfold quatOfDcm
  dsimp only
  split_ifs with h1 h2 h3 h4
  · simp
  · simp
  · simp
  · simp
  · exfalso; linarith

theorem sqrt_sq_cases (x : ℝ) : Real.sqrt (x ^ 2) = x ∨ Real.sqrt (x ^ 2) = -x := by
  rw [Real.sqrt_sq_eq_abs]; exact abs_choice x

/-- C32. A unit quaternion converted to a matrix and back is itself, up to sign. -/
theorem C32_round_trip {q : Quat ℝ} (hq : q.norm2 = 1) :
    quatOfDcm (dcmOfQuat q) = some q ∨ quatOfDcm (dcmOfQuat q) = some q.neg := by
  rw [norm2_eq] at hq
  have e1 : (1 + dcmOfQuat q 0 0 + dcmOfQuat q 1 1 + dcmOfQuat q 2 2) = 4 * q.w ^ 2 := by
    simp [dcmOfQuat]; linear_combination (-1) * hq
  have e2 : (1 + dcmOfQuat q 0 0 - dcmOfQuat q 1 1 - dcmOfQuat q 2 2) = 4 * q.i ^ 2 := by
    simp [dcmOfQuat]; linear_combination (-1) * hq
  have e3 : (1 - dcmOfQuat q 0 0 + dcmOfQuat q 1 1 - dcmOfQuat q 2 2) = 4 * q.j ^ 2 := by
    simp [dcmOfQuat]; linear_combination (-1) * hq
  have e4 : (1 - dcmOfQuat q 0 0 - dcmOfQuat q 1 1 + dcmOfQuat q 2 2) = 4 * q.k ^ 2 := by
    simp [dcmOfQuat]; linear_combination (-1) * hq
  have d4 : ∀ x : ℝ, 4 * x / 4 = x := fun x => by ring
  have hne := C32_never_error (dcmOfQuat q)
  unfold quatOfDcm at *
  dsimp only at *
  rw [e1, e2, e3, e4] at *
  simp only [d4] at *
  split_ifs at * with h1 h2 h3 h4
  · have hw : q.w ≠ 0 := by rintro h; rw [h] at h1; norm_num at h1
    rcases sqrt_sq_cases q.w with h | h <;> rw [h]
    · left; congr 1; ext <;> simp [dcmOfQuat] <;> field_simp <;> ring
    · right; congr 1; ext <;> simp [dcmOfQuat, Quat.neg] <;> field_simp <;> ring
  · have hw : q.i ≠ 0 := by rintro h; rw [h] at h2; norm_num at h2
    rcases sqrt_sq_cases q.i with h | h <;> rw [h]
    · left; congr 1; ext <;> simp [dcmOfQuat] <;> field_simp <;> ring
    · right; congr 1; ext <;> simp [dcmOfQuat, Quat.neg] <;> field_simp <;> ring
  · have hw : q.j ≠ 0 := by rintro h; rw [h] at h3; norm_num at h3
    rcases sqrt_sq_cases q.j with h | h <;> rw [h]
    · left; congr 1; ext <;> simp [dcmOfQuat] <;> field_simp <;> ring
    · right; congr 1; ext <;> simp [dcmOfQuat, Quat.neg] <;> field_simp <;> ring
  · have hw : q.k ≠ 0 := by rintro h; rw [h] at h4; norm_num at h4
    rcases sqrt_sq_cases q.k with h | h <;> rw [h]
    · left; congr 1; ext <;> simp [dcmOfQuat] <;> field_simp <;> ring
    · right; congr 1; ext <;> simp [dcmOfQuat, Quat.neg] <;> field_simp <;> ring
  · exact absurd rfl hne

/-- A rotation matrix is its own matrix of cofactors. -/
theorem rotation_cofactors {m : Mat ℝ 3 3} (h : IsRotation m) :
    m 0 0 = m 1 1 * m 2 2 - m 1 2 * m 2 1 ∧ m 0 1 = m 1 2 * m 2 0 - m 1 0 * m 2 2 ∧
    m 0 2 = m 1 0 * m 2 1 - m 1 1 * m 2 0 ∧ m 1 0 = m 0 2 * m 2 1 - m 0 1 * m 2 2 ∧
    m 1 1 = m 0 0 * m 2 2 - m 0 2 * m 2 0 ∧ m 1 2 = m 0 1 * m 2 0 - m 0 0 * m 2 1 ∧
    m 2 0 = m 0 1 * m 1 2 - m 0 2 * m 1 1 ∧ m 2 1 = m 0 2 * m 1 0 - m 0 0 * m 1 2 ∧
    m 2 2 = m 0 0 * m 1 1 - m 0 1 * m 1 0 := by
  have h1 : (Matrix.of m).adjugate = (Matrix.of m).transpose := by
    have h2 : (Matrix.of m).adjugate * Matrix.of m = 1 := by
      rw [Matrix.adjugate_mul, h.2, one_smul]
    calc (Matrix.of m).adjugate = (Matrix.of m).adjugate * (Matrix.of m * (Matrix.of m).transpose) := by
          rw [h.1, mul_one]
      _ = (Matrix.of m).transpose := by rw [← mul_assoc, h2, one_mul]
  have e : ∀ i j, (Matrix.of m).adjugate j i = m i j := fun i j => by rw [h1]; rfl
  rw [Matrix.adjugate_fin_three] at e
  refine ⟨?_, ?_, ?_, ?_, ?_, ?_, ?_, ?_, ?_⟩
  · have := e 0 0; simp at this; linarith
  · have := e 0 1; simp at this; linarith
  · have := e 0 2; simp at this; linarith
  · have := e 1 0; simp at this; linarith
  · have := e 1 1; simp at this; linarith
  · have := e 1 2; simp at this; linarith
  · have := e 2 0; simp at this; linarith
  · have := e 2 1; simp at this; linarith
  · have := e 2 2; simp at this; linarith

/-- C32. The conversion is exact on every rotation matrix: it returns a unit quaternion whose matrix is the
given one. -/
theorem C32_rotation {m : Mat ℝ 3 3} (h : IsRotation m) :
    ∃ q, quatOfDcm m = some q ∧ q.norm2 = 1 ∧ dcmOfQuat q = m := by
  obtain ⟨f00, f01, f02, f10, f11, f12, f20, f21, f22⟩ := rotation_cofactors h
  have c := rotation_cols h
  obtain ⟨⟨r00, r11, r22, r01, r02, r12⟩, -⟩ := (isRotation_iff m).1 h
  have c00 := c 0 0; have c11 := c 1 1; have c22 := c 2 2
  have c01 := c 0 1; have c02 := c 0 2; have c12 := c 1 2
  simp at c00 c11 c22 c01 c02 c12
  clear c
  have fin : ∀ q : Quat ℝ, 4 * q.w ^ 2 = 1 + m 0 0 + m 1 1 + m 2 2 → 4 * q.i ^ 2 = 1 + m 0 0 - m 1 1 - m 2 2 →
      4 * q.j ^ 2 = 1 - m 0 0 + m 1 1 - m 2 2 → 4 * q.k ^ 2 = 1 - m 0 0 - m 1 1 + m 2 2 →
      4 * (q.w * q.i) = m 1 2 - m 2 1 → 4 * (q.w * q.j) = m 2 0 - m 0 2 → 4 * (q.w * q.k) = m 0 1 - m 1 0 →
      4 * (q.i * q.j) = m 0 1 + m 1 0 → 4 * (q.i * q.k) = m 2 0 + m 0 2 → 4 * (q.j * q.k) = m 1 2 + m 2 1 →
      q.norm2 = 1 ∧ dcmOfQuat q = m := by
    intro q w i j k wi wj wk ij ik jk
    refine ⟨by rw [norm2_eq]; linarith, ?_⟩
    funext a b
    fin_cases a <;> fin_cases b <;> simp [dcmOfQuat] <;> linarith
  have sq4 : ∀ x : ℝ, 0 < x → 4 * Real.sqrt (x / 4) ^ 2 = x ∧ Real.sqrt (x / 4) ≠ 0 := by
    intro x hx
    refine ⟨?_, (Real.sqrt_pos.2 (by linarith)).ne'⟩
    rw [Real.sq_sqrt (by linarith)]; ring
  have e1 : ∀ s c x y : ℝ, 4 * s ^ 2 = c → s ≠ 0 → 4 * (s * (x / (s * 4))) = x := by
    intro s c x y _ h; field_simp
  have e2 : ∀ s c x y z : ℝ, 4 * s ^ 2 = c → s ≠ 0 → x * y = c * z →
      4 * (x / (s * 4) * (y / (s * 4))) = z := by
    intro s c x y z hc h hxy
    have hc0 : c ≠ 0 := by rw [← hc]; positivity
    have : 4 * (x / (s * 4) * (y / (s * 4))) = x * y / (4 * s ^ 2) := by field_simp
    rw [this, hc, hxy, mul_div_cancel_left₀ _ hc0]
  have e3 : ∀ s c x z : ℝ, 4 * s ^ 2 = c → s ≠ 0 → x * x = c * z → 4 * (x / (s * 4)) ^ 2 = z := by
    intro s c x z hc h hx
    rw [pow_two]; exact e2 s c x x z hc h hx
  have hne := C32_never_error m
  unfold quatOfDcm at *
  dsimp only at *
  split_ifs at * with h1 h2 h3 h4
  · obtain ⟨hs, hs0⟩ := sq4 _ (lt_trans (by norm_num) h1)
    generalize Real.sqrt ((1 + m 0 0 + m 1 1 + m 2 2) / 4) = s at *
    refine ⟨_, rfl, fin _ hs ?_ ?_ ?_ ?_ ?_ ?_ ?_ ?_ ?_⟩
    · exact e3 s _ _ _ hs hs0 (by linarith)
    · exact e3 s _ _ _ hs hs0 (by linarith)
    · exact e3 s _ _ _ hs hs0 (by linarith)
    · exact e1 s _ _ 0 hs hs0
    · exact e1 s _ _ 0 hs hs0
    · exact e1 s _ _ 0 hs hs0
    · exact e2 s _ _ _ _ hs hs0 (by linarith)
    · exact e2 s _ _ _ _ hs hs0 (by linarith)
    · exact e2 s _ _ _ _ hs hs0 (by linarith)
  · obtain ⟨hs, hs0⟩ := sq4 _ (lt_trans (by norm_num) h2)
    generalize Real.sqrt ((1 + m 0 0 - m 1 1 - m 2 2) / 4) = s at *
    refine ⟨_, rfl, fin _ ?_ hs ?_ ?_ ?_ ?_ ?_ ?_ ?_ ?_⟩
    · exact e3 s _ _ _ hs hs0 (by linarith)
    · exact e3 s _ _ _ hs hs0 (by linarith)
    · exact e3 s _ _ _ hs hs0 (by linarith)
    · rw [mul_comm (_ / _)]; exact e1 s _ _ 0 hs hs0
    · exact e2 s _ _ _ _ hs hs0 (by linarith)
    · exact e2 s _ _ _ _ hs hs0 (by linarith)
    · exact e1 s _ _ 0 hs hs0
    · exact e1 s _ _ 0 hs hs0
    · exact e2 s _ _ _ _ hs hs0 (by linarith)
  · obtain ⟨hs, hs0⟩ := sq4 _ (lt_trans (by norm_num) h3)
    generalize Real.sqrt ((1 - m 0 0 + m 1 1 - m 2 2) / 4) = s at *
    refine ⟨_, rfl, fin _ ?_ ?_ hs ?_ ?_ ?_ ?_ ?_ ?_ ?_⟩
    · exact e3 s _ _ _ hs hs0 (by linarith)
    · exact e3 s _ _ _ hs hs0 (by linarith)
    · exact e3 s _ _ _ hs hs0 (by linarith)
    · exact e2 s _ _ _ _ hs hs0 (by linarith)
    · rw [mul_comm (_ / _)]; exact e1 s _ _ 0 hs hs0
    · exact e2 s _ _ _ _ hs hs0 (by linarith)
    · rw [mul_comm (_ / _)]; exact e1 s _ _ 0 hs hs0
    · exact e2 s _ _ _ _ hs hs0 (by linarith)
    · exact e1 s _ _ 0 hs hs0
  · obtain ⟨hs, hs0⟩ := sq4 _ (lt_trans (by norm_num) h4)
    generalize Real.sqrt ((1 - m 0 0 - m 1 1 + m 2 2) / 4) = s at *
    refine ⟨_, rfl, fin _ ?_ ?_ ?_ hs ?_ ?_ ?_ ?_ ?_ ?_⟩
    · exact e3 s _ _ _ hs hs0 (by linarith)
    · exact e3 s _ _ _ hs hs0 (by linarith)
    · exact e3 s _ _ _ hs hs0 (by linarith)
    · exact e2 s _ _ _ _ hs hs0 (by linarith)
    · exact e2 s _ _ _ _ hs hs0 (by linarith)
    · rw [mul_comm (_ / _)]; exact e1 s _ _ 0 hs hs0
    · exact e2 s _ _ _ _ hs hs0 (by linarith)
    · rw [mul_comm (_ / _)]; exact e1 s _ _ 0 hs hs0
    · rw [mul_comm (_ / _)]; exact e1 s _ _ 0 hs hs0
  · exact absurd rfl hne

/-- C32. Every elementary rotation is a rotation matrix. -/
theorem C32_elementary (t : ℝ) : IsRotation (rotX t) ∧ IsRotation (rotY t) ∧ IsRotation (rotZ t) := by
  have h := Real.sin_sq_add_cos_sq t
  refine ⟨?_, ?_, ?_⟩ <;> rw [isRotation_iff] <;>
    refine ⟨⟨?_, ?_, ?_, ?_, ?_, ?_⟩, ?_⟩ <;> simp [rotX, rotY, rotZ] <;> linarith

/-- A matrix outside the first branch: a half turn about the z axis. -/
example : IsRotation (rotZ Real.pi) ∧ quatOfDcm (rotZ Real.pi) = some ⟨0, 0, 0, 1⟩ := by
  refine ⟨(C32_elementary _).2.2, ?_⟩
  have e : ∀ i j, rotZ Real.pi i j = (![![-1, 0, 0], ![0, -1, 0], ![0, 0, 1]] : Mat ℝ 3 3) i j := by
    intro i j; fin_cases i <;> fin_cases j <;> simp [rotZ]
  have e22 : rotZ Real.pi 2 2 = 1 := by rw [e]; rfl
  have e00 : rotZ Real.pi 0 0 = -1 := by rw [e]; rfl
  have e11 : rotZ Real.pi 1 1 = -1 := by rw [e]; rfl
  have e01 : rotZ Real.pi 0 1 = 0 := by rw [e]; rfl
  have e10 : rotZ Real.pi 1 0 = 0 := by rw [e]; rfl
  have e02 : rotZ Real.pi 0 2 = 0 := by rw [e]; rfl
  have e20 : rotZ Real.pi 2 0 = 0 := by rw [e]; rfl
  have e12 : rotZ Real.pi 1 2 = 0 := by rw [e]; rfl
  have e21 : rotZ Real.pi 2 1 = 0 := by rw [e]; rfl
  unfold quatOfDcm
  rw [e00, e11, e22, e01, e10, e02, e20, e12, e21]
  norm_num

/-! ## C77 -/

theorem ofAngularVelocity_eq {w : Fin 3 → ℝ} (hw : Mat.norm Real.sqrt w ≠ 0) (t : ℝ) :
    Quat.ofAngularVelocity w t =
      ⟨Real.cos (Mat.norm Real.sqrt w * t * (1 / 2)),
       w 0 / Mat.norm Real.sqrt w * Real.sin (Mat.norm Real.sqrt w * t * (1 / 2)),
       w 1 / Mat.norm Real.sqrt w * Real.sin (Mat.norm Real.sqrt w * t * (1 / 2)),
       w 2 / Mat.norm Real.sqrt w * Real.sin (Mat.norm Real.sqrt w * t * (1 / 2))⟩ := by
  unfold Quat.ofAngularVelocity
  rw [if_neg hw]
  rfl

theorem norm_sq3 (w : Fin 3 → ℝ) : Mat.norm Real.sqrt w ^ 2 = w 0 ^ 2 + w 1 ^ 2 + w 2 ^ 2 := by
  rw [C22_norm_real, Real.sq_sqrt (Finset.sum_nonneg fun i _ => sq_nonneg _), Fin.sum_univ_three]

/-- C77. The increment of an angular velocity over a time step is a unit quaternion, is the identity over a
zero step, and increments of a constant angular velocity compose: two steps are one step of the total
length. -/
theorem C77_increment (w : Fin 3 → ℝ) (a b : ℝ) :
    (Quat.ofAngularVelocity w a).norm2 = 1 ∧ Quat.ofAngularVelocity w 0 = Quat.identity ∧
      (Quat.ofAngularVelocity w a).mul (Quat.ofAngularVelocity w b) = Quat.ofAngularVelocity w (a + b) := by
  by_cases hw : Mat.norm Real.sqrt w = 0
  · have : ∀ t, Quat.ofAngularVelocity w t = Quat.identity := fun t => by
      unfold Quat.ofAngularVelocity; rw [if_pos hw]
    simp only [this]
    refine ⟨by rw [norm2_eq]; simp [Quat.identity], trivial, (C31_algebra _ Quat.identity Quat.identity).2.1⟩
  · have hn := norm_sq3 w
    have h1 : (w 0 / Mat.norm Real.sqrt w) ^ 2 + (w 1 / Mat.norm Real.sqrt w) ^ 2
        + (w 2 / Mat.norm Real.sqrt w) ^ 2 = 1 := by
      field_simp; linarith
    simp only [ofAngularVelocity_eq hw]
    generalize Mat.norm Real.sqrt w = n at *
    have ea : n * (a + b) * (1 / 2) = n * a * (1 / 2) + n * b * (1 / 2) := by ring
    have hs := Real.sin_sq_add_cos_sq (n * a * (1 / 2))
    generalize w 0 / n = x at *
    generalize w 1 / n = y at *
    generalize w 2 / n = z at *
    refine ⟨?_, ?_, ?_⟩
    · rw [norm2_eq]; simp only
      linear_combination hs + (Real.sin (n * a * (1 / 2))) ^ 2 * h1
    · ext <;> simp [Quat.identity]
    · rw [ea, Real.cos_add, Real.sin_add]
      unfold Quat.mul
      ext <;> simp only
      · linear_combination (-Real.sin (n * a * (1 / 2)) * Real.sin (n * b * (1 / 2))) * h1
      · ring
      · ring
      · ring

/-- C77. However many attitude updates are applied, with whatever rates and steps, the norm of the attitude
quaternion does not drift. -/
theorem C77_history (q : Quat ℝ) (steps : List ((Fin 3 → ℝ) × ℝ)) :
    (steps.foldl (fun q s => integrateRotation q s.1 s.2) q).norm2 = q.norm2 := by
  induction steps generalizing q with
  | nil => rfl
  | cons s t ih =>
    rw [List.foldl_cons, ih]
    unfold integrateRotation
    rw [norm2_mul, (C77_increment s.1 s.2 0).1, one_mul]

/-- C77. Any subdivision of a time span at a constant rate gives the same attitude as one step. -/
theorem C77_subdivision (q : Quat ℝ) (w : Fin 3 → ℝ) (dts : List ℝ) :
    dts.foldl (fun q dt => integrateRotation q w dt) q = integrateRotation q w dts.sum := by
  induction dts generalizing q with
  | nil =>
    simp only [List.foldl_nil, List.sum_nil]
    unfold integrateRotation
    rw [(C77_increment w 0 0).2.1, (C31_algebra q q q).2.1]
  | cons t ts ih =>
    rw [List.foldl_cons, ih, List.sum_cons]
    unfold integrateRotation
    rw [← (C31_algebra _ _ q).1, (C77_increment w _ _).2.2, add_comm]

/-- C77. The update satisfies its documented differential equation `q̇ = ½ ω q` (Hamilton product). -/
theorem C77_rate (q : Quat ℝ) (w : Fin 3 → ℝ) :
    let d := ((⟨0, w 0, w 1, w 2⟩ : Quat ℝ).mul q).scale (1 / 2)
    HasDerivAt (fun t => (integrateRotation q w t).w) d.w 0 ∧
    HasDerivAt (fun t => (integrateRotation q w t).i) d.i 0 ∧
    HasDerivAt (fun t => (integrateRotation q w t).j) d.j 0 ∧
    HasDerivAt (fun t => (integrateRotation q w t).k) d.k 0 := by
  intro d
  have key : HasDerivAt (fun t => (Quat.ofAngularVelocity w t).w) 0 0 ∧
      HasDerivAt (fun t => (Quat.ofAngularVelocity w t).i) (w 0 * (1 / 2)) 0 ∧
      HasDerivAt (fun t => (Quat.ofAngularVelocity w t).j) (w 1 * (1 / 2)) 0 ∧
      HasDerivAt (fun t => (Quat.ofAngularVelocity w t).k) (w 2 * (1 / 2)) 0 := by
    by_cases hw : Mat.norm Real.sqrt w = 0
    · have h0 : ∀ t, Quat.ofAngularVelocity w t = Quat.identity := fun t => by
        unfold Quat.ofAngularVelocity; rw [if_pos hw]
      have hz : w = 0 := (norm_eq_zero' w).1 hw
      rw [hz] at h0 ⊢
      simp only [h0, Pi.zero_apply, zero_mul]
      exact ⟨hasDerivAt_const _ _, hasDerivAt_const _ _, hasDerivAt_const _ _, hasDerivAt_const _ _⟩
    · simp only [ofAngularVelocity_eq hw]
      generalize Mat.norm Real.sqrt w = n at *
      have hl : HasDerivAt (fun t : ℝ => n * t * (1 / 2)) (n * (1 / 2)) 0 := by
        have h0 : HasDerivAt (fun t : ℝ => t) 1 0 := hasDerivAt_id' 0
        have := (h0.const_mul n).mul_const (1 / 2 : ℝ)
        simpa using this
      have hs : ∀ x : ℝ, HasDerivAt (fun t : ℝ => x / n * Real.sin (n * t * (1 / 2))) (x * (1 / 2)) 0 := by
        intro x
        have := (hl.sin).const_mul (x / n)
        refine this.congr_deriv ?_
        simp; field_simp
      have hc : HasDerivAt (fun t : ℝ => Real.cos (n * t * (1 / 2))) 0 0 := by
        have := hl.cos
        refine this.congr_deriv ?_
        simp
      exact ⟨hc, hs _, hs _, hs _⟩
  obtain ⟨kw, ki, kj, kk⟩ := key
  unfold integrateRotation
  simp only [Quat.mul]
  refine ⟨?_, ?_, ?_, ?_⟩
  · refine HasDerivAt.congr_deriv ((((kw.mul_const q.w).sub (ki.mul_const q.i)).sub (kj.mul_const q.j)).sub (kk.mul_const q.k)) ?_
    simp [d, Quat.mul, Quat.scale]; ring
  · refine HasDerivAt.congr_deriv ((((kw.mul_const q.i).add (ki.mul_const q.w)).add (kj.mul_const q.k)).sub (kk.mul_const q.j)) ?_
    simp [d, Quat.mul, Quat.scale]; ring
  · refine HasDerivAt.congr_deriv ((((kw.mul_const q.j).sub (ki.mul_const q.k)).add (kj.mul_const q.w)).add (kk.mul_const q.i)) ?_
    simp [d, Quat.mul, Quat.scale]; ring
  · refine HasDerivAt.congr_deriv ((((kw.mul_const q.k).add (ki.mul_const q.j)).sub (kj.mul_const q.i)).add (kk.mul_const q.w)) ?_
    simp [d, Quat.mul, Quat.scale]; ring

/-- C77 (as the code behaves). After an update the body axes see a fixed vector as the old attitude would see the
vector turned by the increment: the angular velocity is taken in inertial axes. -/
theorem C77_inertial_rate {q : Quat ℝ} (_hq : q ≠ ⟨0, 0, 0, 0⟩) (w v : Fin 3 → ℝ) (t : ℝ) :
    (integrateRotation q w t).rotate v = q.rotate ((Quat.ofAngularVelocity w t).rotate v) := by
  unfold integrateRotation Quat.rotate
  rw [normalized_mul, sandwich_mul]

/-- C77 fails for body rates: the documentation says that the angular velocity is expressed in the body frame,
so that the increment should act on the body components; it does not. -/
theorem C77_body_rate_fails :
    ∃ (q : Quat ℝ) (w v : Fin 3 → ℝ) (t : ℝ), q.norm2 = 1 ∧
      (integrateRotation q w t).rotate v ≠ (Quat.ofAngularVelocity w t).rotate (q.rotate v) := by
  have hq : (⟨3 / 5, 4 / 5, 0, 0⟩ : Quat ℝ).norm2 = 1 := by rw [norm2_eq]; norm_num
  have hn : Mat.norm Real.sqrt ![0, 0, Real.pi] = Real.pi := by
    rw [C22_norm_real, Fin.sum_univ_three]
    simp [Real.sqrt_sq Real.pi_pos.le]
  have hd : Quat.ofAngularVelocity ![0, 0, Real.pi] 1 = ⟨0, 0, 0, 1⟩ := by
    rw [ofAngularVelocity_eq (by rw [hn]; exact Real.pi_ne_zero), hn]
    have : Real.pi * 1 * (1 / 2) = Real.pi / 2 := by ring
    rw [this, Real.cos_pi_div_two, Real.sin_pi_div_two]
    ext <;> simp [Real.pi_ne_zero]
  have h1 : (⟨0, 0, 0, 1⟩ : Quat ℝ).norm2 = 1 := by rw [norm2_eq]; norm_num
  refine ⟨⟨3 / 5, 4 / 5, 0, 0⟩, ![0, 0, Real.pi], ![0, 1, 0], 1, hq, ?_⟩
  rw [C77_inertial_rate (fun h => by rw [h, norm2_eq] at hq; norm_num at hq), hd]
  intro h
  have := congrFun h 2
  unfold Quat.rotate at this
  rw [normalized_of_unit hq, normalized_of_unit h1] at this
  simp [Quat.sandwich, Quat.conj] at this
  norm_num at this

theorem normalized_scale {c : ℝ} (hc : 0 < c) (q : Quat ℝ) : (q.scale c).normalized = q.normalized := by
  have hn : (q.scale c).norm = c * q.norm := by
    unfold Quat.norm
    have : (q.scale c).norm2 = c ^ 2 * q.norm2 := by
      rw [norm2_eq, norm2_eq]; unfold Quat.scale; ring
    rw [this, Real.sqrt_mul (sq_nonneg c), Real.sqrt_sq hc.le]
  unfold Quat.normalized
  rw [hn]
  unfold Quat.scale
  ext <;> simp only <;> rw [mul_comm, mul_div_mul_left _ _ hc.ne']

/-- C77. The Taylor update `Quaternion::integrate` leaves the attitude of a body at rest alone for every
non-negative time step, and for any motion over a zero step. -/
theorem C77_taylor_rest {q : Quat ℝ} (hq : q.norm2 = 1) :
    (∀ dt : ℝ, 0 ≤ dt → q.integrate ![0, 0, 0] ![0, 0, 0] dt = q) ∧
    (∀ vel acc : Fin 3 → ℝ, q.integrate vel acc 0 = q) := by
  refine ⟨fun dt hdt => ?_, fun vel acc => ?_⟩
  · have key : q.integrate ![0, 0, 0] ![0, 0, 0] dt
        = (q.scale (1 + dt / 2 + 3 / 16 * dt ^ 2 + 11 / 108 * dt ^ 3)).normalized := by
      unfold Quat.integrate
      rw [normalized_of_unit hq]
      refine congrArg Quat.normalized ?_
      simp only [Quat.add, Quat.scale, Quat.mul]
      ext <;> simp <;> ring
    rw [key, normalized_scale (by positivity), normalized_of_unit hq]
  · unfold Quat.integrate
    simp only [Quat.add, Quat.scale, mul_zero, add_zero]
    rw [normalized_of_unit hq, normalized_of_unit hq]

end Verif.Att
