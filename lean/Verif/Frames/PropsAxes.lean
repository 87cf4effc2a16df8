import Verif.Frames.Model
import Verif.Graphics.PropsView
import Mathlib.LinearAlgebra.Matrix.NonsingularInverse
import Mathlib.LinearAlgebra.Matrix.Adjugate

/-!
# Views and forces in other axes (C223)

A change of axes is a rotation matrix `R` (`Turn R`): its rows are orthonormal and its determinant is one. A point `p` has
the coordinates `R *ᵥ p` in the new axes, or `R *ᵥ p + t` if the origin is moved too; a tensor `J` becomes `R * J * Rᵀ`.
`*ᵥ`, `*`, `ᵀ` and `det` are Mathlib's.
-/

namespace Verif.Frames

open Verif.Mat Verif.Graphics Matrix

/-- A rotation of space. -/
structure Turn (R : Matrix (Fin 3) (Fin 3) ℝ) : Prop where
  orth : R * Rᵀ = 1
  det : R.det = 1

variable {R : Matrix (Fin 3) (Fin 3) ℝ}

theorem Turn.orth' (h : Turn R) : Rᵀ * R = 1 := mul_eq_one_comm.1 h.orth

theorem Turn.inner (h : Turn R) (u v : Fin 3 → ℝ) : (R *ᵥ u) ⬝ᵥ (R *ᵥ v) = u ⬝ᵥ v := by
  rw [dotProduct_mulVec, ← mulVec_transpose, mulVec_mulVec, h.orth', one_mulVec]

theorem dot_eq (u v : Fin 3 → ℝ) : Mat.dot u v = u ⬝ᵥ v := by
  rw [dot3]; simp [dotProduct, Fin.sum_univ_three]

theorem norm_eq (u : Fin 3 → ℝ) : Mat.norm Real.sqrt u = Real.sqrt (u ⬝ᵥ u) := by
  rw [C22_norm_real]; simp [dotProduct, pow_two]

theorem Turn.norm (h : Turn R) (u : Fin 3 → ℝ) : Mat.norm Real.sqrt (R *ᵥ u) = Mat.norm Real.sqrt u := by
  rw [norm_eq, norm_eq, h.inner]

/-- A rotation matrix is its own matrix of cofactors. -/
theorem Turn.cof (h : Turn R) : R.adjugate = Rᵀ := by
  have h1 : R * R.adjugate = 1 := by rw [mul_adjugate, h.det, one_smul]
  calc R.adjugate = (Rᵀ * R) * R.adjugate := by rw [h.orth', Matrix.one_mul]
    _ = Rᵀ := by rw [Matrix.mul_assoc, h1, Matrix.mul_one]

theorem turn_mulVec (u : Fin 3 → ℝ) : R *ᵥ u =
    ![R 0 0 * u 0 + R 0 1 * u 1 + R 0 2 * u 2, R 1 0 * u 0 + R 1 1 * u 1 + R 1 2 * u 2, R 2 0 * u 0 + R 2 1 * u 1 + R 2 2 * u 2] := by
  funext i
  fin_cases i <;> simp [Matrix.mulVec, dotProduct, Fin.sum_univ_three]

theorem Turn.cross (h : Turn R) (u v : Fin 3 → ℝ) : Mat.cross (R *ᵥ u) (R *ᵥ v) = R *ᵥ Mat.cross u v := by
  have hc := h.cof
  rw [adjugate_fin_three] at hc
  have e : ∀ i j, R i j = _ := fun i j => (congrFun (congrFun hc j) i).symm
  have e00 := e 0 0; have e01 := e 0 1; have e02 := e 0 2
  have e10 := e 1 0; have e11 := e 1 1; have e12 := e 1 2
  have e20 := e 2 0; have e21 := e 2 1; have e22 := e 2 2
  simp at e00 e01 e02 e10 e11 e12 e20 e21 e22
  rw [turn_mulVec, turn_mulVec, turn_mulVec]
  funext i
  fin_cases i <;> simp [Mat.cross]
  · linear_combination (-(u 1 * v 2 - u 2 * v 1)) * e00 - (u 2 * v 0 - u 0 * v 2) * e01 - (u 0 * v 1 - u 1 * v 0) * e02
  · linear_combination (-(u 1 * v 2 - u 2 * v 1)) * e10 - (u 2 * v 0 - u 0 * v 2) * e11 - (u 0 * v 1 - u 1 * v 0) * e12
  · linear_combination (-(u 1 * v 2 - u 2 * v 1)) * e20 - (u 2 * v 0 - u 0 * v 2) * e21 - (u 0 * v 1 - u 1 * v 0) * e22

theorem normalize_smul (u : Fin 3 → ℝ) : Mat.normalize u = (Mat.norm Real.sqrt u)⁻¹ • u := by
  funext i
  rw [Pi.smul_apply, smul_eq_mul, mul_comm, ← div_eq_mul_inv]
  rfl

theorem Turn.normalize (h : Turn R) (u : Fin 3 → ℝ) : Mat.normalize (R *ᵥ u) = R *ᵥ Mat.normalize u := by
  rw [normalize_smul, normalize_smul, h.norm, mulVec_smul]

theorem lookAt_apply (eye center up p : Fin 3 → ℝ) : apply (lookAt eye center up) p =
    ![Mat.normalize (Mat.cross up (Mat.normalize (center - eye))) ⬝ᵥ (p - eye),
      Mat.cross (Mat.normalize (center - eye)) (Mat.normalize (Mat.cross up (Mat.normalize (center - eye)))) ⬝ᵥ (p - eye),
      -(Mat.normalize (center - eye) ⬝ᵥ (p - eye)), 1] := by
  unfold lookAt
  dsimp only
  rw [apply_rows, show (fun i => center i - eye i) = center - eye from rfl]
  generalize Mat.normalize (center - eye) = f
  generalize Mat.normalize (Mat.cross up f) = r
  generalize Mat.cross f r = u
  simp only [dot3]
  funext i
  fin_cases i <;> simp [dotProduct, Fin.sum_univ_three] <;> ring

/-- C223. Turning and moving the whole scene, with the camera, does not change the picture: a point of the scene has the same
coordinates in the view. -/
theorem C223_view (h : Turn R) (t eye center up p : Fin 3 → ℝ) (_hv : Valid eye center up) :
    apply (lookAt (R *ᵥ eye + t) (R *ᵥ center + t) (R *ᵥ up)) (R *ᵥ p + t) = apply (lookAt eye center up) p := by
  have e1 : ∀ a b : Fin 3 → ℝ, R *ᵥ a + t - (R *ᵥ b + t) = R *ᵥ (a - b) := by
    intro a b; rw [mulVec_sub]; abel
  rw [lookAt_apply, lookAt_apply, e1, e1, h.normalize, h.cross, h.normalize, h.cross, h.inner, h.inner, h.inner]

/-- C223. A scene in another unit of length is seen in this unit, and the length of the up direction does not matter. -/
theorem C223_view_unit {k l : ℝ} (hk : 0 < k) (hl : 0 < l) (eye center up p : Fin 3 → ℝ) (_hv : Valid eye center up) (i : Fin 3) :
    apply (lookAt (k • eye) (k • center) (l • up)) (k • p) i.castSucc = k * apply (lookAt eye center up) p i.castSucc := by
  have hn : ∀ (c : ℝ) (u : Fin 3 → ℝ), 0 < c → Mat.normalize (c • u) = Mat.normalize u := by
    intro c u hc
    rw [normalize_smul, normalize_smul, norm_eq, norm_eq, smul_dotProduct, dotProduct_smul, smul_eq_mul, smul_eq_mul, ← mul_assoc,
      Real.sqrt_mul (by positivity), Real.sqrt_mul_self hc.le, smul_smul, mul_inv]
    congr 1
    field_simp
  have hcr : ∀ (c : ℝ) (u v : Fin 3 → ℝ), Mat.cross (c • u) v = c • Mat.cross u v := by
    intro c u v
    funext i
    fin_cases i <;> simp [Mat.cross] <;> ring
  rw [lookAt_apply, lookAt_apply, ← smul_sub, ← smul_sub, hn _ _ hk, hcr, hn _ _ hl]
  fin_cases i <;> simp [dotProduct_smul]
  ring

/-- C223. The lunar gravity and torque in other axes with the same origin. -/
theorem C223_moon (h : Turn R) (m : Moon) (p : Fin 3 → ℝ) (mass : ℝ) (J : Matrix (Fin 3) (Fin 3) ℝ) :
    m.gravity (R *ᵥ p) = R *ᵥ m.gravity p ∧ m.force (R *ᵥ p) mass = R *ᵥ m.force p mass ∧
    m.torque (R *ᵥ p) (fun i j => (R * J * Rᵀ) i j) = R *ᵥ m.torque p (fun i j => J i j) := by
  have hs : ∀ (u : Fin 3 → ℝ) (c : ℝ), scaled u c = c • u := by
    intro u c; funext i; simp [scaled, mul_comm]
  have hg : m.gravity (R *ᵥ p) = R *ᵥ m.gravity p := by
    unfold Moon.gravity
    dsimp only
    rw [h.norm]
    split_ifs
    · exact (mulVec_zero R).symm
    · rw [hs, hs, mulVec_smul]
  refine ⟨hg, ?_, ?_⟩
  · unfold Moon.force
    rw [hg, hs, hs, mulVec_smul]
  · unfold Moon.torque
    dsimp only
    rw [h.norm]
    split_ifs
    · exact (mulVec_zero R).symm
    · have e1 : Mat.mulVec (fun i j => (R * J * Rᵀ) i j : Mat ℝ 3 3) (R *ᵥ p) = R *ᵥ (J *ᵥ p) := by
        rw [(C22_real _ p (R *ᵥ p) (fun _ _ => 0 : Mat ℝ 3 4) (fun _ => 0) (fun _ _ => 0 : Mat ℝ 3 6) (fun _ => 0)).1]
        show (R * J * Rᵀ) *ᵥ (R *ᵥ p) = _
        rw [mulVec_mulVec, Matrix.mul_assoc, h.orth', Matrix.mul_one, ← mulVec_mulVec]
      have e2 : Mat.mulVec (fun i j => J i j : Mat ℝ 3 3) p = J *ᵥ p :=
        (C22_real _ p p (fun _ _ => 0 : Mat ℝ 3 4) (fun _ => 0) (fun _ _ => 0 : Mat ℝ 3 6) (fun _ => 0)).1
      rw [e1, e2, h.cross, hs, hs, mulVec_smul]

/-- C223. The Coriolis and centrifugal forces and the gravity-gradient torque of the Earth in other axes with the same origin;
the angular velocity is turned too. -/
theorem C223_earth (h : Turn R) (w p vel : Fin 3 → ℝ) (mass : ℝ) (J : Matrix (Fin 3) (Fin 3) ℝ) :
    coriolisForce (R *ᵥ w) (R *ᵥ vel) mass = R *ᵥ coriolisForce w vel mass ∧
    centrifugalForce (R *ᵥ w) (R *ᵥ p) mass = R *ᵥ centrifugalForce w p mass ∧
    earthTorque (R *ᵥ p) (fun i j => (R * J * Rᵀ) i j) = R *ᵥ earthTorque p (fun i j => J i j) := by
  have hs : ∀ (u : Fin 3 → ℝ) (c : ℝ), scaled u c = c • u := by
    intro u c; funext i; simp [scaled, mul_comm]
  refine ⟨?_, ?_, ?_⟩
  · unfold coriolisForce
    simp only [hs, h.cross]
    show -(mass • (2 : ℝ) • R *ᵥ Mat.cross w vel) = R *ᵥ -(mass • (2 : ℝ) • Mat.cross w vel)
    rw [mulVec_neg, mulVec_smul, mulVec_smul]
  · unfold centrifugalForce
    simp only [hs, h.cross]
    show -(mass • R *ᵥ Mat.cross w (Mat.cross w p)) = R *ᵥ -(mass • Mat.cross w (Mat.cross w p))
    rw [mulVec_neg, mulVec_smul]
  · unfold earthTorque
    dsimp only
    have e1 : Mat.mulVec (fun i j => (R * J * Rᵀ) i j : Mat ℝ 3 3) (R *ᵥ p) = R *ᵥ (J *ᵥ p) := by
      rw [(C22_real _ p (R *ᵥ p) (fun _ _ => 0 : Mat ℝ 3 4) (fun _ => 0) (fun _ _ => 0 : Mat ℝ 3 6) (fun _ => 0)).1]
      show (R * J * Rᵀ) *ᵥ (R *ᵥ p) = _
      rw [mulVec_mulVec, Matrix.mul_assoc, h.orth', Matrix.mul_one, ← mulVec_mulVec]
    have e2 : Mat.mulVec (fun i j => J i j : Mat ℝ 3 3) p = J *ᵥ p :=
      (C22_real _ p p (fun _ _ => 0 : Mat ℝ 3 4) (fun _ => 0) (fun _ _ => 0 : Mat ℝ 3 6) (fun _ => 0)).1
    rw [e1, e2, h.cross, hs, hs, mulVec_smul, h.norm]

-- A quarter turn about the z axis.
example : Turn !![0, -1, 0; 1, 0, 0; 0, 0, 1] := by
  constructor
  · ext i j; fin_cases i <;> fin_cases j <;> simp [Matrix.mul_apply, Fin.sum_univ_three]
  · simp [det_fin_three]

end Verif.Frames
