import Verif.Graphics.PropsCamera
import Verif.Graphics.PropsView
import Verif.Frames.PropsAxes

/-!
# What the orbit camera sees (C226)

The camera of `PropsCamera` after any operations (`Reachable`), its position, target and up direction given to `lookAt`, and
the coordinates of a point in this view given to `perspective`.
-/

namespace Verif.Graphics

open Verif.Mat Matrix

/-- `(f × r) × f = r` for orthonormal `f` and `r`. -/
theorem cross_back {f r : Fin 3 → ℝ} (hf : f ⬝ᵥ f = 1) (h : f ⬝ᵥ r = 0) : Mat.cross (Mat.cross f r) f = r := by
  rw [dotProduct, Fin.sum_univ_three] at hf h
  funext i
  fin_cases i <;> simp [Mat.cross]
  · linear_combination r 0 * hf - f 0 * h
  · linear_combination r 1 * hf - f 1 * h
  · linear_combination r 2 * hf - f 2 * h

/-- `f × (u × f) = u` for orthonormal `f` and `u`. -/
theorem cross_back' {f u : Fin 3 → ℝ} (hf : f ⬝ᵥ f = 1) (h : f ⬝ᵥ u = 0) : Mat.cross f (Mat.cross u f) = u := by
  rw [dotProduct, Fin.sum_univ_three] at hf h
  funext i
  fin_cases i <;> simp [Mat.cross]
  · linear_combination u 0 * hf - f 0 * h
  · linear_combination u 1 * hf - f 1 * h
  · linear_combination u 2 * hf - f 2 * h

theorem cross_unit {f u : Fin 3 → ℝ} (hf : f ⬝ᵥ f = 1) (hu : u ⬝ᵥ u = 1) (h : f ⬝ᵥ u = 0) : Mat.cross u f ⬝ᵥ Mat.cross u f = 1 := by
  rw [cross_eq, cross_dot_cross, hf, hu, h, dotProduct_comm u f, h]; norm_num

theorem normalize_ahead {f : Fin 3 → ℝ} (hf : f ⬝ᵥ f = 1) {d : ℝ} (hd : 0 < d) : Mat.normalize (d • f) = f := by
  rw [Frames.normalize_smul, Frames.norm_eq, smul_dotProduct, dotProduct_smul, hf, smul_eq_mul, smul_eq_mul, mul_one,
    Real.sqrt_mul_self hd.le, smul_smul, inv_mul_cancel₀ hd.ne', one_smul]

/-- C226. After any operations, with a positive distance, the camera's position, target and up direction are valid arguments
of `look_at`, and a point that is `a` to the side, `b` up and `d` ahead of the camera has the coordinates `(a, b, -d)` in the
view. To the side is along the cross product of up and forward. -/
theorem C226_view (c : Camera) (hc : Reachable c) (hd : 0 < c.distance) (a b d : ℝ) :
    Valid c.position c.target c.up ∧
    apply (lookAt c.position c.target c.up) (c.position + a • crossProduct c.up c.forward + b • c.up + d • c.forward) = hom ![a, b, -d] := by
  obtain ⟨h1, -, h3, -, h5, -, -, h8⟩ := C63_orthonormal c hc
  have hx := cross_unit h1 h3 h5
  refine ⟨⟨fun h => ?_, fun h => ?_⟩, ?_⟩
  · rw [h, sub_self] at h8
    have := congrArg (fun v => v ⬝ᵥ c.forward) h8
    simp [h1] at this
    exact hd.ne this
  · rw [h8, map_smul, ← cross_eq] at h
    have h' : Mat.cross c.up c.forward = 0 := (smul_eq_zero.1 h).resolve_left hd.ne'
    rw [h'] at hx
    simp at hx
  · rw [Frames.lookAt_apply, h8, normalize_ahead h1 hd, normalize_of_unit hx, cross_back' h1 h5, ← cross_eq]
    have e1 : Mat.cross c.up c.forward ⬝ᵥ c.up = 0 := by rw [cross_eq, dotProduct_comm, dot_self_cross]
    have e2 : Mat.cross c.up c.forward ⬝ᵥ c.forward = 0 := by rw [cross_eq, dotProduct_comm, dot_cross_self]
    have e3 : c.up ⬝ᵥ Mat.cross c.up c.forward = 0 := by rw [dotProduct_comm, e1]
    have e4 : c.forward ⬝ᵥ Mat.cross c.up c.forward = 0 := by rw [dotProduct_comm, e2]
    have e5 : c.up ⬝ᵥ c.forward = 0 := by rw [dotProduct_comm, h5]
    have hp : c.position + a • Mat.cross c.up c.forward + b • c.up + d • c.forward - c.position =
        a • Mat.cross c.up c.forward + b • c.up + d • c.forward := by abel
    rw [hp]
    simp only [dotProduct_add, dotProduct_smul, smul_eq_mul, hx, h1, h3, h5, e1, e2, e3, e4, e5]
    funext i
    fin_cases i <;> simp [hom]

/-- C226. The target is in the middle of the picture: in the view it is on the axis at the set distance, and if the distance
is between the near and the far plane the projection puts it at the centre, within the depth range. -/
theorem C226_target (c : Camera) (hc : Reachable c) (hd : 0 < c.distance) :
    apply (lookAt c.position c.target c.up) c.target = hom ![0, 0, -c.distance] ∧
    ∀ aspect fovY near far : ℝ, 0 < aspect → 0 < fovY → fovY < Real.pi → 0 < near → near < far → near ≤ c.distance → c.distance ≤ far →
      ∃ z, applyRow (perspective aspect fovY near far) ![0, 0, -c.distance] = ![0, 0, z * c.distance, c.distance] ∧ -1 ≤ z ∧ z ≤ 1 := by
  constructor
  · have h := (C226_view c hc hd 0 0 c.distance).2
    have h8 := (C63_orthonormal c hc).2.2.2.2.2.2.2
    rw [zero_smul, zero_smul, add_zero, add_zero, ← h8, add_sub_cancel] at h
    exact h
  · intro aspect fovY near far ha h0 h1 hn hnf hl hr
    obtain ⟨p1, p2, p3, p4, -⟩ := C92_partial aspect fovY near far ha h0 h1 hn hnf
    refine ⟨applyRow (perspective aspect fovY near far) ![0, 0, -c.distance] 2 / c.distance, ?_, ?_, ?_⟩
    · rw [div_mul_cancel₀ _ hd.ne']
      have := p1 0 0 (-c.distance)
      funext i
      fin_cases i
      · simp [applyRow, hom, perspective, vecMul, dotProduct, Fin.sum_univ_four]
      · simp [applyRow, hom, perspective, vecMul, dotProduct, Fin.sum_univ_four]
      · rfl
      · simpa using this
    · rcases hl.eq_or_lt with h | h
      · rw [← h]; exact (p2 0 0).ge
      · rw [← p2 0 0]; exact (p4 0 0 0 0 _ _ hn h).le
    · rcases hr.eq_or_lt with h | h
      · rw [h]; exact (p3 0 0).le
      · rw [← p3 0 0]; exact (p4 0 0 0 0 _ _ hd h).le

theorem up_of_side {c : Camera} (hc : Reachable c) (h : 0 ≤ Mat.cross c.forward c.right 2) : c.up = Mat.cross c.forward c.right := by
  obtain ⟨h1, h2, -, h4, -⟩ := C63_orthonormal c hc
  have hu : Mat.cross c.forward c.right ⬝ᵥ Mat.cross c.forward c.right = 1 := cross_unit h2 h1 (by rw [dotProduct_comm]; exact h4)
  unfold Camera.up
  dsimp only
  rw [normalize_of_unit hu, if_neg, if_neg h.not_gt]
  rw [dotProduct, Fin.sum_univ_three] at hu
  rw [hu]
  norm_num

/-- C226, partial. Unless the camera looks along the vertical to within 1e-8, the side direction is the camera's `right`: a
point `a` to the right, `b` up and `d` ahead has the coordinates `(a, b, -d)`. (Missing: nearly vertical views, see
`C226_right_fails`.) -/
theorem C226_right_partial (c : Camera) (hc : Reachable c) (hd : 0 < c.distance) (hv : 1.0e-16 ≤ c.forward 0 ^ 2 + c.forward 1 ^ 2) (a b d : ℝ) :
    apply (lookAt c.position c.target c.up) (c.position + a • c.right + b • c.up + d • c.forward) = hom ![a, b, -d] := by
  obtain ⟨h1, h2, -, h4, -⟩ := C63_orthonormal c hc
  have hup : c.up = Mat.cross c.forward c.right := by
    refine up_of_side hc ?_
    have e0 : Mat.cross ![0, 0, 1] c.forward = ![-c.forward 1, c.forward 0, 0] := by simp [Mat.cross]
    have hr : c.right = Mat.normalize ![-c.forward 1, c.forward 0, 0] := by
      show rightOf c.forward = _
      unfold rightOf
      dsimp only
      rw [e0, if_neg]
      simp only [Matrix.cons_val_zero, Matrix.cons_val_one, Matrix.cons_val]
      intro h
      nlinarith
    rw [hr]
    simp only [Mat.cross, Mat.normalize, vdiv, Matrix.cons_val_zero, Matrix.cons_val_one, Matrix.cons_val]
    have hn : 0 ≤ Mat.norm Real.sqrt ![-c.forward 1, c.forward 0, 0] := by rw [C22_norm_real]; exact Real.sqrt_nonneg _
    have : c.forward 0 * (c.forward 0 / Mat.norm Real.sqrt ![-c.forward 1, c.forward 0, 0]) -
        c.forward 1 * (-c.forward 1 / Mat.norm Real.sqrt ![-c.forward 1, c.forward 0, 0]) =
        (c.forward 0 ^ 2 + c.forward 1 ^ 2) / Mat.norm Real.sqrt ![-c.forward 1, c.forward 0, 0] := by ring
    rw [this]
    positivity
  have hs : crossProduct c.up c.forward = c.right := by rw [← cross_eq, hup, cross_back h1 h4]
  have := (C226_view c hc hd a b d).2
  rwa [hs] at this

/-- A camera for `C226_right_partial`. -/
example : Reachable (({ Camera.default with distance := 5, target := ![1, 2, 3] } : Camera).setAngles 0 0) ∧
    1.0e-16 ≤ (({ Camera.default with distance := 5, target := ![1, 2, 3] } : Camera).setAngles 0 0).forward 0 ^ 2 +
      (({ Camera.default with distance := 5, target := ![1, 2, 3] } : Camera).setAngles 0 0).forward 1 ^ 2 := by
  refine ⟨⟨[.assign { Camera.default with distance := 5, target := ![1, 2, 3] }, .setAngles 0 0], rfl⟩, ?_⟩
  rw [C91_partial]
  simp [spherical]
  norm_num

/-- C226 fails for nearly vertical views: there is a camera, set by `set_angles`, whose `right` is the left of the picture:
the point one to the right of it is seen at -1. -/
theorem C226_right_fails : ∃ c : Camera, Reachable c ∧ c.distance = 1 ∧
    apply (lookAt c.position c.target c.up) (c.position + c.right + c.forward) = hom ![-1, 0, -1] := by
  let c : Camera := ({ Camera.default with distance := 1 } : Camera).setAngles 0 (Real.arccos 1e-9)
  have hc : Reachable c := ⟨[.assign { Camera.default with distance := 1 }, .setAngles 0 (Real.arccos 1e-9)], rfl⟩
  refine ⟨c, hc, rfl, ?_⟩
  obtain ⟨h1, h2, -, h4, -⟩ := C63_orthonormal c hc
  have hf : c.forward = ![1e-9, 0, Real.sin (Real.arccos 1e-9)] := by
    show (Camera.setAngles _ _ _).forward = _
    rw [C91_partial]
    simp [spherical, Real.cos_arccos (x := 1e-9) (by norm_num) (by norm_num)]
  have hs : 0 < Real.sin (Real.arccos 1e-9) := by
    rw [Real.sin_arccos]; exact Real.sqrt_pos.2 (by norm_num)
  generalize Real.sin (Real.arccos 1e-9) = s at hf hs
  have hr : c.right = ![0, -1, 0] := by
    show rightOf c.forward = _
    unfold rightOf
    dsimp only
    rw [hf, if_pos (by simp [Mat.cross]; norm_num)]
    have e : Mat.cross ![1, 0, 0] ![1e-9, 0, s] = s • ![0, -1, 0] := by
      funext i; fin_cases i <;> simp [Mat.cross]
    rw [e, normalize_ahead (by simp) hs]
  have hup : c.up = -Mat.cross c.forward c.right := by
    have hu : Mat.cross c.forward c.right ⬝ᵥ Mat.cross c.forward c.right = 1 := cross_unit h2 h1 (by rw [dotProduct_comm]; exact h4)
    unfold Camera.up
    dsimp only
    rw [normalize_of_unit hu, if_neg, if_pos]
    · funext i; simp
    · rw [hf, hr]; simp [Mat.cross]; norm_num
    · rw [dotProduct, Fin.sum_univ_three] at hu
      rw [hu]
      norm_num
  have hsd : crossProduct c.up c.forward = -c.right := by
    rw [hup, map_neg, LinearMap.neg_apply, ← cross_eq, cross_back h1 h4]
  have := (C226_view c hc (by show (0 : ℝ) < 1; norm_num) (-1) 0 1).2
  rw [hsd] at this
  simpa using this

end Verif.Graphics
