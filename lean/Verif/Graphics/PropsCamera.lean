import Verif.Graphics.Model
import Verif.Att.PropsQuat
import Mathlib.LinearAlgebra.CrossProduct
import Mathlib.Analysis.SpecialFunctions.Trigonometric.Inverse

/-!
# The orbit camera (C63, C91)
-/

namespace Verif.Graphics

open Verif.Mat Verif.Att Matrix

/-- What a program can do to a camera: call its methods, and assign its public fields (`fields`; the orientation is private). -/
inductive Op where
  | setAngles (yaw pitch : ℝ)
  | orbitAngles (dyaw dpitch : ℝ)
  | orbitPixels (dx dy : ℝ)
  | orbitWorldAngles (droll dpitch : ℝ)
  | orbitWorldPixels (dx dy : ℝ)
  | assign (fields : Camera)

/-- The effect of an operation. -/
noncomputable def Op.run (c : Camera) : Op → Camera
  | .setAngles y p => c.setAngles y p
  | .orbitAngles y p => c.orbitAngles y p
  | .orbitPixels x y => c.orbitPixels x y
  | .orbitWorldAngles y p => c.orbitWorldAngles y p
  | .orbitWorldPixels x y => c.orbitWorldPixels x y
  | .assign f => { f with orientation := c.orientation }

/-- A camera that a program can have: the default one after any operations. -/
def Reachable (c : Camera) : Prop := ∃ ops : List Op, c = ops.foldl Op.run Camera.default

theorem mul_unit {p q : Quat ℝ} (hp : p.norm2 = 1) (hq : q.norm2 = 1) : (p.mul q).normalized = p.mul q ∧ (p.mul q).norm2 = 1 := by
  have h : (p.mul q).norm2 = 1 := by rw [norm2_mul, hp, hq, one_mul]
  exact ⟨normalized_of_unit h, h⟩

theorem normalize_of_unit {v : Fin 3 → ℝ} (h : v ⬝ᵥ v = 1) : Mat.normalize v = v := by
  have : Mat.norm Real.sqrt v = 1 := by
    rw [C22_norm_real, Fin.sum_univ_three]
    rw [dotProduct, Fin.sum_univ_three] at h
    rw [show v 0 ^ 2 + v 1 ^ 2 + v 2 ^ 2 = 1 by linarith, Real.sqrt_one]
  funext i
  simp [Mat.normalize, vdiv, this]

theorem normalize_unit {v : Fin 3 → ℝ} (h : v ⬝ᵥ v ≠ 0) : Mat.normalize v ⬝ᵥ Mat.normalize v = 1 := by
  rw [dotProduct, Fin.sum_univ_three] at *
  have hn : Mat.norm Real.sqrt v = Real.sqrt (v 0 * v 0 + v 1 * v 1 + v 2 * v 2) := by
    rw [C22_norm_real, Fin.sum_univ_three]; simp only [pow_two]
  have hp : 0 < v 0 * v 0 + v 1 * v 1 + v 2 * v 2 := lt_of_le_of_ne (by nlinarith [mul_self_nonneg (v 0), mul_self_nonneg (v 1), mul_self_nonneg (v 2)]) (Ne.symm h)
  have hs := Real.sqrt_pos.2 hp
  have h2 := Real.mul_self_sqrt hp.le
  simp only [Mat.normalize, vdiv, hn]
  rw [div_mul_div_comm, div_mul_div_comm, div_mul_div_comm, h2, ← add_div, ← add_div, div_self h]

theorem axis_unit {a : Fin 3 → ℝ} (h : a ⬝ᵥ a = 1) (t : ℝ) : (Quat.ofAxisAngle a t).norm2 = 1 :=
  (C28_axis_angle a (fun h0 => by rw [h0] at h; simp at h) t 0 _ rfl _ _ _ rfl rfl rfl).1

theorem rotate_unit {q : Quat ℝ} (hq : q.norm2 = 1) : q.rotate ![1, 0, 0] ⬝ᵥ q.rotate ![1, 0, 0] = 1 := by
  have := C28_inner (ne_zero_of_unit hq) ![1, 0, 0] ![1, 0, 0]
  simp only [dotProduct]
  rw [this]
  simp [Fin.sum_univ_three]

/-- The right axis is a unit vector and orthogonal to the forward axis; and what it is. -/
theorem rightOf_spec {f : Fin 3 → ℝ} (h : f ⬝ᵥ f = 1) : rightOf f ⬝ᵥ rightOf f = 1 ∧ rightOf f ⬝ᵥ f = 0 := by
  have hf : f 0 * f 0 + f 1 * f 1 + f 2 * f 2 = 1 := by rw [dotProduct, Fin.sum_univ_three] at h; exact h
  have key : ∀ v : Fin 3 → ℝ, v ⬝ᵥ v ≠ 0 → v ⬝ᵥ f = 0 → Mat.normalize v ⬝ᵥ Mat.normalize v = 1 ∧ Mat.normalize v ⬝ᵥ f = 0 := by
    intro v h1 h2
    refine ⟨normalize_unit h1, ?_⟩
    rw [dotProduct, Fin.sum_univ_three] at h2 ⊢
    simp only [Mat.normalize, vdiv]
    rw [div_mul_eq_mul_div, div_mul_eq_mul_div, div_mul_eq_mul_div, ← add_div, ← add_div, h2, zero_div]
  unfold rightOf
  dsimp only
  have e0 : Mat.cross ![0, 0, 1] f = ![-f 1, f 0, 0] := by simp [Mat.cross]
  have e1 : Mat.cross ![1, 0, 0] f = ![0, -f 2, f 1] := by simp [Mat.cross]
  rw [e0, e1]
  by_cases hn : (![-f 1, f 0, 0] : Fin 3 → ℝ) 0 * (![-f 1, f 0, 0] : Fin 3 → ℝ) 0 + (![-f 1, f 0, 0] : Fin 3 → ℝ) 1 * (![-f 1, f 0, 0] : Fin 3 → ℝ) 1 +
      (![-f 1, f 0, 0] : Fin 3 → ℝ) 2 * (![-f 1, f 0, 0] : Fin 3 → ℝ) 2 < 1.0e-16
  · rw [if_pos hn]
    simp at hn
    refine key _ ?_ ?_
    · rw [dotProduct, Fin.sum_univ_three]
      simp
      intro h0
      nlinarith [mul_self_nonneg (f 1)]
    · rw [dotProduct, Fin.sum_univ_three]
      simp
      ring
  · rw [if_neg hn]
    simp at hn
    refine key _ ?_ ?_
    · rw [dotProduct, Fin.sum_univ_three]
      simp
      intro h0
      linarith
    · rw [dotProduct, Fin.sum_univ_three]
      simp
      ring

theorem world_axes : (![0, 0, 1] : Fin 3 → ℝ) ⬝ᵥ ![0, 0, 1] = 1 ∧ (![1, 0, 0] : Fin 3 → ℝ) ⬝ᵥ ![1, 0, 0] = 1 ∧ (![0, 1, 0] : Fin 3 → ℝ) ⬝ᵥ ![0, 1, 0] = 1 := by
  refine ⟨?_, ?_, ?_⟩ <;> simp

theorem setAngles_unit (c : Camera) (y p : ℝ) : (c.setAngles y p).orientation.norm2 = 1 := by
  have h1 := axis_unit world_axes.1 y
  have h2 : Mat.normalize ((Quat.ofAxisAngle ![0, 0, 1] y).rotate ![1, 0, 0]) ⬝ᵥ Mat.normalize ((Quat.ofAxisAngle ![0, 0, 1] y).rotate ![1, 0, 0]) = 1 :=
    normalize_unit (by rw [rotate_unit h1]; norm_num)
  have h3 := axis_unit (rightOf_spec h2).1 p
  have h4 := mul_unit h3 h1
  show (Quat.normalized _).norm2 = 1
  rw [h4.1, h4.2]

theorem orbitAngles_unit {c : Camera} (hc : c.orientation.norm2 = 1) (y p : ℝ) : (c.orbitAngles y p).orientation.norm2 = 1 := by
  have h1 := axis_unit world_axes.1 y
  have h2 := mul_unit h1 hc
  have h3 : ((Quat.ofAxisAngle ![0, 0, 1] y).mul c.orientation).normalized.norm2 = 1 := by rw [h2.1, h2.2]
  have h4 : Mat.normalize (((Quat.ofAxisAngle ![0, 0, 1] y).mul c.orientation).normalized.rotate ![1, 0, 0]) ⬝ᵥ
      Mat.normalize (((Quat.ofAxisAngle ![0, 0, 1] y).mul c.orientation).normalized.rotate ![1, 0, 0]) = 1 :=
    normalize_unit (by rw [rotate_unit h3]; norm_num)
  have h5 := mul_unit (axis_unit (rightOf_spec h4).1 p) h3
  show (Quat.normalized _).norm2 = 1
  rw [h5.1, h5.2]

theorem orbitWorldAngles_unit {c : Camera} (hc : c.orientation.norm2 = 1) (y p : ℝ) : (c.orbitWorldAngles y p).orientation.norm2 = 1 := by
  have h1 := mul_unit (axis_unit world_axes.2.1 y) (axis_unit world_axes.2.2 p)
  have h2 : ((Quat.ofAxisAngle ![1, 0, 0] y).mul (Quat.ofAxisAngle ![0, 1, 0] p)).normalized.norm2 = 1 := by rw [h1.1, h1.2]
  have h3 := mul_unit h2 hc
  show (Quat.normalized _).norm2 = 1
  rw [h3.1, h3.2]

theorem reachable_unit {c : Camera} (h : Reachable c) : c.orientation.norm2 = 1 := by
  obtain ⟨ops, rfl⟩ := h
  have : ∀ (ops : List Op) (c : Camera), c.orientation.norm2 = 1 → (ops.foldl Op.run c).orientation.norm2 = 1 := by
    intro ops
    induction ops with
    | nil => exact fun c h => h
    | cons o os ih =>
      intro c h
      refine ih _ ?_
      cases o with
      | setAngles y p => exact setAngles_unit c y p
      | orbitAngles y p => exact orbitAngles_unit h y p
      | orbitPixels x y => exact orbitAngles_unit h _ _
      | orbitWorldAngles y p => exact orbitWorldAngles_unit h y p
      | orbitWorldPixels x y => exact orbitWorldAngles_unit h _ _
      | assign f => exact h
  exact this ops _ (by rw [norm2_eq]; simp [Camera.default, Quat.identity])

theorem forward_unit {c : Camera} (h : c.orientation.norm2 = 1) : c.forward = c.orientation.rotate ![1, 0, 0] ∧ c.forward ⬝ᵥ c.forward = 1 := by
  have h1 := rotate_unit h
  have e : c.forward = c.orientation.rotate ![1, 0, 0] := normalize_of_unit h1
  exact ⟨e, by rw [e, h1]⟩

/-- C63. After any operations the camera's axes are orthonormal: forward, right and up are unit vectors, pairwise orthogonal; up is in the upper
half-space; and the target is straight ahead at the set distance. -/
theorem C63_orthonormal (c : Camera) (h : Reachable c) :
    c.forward ⬝ᵥ c.forward = 1 ∧ c.right ⬝ᵥ c.right = 1 ∧ c.up ⬝ᵥ c.up = 1 ∧
    c.forward ⬝ᵥ c.right = 0 ∧ c.forward ⬝ᵥ c.up = 0 ∧ c.right ⬝ᵥ c.up = 0 ∧ 0 ≤ c.up 2 ∧
    c.target - c.position = c.distance • c.forward := by
  have hf := (forward_unit (reachable_unit h)).2
  have hr : c.right ⬝ᵥ c.right = 1 ∧ c.right ⬝ᵥ c.forward = 0 := rightOf_spec hf
  have hx : Mat.cross c.forward c.right = crossProduct c.forward c.right := by rw [cross_apply]; rfl
  have hu1 : Mat.cross c.forward c.right ⬝ᵥ Mat.cross c.forward c.right = 1 := by
    rw [hx, cross_dot_cross, hf, hr.1, dotProduct_comm c.forward c.right, hr.2]
    norm_num
  have hu2 : c.forward ⬝ᵥ Mat.cross c.forward c.right = 0 := by rw [hx, dot_self_cross]
  have hu3 : c.right ⬝ᵥ Mat.cross c.forward c.right = 0 := by rw [hx, dot_cross_self]
  have hnorm := normalize_of_unit hu1
  have hup : c.up = Mat.cross c.forward c.right ∧ 0 ≤ Mat.cross c.forward c.right 2 ∨
      c.up = -Mat.cross c.forward c.right ∧ 0 < (-Mat.cross c.forward c.right) 2 := by
    unfold Camera.up
    dsimp only
    rw [hnorm]
    have hn : ¬ (Mat.cross c.forward c.right 0 * Mat.cross c.forward c.right 0 + Mat.cross c.forward c.right 1 * Mat.cross c.forward c.right 1 +
        Mat.cross c.forward c.right 2 * Mat.cross c.forward c.right 2 < 1.0e-16) := by
      rw [dotProduct, Fin.sum_univ_three] at hu1
      rw [hu1]
      norm_num
    rw [if_neg hn]
    by_cases hz : Mat.cross c.forward c.right 2 < 0
    · rw [if_pos hz]
      right
      refine ⟨by funext i; simp, by simpa using hz⟩
    · rw [if_neg hz]
      exact Or.inl ⟨rfl, not_lt.mp hz⟩
  refine ⟨hf, hr.1, ?_, by rw [dotProduct_comm, hr.2], ?_, ?_, ?_, ?_⟩
  · rcases hup with ⟨e, -⟩ | ⟨e, -⟩ <;> rw [e] <;> simp [hu1]
  · rcases hup with ⟨e, -⟩ | ⟨e, -⟩ <;> rw [e] <;> simp [hu2]
  · rcases hup with ⟨e, -⟩ | ⟨e, -⟩ <;> rw [e] <;> simp [hu3]
  · rcases hup with ⟨e, h⟩ | ⟨e, h⟩ <;> rw [e]
    · exact h
    · exact h.le
  · funext i
    simp [Camera.position]
    ring

/-- A camera after turning, dragging and assigning its fields. -/
example : Reachable (({ Camera.default with distance := 5, target := ![1, 2, 3] } : Camera).setAngles 1 2 |>.orbitPixels 100 (-50)) :=
  ⟨[.assign { Camera.default with distance := 5, target := ![1, 2, 3] }, .setAngles 1 2, .orbitPixels 100 (-50)], rfl⟩

/-- The unit vector with the given azimuth and elevation, z up. -/
noncomputable def spherical (yaw pitch : ℝ) : Fin 3 → ℝ :=
  ![Real.cos pitch * Real.cos yaw, Real.cos pitch * Real.sin yaw, Real.sin pitch]

theorem refresh_spherical {c : Camera} (h : c.orientation.norm2 = 1) : c.refresh.forward = spherical c.refresh.yaw c.refresh.pitch := by
  have e : c.refresh.forward = c.forward := rfl
  have hf := (forward_unit h).2
  rw [dotProduct, Fin.sum_univ_three] at hf
  rw [e]
  generalize hg : c.forward = f at hf
  have hy : c.refresh.yaw = atan2 (f 1) (f 0) := by rw [← hg]; rfl
  have hp : c.refresh.pitch = Real.arcsin (min (max (f 2) (-1)) 1) := by rw [← hg]; rfl
  have h1 : -1 ≤ f 2 := by nlinarith [mul_self_nonneg (f 0), mul_self_nonneg (f 1)]
  have h2 : f 2 ≤ 1 := by nlinarith [mul_self_nonneg (f 0), mul_self_nonneg (f 1)]
  rw [max_eq_left h1, min_eq_left h2] at hp
  have hs : Real.sin c.refresh.pitch = f 2 := by rw [hp, Real.sin_arcsin h1 h2]
  have hc : Real.cos c.refresh.pitch = ‖(⟨f 0, f 1⟩ : ℂ)‖ := by
    rw [hp, Real.cos_arcsin, Complex.norm_def, Complex.normSq_mk]
    congr 1
    nlinarith
  have hx : Real.cos c.refresh.pitch * Real.cos c.refresh.yaw = f 0 := by
    rw [hc, hy, atan2]
    exact Complex.norm_mul_cos_arg _
  have hyy : Real.cos c.refresh.pitch * Real.sin c.refresh.yaw = f 1 := by
    rw [hc, hy, atan2]
    exact Complex.norm_mul_sin_arg _
  unfold spherical
  rw [hx, hyy, hs]
  funext i
  fin_cases i <;> rfl

/-- C63. After every orbit operation (on any reachable camera) the yaw and pitch of the camera are the azimuth and elevation of its forward
axis, with yaw in `(-π, π]` and pitch in `[-π/2, π/2]`; the other public fields are unchanged. -/
theorem C63_telemetry (c : Camera) (h : Reachable c) (a b : ℝ) (c' : Camera)
    (hc' : c' = c.orbitAngles a b ∨ c' = c.orbitPixels a b ∨ c' = c.orbitWorldAngles a b ∨ c' = c.orbitWorldPixels a b) :
    c'.forward = spherical c'.yaw c'.pitch ∧ -Real.pi < c'.yaw ∧ c'.yaw ≤ Real.pi ∧ -(Real.pi / 2) ≤ c'.pitch ∧ c'.pitch ≤ Real.pi / 2 ∧
    c'.target = c.target ∧ c'.distance = c.distance ∧ c'.orbitSens = c.orbitSens := by
  have hu := reachable_unit h
  have key : ∀ d : Camera, d.orientation.norm2 = 1 → d.refresh.forward = spherical d.refresh.yaw d.refresh.pitch ∧ -Real.pi < d.refresh.yaw ∧
      d.refresh.yaw ≤ Real.pi ∧ -(Real.pi / 2) ≤ d.refresh.pitch ∧ d.refresh.pitch ≤ Real.pi / 2 := fun d hd =>
    ⟨refresh_spherical hd, Complex.neg_pi_lt_arg _, Complex.arg_le_pi _, Real.neg_pi_div_two_le_arcsin _, Real.arcsin_le_pi_div_two _⟩
  rcases hc' with rfl | rfl | rfl | rfl
  · exact ⟨(key _ (orbitAngles_unit hu a b)).1, (key _ (orbitAngles_unit hu a b)).2.1, (key _ (orbitAngles_unit hu a b)).2.2.1,
      (key _ (orbitAngles_unit hu a b)).2.2.2.1, (key _ (orbitAngles_unit hu a b)).2.2.2.2, rfl, rfl, rfl⟩
  · exact ⟨(key _ (orbitAngles_unit hu _ _)).1, (key _ (orbitAngles_unit hu _ _)).2.1, (key _ (orbitAngles_unit hu _ _)).2.2.1,
      (key _ (orbitAngles_unit hu _ _)).2.2.2.1, (key _ (orbitAngles_unit hu _ _)).2.2.2.2, rfl, rfl, rfl⟩
  · exact ⟨(key _ (orbitWorldAngles_unit hu a b)).1, (key _ (orbitWorldAngles_unit hu a b)).2.1, (key _ (orbitWorldAngles_unit hu a b)).2.2.1,
      (key _ (orbitWorldAngles_unit hu a b)).2.2.2.1, (key _ (orbitWorldAngles_unit hu a b)).2.2.2.2, rfl, rfl, rfl⟩
  · exact ⟨(key _ (orbitWorldAngles_unit hu _ _)).1, (key _ (orbitWorldAngles_unit hu _ _)).2.1, (key _ (orbitWorldAngles_unit hu _ _)).2.2.1,
      (key _ (orbitWorldAngles_unit hu _ _)).2.2.2.1, (key _ (orbitWorldAngles_unit hu _ _)).2.2.2.2, rfl, rfl, rfl⟩

/-- C63. `set_angles` stores exactly the angles it is given, sets the orientation, and changes no other public field; after it the orientation is
a unit quaternion. -/
theorem C63_set (c : Camera) (yaw pitch : ℝ) : (c.setAngles yaw pitch).yaw = yaw ∧ (c.setAngles yaw pitch).pitch = pitch ∧
    (c.setAngles yaw pitch).orientation.norm2 = 1 ∧
    (c.setAngles yaw pitch).target = c.target ∧ (c.setAngles yaw pitch).distance = c.distance ∧
    (c.setAngles yaw pitch).minDist = c.minDist ∧ (c.setAngles yaw pitch).maxDist = c.maxDist ∧
    (c.setAngles yaw pitch).orbitSens = c.orbitSens ∧ (c.setAngles yaw pitch).panSens = c.panSens ∧
    (c.setAngles yaw pitch).zoomSens = c.zoomSens :=
  ⟨rfl, rfl, setAngles_unit c yaw pitch, rfl, rfl, rfl, rfl, rfl, rfl, rfl⟩

theorem ofAxisAngle_eq {a : Fin 3 → ℝ} (h : a ⬝ᵥ a = 1) (t : ℝ) : Quat.ofAxisAngle a t =
    ⟨Real.cos (t / 2), a 0 * Real.sin (t / 2), a 1 * Real.sin (t / 2), a 2 * Real.sin (t / 2)⟩ := by
  unfold Quat.ofAxisAngle
  dsimp only
  rw [normalize_of_unit h, show t * (1 / (1 + 1)) = t / 2 by ring]
  refine normalized_of_unit ?_
  rw [norm2_eq]
  rw [dotProduct, Fin.sum_univ_three] at h
  dsimp only
  linear_combination Real.sin (t / 2) ^ 2 * h + Real.sin_sq_add_cos_sq (t / 2)

theorem ofAxisAngle_zero {a : Fin 3 → ℝ} (h : a ⬝ᵥ a = 1) : Quat.ofAxisAngle a 0 = Quat.identity := by
  rw [ofAxisAngle_eq h]
  simp [Quat.identity]

theorem ofAxisAngle_add {a : Fin 3 → ℝ} (h : a ⬝ᵥ a = 1) (s t : ℝ) :
    (Quat.ofAxisAngle a s).mul (Quat.ofAxisAngle a t) = Quat.ofAxisAngle a (s + t) := by
  rw [ofAxisAngle_eq h, ofAxisAngle_eq h, ofAxisAngle_eq h, add_div, Real.cos_add, Real.sin_add]
  rw [dotProduct, Fin.sum_univ_three] at h
  unfold Quat.mul
  ext <;> dsimp only
  · linear_combination -Real.sin (s / 2) * Real.sin (t / 2) * h
  · ring
  · ring
  · ring

/-- The orientation after a pure yaw. -/
theorem orbitAngles_yaw {c : Camera} (h : c.orientation.norm2 = 1) (a : ℝ) :
    (c.orbitAngles a 0).orientation = (Quat.ofAxisAngle ![0, 0, 1] a).mul c.orientation := by
  have h1 := axis_unit world_axes.1 a
  have h2 := mul_unit h1 h
  have h3 : ((Quat.ofAxisAngle ![0, 0, 1] a).mul c.orientation).normalized.norm2 = 1 := by rw [h2.1, h2.2]
  have h4 : Mat.normalize (((Quat.ofAxisAngle ![0, 0, 1] a).mul c.orientation).normalized.rotate ![1, 0, 0]) ⬝ᵥ
      Mat.normalize (((Quat.ofAxisAngle ![0, 0, 1] a).mul c.orientation).normalized.rotate ![1, 0, 0]) = 1 :=
    normalize_unit (by rw [rotate_unit h3]; norm_num)
  show ((Quat.ofAxisAngle (rightOf _) 0).mul _).normalized = _
  rw [ofAxisAngle_zero (rightOf_spec h4).1, (C31_algebra _ Quat.identity Quat.identity).2.1, normalized_of_unit h3, h2.1]

/-- C63. Moving the mouse by nothing does nothing to the view, and horizontal drags add up: two drags have the effect of one by the sum, so
dragging back restores the view exactly. -/
theorem C63_drag (c : Camera) (h : Reachable c) (x y : ℝ) :
    (c.orbitPixels 0 0).forward = c.forward ∧ (c.orbitPixels 0 0).position = c.position ∧
    ((c.orbitPixels x 0).orbitPixels y 0).forward = (c.orbitPixels (x + y) 0).forward ∧
    ((c.orbitPixels x 0).orbitPixels (-x) 0).forward = c.forward ∧ (c.orbitWorldPixels 0 0).forward = c.forward := by
  have hu := reachable_unit h
  have e : ∀ (c : Camera) (x : ℝ), c.orientation.norm2 = 1 →
      (c.orbitPixels x 0).orientation = (Quat.ofAxisAngle ![0, 0, 1] (-x * c.orbitSens)).mul c.orientation := by
    intro c x hc
    unfold Camera.orbitPixels
    rw [neg_zero, zero_mul]
    exact orbitAngles_yaw hc _
  have id : ∀ q : Quat ℝ, Quat.identity.mul q = q := fun q => (C31_algebra q Quat.identity Quat.identity).2.1
  have h0 : (c.orbitPixels 0 0).orientation = c.orientation := by
    rw [e c 0 hu, neg_zero, zero_mul, ofAxisAngle_zero world_axes.1, id]
  have h2 : ∀ x y, ((c.orbitPixels x 0).orbitPixels y 0).orientation = (c.orbitPixels (x + y) 0).orientation := by
    intro x y
    rw [e _ y (by rw [e c x hu]; exact (mul_unit (axis_unit world_axes.1 _) hu).2), e c x hu, e c (x + y) hu,
      ← (C31_algebra _ _ _).1, ofAxisAngle_add world_axes.1]
    congr 2
    show -y * c.orbitSens + -x * c.orbitSens = _
    ring
  have hw : (c.orbitWorldPixels 0 0).orientation = c.orientation := by
    show ((((Quat.ofAxisAngle ![1, 0, 0] (-0 * c.orbitSens)).mul (Quat.ofAxisAngle ![0, 1, 0] (-0 * c.orbitSens))).normalized).mul c.orientation).normalized = _
    have : (Quat.identity : Quat ℝ).norm2 = 1 := by rw [norm2_eq]; simp [Quat.identity]
    rw [neg_zero, zero_mul, ofAxisAngle_zero world_axes.2.1, ofAxisAngle_zero world_axes.2.2, id, normalized_of_unit this, id, normalized_of_unit hu]
  have fw : ∀ a b : Camera, a.orientation = b.orientation → a.forward = b.forward := fun a b h => by unfold Camera.forward; rw [h]
  refine ⟨fw _ _ h0, ?_, fw _ _ (h2 x y), fw _ _ ?_, fw _ _ hw⟩
  · unfold Camera.position
    rw [fw _ _ h0]
    rfl
  · rw [h2 x (-x), add_neg_cancel, h0]

theorem rot_axis {a : Fin 3 → ℝ} (h : a ⬝ᵥ a = 1) (t : ℝ) (v : Fin 3 → ℝ) : (Quat.ofAxisAngle a t).rotate v =
    ![Real.cos t * v 0 - Real.sin t * (a 1 * v 2 - a 2 * v 1) + (1 - Real.cos t) * (a 0 * v 0 + a 1 * v 1 + a 2 * v 2) * a 0,
      Real.cos t * v 1 - Real.sin t * (a 2 * v 0 - a 0 * v 2) + (1 - Real.cos t) * (a 0 * v 0 + a 1 * v 1 + a 2 * v 2) * a 1,
      Real.cos t * v 2 - Real.sin t * (a 0 * v 1 - a 1 * v 0) + (1 - Real.cos t) * (a 0 * v 0 + a 1 * v 1 + a 2 * v 2) * a 2] := by
  have h0 : a ≠ 0 := fun h0 => by rw [h0] at h; simp at h
  rw [dotProduct, Fin.sum_univ_three] at h
  have hr : (1 : ℝ) = Real.sqrt (a 0 ^ 2 + a 1 ^ 2 + a 2 ^ 2) := by
    rw [show a 0 ^ 2 + a 1 ^ 2 + a 2 ^ 2 = 1 by linarith, Real.sqrt_one]
  exact (C28_axis_angle a h0 t v 1 hr (a 0) (a 1) (a 2) (by rw [div_one]) (by rw [div_one]) (by rw [div_one])).2

theorem rotate_mul {p q : Quat ℝ} (hp : p.norm2 = 1) (hq : q.norm2 = 1) (v : Fin 3 → ℝ) : (p.mul q).rotate v = q.rotate (p.rotate v) :=
  (C30_order_partial (ne_zero_of_unit hp) (ne_zero_of_unit hq) (fun _ _ => 0) (fun _ _ => 0) v).1

theorem rightOf_level {x y : ℝ} (h : x * x + y * y = 1) : rightOf ![x, y, 0] = ![-y, x, 0] := by
  unfold rightOf
  dsimp only
  have e0 : Mat.cross ![0, 0, 1] ![x, y, 0] = ![-y, x, 0] := by simp [Mat.cross]
  rw [e0, if_neg (by simp; linarith)]
  exact normalize_of_unit (by rw [dotProduct, Fin.sum_univ_three]; simp; linarith)

/-- The direction after `set_angles`. -/
theorem setAngles_forward (c : Camera) (y p : ℝ) : (c.setAngles y p).forward =
    ![Real.cos y * (Real.cos p + (1 - Real.cos p) * Real.sin y ^ 2) + Real.sin y * ((1 - Real.cos p) * Real.sin y * Real.cos y),
      Real.cos y * ((1 - Real.cos p) * Real.sin y * Real.cos y) - Real.sin y * (Real.cos p + (1 - Real.cos p) * Real.sin y ^ 2),
      Real.sin p * Real.cos y] := by
  have hs := Real.sin_sq_add_cos_sq y
  have h1 := axis_unit world_axes.1 y
  have hfw : (Quat.ofAxisAngle ![0, 0, 1] y).rotate ![1, 0, 0] = ![Real.cos y, -Real.sin y, 0] := by
    rw [rot_axis world_axes.1]
    simp
  have hfw' : Mat.normalize ((Quat.ofAxisAngle ![0, 0, 1] y).rotate ![1, 0, 0]) = ![Real.cos y, -Real.sin y, 0] := by
    rw [hfw]
    exact normalize_of_unit (by rw [dotProduct, Fin.sum_univ_three]; simp; linarith)
  have hr : rightOf (Mat.normalize ((Quat.ofAxisAngle ![0, 0, 1] y).rotate ![1, 0, 0])) = ![Real.sin y, Real.cos y, 0] := by
    rw [hfw', rightOf_level (by linarith), neg_neg]
  have hru : (![Real.sin y, Real.cos y, 0] : Fin 3 → ℝ) ⬝ᵥ ![Real.sin y, Real.cos y, 0] = 1 := by
    rw [dotProduct, Fin.sum_univ_three]; simp; linarith
  have h2 := axis_unit hru p
  rw [(forward_unit (setAngles_unit c y p)).1]
  show ((Quat.ofAxisAngle (rightOf (Mat.normalize ((Quat.ofAxisAngle ![0, 0, 1] y).rotate ![1, 0, 0]))) p).mul (Quat.ofAxisAngle ![0, 0, 1] y)).normalized.rotate ![1, 0, 0] = _
  rw [hr, (mul_unit h2 h1).1, rotate_mul h2 h1, rot_axis world_axes.1, rot_axis hru]
  funext i
  fin_cases i <;> simp [-mul_eq_mul_left_iff, -mul_eq_mul_right_iff] <;> ring

/-- C91, partial. With yaw zero, `set_angles` gives the requested elevation. (Missing: any other yaw, see `C91_set_fails`.) -/
theorem C91_partial (c : Camera) (p : ℝ) : (c.setAngles 0 p).forward = spherical 0 p := by
  rw [setAngles_forward]
  simp [spherical]

/-- C91 fails: without pitch `set_angles` gives the opposite of the requested azimuth, and with a yaw of 90° the pitch has no effect. -/
theorem C91_set_fails (c : Camera) : (∀ y, (c.setAngles y 0).forward = spherical (-y) 0) ∧
    (∀ p, (c.setAngles (Real.pi / 2) p).forward = ![0, -1, 0]) ∧
    (c.setAngles (Real.pi / 2) 0).forward ≠ spherical (Real.pi / 2) 0 := by
  have h1 : ∀ y, (c.setAngles y 0).forward = spherical (-y) 0 := by
    intro y
    rw [setAngles_forward]
    simp [spherical]
  refine ⟨h1, fun p => ?_, fun h => ?_⟩
  · rw [setAngles_forward]
    simp
  · rw [h1] at h
    have := congrFun h 1
    simp [spherical] at this
    linarith

/-- The default camera after a pure pitch. -/
theorem default_pitch (p : ℝ) : (Camera.default.orbitAngles 0 p).orientation = Quat.ofAxisAngle ![0, 1, 0] p := by
  have hid : (Quat.identity : Quat ℝ).norm2 = 1 := by rw [norm2_eq]; simp [Quat.identity]
  have id : ∀ q : Quat ℝ, Quat.identity.mul q = q := fun q => (C31_algebra q Quat.identity Quat.identity).2.1
  have id' : ∀ q : Quat ℝ, q.mul Quat.identity = q := fun q => (C31_algebra q Quat.identity Quat.identity).2.2.1
  have e : (Quat.identity : Quat ℝ).rotate ![1, 0, 0] = ![1, 0, 0] := by
    rw [← ofAxisAngle_zero world_axes.1, rot_axis world_axes.1]
    simp
  show ((Quat.ofAxisAngle (rightOf (Mat.normalize ((((Quat.ofAxisAngle ![0, 0, 1] 0).mul Quat.identity).normalized).rotate ![1, 0, 0]))) p).mul
    (((Quat.ofAxisAngle ![0, 0, 1] 0).mul Quat.identity).normalized)).normalized = _
  rw [ofAxisAngle_zero world_axes.1, id, normalized_of_unit hid, e, normalize_of_unit world_axes.2.1, rightOf_level (by norm_num), id', neg_zero,
    normalized_of_unit (axis_unit world_axes.2.2 p)]

/-- C91 fails: yawing is not about the vertical: a camera looking straight up looks straight down after a yaw by half a turn. -/
theorem C91_yaw_fails : ∃ c : Camera, Reachable c ∧ c.forward = ![0, 0, 1] ∧ (c.orbitAngles Real.pi 0).forward = ![0, 0, -1] := by
  have hr : Reachable (Camera.default.orbitAngles 0 (Real.pi / 2)) := ⟨[.orbitAngles 0 (Real.pi / 2)], rfl⟩
  have hu := reachable_unit hr
  refine ⟨_, hr, ?_, ?_⟩
  · rw [(forward_unit hu).1, default_pitch, rot_axis world_axes.2.2]
    simp
  · rw [(forward_unit (orbitAngles_unit hu _ _)).1, orbitAngles_yaw hu, rotate_mul (axis_unit world_axes.1 _) hu, default_pitch,
      rot_axis world_axes.1, rot_axis world_axes.2.2]
    simp

/-- C91 fails: `apply_orbit_world_angles` does not turn about the world's axes: a camera looking along -y still does after a turn by any angle
about the world's x axis. -/
theorem C91_world_fails : ∃ c : Camera, Reachable c ∧ c.forward = ![0, -1, 0] ∧ ∀ t, (c.orbitWorldAngles t 0).forward = ![0, -1, 0] := by
  have hr : Reachable (Camera.default.orbitAngles (Real.pi / 2) 0) := ⟨[.orbitAngles (Real.pi / 2) 0], rfl⟩
  have hu := reachable_unit hr
  have hid : Camera.default.orientation.norm2 = 1 := by rw [norm2_eq]; simp [Camera.default, Quat.identity]
  have ho : (Camera.default.orbitAngles (Real.pi / 2) 0).orientation = Quat.ofAxisAngle ![0, 0, 1] (Real.pi / 2) := by
    rw [orbitAngles_yaw hid]
    exact (C31_algebra _ Quat.identity Quat.identity).2.2.1
  refine ⟨_, hr, ?_, fun t => ?_⟩
  · rw [(forward_unit hu).1, ho, rot_axis world_axes.1]
    simp
  · rw [(forward_unit (orbitWorldAngles_unit hu _ _)).1]
    show ((((Quat.ofAxisAngle ![1, 0, 0] t).mul (Quat.ofAxisAngle ![0, 1, 0] 0)).normalized).mul
      (Camera.default.orbitAngles (Real.pi / 2) 0).orientation).normalized.rotate _ = _
    have hx := axis_unit world_axes.2.1 t
    rw [ofAxisAngle_zero world_axes.2.2, (C31_algebra _ Quat.identity Quat.identity).2.2.1, normalized_of_unit hx, ho,
      (mul_unit hx (axis_unit world_axes.1 _)).1, rotate_mul hx (axis_unit world_axes.1 _), rot_axis world_axes.1, rot_axis world_axes.2.1]
    simp

end Verif.Graphics
