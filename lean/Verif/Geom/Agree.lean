import Verif.Geom.Model

/-! # Over the reals the generic definitions are those of `Verif/Att/Model.lean` and `Verif/Mat/Vec.lean` -/

namespace Verif.Geom

open Verif.Att (Quat)

/-- The real functions. -/
noncomputable def realFns : Fns ℝ := ⟨Real.sqrt, Real.sin, Real.cos, 1 / 2⟩

theorem normalize_real {n : Nat} (v : Fin n → ℝ) : normalize realFns v = Verif.Mat.normalize v := rfl

theorem normalized_real (q : Quat ℝ) : normalized realFns q = q.normalized := rfl

theorem ofAxisAngle_real (a : Fin 3 → ℝ) (t : ℝ) : ofAxisAngle realFns a t = Quat.ofAxisAngle a t := rfl

theorem rotate_real (q : Quat ℝ) (v : Fin 3 → ℝ) : rotate realFns q v = q.rotate v := rfl

theorem toDcm_real (q : Quat ℝ) : toDcm realFns q = q.toDcm := rfl

theorem ofAngularVelocity_real (w : Fin 3 → ℝ) (t : ℝ) :
    ofAngularVelocity realFns w t = Quat.ofAngularVelocity w t := by
  unfold ofAngularVelocity Quat.ofAngularVelocity
  by_cases h : Mat.norm Real.sqrt w = 0
  · rw [if_pos h, if_pos (show Mat.norm realFns.sqrt w = 0 from h)]
  · rw [if_neg h, if_neg (show ¬ Mat.norm realFns.sqrt w = 0 from h)]
    rfl

theorem integrateRotation_real (q : Quat ℝ) (w : Fin 3 → ℝ) (t : ℝ) :
    integrateRotation realFns q w t = Verif.Att.integrateRotation q w t := by
  unfold integrateRotation Verif.Att.integrateRotation
  rw [ofAngularVelocity_real]

end Verif.Geom
