import Verif.Frames.PropsFrames
import Mathlib.Analysis.Real.Pi.Bounds
import Mathlib.Analysis.Calculus.Deriv.Prod
import Mathlib.Analysis.SpecialFunctions.Trigonometric.Deriv

/-!
# C156: the rotating frames turn with the Earth and the Moon
-/

namespace Verif.Frames

open Verif.Mat Verif.Att Real

theorem turn_iff {w s t : ℝ} (hw : 0 < w) (h0 : 0 < s) (h1 : s < 2 * π / w) : ¬ (cos (w * (t + s)) = cos (w * t) ∧ sin (w * (t + s)) = sin (w * t)) := by
  rintro ⟨hc, hs⟩
  have e : cos (w * s) = 1 := by
    have h2 : cos (w * (t + s) - w * t) = 1 := by
      rw [cos_sub, hc, hs]
      have := sin_sq_add_cos_sq (w * t)
      nlinarith
    rwa [show w * (t + s) - w * t = w * s by ring] at h2
  obtain ⟨n, hn⟩ := (cos_eq_one_iff _).1 e
  have hp : 0 < w * s := mul_pos hw h0
  have hl : w * s < 2 * π := by rw [lt_div_iff₀ hw] at h1; linarith
  have hpi := pi_pos
  rw [← hn] at hp hl
  have n0 : 0 < n := by
    by_contra hh
    have : (n : ℝ) ≤ 0 := by exact_mod_cast not_lt.1 hh
    nlinarith
  have : (1 : ℝ) ≤ n := by exact_mod_cast n0
  nlinarith

theorem period {w : ℝ} (hw : 0 < w) (t : ℝ) : w * (t + 2 * π / w) = w * t + 2 * π := by field_simp

/-- C156. The orientation of the Earth-fixed frame returns after a period within two milliseconds of the 86164.0989 s in which the Earth
turns once with respect to inertial space, at whatever time one starts, and not before. -/
theorem C156_earth : ∃ T : ℝ, |T - 86164.0989| ≤ 0.002 ∧ ∀ epoch t,
    dcmOfQuat (orientationAt epoch (t + T)) = dcmOfQuat (orientationAt epoch t) ∧
      ∀ s, 0 < s → s < T → dcmOfQuat (orientationAt epoch (t + s)) ≠ dcmOfQuat (orientationAt epoch t) := by
  have hw : (0 : ℝ) < 7.2921150e-5 := by norm_num
  have hm : ∀ epoch t, dcmOfQuat (orientationAt epoch t) =
      ![![cos (7.2921150e-5 * (t - epoch)), sin (7.2921150e-5 * (t - epoch)), 0],
        ![-sin (7.2921150e-5 * (t - epoch)), cos (7.2921150e-5 * (t - epoch)), 0], ![0, 0, 1]] := by
    intro epoch t
    rw [(C35_orientation epoch t).2]
    unfold icrfToItrf
    rw [show itrfAngularVelocity 2 = 7.2921150e-5 from rfl, neg_mul, sin_neg]
  refine ⟨2 * π / 7.2921150e-5, ?_, fun epoch t => ⟨?_, fun s h0 h1 he => ?_⟩⟩
  · have h1 := pi_gt_d20
    have h2 := pi_lt_d20
    rw [abs_le]
    constructor
    · rw [neg_le_sub_iff_le_add, ← sub_le_iff_le_add, le_div_iff₀ hw]
      norm_num at *
      linarith
    · rw [sub_le_iff_le_add, div_le_iff₀ hw]
      norm_num at *
      linarith
  · rw [hm, hm, show t + 2 * π / 7.2921150e-5 - epoch = (t - epoch) + 2 * π / 7.2921150e-5 by ring, period hw, cos_add_two_pi, sin_add_two_pi]
  · rw [hm, hm, show t + s - epoch = (t - epoch) + s by ring] at he
    exact turn_iff hw h0 h1 ⟨congrFun (congrFun he 0) 0, congrFun (congrFun he 0) 1⟩

/-- C156. The Moon-fixed frame returns after exactly 27.321661 days, and not before. -/
theorem C156_moon (t : ℝ) :
    lirfToLtrf (t + 27.321661 * 86400) = lirfToLtrf t ∧ ∀ s, 0 < s → s < 27.321661 * 86400 → lirfToLtrf (t + s) ≠ lirfToLtrf t := by
  have hp := pi_pos
  have hw : 0 < moonRate := by unfold moonRate; positivity
  have hT : (27.321661 * 86400 : ℝ) = 2 * π / moonRate := by
    unfold moonRate
    field_simp
  rw [hT]
  refine ⟨?_, fun s h0 h1 he => ?_⟩
  · unfold lirfToLtrf
    dsimp only; rw [period hw, cos_add_two_pi, sin_add_two_pi]
  · exact turn_iff hw h0 h1 ⟨congrFun (congrFun he 0) 0, congrFun (congrFun he 0) 1⟩

theorem spin (w a b t : ℝ) :
    HasDerivAt (fun t => cos (w * t) * a + -sin (w * t) * b) (-(w * (sin (w * t) * a + cos (w * t) * b))) t ∧
    HasDerivAt (fun t => sin (w * t) * a + cos (w * t) * b) (w * (cos (w * t) * a + -sin (w * t) * b)) t := by
  have hl : HasDerivAt (fun t => w * t) w t := by simpa using (hasDerivAt_id t).const_mul w
  have hc := (hasDerivAt_cos (w * t)).comp t hl
  have hs := (hasDerivAt_sin (w * t)).comp t hl
  exact ⟨((hc.mul_const a).add (hs.neg.mul_const b)).congr_deriv (by ring), ((hs.mul_const a).add (hc.mul_const b)).congr_deriv (by ring)⟩

/-- C156. A point at rest in the Earth-fixed frame moves in inertial space with the cross product of the frame's angular velocity and its
position; likewise for the Moon. -/
theorem C156_velocity (r : Fin 3 → ℝ) (t : ℝ) :
    HasDerivAt (fun t => dcmApply (itrfToIcrf t itrfAngularVelocity) r) (cross itrfAngularVelocity (dcmApply (itrfToIcrf t itrfAngularVelocity) r)) t ∧
      HasDerivAt (fun t => dcmApply (ltrfToLirf t) r) (cross ![0, 0, 2 * π / (27.321661 * 86400)] (dcmApply (ltrfToLirf t) r)) t := by
  constructor
  · rw [hasDerivAt_pi]
    intro i
    obtain ⟨h1, h2⟩ := spin earthRate (r 0) (r 1) t
    simp only [dcmApply_apply]
    fin_cases i
    · simpa [itrfToIcrf, itrfAngularVelocity, cross, dcmApply_apply] using h1
    · simpa [itrfToIcrf, itrfAngularVelocity, cross, dcmApply_apply] using h2
    · simpa [itrfToIcrf, itrfAngularVelocity, cross, dcmApply_apply] using hasDerivAt_const t (r 2)
  · rw [hasDerivAt_pi]
    intro i
    rw [show 2 * π / (27.321661 * 86400) = moonRate from rfl]
    obtain ⟨h1, h2⟩ := spin moonRate (r 0) (r 1) t
    simp only [dcmApply_apply]
    fin_cases i
    · simpa [ltrfToLirf, cross, dcmApply_apply] using h1
    · simpa [ltrfToLirf, cross, dcmApply_apply] using h2
    · simpa [ltrfToLirf, cross, dcmApply_apply] using hasDerivAt_const t (r 2)

/-- There are times strictly within one period. -/
example : (0 : ℝ) < 3600 ∧ (3600 : ℝ) < 27.321661 * 86400 := by norm_num

end Verif.Frames
