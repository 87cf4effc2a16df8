import Verif.Att.Lemmas
import Mathlib.Analysis.SpecialFunctions.Trigonometric.Bounds

/-!
# C121: the order of the Taylor update of an attitude
-/

namespace Verif.Att

open Verif.Mat

/-- Turning about the first axis at unit rate from rest attitude: the tangent of half the angle turned. -/
theorem integrate_ratio {t : ℝ} (h0 : 0 < t) :
    (Quat.identity.integrate ![1, 0, 0] ![0, 0, 0] t).i / (Quat.identity.integrate ![1, 0, 0] ![0, 0, 0] t).w =
      (t / 2 + t ^ 2 / 8 + 13 / 108 * t ^ 3) / (1 + t / 2 + t ^ 2 / 8 + 5 / 108 * t ^ 3) := by
  have hu : (Quat.identity : Quat ℝ).norm2 = 1 := by rw [norm2_eq]; simp [Quat.identity]
  unfold Quat.integrate
  rw [normalized_of_unit hu]
  have key : ∀ n : Quat ℝ, n.w = 1 + t / 2 + t ^ 2 / 8 + 5 / 108 * t ^ 3 →
      n.i = t / 2 + t ^ 2 / 8 + 13 / 108 * t ^ 3 →
      n.normalized.i / n.normalized.w =
        (t / 2 + t ^ 2 / 8 + 13 / 108 * t ^ 3) / (1 + t / 2 + t ^ 2 / 8 + 5 / 108 * t ^ 3) := by
    intro n hw hi
    have hpos : 0 < n.w := by rw [hw]; positivity
    have hne : n ≠ ⟨0, 0, 0, 0⟩ := by
      intro h
      rw [h] at hpos
      exact lt_irrefl _ hpos
    have := norm_pos hne
    unfold Quat.normalized
    rw [div_div_div_cancel_right₀ this.ne', hw, hi]
  refine key _ ?_ ?_
  · simp only [Quat.add, Quat.scale, Quat.mul, Quat.identity]
    simp
    ring
  · simp only [Quat.add, Quat.scale, Quat.mul, Quat.identity]
    simp
    ring

/-- **C121** fails beyond first order: the update is documented as a Taylor expansion and sums terms up to the third
power of the step, but turning about the first axis at unit rate it falls behind the exact turn by a term of second order:
the tangent of half the angle is short by more than `t²/20`. -/
theorem C121_lag_fails {t : ℝ} (h0 : 0 < t) (h1 : t ≤ 1 / 2) :
    (Quat.identity.integrate ![1, 0, 0] ![0, 0, 0] t).i / (Quat.identity.integrate ![1, 0, 0] ![0, 0, 0] t).w <
      Real.tan (t / 2) - t ^ 2 / 20 := by
  rw [integrate_ratio h0]
  have htan : t / 2 < Real.tan (t / 2) := Real.lt_tan (by linarith) (by linarith [Real.two_le_pi])
  refine lt_of_lt_of_le ?_ (sub_le_sub_right htan.le _)
  rw [div_lt_iff₀ (by positivity)]
  have h2 : 0 < t ^ 2 := by positivity
  nlinarith [mul_pos h2 h0, mul_pos h2 h2, mul_pos (mul_pos h2 h2) h0]

/-- **C121** fails: the update is not accurate to second order. The exact turn is the one of
`Rotation::from_angular_velocity`. -/
theorem C121_order_fails :
    ¬ ∃ C δ : ℝ, 0 < δ ∧ ∀ t, 0 < t → t < δ →
      |(Quat.identity.integrate ![1, 0, 0] ![0, 0, 0] t).i / (Quat.identity.integrate ![1, 0, 0] ![0, 0, 0] t).w -
        (Quat.ofAngularVelocity ![1, 0, 0] t).i / (Quat.ofAngularVelocity ![1, 0, 0] t).w| ≤ C * t ^ 3 := by
  rintro ⟨C, δ, hδ, h⟩
  have exact_turn : ∀ t : ℝ, (Quat.ofAngularVelocity ![1, 0, 0] t).i / (Quat.ofAngularVelocity ![1, 0, 0] t).w =
      Real.tan (t / 2) := by
    intro t
    have hm : Mat.norm Real.sqrt (![1, 0, 0] : Fin 3 → ℝ) = 1 := by
      have : Mat.norm Real.sqrt (![1, 0, 0] : Fin 3 → ℝ) = √(0 + 1 * 1 + 0 * 0 + 0 * 0) := rfl
      rw [this]
      norm_num
    unfold Quat.ofAngularVelocity
    rw [hm, if_neg (by norm_num)]
    simp only [vdiv]
    rw [Real.tan_eq_sin_div_cos]
    norm_num
    ring_nf
  set M := max C 1
  have hM : 0 < M := lt_of_lt_of_le one_pos (le_max_right _ _)
  set t := min (min (δ / 2) (1 / 2)) (1 / (20 * M)) with ht
  have t0 : 0 < t := by
    rw [ht]
    exact lt_min (lt_min (by linarith) (by norm_num)) (by positivity)
  have t1 : t ≤ 1 / 2 := (min_le_left _ _).trans (min_le_right _ _)
  have t2 : t < δ := lt_of_le_of_lt ((min_le_left _ _).trans (min_le_left _ _)) (by linarith)
  have t3 : t ≤ 1 / (20 * M) := min_le_right _ _
  have h1 := h t t0 t2
  rw [exact_turn] at h1
  have h2 := C121_lag_fails t0 t1
  have h3 : t ^ 2 / 20 < C * t ^ 3 := by
    refine lt_of_lt_of_le ?_ h1
    refine lt_of_lt_of_le ?_ (neg_le_abs _)
    linarith
  have h4 : C * t ^ 3 ≤ M * t ^ 3 := mul_le_mul_of_nonneg_right (le_max_left _ _) (by positivity)
  rw [le_div_iff₀ (by positivity)] at t3
  have h5 : M * t ^ 3 ≤ t ^ 2 / 20 := by
    have : 0 ≤ t ^ 2 := by positivity
    nlinarith
  linarith

/-- A turn for half a second. -/
example : (Quat.identity.integrate ![1, 0, 0] ![0, 0, 0] (1 / 2 : ℝ)).i / (Quat.identity.integrate ![1, 0, 0] ![0, 0, 0] (1 / 2 : ℝ)).w <
    Real.tan (1 / 2 / 2) - (1 / 2) ^ 2 / 20 := C121_lag_fails (by norm_num) le_rfl

end Verif.Att
