import Verif.Frames.Orbit
import Mathlib.Analysis.SpecialFunctions.Trigonometric.Deriv
import Mathlib.Analysis.SpecialFunctions.Trigonometric.Complex
import Mathlib.Analysis.SpecialFunctions.Sqrt
import Mathlib.Analysis.Calculus.Deriv.Inverse
import Mathlib.Analysis.Calculus.Deriv.MeanValue
import Mathlib.Analysis.Calculus.Deriv.Inv
import Mathlib.Topology.Order.MonotoneContinuity

/-!
# C132: the orbital period

The relative motion of two bodies in their plane, under the gravitational constant `μ` of both, and the ellipse with a focus at the
origin.
-/

namespace Verif.Frames

/-- `(x, y)` moves under the attraction `μ / r²` of the origin. -/
def TwoBody (μ : ℝ) (x y : ℝ → ℝ) : Prop :=
  ∃ vx vy : ℝ → ℝ, ∀ t, x t ^ 2 + y t ^ 2 ≠ 0 ∧ HasDerivAt x (vx t) t ∧ HasDerivAt y (vy t) t ∧
    HasDerivAt vx (-μ * x t / √(x t ^ 2 + y t ^ 2) ^ 3) t ∧ HasDerivAt vy (-μ * y t / √(x t ^ 2 + y t ^ 2) ^ 3) t

/-- The ellipse with semi-major axis `a`, eccentricity `e`, one focus at the origin and the pericentre on the positive first axis. -/
def OnEllipse (a e x y : ℝ) : Prop := (x + a * e) ^ 2 / a ^ 2 + y ^ 2 / (a ^ 2 * (1 - e ^ 2)) = 1

/-- Kepler's equation can be solved smoothly. -/
theorem kepler_inverse {e : ℝ} (h0 : 0 ≤ e) (h1 : e < 1) :
    ∃ G : ℝ → ℝ, (∀ m, G m - e * Real.sin (G m) = m) ∧ (∀ z, G (z - e * Real.sin z) = z) ∧
      ∀ m, HasDerivAt G (1 - e * Real.cos (G m))⁻¹ m := by
  have pos : ∀ z, 0 < 1 - e * Real.cos z := by
    intro z
    have := Real.cos_le_one z
    nlinarith
  have hd : ∀ z, HasDerivAt (fun z => z - e * Real.sin z) (1 - e * Real.cos z) z := fun z =>
    (hasDerivAt_id z).sub ((Real.hasDerivAt_sin z).const_mul e)
  have mono : StrictMono fun z => z - e * Real.sin z := by
    refine strictMono_of_deriv_pos fun z => ?_
    rw [(hd z).deriv]
    exact pos z
  have cont : Continuous fun z => z - e * Real.sin z := by fun_prop
  have surj : Function.Surjective fun z => z - e * Real.sin z := by
    intro m
    have b : ∀ z, |e * Real.sin z| ≤ 1 := by
      intro z
      rw [abs_mul, abs_of_nonneg h0]
      have := Real.abs_sin_le_one z
      nlinarith [abs_nonneg (Real.sin z)]
    have lo : (fun z => z - e * Real.sin z) (m - 1) ≤ m := by
      have := (abs_le.1 (b (m - 1))).1
      simp only
      linarith
    have hi : m ≤ (fun z => z - e * Real.sin z) (m + 1) := by
      have := (abs_le.1 (b (m + 1))).2
      simp only
      linarith
    obtain ⟨z, _, hz⟩ := intermediate_value_Icc (by linarith : m - 1 ≤ m + 1) cont.continuousOn ⟨lo, hi⟩
    exact ⟨z, hz⟩
  set O := mono.orderIsoOfSurjective _ surj
  have right : ∀ m, (O.symm m) - e * Real.sin (O.symm m) = m := fun m => O.apply_symm_apply m
  refine ⟨O.symm, right, fun z => O.symm_apply_apply z, fun m => ?_⟩
  exact HasDerivAt.of_local_left_inverse (O.symm.continuous.continuousAt) (hd _) (pos _).ne' (Filter.Eventually.of_forall right)

/-- **C132** (Kepler's third law): for every eccentricity there is a motion under the attraction of both masses along the ellipse with
the given semi-major axis, and its periods are exactly the multiples of `keplerian_period_s`. -/
theorem C132_kepler (o : MoonOrbit) (ha : 0 < o.semiMajorAxis) (hμ : 0 < o.muEarth + o.muMoon) (e : ℝ) (h0 : 0 ≤ e) (h1 : e < 1) :
    ∃ x y : ℝ → ℝ, TwoBody (o.muEarth + o.muMoon) x y ∧ (∀ t, OnEllipse o.semiMajorAxis e (x t) (y t)) ∧
      ∀ p, (∀ t, x (t + p) = x t ∧ y (t + p) = y t) ↔ ∃ k : ℤ, p = k * o.keplerianPeriod := by
  obtain ⟨G, hG, hG', hGd⟩ := kepler_inverse h0 h1
  set a := o.semiMajorAxis with ha'
  set μ := o.muEarth + o.muMoon with hμ'
  set n := √(μ / a ^ 3) with hn
  have hn0 : 0 < n := Real.sqrt_pos.2 (by positivity)
  have hn2 : n ^ 2 = μ / a ^ 3 := Real.sq_sqrt (by positivity)
  have hP : o.keplerianPeriod = 2 * Real.pi / n := by
    have : √(a ^ 3 / μ) = n⁻¹ := by rw [hn, ← Real.sqrt_inv, inv_div]
    show 2 * Real.pi * √(a ^ 3 / μ) = _
    rw [this, div_eq_mul_inv]
  have he2 : 0 < 1 - e ^ 2 := by nlinarith
  set b := a * √(1 - e ^ 2) with hb
  have hb2 : b ^ 2 = a ^ 2 * (1 - e ^ 2) := by rw [hb, mul_pow, Real.sq_sqrt he2.le]
  have pos : ∀ z, 0 < 1 - e * Real.cos z := by
    intro z
    have := Real.cos_le_one z
    nlinarith
  set E : ℝ → ℝ := fun t => G (n * t) with hE
  have hEd : ∀ t, HasDerivAt E (n / (1 - e * Real.cos (E t))) t := by
    intro t
    have h2 : HasDerivAt (fun t => n * t) n t := by simpa using (hasDerivAt_id t).const_mul n
    have := (hGd (n * t)).comp t h2
    rw [div_eq_inv_mul]
    exact this
  have hc : ∀ t, HasDerivAt (fun t => Real.cos (E t)) (-Real.sin (E t) * (n / (1 - e * Real.cos (E t)))) t := fun t => (hEd t).cos
  have hs : ∀ t, HasDerivAt (fun t => Real.sin (E t)) (Real.cos (E t) * (n / (1 - e * Real.cos (E t)))) t := fun t => (hEd t).sin
  have hden : ∀ t, HasDerivAt (fun t => 1 - e * Real.cos (E t)) (e * (Real.sin (E t) * (n / (1 - e * Real.cos (E t))))) t := by
    intro t
    have := ((hc t).const_mul e).const_sub 1
    refine this.congr_deriv ?_
    ring
  have hr : ∀ t, (a * (Real.cos (E t) - e)) ^ 2 + (b * Real.sin (E t)) ^ 2 = (a * (1 - e * Real.cos (E t))) ^ 2 := by
    intro t
    rw [mul_pow b, hb2]
    have := Real.sin_sq_add_cos_sq (E t)
    have h3 : Real.sin (E t) ^ 2 = 1 - Real.cos (E t) ^ 2 := by linarith
    rw [h3]
    ring
  have hsq : ∀ t, √((a * (Real.cos (E t) - e)) ^ 2 + (b * Real.sin (E t)) ^ 2) = a * (1 - e * Real.cos (E t)) := by
    intro t
    rw [hr, Real.sqrt_sq (mul_pos ha (pos _)).le]
  have e0 : E 0 = 0 := by
    have := hG' 0
    simpa [hE] using this
  refine ⟨fun t => a * (Real.cos (E t) - e), fun t => b * Real.sin (E t),
    ⟨fun t => a * (-Real.sin (E t) * (n / (1 - e * Real.cos (E t)))), fun t => b * (Real.cos (E t) * (n / (1 - e * Real.cos (E t)))),
      fun t => ⟨?_, ((hc t).sub_const e).const_mul a, (hs t).const_mul b, ?_, ?_⟩⟩, fun t => ?_, fun p => ⟨fun hp => ?_, ?_⟩⟩
  · show (a * (Real.cos (E t) - e)) ^ 2 + (b * Real.sin (E t)) ^ 2 ≠ 0
    rw [hr]
    have := mul_pos ha (pos (E t))
    positivity
  · have h2 := ((hs t).fun_neg.fun_mul ((hasDerivAt_const t n).fun_div (hden t) (pos (E t)).ne')).const_mul a
    show HasDerivAt (fun t => a * (-Real.sin (E t) * (n / (1 - e * Real.cos (E t)))))
      (-μ * (a * (Real.cos (E t) - e)) / √((a * (Real.cos (E t) - e)) ^ 2 + (b * Real.sin (E t)) ^ 2) ^ 3) t
    rw [hsq]
    refine h2.congr_deriv ?_
    have hp := (pos (E t)).ne'
    rw [mul_comm e] at hp
    have hμn : μ = n ^ 2 * a ^ 3 := by rw [hn2]; field_simp
    have := Real.sin_sq_add_cos_sq (E t)
    rw [hμn]
    field_simp
    linear_combination n ^ 2 * e * this
  · have h2 := ((hc t).fun_mul ((hasDerivAt_const t n).fun_div (hden t) (pos (E t)).ne')).const_mul b
    show HasDerivAt (fun t => b * (Real.cos (E t) * (n / (1 - e * Real.cos (E t)))))
      (-μ * (b * Real.sin (E t)) / √((a * (Real.cos (E t) - e)) ^ 2 + (b * Real.sin (E t)) ^ 2) ^ 3) t
    rw [hsq]
    refine h2.congr_deriv ?_
    have hp := (pos (E t)).ne'
    rw [mul_comm e] at hp
    have hμn : μ = n ^ 2 * a ^ 3 := by rw [hn2]; field_simp
    rw [hμn]
    field_simp
    ring
  · show (a * (Real.cos (E t) - e) + a * e) ^ 2 / a ^ 2 + (b * Real.sin (E t)) ^ 2 / (a ^ 2 * (1 - e ^ 2)) = 1
    rw [mul_pow b, hb2]
    have := Real.sin_sq_add_cos_sq (E t)
    field_simp
    linarith
  · have h2 := (hp 0).1
    simp only [zero_add, e0, Real.cos_zero] at h2
    have h3 : Real.cos (E p) = 1 := by
      have := mul_left_cancel₀ ha.ne' h2
      linarith
    obtain ⟨k, hk⟩ := (Real.cos_eq_one_iff _).1 h3
    refine ⟨k, ?_⟩
    have h4 := hG (n * p)
    have h5 : G (n * p) = k * (2 * Real.pi) := hk.symm
    rw [h5] at h4
    have h6 : Real.sin (k * (2 * Real.pi)) = 0 := by
      have := Real.sin_int_mul_pi (k * 2)
      push_cast at this
      rw [← this]
      congr 1
      ring
    rw [h6] at h4
    rw [hP]
    field_simp
    linarith
  · rintro ⟨k, rfl⟩ t
    have h2 : E (t + k * o.keplerianPeriod) = E t + k * (2 * Real.pi) := by
      have h3 : n * (t + k * o.keplerianPeriod) = n * t + k * (2 * Real.pi) := by
        rw [hP]
        field_simp
      have h4 := hG' (E t + k * (2 * Real.pi))
      rw [Real.sin_add_int_mul_two_pi] at h4
      have h5 : E t + k * (2 * Real.pi) - e * Real.sin (E t) = n * t + k * (2 * Real.pi) := by
        have := hG (n * t)
        show G (n * t) + k * (2 * Real.pi) - e * Real.sin (G (n * t)) = _
        linarith
      rw [h5] at h4
      show G (n * (t + k * o.keplerianPeriod)) = _
      rw [h3, h4]
    simp only [h2, Real.cos_add_int_mul_two_pi, Real.sin_add_int_mul_two_pi, and_self]

/-- The hypotheses hold for round values of the Moon's orbit. -/
example : let o : MoonOrbit := ⟨384400000, 0.0549, 0.09, 2360591, 3.986e14, 4.9e12⟩
    0 < o.semiMajorAxis ∧ 0 < o.muEarth + o.muMoon ∧ 0 ≤ o.eccentricity ∧ o.eccentricity < 1 := by
  intro o
  refine ⟨?_, ?_, ?_, ?_⟩ <;> norm_num [o]

/-- **C132**: the mean motion turns once in a sidereal period. -/
theorem C132_mean_motion (o : MoonOrbit) (h : o.siderealPeriod ≠ 0) : o.meanMotion * o.siderealPeriod = 2 * Real.pi := by
  rw [MoonOrbit.meanMotion, div_mul_cancel₀ _ h]

end Verif.Frames
