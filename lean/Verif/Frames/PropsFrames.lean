import Verif.Frames.Model
import Verif.Att.PropsEuler

/-!
# C34, C35: coordinates and frame transformations
-/

namespace Verif.Frames

open Verif.Mat Verif.Att Real

/-! ## C34 -/

theorem polar_x (x y : ℝ) : √(x * x + y * y) * cos (atan2 y x) = x := by
  have := Complex.norm_mul_cos_arg ⟨x, y⟩
  rw [Complex.norm_def, Complex.normSq_mk] at this
  exact this

theorem polar_y (x y : ℝ) : √(x * x + y * y) * sin (atan2 y x) = y := by
  have := Complex.norm_mul_sin_arg ⟨x, y⟩
  rw [Complex.norm_def, Complex.normSq_mk] at this
  exact this

theorem incl {r z : ℝ} (hr : 0 ≤ r) :
    let rho := √(r * r + z * z)
    let phi := if rho = 0 then 0 else arccos (z / rho)
    rho * sin phi = r ∧ rho * cos phi = z := by
  intro rho phi
  have hs : rho ^ 2 = r * r + z * z := Real.sq_sqrt (add_nonneg (mul_self_nonneg _) (mul_self_nonneg _))
  have h0 : 0 ≤ rho := Real.sqrt_nonneg _
  by_cases h : rho = 0
  · rw [h] at hs
    have hr0 : r = 0 := by nlinarith
    have hz0 : z = 0 := by nlinarith
    rw [h, hr0, hz0]; simp
  · have hp : 0 < rho := lt_of_le_of_ne h0 (Ne.symm h)
    have hzr : |z| ≤ rho := abs_le_of_sq_le_sq (by nlinarith) h0
    obtain ⟨h1, h2⟩ := abs_le.1 hzr
    have e : phi = arccos (z / rho) := if_neg h
    rw [e, sin_arccos, cos_arccos (by rw [le_div_iff₀ hp]; linarith) (by rw [div_le_iff₀ hp]; linarith)]
    constructor
    · rw [show 1 - (z / rho) ^ 2 = (r / rho) ^ 2 by field_simp; linarith, Real.sqrt_sq (by positivity)]
      field_simp
    · field_simp

/-- C34. Every point is recovered from its spherical and from its cylindrical coordinates. -/
theorem C34_round_trip (p : Fin 3 → ℝ) :
    cartesianOfSpherical (sphericalOfCartesian p) = p ∧ cartesianOfCylindrical (cylindricalOfCartesian p) = p := by
  have hx := polar_x (p 0) (p 1)
  have hy := polar_y (p 0) (p 1)
  constructor
  · have h := incl (r := √(p 0 * p 0 + p 1 * p 1)) (z := p 2) (Real.sqrt_nonneg _)
    rw [Real.mul_self_sqrt (by nlinarith [mul_self_nonneg (p 0), mul_self_nonneg (p 1)])] at h
    obtain ⟨h1, h2⟩ := h
    unfold cartesianOfSpherical sphericalOfCartesian
    funext i
    fin_cases i <;> simp only [Fin.zero_eta, Fin.mk_one, Fin.reduceFinMk, Matrix.cons_val]
    · rw [h1, hx]
    · rw [h1, hy]
    · rw [h2]
  · unfold cartesianOfCylindrical cylindricalOfCartesian
    funext i
    fin_cases i <;> simp [hx, hy]

/-- C34. The four conversions commute. -/
theorem C34_consistent (p : Fin 3 → ℝ) :
    sphericalOfCylindrical (cylindricalOfCartesian p) = sphericalOfCartesian p ∧
      cylindricalOfSpherical (sphericalOfCartesian p) = cylindricalOfCartesian p := by
  have hs := Real.mul_self_sqrt (show 0 ≤ p 0 * p 0 + p 1 * p 1 by
    nlinarith [mul_self_nonneg (p 0), mul_self_nonneg (p 1)])
  constructor
  · unfold sphericalOfCylindrical cylindricalOfCartesian sphericalOfCartesian
    simp only [Matrix.cons_val, hs]
    funext i
    fin_cases i <;> simp
  · have h := incl (r := √(p 0 * p 0 + p 1 * p 1)) (z := p 2) (Real.sqrt_nonneg _)
    rw [hs] at h
    obtain ⟨h1, h2⟩ := h
    unfold cylindricalOfSpherical cylindricalOfCartesian sphericalOfCartesian
    funext i
    fin_cases i <;> simp only [Fin.zero_eta, Fin.mk_one, Fin.reduceFinMk, Matrix.cons_val]
    · exact h1
    · exact h2

/-- C34. Radii are non-negative and are the distances to the origin and to the axis; the azimuth is in
`(-π, π]` and the inclination in `[0, π]`. -/
theorem C34_ranges (p : Fin 3 → ℝ) :
    sphericalOfCartesian p 0 = √(p 0 ^ 2 + p 1 ^ 2 + p 2 ^ 2) ∧ 0 ≤ sphericalOfCartesian p 0 ∧
      (-π < sphericalOfCartesian p 1 ∧ sphericalOfCartesian p 1 ≤ π) ∧
      (0 ≤ sphericalOfCartesian p 2 ∧ sphericalOfCartesian p 2 ≤ π) ∧
      cylindricalOfCartesian p 0 = √(p 0 ^ 2 + p 1 ^ 2) ∧ 0 ≤ cylindricalOfCartesian p 0 ∧
      (-π < cylindricalOfCartesian p 1 ∧ cylindricalOfCartesian p 1 ≤ π) := by
  unfold sphericalOfCartesian cylindricalOfCartesian atan2
  simp only [Matrix.cons_val]
  refine ⟨by ring_nf, Real.sqrt_nonneg _, ⟨Complex.neg_pi_lt_arg _, Complex.arg_le_pi _⟩, ?_, by ring_nf,
    Real.sqrt_nonneg _, ⟨Complex.neg_pi_lt_arg _, Complex.arg_le_pi _⟩⟩
  split_ifs
  · exact ⟨le_rfl, pi_pos.le⟩
  · exact ⟨arccos_nonneg _, arccos_le_pi _⟩

/-- C34. Conversely spherical coordinates off the polar axis, and cylindrical coordinates off the axis, are
recovered from the point. -/
theorem C34_inverse {r az : ℝ} (hr : 0 < r) (ha : -π < az ∧ az ≤ π) :
    (∀ inc, 0 < inc → inc < π → sphericalOfCartesian (cartesianOfSpherical ![r, az, inc]) = ![r, az, inc]) ∧
      (∀ z, cylindricalOfCartesian (cartesianOfCylindrical ![r, az, z]) = ![r, az, z]) := by
  constructor
  · intro inc h0 h1
    have hs : 0 < sin inc := sin_pos_of_pos_of_lt_pi h0 h1
    have hrho : √((r * sin inc * cos az) * (r * sin inc * cos az) + (r * sin inc * sin az) * (r * sin inc * sin az)
        + (r * cos inc) * (r * cos inc)) = r := by
      have : (r * sin inc * cos az) * (r * sin inc * cos az) + (r * sin inc * sin az) * (r * sin inc * sin az)
        + (r * cos inc) * (r * cos inc) = r ^ 2 := by
        linear_combination (r * sin inc) ^ 2 * sin_sq_add_cos_sq az + r ^ 2 * sin_sq_add_cos_sq inc
      rw [this, Real.sqrt_sq hr.le]
    have hat : atan2 (r * sin inc * sin az) (r * sin inc * cos az) = az := by
      have := atan2_polar (mul_pos hr hs) ha.1 ha.2
      rwa [mul_comm (sin az), mul_comm (cos az)] at this
    unfold sphericalOfCartesian cartesianOfSpherical
    simp only [Matrix.cons_val, hrho, hat, hr.ne', if_false]
    rw [mul_div_cancel_left₀ _ hr.ne', arccos_cos h0.le h1.le]
  · intro z
    have hrho : √((r * cos az) * (r * cos az) + (r * sin az) * (r * sin az)) = r := by
      have : (r * cos az) * (r * cos az) + (r * sin az) * (r * sin az) = r ^ 2 := by
        linear_combination r ^ 2 * sin_sq_add_cos_sq az
      rw [this, Real.sqrt_sq hr.le]
    have hat : atan2 (r * sin az) (r * cos az) = az := by
      have := atan2_polar hr ha.1 ha.2
      rwa [mul_comm (sin az), mul_comm (cos az)] at this
    unfold cylindricalOfCartesian cartesianOfCylindrical
    simp only [Matrix.cons_val]
    rw [hrho, hat]

example : (0 : ℝ) < 2 ∧ (-π < π ∧ π ≤ π) ∧ (0 : ℝ) < 1 ∧ (1 : ℝ) < π :=
  ⟨by norm_num, ⟨by linarith [pi_pos], le_rfl⟩, by norm_num, by linarith [two_le_pi]⟩

/-! ## C35 -/

/-- The identity matrix. -/
def eye3 : Mat ℝ 3 3 := ![![1, 0, 0], ![0, 1, 0], ![0, 0, 1]]

theorem dcmMul_transpose {m : Mat ℝ 3 3} (h : IsRotation m) :
    dcmMul m (dcmTranspose m) = eye3 ∧ dcmMul (dcmTranspose m) m = eye3 := by
  have c := rotation_cols h
  have r := rotation_cols (isRotation_transpose h)
  simp only [dcmTranspose_apply] at r
  constructor <;> funext i j <;> simp only [dcmMul_apply, dcmTranspose_apply]
  · rw [r i j]; fin_cases i <;> fin_cases j <;> simp [eye3]
  · rw [c i j]; fin_cases i <;> fin_cases j <;> simp [eye3]

/-- C35. All frame matrices are rotation matrices, for all angles, times and rates. -/
theorem C35_rotations (a b c t : ℝ) (w : Fin 3 → ℝ) :
    IsRotation (aircraftWindToBody a b) ∧ IsRotation (aeroballisticWindToBody a b) ∧
    IsRotation (flightPathToGeographic a b) ∧ IsRotation (bodyToNed a b c) ∧ IsRotation (itrfToNed a b) ∧
    IsRotation (icrfToItrf t w) ∧ IsRotation (itrfToIcrf t w) ∧
    IsRotation (lirfToLtrf t) ∧ IsRotation (ltrfToLirf t) ∧ IsRotation (icrfToLtrf t) ∧
    IsRotation (ltrfToIcrf t) := by
  have ha := sin_sq_add_cos_sq a
  have hb := sin_sq_add_cos_sq b
  have hz : ∀ t, IsRotation (rotZ t) := fun t => (C32_elementary t).2.2
  have e1 : icrfToItrf t w = rotZ (w 2 * t) := by
    unfold icrfToItrf rotZ; rw [neg_mul, sin_neg]
  have e2 : itrfToIcrf t w = rotZ (-(w 2 * t)) := by
    unfold itrfToIcrf rotZ; rw [neg_mul, sin_neg, neg_neg, cos_neg]
  have e3 : lirfToLtrf t = rotZ (moonRate * t) := rfl
  have e4 : ltrfToLirf t = rotZ (-(moonRate * t)) := by
    unfold ltrfToLirf rotZ; simp [sin_neg, cos_neg]
  have hi : IsRotation icrfToLirf := by
    have : icrfToLirf = rotZ 0 := by unfold icrfToLirf rotZ; simp
    rw [this]; exact hz 0
  refine ⟨?_, ?_, ?_, ?_, ?_, ?_, ?_, ?_, ?_, ?_, ?_⟩
  · exact isRotation_mul (hz b) (isRotation_transpose (C32_elementary a).2.1)
  · rw [isRotation_iff]
    refine ⟨⟨?_, ?_, ?_, ?_, ?_, ?_⟩, ?_⟩ <;> simp [aeroballisticWindToBody]
    · linear_combination ha + sin a ^ 2 * hb
    · linear_combination hb
    · linear_combination ha + cos a ^ 2 * hb
    · ring
    · linear_combination (sin a * cos a) * hb
    · ring
    · linear_combination ha + hb * (sin a ^ 2 + cos a ^ 2)
  · rw [isRotation_iff]
    refine ⟨⟨?_, ?_, ?_, ?_, ?_, ?_⟩, ?_⟩ <;> simp [flightPathToGeographic]
    · linear_combination hb + cos b ^ 2 * ha
    · linear_combination ha
    · linear_combination hb + sin b ^ 2 * ha
    · ring
    · linear_combination (sin b * cos b) * ha
    · ring
    · linear_combination hb + ha * (sin b ^ 2 + cos b ^ 2)
  · have : bodyToNed a b c = dcmOfEuler ⟨a, b, c⟩ := by
      rw [C33_entries]; unfold bodyToNed
      funext i j; fin_cases i <;> fin_cases j <;> simp <;> ring
    rw [this]; exact (C33_product _ 0).1
  · rw [isRotation_iff]
    refine ⟨⟨?_, ?_, ?_, ?_, ?_, ?_⟩, ?_⟩ <;> simp [itrfToNed]
    · linear_combination ha + sin a ^ 2 * hb
    · linear_combination hb
    · linear_combination ha + cos a ^ 2 * hb
    · ring
    · linear_combination (sin a * cos a) * hb
    · ring
    · linear_combination ha + hb * (sin a ^ 2 + cos a ^ 2)
  · rw [e1]; exact hz _
  · rw [e2]; exact hz _
  · rw [e3]; exact hz _
  · rw [e4]; exact hz _
  · exact isRotation_mul (by rw [e3]; exact hz _) hi
  · exact isRotation_mul hi (by rw [e4]; exact hz _)

/-- C35. Paired directions are mutually inverse: inertial and Earth-fixed at every time and rate, the lunar
frames at every time, and the lunar frames with a given orientation at an epoch (for both the functions and the
`Moon` object). -/
theorem C35_inverse (t : ℝ) (w : Fin 3 → ℝ) (m : Moon) (hm : IsRotation m.atEpoch) :
    dcmMul (itrfToIcrf t w) (icrfToItrf t w) = eye3 ∧ dcmMul (icrfToItrf t w) (itrfToIcrf t w) = eye3 ∧
    dcmMul (ltrfToLirf t) (lirfToLtrf t) = eye3 ∧ dcmMul (lirfToLtrf t) (ltrfToLirf t) = eye3 ∧
    dcmMul (ltrfToIcrf t) (icrfToLtrf t) = eye3 ∧ dcmMul (icrfToLtrf t) (ltrfToIcrf t) = eye3 ∧
    dcmMul (m.ltrfToIcrf t) (m.icrfToLtrf t) = eye3 ∧ dcmMul (m.icrfToLtrf t) (m.ltrfToIcrf t) = eye3 := by
  have tr : ∀ a : Mat ℝ 3 3, IsRotation a → ∀ b, b = dcmTranspose a →
      dcmMul b a = eye3 ∧ dcmMul a b = eye3 := by
    intro a ha b hb
    rw [hb]; exact ⟨(dcmMul_transpose ha).2, (dcmMul_transpose ha).1⟩
  have R := C35_rotations 0 0 0 t w
  obtain ⟨-, -, -, -, -, r1, -, r3, -, r5, -⟩ := R
  have h1 := tr _ r1 (itrfToIcrf t w) (by
    funext i j; rw [dcmTranspose_apply]; fin_cases i <;> fin_cases j <;> simp [icrfToItrf, itrfToIcrf])
  have h2 := tr _ r3 (ltrfToLirf t) (by
    funext i j; rw [dcmTranspose_apply]; fin_cases i <;> fin_cases j <;> simp [lirfToLtrf, ltrfToLirf])
  have h3 := tr _ r5 (ltrfToIcrf t) (by
    funext i j; rw [dcmTranspose_apply]; unfold icrfToLtrf ltrfToIcrf; simp only [dcmMul_apply]
    fin_cases i <;> fin_cases j <;> simp [lirfToLtrf, ltrfToLirf, icrfToLirf])
  have hr : IsRotation (lirfToLtrf (t - m.epochTime)) := by
    have := C35_rotations 0 0 0 (t - m.epochTime) w
    exact this.2.2.2.2.2.2.2.1
  have h4 := tr _ (isRotation_mul hr hm) (m.ltrfToIcrf t) (by
    funext i j; rw [dcmTranspose_apply]; unfold Moon.ltrfToIcrf ltrfToIcrfAtEpoch
    simp only [dcmMul_apply, dcmTranspose_apply]
    have : ∀ i j, ltrfToLirf (t - m.epochTime) i j = lirfToLtrf (t - m.epochTime) j i := by
      intro i j; fin_cases i <;> fin_cases j <;> simp [lirfToLtrf, ltrfToLirf]
    simp only [this]; ring)
  exact ⟨h1.1, h1.2, h2.1, h2.2, h3.1, h3.2, h4.1, h4.2⟩

/-- C35. The rotating frames turn at a constant rate: the transformation over a sum of times is the product. -/
theorem C35_time (s t : ℝ) (w : Fin 3 → ℝ) :
    icrfToItrf (s + t) w = dcmMul (icrfToItrf s w) (icrfToItrf t w) ∧
      lirfToLtrf (s + t) = dcmMul (lirfToLtrf s) (lirfToLtrf t) := by
  constructor <;> funext i j <;> rw [dcmMul_apply]
  · fin_cases i <;> fin_cases j <;> simp [icrfToItrf, mul_add, cos_add, sin_add] <;> ring
  · fin_cases i <;> fin_cases j <;> simp [lirfToLtrf, mul_add, cos_add, sin_add] <;> ring

/-- C35. The Earth orientation is a unit quaternion whose matrix is the inertial-to-fixed matrix at the time
since the epoch with the Earth rate. -/
theorem C35_orientation (epoch t : ℝ) :
    (orientationAt epoch t).norm2 = 1 ∧
      dcmOfQuat (orientationAt epoch t) = icrfToItrf (t - epoch) itrfAngularVelocity := by
  have h := sin_sq_add_cos_sq ((t - epoch) * earthRate * (1 / 2))
  have e : itrfAngularVelocity 2 * (t - epoch) = 2 * ((t - epoch) * earthRate * (1 / 2)) := by
    simp [itrfAngularVelocity]; ring
  constructor
  · rw [norm2_eq]; simp only [orientationAt]; linear_combination h
  · unfold icrfToItrf
    rw [neg_mul, e, sin_neg, sin_two_mul, cos_two_mul']
    unfold orientationAt
    funext i j
    fin_cases i <;> fin_cases j <;> simp [dcmOfQuat] <;> ring

/-- C35. At geodetic latitude and longitude, Earth-fixed to north-east-down sends the outward vertical to "up",
the east direction to "east" and the direction of the Earth axis to the north-up plane. -/
theorem C35_ned (lat lon : ℝ) :
    dcmApply (itrfToNed lat lon) ![cos lat * cos lon, cos lat * sin lon, sin lat] = ![0, 0, -1] ∧
      dcmApply (itrfToNed lat lon) ![-sin lon, cos lon, 0] = ![0, 1, 0] ∧
      dcmApply (itrfToNed lat lon) ![0, 0, 1] = ![cos lat, 0, -sin lat] := by
  have ha := sin_sq_add_cos_sq lat
  have hb := sin_sq_add_cos_sq lon
  refine ⟨?_, ?_, ?_⟩ <;> funext i <;> rw [dcmApply_apply] <;> fin_cases i <;> simp [itrfToNed]
  · linear_combination (-(sin lat * cos lat)) * hb
  · ring
  · linear_combination (-cos lat ^ 2) * hb - ha
  · ring
  · linear_combination hb
  · ring

/-- C35. The rate matrix is the cross-product matrix of `(roll, pitch, yaw)`. -/
theorem C35_rate (r p y : ℝ) (v : Fin 3 → ℝ) : dcmApply (angularRateDcm r p y) v = cross ![r, p, y] v := by
  funext i; rw [dcmApply_apply]; fin_cases i <;> simp [angularRateDcm, cross] <;> ring

/-- C35 (as the code behaves). The four aerodynamic and attitude matrices act in the direction opposite to their
names: the velocity direction in body (geographic) axes is sent to the wind (flight path) x axis, and the
nose direction in north-east-down axes is sent to the body x axis. -/
theorem C35_direction_partial (a b c : ℝ) :
    dcmApply (aircraftWindToBody a b) ![cos a * cos b, sin b, sin a * cos b] = ![1, 0, 0] ∧
    dcmApply (aeroballisticWindToBody a b) ![cos a, sin a * sin b, sin a * cos b] = ![1, 0, 0] ∧
    dcmApply (flightPathToGeographic a b) ![cos b * cos a, cos b * sin a, -sin b] = ![1, 0, 0] ∧
    dcmApply (bodyToNed a b c) ![cos b * cos c, cos b * sin c, -sin b] = ![1, 0, 0] := by
  have ha := sin_sq_add_cos_sq a
  have hb := sin_sq_add_cos_sq b
  have hc := sin_sq_add_cos_sq c
  have w00 : ∀ i j, aircraftWindToBody a b i j =
      (![![cos b * cos a, sin b, cos b * sin a], ![-sin b * cos a, cos b, -sin b * sin a],
        ![-sin a, 0, cos a]] : Mat ℝ 3 3) i j := by
    intro i j
    unfold aircraftWindToBody
    simp only [dcmMul_apply, dcmTranspose_apply]
    fin_cases i <;> fin_cases j <;> simp
  refine ⟨?_, ?_, ?_, ?_⟩ <;> funext i <;> rw [dcmApply_apply]
  · simp only [w00]
    fin_cases i <;> simp
    · linear_combination cos b ^ 2 * ha + hb
    · linear_combination (-(sin b * cos b)) * ha
    · ring
  · fin_cases i <;> simp [aeroballisticWindToBody]
    · linear_combination sin a ^ 2 * hb + ha
    · ring
    · linear_combination (sin a * cos a) * hb
  · fin_cases i <;> simp [flightPathToGeographic]
    · linear_combination cos b ^ 2 * ha + hb
    · ring
    · linear_combination (sin b * cos b) * ha
  · fin_cases i <;> simp [bodyToNed]
    · linear_combination cos b ^ 2 * hc + hb
    · linear_combination (sin a * sin b * cos b) * hc
    · linear_combination (cos a * sin b * cos b) * hc

/-- C35 fails for `body_to_ned`: a body yawed a quarter turn to the east has its nose (body x axis) pointing
east, yet the function says west. Likewise `aircraft_wind_to_body` at a quarter turn of side slip sends the
wind x axis, which is the body y axis, to minus the body y axis. -/
theorem C35_direction_fails :
    dcmApply (bodyToNed 0 0 (π / 2)) ![1, 0, 0] = ![0, -1, 0] ∧
      dcmApply (bodyToNed 0 0 (π / 2)) ![1, 0, 0] ≠ ![0, 1, 0] ∧
      dcmApply (aircraftWindToBody 0 (π / 2)) ![1, 0, 0] = ![0, -1, 0] ∧
      dcmApply (aircraftWindToBody 0 (π / 2)) ![1, 0, 0] ≠ ![0, 1, 0] := by
  have h1 : dcmApply (bodyToNed 0 0 (π / 2)) ![1, 0, 0] = ![0, -1, 0] := by
    funext i; rw [dcmApply_apply]; fin_cases i <;> simp [bodyToNed]
  have h2 : dcmApply (aircraftWindToBody 0 (π / 2)) ![1, 0, 0] = ![0, -1, 0] := by
    funext i; rw [dcmApply_apply]; unfold aircraftWindToBody
    simp only [dcmMul_apply, dcmTranspose_apply]
    fin_cases i <;> simp
  have h3 : (![0, -1, 0] : Fin 3 → ℝ) ≠ ![0, 1, 0] := by
    intro h; have := congrFun h 1; norm_num at this
  exact ⟨h1, h1 ▸ h3, h2, h2 ▸ h3⟩

/-- C35 fails for the `Moon` object: its inertial-to-fixed transformation counts time from its epoch but its
lunar-inertial-to-fixed transformation does not, so the chain through the lunar inertial frame disagrees with
the direct transformation. -/
theorem C35_moon_epoch_fails :
    ∃ (m : Moon) (t : ℝ), IsRotation m.atEpoch ∧ m.icrfToLtrf t ≠ dcmMul (m.lirfToLtrf t) m.icrfToLirf := by
  have hm : moonRate ≠ 0 := by unfold moonRate; positivity
  refine ⟨⟨1, π / moonRate, eye3⟩, π / moonRate, ?_, ?_⟩
  · have : eye3 = rotZ 0 := by unfold eye3 rotZ; simp
    rw [this]; exact (C32_elementary 0).2.2
  · intro h
    have h0 := congrFun (congrFun h 0) 0
    have e : moonRate * (π / moonRate) = π := by field_simp
    unfold Moon.icrfToLtrf icrfToLtrfAtEpoch Moon.lirfToLtrf Moon.icrfToLirf at h0
    simp only [dcmMul_apply, sub_self] at h0
    simp [lirfToLtrf, eye3, e] at h0
    norm_num at h0

/-- C35. With the epoch at time zero the chain agrees. -/
theorem C35_moon_epoch_partial (m : Moon) (h0 : m.epochTime = 0) (t : ℝ) :
    m.icrfToLtrf t = dcmMul (m.lirfToLtrf t) m.icrfToLirf := by
  unfold Moon.icrfToLtrf icrfToLtrfAtEpoch Moon.lirfToLtrf Moon.icrfToLirf
  rw [h0, sub_zero]

example : ∃ m : Moon, IsRotation m.atEpoch ∧ m.epochTime = 0 ∧ m.atEpoch ≠ eye3 := by
  refine ⟨⟨1, 0, rotZ π⟩, (C32_elementary _).2.2, rfl, fun h => ?_⟩
  have := congrFun (congrFun h 0) 0
  simp [rotZ, eye3] at this
  norm_num at this

end Verif.Frames
