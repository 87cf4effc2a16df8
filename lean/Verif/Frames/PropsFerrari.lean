import Verif.Frames.Ferrari

/-!
# C97: the closed-form geodetic conversion
-/

namespace Verif.Frames

open Verif.Att Real

theorem b_lt_a : wgsB < wgsA := by unfold wgsB wgsA; norm_num

theorem flat_eq : 2 * ((wgsA - wgsB) / wgsA) - (wgsA - wgsB) / wgsA * ((wgsA - wgsB) / wgsA) = 1 - wgsB ^ 2 / wgsA ^ 2 := by
  have := a_pos.ne'
  field_simp; ring

/-- C97. The reported longitude is the azimuth of the position, and latitude and altitude depend only on the distance from the
polar axis and on z: the conversion commutes with rotations about the axis. (Close to the centre the code takes powers of negative numbers and
divides by zero.) -/
theorem C97_axisymmetric (x y z x' y' : ℝ) (h : x ^ 2 + y ^ 2 = x' ^ 2 + y' ^ 2) (_hd : 43000 ^ 2 ≤ x ^ 2 + y ^ 2 + z ^ 2) :
    ferrari x y z 1 = Complex.arg ⟨x, y⟩ ∧ ferrari x y z 0 = ferrari x' y' z 0 ∧ ferrari x y z 2 = ferrari x' y' z 2 := by
  have e : x * x + y * y = x' * x' + y' * y' := by nlinarith
  refine ⟨rfl, ?_, ?_⟩ <;> simp only [ferrari, e, Matrix.cons_val]

theorem atan2_neg_of_nonneg {r s : ℝ} (hr : 0 ≤ r) : atan2 (-s) r = -atan2 s r := by
  unfold atan2
  by_cases hs : s = 0
  · subst hs
    have : (⟨r, -0⟩ : ℂ) = (r : ℂ) := by apply Complex.ext <;> simp
    have h2 : (⟨r, 0⟩ : ℂ) = (r : ℂ) := by apply Complex.ext <;> simp
    rw [this, h2, Complex.arg_ofReal_of_nonneg hr, neg_zero]
  · have : (⟨r, -s⟩ : ℂ) = (starRingEnd ℂ) ⟨r, s⟩ := by apply Complex.ext <;> simp
    rw [this, Complex.arg_conj, if_neg]
    intro hpi
    rw [Complex.arg_eq_pi_iff] at hpi
    exact absurd hpi.1 (not_lt.2 hr)

/-- C97. Mirror images in the equatorial plane get opposite latitudes, equal longitudes and equal altitudes. -/
theorem C97_mirror (x y z : ℝ) (_hd : 43000 ^ 2 ≤ x ^ 2 + y ^ 2 + z ^ 2) :
    ferrari x y (-z) 0 = -ferrari x y z 0 ∧ ferrari x y (-z) 1 = ferrari x y z 1 ∧ ferrari x y (-z) 2 = ferrari x y z 2 := by
  refine ⟨?_, rfl, ?_⟩
  · simp only [ferrari, neg_mul_neg, Matrix.cons_val]
    rw [← atan2_neg_of_nonneg (Real.sqrt_nonneg _)]
    congr 1; ring
  · simp only [ferrari, neg_mul_neg, Matrix.cons_val]

/-- C97. In the equatorial plane the answer is exact: latitude zero and altitude the distance from the axis less the equatorial
radius, at every longitude and every distance above 43 km. -/
theorem C97_equator_partial {lon r : ℝ} (h1 : -π < lon) (h2 : lon ≤ π) (hr : 43000 ≤ r) :
    ferrari (r * cos lon) (r * sin lon) 0 = ![0, lon, r - wgsA] := by
  have hr0 : 0 < r := by linarith
  have hs : r * cos lon * (r * cos lon) + r * sin lon * (r * sin lon) = r ^ 2 := by
    linear_combination r ^ 2 * sin_sq_add_cos_sq lon
  have hgt : (1 - wgsB ^ 2 / wgsA ^ 2) * wgsA < r := by
    refine lt_of_lt_of_le ?_ hr
    unfold wgsA wgsB; norm_num
  have hlon : atan2 (r * sin lon) (r * cos lon) = lon := by
    unfold atan2
    have : (⟨r * cos lon, r * sin lon⟩ : ℂ) = r * (Complex.cos lon + Complex.sin lon * Complex.I) := by
      apply Complex.ext <;> simp [← Complex.ofReal_cos, ← Complex.ofReal_sin]
    rw [this, Complex.arg_mul_cos_add_sin_mul_I hr0 ⟨h1, h2⟩]
  have ha := a_pos
  have hb := b_pos
  unfold ferrari
  dsimp only
  rw [hs, Real.sqrt_sq hr0.le, hlon, flat_eq]
  have e1 : 1 / 2 * (wgsA * wgsA) * (1 + 1 / 1) = wgsA ^ 2 := by ring
  simp only [mul_zero, zero_mul, zero_div, add_zero, Real.sqrt_one, sub_zero, neg_zero, zero_add, Real.one_rpow, ne_eq,
    OfNat.ofNat_ne_zero, not_false_eq_true, Real.zero_rpow, e1]
  rw [if_pos (by positivity), Real.sqrt_sq ha.le, Real.rpow_two, Real.sqrt_sq (by linarith)]
  have hv : 0 < r - (1 - wgsB ^ 2 / wgsA ^ 2) * wgsA := by linarith
  have hlat : atan2 0 r = 0 := by
    unfold atan2
    have h2 : (⟨r, 0⟩ : ℂ) = (r : ℂ) := by apply Complex.ext <;> simp
    rw [h2, Complex.arg_ofReal_of_nonneg hr0.le]
  rw [hlat]
  congr 3
  have h3 := hv.ne'
  generalize hV : r - (1 - wgsB ^ 2 / wgsA ^ 2) * wgsA = V at *
  have : r = V + (1 - wgsB ^ 2 / wgsA ^ 2) * wgsA := by rw [← hV]; ring
  rw [this]
  field_simp
  ring

example : -π < (1 : ℝ) ∧ (1 : ℝ) ≤ π ∧ (43000 : ℝ) ≤ 7000000 := by
  exact ⟨by linarith [two_le_pi], by linarith [two_le_pi], by norm_num⟩

/-- C97. On the polar axis, outside the innermost 43 km, the answer is exact: latitude plus or minus a right angle and altitude the
distance from the centre less the polar radius. -/
theorem C97_axis_partial {z : ℝ} (hz : 43000 ≤ z) :
    ferrari 0 0 z = ![π / 2, 0, z - wgsB] ∧ ferrari 0 0 (-z) = ![-(π / 2), 0, z - wgsB] := by
  have key : ferrari 0 0 z = ![π / 2, 0, z - wgsB] := by
    have hz0 : 0 < z := by linarith
    have ha := a_pos
    have hb := b_pos
    have hab := b_lt_a
    unfold ferrari
    dsimp only
    rw [flat_eq]
    set k := wgsB / wgsA with hk
    have hkpos : 0 < k := by positivity
    have hBk : wgsB = k * wgsA := by rw [hk]; field_simp
    have hk1 : k < 1 := by rw [hk, div_lt_one ha]; exact hab
    have e2 : wgsB ^ 2 / wgsA ^ 2 = k ^ 2 := by rw [hk]; field_simp
    rw [e2]
    have hg : 0 < (1 - (1 - k ^ 2)) * (z * z) - (1 - k ^ 2) * (wgsA * wgsA - wgsB * wgsB) := by
      have h1 : (1 - (1 - k ^ 2)) * (z * z) - (1 - k ^ 2) * (wgsA * wgsA - wgsB * wgsB) = (k * z) ^ 2 - ((1 - k ^ 2) * wgsA) ^ 2 := by
        rw [hBk]; ring
      rw [h1]
      have h2 : (1 - k ^ 2) * wgsA < k * z := by
        have : (1 - k ^ 2) * wgsA < k * 43000 := by rw [hk]; unfold wgsA wgsB; norm_num
        nlinarith
      have h3 : 0 < (1 - k ^ 2) * wgsA := by
        have : k ^ 2 < 1 := by nlinarith
        have : 0 < 1 - k ^ 2 := by linarith
        positivity
      nlinarith
    simp only [mul_zero, add_zero, Real.sqrt_zero, zero_add, zero_div, ne_eq, OfNat.ofNat_ne_zero, not_false_eq_true,
      Real.zero_rpow, Real.one_rpow, div_one, sub_zero]
    set g := (1 - (1 - k ^ 2)) * (z * z) - (1 - k ^ 2) * (wgsA * wgsA - wgsB * wgsB) with hgd
    simp only [Real.rpow_ofNat]
    set p := 54 * (wgsB * wgsB) * (z * z) / (3 * (1 + 1 + 1) ^ 2 * g ^ 2) with hp
    have hgne := hg.ne'
    have hq : √(1 + 2 * (1 - k ^ 2) ^ 2 * p) = (k ^ 2 * z ^ 2 + (1 - k ^ 2) ^ 2 * wgsA ^ 2) / g := by
      rw [Real.sqrt_eq_iff_mul_self_eq_of_pos (by positivity)]
      rw [hp]
      field_simp
      rw [hgd, hBk]
      ring
    rw [hq]
    set q := (k ^ 2 * z ^ 2 + (1 - k ^ 2) ^ 2 * wgsA ^ 2) / g with hqd
    have hr0 : 1 / 2 * (wgsA * wgsA) * (1 + 1 / q) - p * (1 - (1 - k ^ 2)) * (z * z) / (q * (1 + q)) = 0 := by
      have hqpos : 0 < q := by rw [hqd]; positivity
      have h1q : 1 + q = 2 * k ^ 2 * z ^ 2 / g := by
        rw [hqd]; field_simp; rw [hgd, hBk]; ring
      rw [h1q]
      have h2 : 1 + 1 / q = (1 + q) / q := by field_simp; ring
      rw [h2, h1q, hp, hBk]
      field_simp
      ring
    rw [hr0, if_neg (lt_irrefl _), Real.sqrt_zero, mul_zero, sub_zero]
    have hu : √(0 ^ 2 + z * z) = z := by
      rw [show (0 : ℝ) ^ 2 + z * z = z ^ 2 by ring, Real.sqrt_sq hz0.le]
    have hv : √(0 ^ 2 + (1 - (1 - k ^ 2)) * (z * z)) = k * z := by
      rw [show (0 : ℝ) ^ 2 + (1 - (1 - k ^ 2)) * (z * z) = (k * z) ^ 2 by ring, Real.sqrt_sq (by positivity)]
    rw [hu, hv]
    have hlon : atan2 0 0 = 0 := by
      unfold atan2
      have : (⟨0, 0⟩ : ℂ) = 0 := rfl
      rw [this, Complex.arg_zero]
    have hlat : ∀ w : ℝ, 0 < w → atan2 w 0 = π / 2 := by
      intro w hw
      unfold atan2
      have : (⟨0, w⟩ : ℂ) = (w : ℂ) * Complex.I := by apply Complex.ext <;> simp
      rw [this, Complex.arg_real_mul _ hw, Complex.arg_I]
    rw [hlon, hlat _ (by positivity)]
    congr 3
    rw [hBk]
    field_simp
  refine ⟨key, ?_⟩
  have hm := C97_mirror 0 0 z (by nlinarith)
  rw [key] at hm
  funext i
  fin_cases i
  · exact hm.1
  · exact hm.2.1
  · exact hm.2.2

example : (43000 : ℝ) ≤ 6400000 := by norm_num

set_option maxHeartbeats 800000 in
/-- C97 fails: the square root in the resolvent of the published formula is missing, so a point of the reference ellipsoid (distance
`4a/5` from the axis, height `3b/5`) is reported more than half a metre above it. -/
theorem C97_fails :
    let x := 4 / 5 * wgsA
    let z := 3 / 5 * wgsB
    (x ^ 2 + 0 ^ 2) / wgsA ^ 2 + z ^ 2 / wgsB ^ 2 = 1 ∧ 1 / 2 < ferrari x 0 z 2 := by
  intro x z
  have ha := a_pos
  have hb := b_pos
  refine ⟨by simp only [x, z]; field_simp; ring, ?_⟩
  have hx : √(x * x + 0 * 0) = x := by
    rw [show x * x + 0 * 0 = x ^ 2 by ring, Real.sqrt_sq (by simp only [x]; positivity)]
  unfold ferrari
  rw [hx, flat_eq]
  simp only [Matrix.cons_val, Real.rpow_ofNat]
  set e := 1 - wgsB ^ 2 / wgsA ^ 2 with he
  set g := x * x + (1 - e) * (z * z) - e * (wgsA * wgsA - wgsB * wgsB) with hg
  set c := e ^ 2 * (54 * (wgsB * wgsB) * (z * z)) * (x * x) / g ^ 3 with hc
  have hc1 : 0 < c := by
    rw [hc, hg, he]; simp only [x, z]; unfold wgsA wgsB; norm_num
  have hc2 : c < 0.00056 := by
    rw [hc, hg, he]; simp only [x, z]; unfold wgsA wgsB; norm_num
  set s := (1 + c + (c ^ 2 + 2 * c)) ^ (1 / 3 : ℝ) with hs
  have hs1 : 1 ≤ s := Real.one_le_rpow (by nlinarith) (by norm_num)
  have hs2 : s ≤ 1.001 := by
    rw [hs]
    have h3 : (1.001 : ℝ) = ((1.001 : ℝ) ^ (3 : ℝ)) ^ (1 / 3 : ℝ) := by
      rw [← Real.rpow_mul (by norm_num)]; norm_num
    rw [h3]
    apply Real.rpow_le_rpow (by positivity) _ (by norm_num)
    rw [Real.rpow_ofNat]
    nlinarith
  have ht1 : 3 ≤ s + 1 / s + 1 := by
    have : s + 1 / s + 1 - 3 = (s - 1) ^ 2 / s := by field_simp; ring
    have : 0 ≤ (s - 1) ^ 2 / s := by positivity
    linarith
  have ht2 : s + 1 / s + 1 ≤ 3.000001 := by
    have h1 : s + 1 / s + 1 - 3 = (s - 1) ^ 2 / s := by field_simp; ring
    have h2 : (s - 1) ^ 2 / s ≤ 0.000001 := by
      rw [div_le_iff₀ (by linarith)]; nlinarith
    linarith
  generalize s + 1 / s + 1 = t at *
  set p := 54 * (wgsB * wgsB) * (z * z) / (3 * t ^ 2 * g ^ 2) with hp
  have hgpos : 0 < g := by
    rw [hg, he]; simp only [x, z]; unfold wgsA wgsB; norm_num
  have hp1 : 0.717331 ≤ p := by
    rw [hp, le_div_iff₀ (by positivity)]
    have h2 : 0.717331 * (3 * 3.000001 ^ 2 * g ^ 2) ≤ 54 * (wgsB * wgsB) * (z * z) := by
      rw [hg, he]; simp only [x, z]; unfold wgsA wgsB; norm_num
    refine le_trans ?_ h2
    gcongr
  have hp2 : p ≤ 0.717332 := by
    rw [hp, div_le_iff₀ (by positivity)]
    have h2 : 54 * (wgsB * wgsB) * (z * z) ≤ 0.717332 * (3 * 3 ^ 2 * g ^ 2) := by
      rw [hg, he]; simp only [x, z]; unfold wgsA wgsB; norm_num
    refine le_trans h2 ?_
    gcongr
  clear_value p
  have hq0 : 0 ≤ 1 + 2 * e ^ 2 * p := by positivity
  have hepos : 0 < e := by rw [he]; unfold wgsA wgsB; norm_num
  have he1 : e < 1 := by rw [he]; unfold wgsA wgsB; norm_num
  have hq1 : 1.0000321464 ≤ √(1 + 2 * e ^ 2 * p) := by
    apply Real.le_sqrt_of_sq_le
    have h1 : 1.0000321464 ^ 2 ≤ 1 + 2 * e ^ 2 * 0.717331 := by rw [he]; unfold wgsA wgsB; norm_num
    refine le_trans h1 ?_
    gcongr
  have hq2 : √(1 + 2 * e ^ 2 * p) ≤ 1.0000321466 := by
    rw [Real.sqrt_le_left (by norm_num)]
    have h1 : 1 + 2 * e ^ 2 * 0.717332 ≤ 1.0000321466 ^ 2 := by rw [he]; unfold wgsA wgsB; norm_num
    refine le_trans ?_ h1
    gcongr
  generalize √(1 + 2 * e ^ 2 * p) = q at *
  have hxpos : 0 < x := by simp only [x]; positivity
  have hzpos : 0 < z := by simp only [z]; positivity
  have hfirst : -p * e * x / (1 + q) ≤ -12251 := by
    rw [div_le_iff₀ (by linarith)]
    have h1 : 12251 * (1 + 1.0000321466) ≤ 0.717331 * (e * x) := by
      rw [he]; simp only [x]; unfold wgsA wgsB; norm_num
    have h2 : 0.717331 * (e * x) ≤ p * (e * x) := by gcongr
    have h3 : 12251 * (1 + q) ≤ 12251 * (1 + 1.0000321466) := by gcongr
    linarith
  set X := 1 / 2 * (wgsA * wgsA) * (1 + 1 / q) - p * (1 - e) * (z * z) / (q * (1 + q)) - 1 / 2 * p * (x * x) with hX
  have hXle : X ≤ 5114650 ^ 2 := by
    have h1 : 1 / q ≤ 1 / 1.0000321464 := one_div_le_one_div_of_le (by norm_num) hq1
    have h2 : 0.717331 * (1 - e) * (z * z) / (1.0000321466 * (1 + 1.0000321466)) ≤ p * (1 - e) * (z * z) / (q * (1 + q)) := by
      have hne : 0 < 1 - e := by linarith
      apply div_le_div₀
      · positivity
      · exact mul_le_mul_of_nonneg_right (mul_le_mul_of_nonneg_right hp1 hne.le) (by positivity)
      · have : 0 < q := by linarith
        positivity
      · have : 0 < q := by linarith
        gcongr
    have h3 : 1 / 2 * (wgsA * wgsA) * (1 + 1 / q) ≤ 1 / 2 * (wgsA * wgsA) * (1 + 1 / 1.0000321464) := by
      gcongr
    have h4 : 1 / 2 * 0.717331 * (x * x) ≤ 1 / 2 * p * (x * x) := by
      gcongr
    have h5 : 1 / 2 * (wgsA * wgsA) * (1 + 1 / 1.0000321464) -
        0.717331 * (1 - e) * (z * z) / (1.0000321466 * (1 + 1.0000321466)) - 1 / 2 * 0.717331 * (x * x) ≤ 5114650 ^ 2 := by
      rw [he]; simp only [x, z]; unfold wgsA wgsB; norm_num
    linarith
  have hroot : √(if X > 0 then X else 0) ≤ 5114650 := by
    rw [Real.sqrt_le_left (by norm_num)]
    by_cases h : X > 0
    · rw [if_pos h]; exact hXle
    · rw [if_neg h]; norm_num
  have hr0 : -p * e * x / (1 + q) + √(if X > 0 then X else 0) ≤ x - 100 := by
    have : (5114650 : ℝ) - 12251 ≤ x - 100 := by simp only [x]; unfold wgsA; norm_num
    linarith
  generalize -p * e * x / (1 + q) + √(if X > 0 then X else 0) = r0 at *
  have hw : (1 - e) * x + 100 * e ≤ x - e * r0 := by
    have : e * r0 ≤ e * (x - 100) := by gcongr
    linarith
  have hw0 : 0 < (1 - e) * x + 100 * e := by
    have : 0 < 1 - e := by linarith
    positivity
  have hv : wgsB ^ 2 / wgsA + 0.51 ≤ √((x - e * r0) ^ 2 + (1 - e) * (z * z)) := by
    apply Real.le_sqrt_of_sq_le
    have h1 : (wgsB ^ 2 / wgsA + 0.51) ^ 2 ≤ ((1 - e) * x + 100 * e) ^ 2 + (1 - e) * (z * z) := by
      rw [he]; simp only [x, z]; unfold wgsA wgsB; norm_num
    refine le_trans h1 ?_
    gcongr
  have huv : √((x - e * r0) ^ 2 + (1 - e) * (z * z)) ≤ √((x - e * r0) ^ 2 + z * z) := by
    apply Real.sqrt_le_sqrt
    have : 0 < e * (z * z) := by positivity
    linarith
  generalize √((x - e * r0) ^ 2 + (1 - e) * (z * z)) = v at *
  generalize √((x - e * r0) ^ 2 + z * z) = u at *
  have hba : 0 < wgsB ^ 2 / wgsA := by positivity
  have hvpos : 0 < v := by linarith
  have h1 : wgsB * wgsB / (wgsA * v) = wgsB ^ 2 / wgsA / v := by field_simp
  rw [h1]
  have h2 : 0 ≤ 1 - wgsB ^ 2 / wgsA / v := by
    rw [sub_nonneg, div_le_one hvpos]; linarith
  have h3 : v * (1 - wgsB ^ 2 / wgsA / v) = v - wgsB ^ 2 / wgsA := by field_simp
  have h4 := mul_le_mul_of_nonneg_right huv h2
  linarith

end Verif.Frames
