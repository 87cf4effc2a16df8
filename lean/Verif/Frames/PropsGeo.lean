import Verif.Frames.PropsFrames

/-!
# C58: geodetic and Earth-fixed coordinates
-/

namespace Verif.Frames

open Verif.Mat Verif.Att Real

theorem e2_pos : 0 < wgsE2 := by unfold wgsE2; norm_num
theorem e2_lt : wgsE2 < 1 := by unfold wgsE2; norm_num
theorem a_pos : 0 < wgsA := by unfold wgsA; norm_num
theorem eps_pos : 0 < f64Eps * 100 := by unfold f64Eps; positivity

/-- C58. A point of zero altitude lies on the ellipsoid of revolution with equatorial radius `a` and squared polar
radius `a² (1 - e²)`, at every latitude and longitude. -/
theorem C58_ellipsoid (lat lon : ℝ) :
    let p := geodeticToEcef lat lon 0
    (p 0 ^ 2 + p 1 ^ 2) / wgsA ^ 2 + p 2 ^ 2 / (wgsA ^ 2 * (1 - wgsE2)) = 1 := by
  intro p
  have hs := sin_sq_add_cos_sq lat
  have hl := sin_sq_add_cos_sq lon
  have hp : 0 < 1 - wgsE2 * sin lat * sin lat := by
    nlinarith [e2_pos, e2_lt, sq_nonneg (sin lat), sq_nonneg (cos lat)]
  have hsq : √(1 - wgsE2 * sin lat * sin lat) ^ 2 = 1 - wgsE2 * sin lat * sin lat := Real.sq_sqrt hp.le
  have hpos := Real.sqrt_pos.2 hp
  have h1 : (1 - wgsE2) ≠ 0 := by have := e2_lt; linarith
  have ha := a_pos.ne'
  simp only [p, geodeticToEcef, Matrix.cons_val, add_zero]
  generalize √(1 - wgsE2 * sin lat * sin lat) = r at *
  have hr : r ≠ 0 := hpos.ne'
  field_simp
  rw [hsq]
  linear_combination (cos lat ^ 2) * hl + hs

/-- The value of one pass in closed form. -/
theorem geoDz_eq {rho2 z dz : ℝ} (h : 0 < rho2 + (z + dz) * (z + dz)) :
    geoDz rho2 z dz = wgsA * wgsE2 * ((z + dz) / √(rho2 + (1 - wgsE2) * (z + dz) ^ 2)) := by
  unfold geoDz
  dsimp only
  generalize z + dz = w at *
  have hn := Real.sqrt_pos.2 h
  have hsq : √(rho2 + w * w) ^ 2 = rho2 + w * w := Real.sq_sqrt h.le
  generalize √(rho2 + w * w) = nh at *
  have e : 1 - wgsE2 * (w / nh) * (w / nh) = (rho2 + (1 - wgsE2) * w ^ 2) / nh ^ 2 := by
    rw [eq_div_iff (by positivity)]
    field_simp
    rw [hsq]; ring
  rw [e, Real.sqrt_div' _ (sq_nonneg _), Real.sqrt_sq hn.le]
  by_cases h0 : √(rho2 + (1 - wgsE2) * w ^ 2) = 0
  · rw [h0]; simp
  · field_simp

/-- What the loop guarantees when it is left by `break`. -/
theorem geoLoop_converged {eps rho2 z : ℝ} (fuel : ℕ) (n dz : ℝ)
    (h : (geoLoop eps rho2 z fuel n dz).converged = true) :
    (geoLoop eps rho2 z fuel n dz).n = geoN rho2 z (geoLoop eps rho2 z fuel n dz).dz ∧
      |(geoLoop eps rho2 z fuel n dz).dz - geoDz rho2 z (geoLoop eps rho2 z fuel n dz).dz| < eps := by
  induction fuel generalizing n dz with
  | zero => simp [geoLoop] at h
  | succ k ih =>
    unfold geoLoop at h ⊢
    dsimp only at h ⊢
    by_cases hc : |dz - geoDz rho2 z dz| < eps
    · simp only [hc, if_true]; exact ⟨trivial, trivial⟩
    · simp only [hc, if_false] at h ⊢
      exact ih _ _ h

/-- The correction always has the sign of `z`. -/
def Signed (z d : ℝ) : Prop := ∃ t, 0 ≤ t ∧ d = z * t

theorem signed_w {rho2 z d : ℝ} (h : Signed z d) (hp : 0 < rho2 + z ^ 2) : 0 < rho2 + (z + d) * (z + d) := by
  obtain ⟨t, ht, rfl⟩ := h
  have : rho2 + (z + z * t) * (z + z * t) = rho2 + z ^ 2 + z ^ 2 * (2 * t + t ^ 2) := by ring
  rw [this]; positivity

theorem signed_step {rho2 z d : ℝ} (h : Signed z d) (hp : 0 < rho2 + z ^ 2) : Signed z (geoDz rho2 z d) := by
  have hw := signed_w h hp
  obtain ⟨t, ht, rfl⟩ := h
  refine ⟨wgsA * wgsE2 * ((1 + t) / √(rho2 + (1 - wgsE2) * (z + z * t) ^ 2)), ?_, ?_⟩
  · have := a_pos; have := e2_pos; positivity
  · rw [geoDz_eq hw]; ring

theorem geoLoop_signed {eps rho2 z : ℝ} (hp : 0 < rho2 + z ^ 2) (fuel : ℕ) (n d : ℝ) (h : Signed z d) :
    Signed z (geoLoop eps rho2 z fuel n d).dz := by
  induction fuel generalizing n d with
  | zero => exact h
  | succ k ih =>
    unfold geoLoop
    dsimp only
    split_ifs
    · exact h
    · exact ih _ _ (signed_step h hp)

theorem signed_start (z : ℝ) : Signed z (wgsE2 * z) := ⟨wgsE2, e2_pos.le, mul_comm _ _⟩

/-- C58. Whenever the iteration converges, converting the answer back gives the original x and y exactly and z within
the tolerance of the iteration (`100 ε`), for every point but the centre of the Earth. -/
theorem C58_round_trip {x y z : ℝ} (hp : 0 < x ^ 2 + y ^ 2 + z ^ 2) (h : (ecefToGeodetic x y z).2 = true) :
    let g := (ecefToGeodetic x y z).1
    let back := geodeticToEcef (g 0) (g 1) (g 2)
    back 0 = x ∧ back 1 = y ∧ |back 2 - z| < f64Eps * 100 := by
  obtain ⟨hn, hd⟩ := geoLoop_converged 101 0 (wgsE2 * z) h
  have hsg := geoLoop_signed (eps := f64Eps * 100) (rho2 := x * x + y * y) (by nlinarith) 101 0 _ (signed_start z)
  have hw0 := signed_w (rho2 := x * x + y * y) hsg (by nlinarith)
  intro g back
  have hx := polar_x x y
  have hy := polar_y x y
  simp only [back, g, ecefToGeodetic, geodeticToEcef, Matrix.cons_val]
  rw [hn]
  generalize (geoLoop (f64Eps * 100) (x * x + y * y) z 101 0 (wgsE2 * z)).dz = d at *
  unfold geoDz at hd
  unfold geoN
  dsimp only at hd ⊢
  generalize hw : z + d = w at *
  have hps := polar_x (√(x * x + y * y)) w
  have hpc := polar_y (√(x * x + y * y)) w
  rw [Real.mul_self_sqrt (add_nonneg (mul_self_nonneg _) (mul_self_nonneg _))] at hps hpc
  have hnn : 0 < √(x * x + y * y + w * w) := Real.sqrt_pos.2 hw0
  have hcos : cos (atan2 w (√(x * x + y * y))) = √(x * x + y * y) / √(x * x + y * y + w * w) := by
    rw [eq_div_iff hnn.ne']; linarith
  have hsin : sin (atan2 w (√(x * x + y * y))) = w / √(x * x + y * y + w * w) := by
    rw [eq_div_iff hnn.ne']; linarith
  rw [hcos, hsin]
  generalize √(x * x + y * y + w * w) = nh at *
  generalize wgsA / √(1 - wgsE2 * (w / nh) * (w / nh)) = n at *
  refine ⟨?_, ?_, ?_⟩
  · have : (n + (nh - n)) * (√(x * x + y * y) / nh) = √(x * x + y * y) := by field_simp; ring
    rw [this, hx]
  · have : (n + (nh - n)) * (√(x * x + y * y) / nh) = √(x * x + y * y) := by field_simp; ring
    rw [this, hy]
  · have e : (n * (1 - wgsE2) + (nh - n)) * (w / nh) = w - n * wgsE2 * (w / nh) := by field_simp; ring
    rw [e, ← hw]
    rw [← hw] at hd
    convert hd using 2
    ring

theorem lipschitz {rho2 c z p q M : ℝ} (hr : 0 ≤ rho2) (hc : 0 ≤ c) (hp : 1 ≤ p) (hq : 1 ≤ q) (hM : 0 < M)
    (hW : M ^ 2 ≤ rho2 + c * (z * p) ^ 2) (hV : M ^ 2 ≤ rho2 + c * (z * q) ^ 2) :
    |z * p / √(rho2 + c * (z * p) ^ 2) - z * q / √(rho2 + c * (z * q) ^ 2)| ≤ |z * p - z * q| / M := by
  have hWp : 0 < rho2 + c * (z * p) ^ 2 := lt_of_lt_of_le (by positivity) hW
  have hVp : 0 < rho2 + c * (z * q) ^ 2 := lt_of_lt_of_le (by positivity) hV
  have sW := Real.sqrt_pos.2 hWp
  have sV := Real.sqrt_pos.2 hVp
  have qW := Real.sq_sqrt hWp.le
  have qV := Real.sq_sqrt hVp.le
  have mW : M ≤ √(rho2 + c * (z * p) ^ 2) := Real.le_sqrt_of_sq_le hW
  have mV : M ≤ √(rho2 + c * (z * q) ^ 2) := Real.le_sqrt_of_sq_le hV
  have rW : rho2 ≤ √(rho2 + c * (z * p) ^ 2) ^ 2 := by rw [qW]; nlinarith [mul_nonneg hc (sq_nonneg (z * p))]
  have rV : rho2 ≤ √(rho2 + c * (z * q) ^ 2) ^ 2 := by rw [qV]; nlinarith [mul_nonneg hc (sq_nonneg (z * q))]
  generalize √(rho2 + c * (z * p) ^ 2) = A at *
  generalize √(rho2 + c * (z * q) ^ 2) = B at *
  have key : (p * B - q * A) * (p * B + q * A) = rho2 * (p - q) * (p + q) := by
    linear_combination p ^ 2 * qV - q ^ 2 * qW
  have hAB : rho2 ≤ A * B := by
    have : rho2 ^ 2 ≤ (A * B) ^ 2 := by
      rw [mul_pow, pow_two rho2]
      exact mul_le_mul rW rV hr (sq_nonneg _)
    exact le_of_sq_le_sq this (by positivity)
  have hden : 0 < p * B + q * A := by positivity
  have e : z * p / A - z * q / B = z * (rho2 * (p - q) * (p + q)) / (A * B * (p * B + q * A)) := by
    rw [← key]; field_simp
  rw [e, abs_div, abs_of_pos (show 0 < A * B * (p * B + q * A) by positivity), div_le_div_iff₀ (by positivity) hM]
  have e2 : |z * (rho2 * (p - q) * (p + q))| = |z * p - z * q| * (rho2 * (p + q)) := by
    rw [show z * (rho2 * (p - q) * (p + q)) = (z * p - z * q) * (rho2 * (p + q)) by ring, abs_mul,
      abs_of_nonneg (show 0 ≤ rho2 * (p + q) by positivity)]
  rw [e2, mul_assoc]
  apply mul_le_mul_of_nonneg_left _ (abs_nonneg _)
  have h1 : (p + q) * M ≤ p * B + q * A := by nlinarith
  calc rho2 * (p + q) * M = rho2 * ((p + q) * M) := by ring
    _ ≤ A * B * (p * B + q * A) := mul_le_mul hAB h1 (by positivity) (by positivity)

/-- One pass shrinks differences by the factor `a e² / (√(1 - e²) R)`, where `R` is at most the distance from
the centre. -/
theorem geoDz_contract {rho2 z d d' R : ℝ} (hr : 0 ≤ rho2) (hR : 0 < R) (hp : R ^ 2 ≤ rho2 + z ^ 2)
    (h : Signed z d) (h' : Signed z d') :
    |geoDz rho2 z d - geoDz rho2 z d'| ≤ 43000 / R * |d - d'| := by
  have hpos : 0 < rho2 + z ^ 2 := lt_of_lt_of_le (by positivity) hp
  rw [geoDz_eq (signed_w h hpos), geoDz_eq (signed_w h' hpos)]
  obtain ⟨t, ht, rfl⟩ := h
  obtain ⟨s, hs, rfl⟩ := h'
  have hc : 0 ≤ 1 - wgsE2 := by have := e2_lt; linarith
  have hM : ∀ t : ℝ, 0 ≤ t → (996 / 1000 * R) ^ 2 ≤ rho2 + (1 - wgsE2) * (z * (1 + t)) ^ 2 := by
    intro t ht
    have h1 : z ^ 2 ≤ (z * (1 + t)) ^ 2 := by
      have : (z * (1 + t)) ^ 2 = z ^ 2 + z ^ 2 * (2 * t + t ^ 2) := by ring
      rw [this]; nlinarith [mul_nonneg (sq_nonneg z) (show 0 ≤ 2 * t + t ^ 2 by positivity)]
    have h2 : (1 - wgsE2) * z ^ 2 ≤ (1 - wgsE2) * (z * (1 + t)) ^ 2 := mul_le_mul_of_nonneg_left h1 hc
    have h3 : (996 / 1000 : ℝ) ^ 2 ≤ 1 - wgsE2 := by unfold wgsE2; norm_num
    have h4 : (996 / 1000 : ℝ) ^ 2 * (rho2 + z ^ 2) ≤ rho2 + (1 - wgsE2) * z ^ 2 := by
      nlinarith [sq_nonneg z]
    calc (996 / 1000 * R) ^ 2 = (996 / 1000 : ℝ) ^ 2 * R ^ 2 := by ring
      _ ≤ (996 / 1000 : ℝ) ^ 2 * (rho2 + z ^ 2) := mul_le_mul_of_nonneg_left hp (by positivity)
      _ ≤ _ := by linarith
  have hl := lipschitz (c := 1 - wgsE2) (z := z) (p := 1 + t) (q := 1 + s) (M := 996 / 1000 * R) hr hc
    (by linarith) (by linarith) (by positivity) (hM t ht) (hM s hs)
  have e1 : z + z * t = z * (1 + t) := by ring
  have e2 : z + z * s = z * (1 + s) := by ring
  have e3 : z * (1 + t) - z * (1 + s) = z * t - z * s := by ring
  rw [e3] at hl
  rw [e1, e2, ← mul_sub, abs_mul, abs_of_pos (mul_pos a_pos e2_pos)]
  have hK : wgsA * wgsE2 ≤ 43000 * (996 / 1000) := by unfold wgsA wgsE2; norm_num
  calc wgsA * wgsE2 * |z * (1 + t) / √(rho2 + (1 - wgsE2) * (z * (1 + t)) ^ 2)
          - z * (1 + s) / √(rho2 + (1 - wgsE2) * (z * (1 + s)) ^ 2)|
      ≤ 43000 * (996 / 1000) * (|z * t - z * s| / (996 / 1000 * R)) :=
        mul_le_mul hK hl (abs_nonneg _) (by norm_num)
    _ = 43000 / R * |z * t - z * s| := by field_simp

theorem geoLoop_converges {eps rho2 z R : ℝ} (hr : 0 ≤ rho2) (hR : 100000 ≤ R)
    (hp : R ^ 2 ≤ rho2 + z ^ 2) (k : ℕ) (n d : ℝ) (h : Signed z d) (hb : |d - geoDz rho2 z d| < eps * 2 ^ k) :
    (geoLoop eps rho2 z (k + 1) n d).converged = true := by
  have hpos : 0 < rho2 + z ^ 2 := lt_of_lt_of_le (by positivity) hp
  induction k generalizing n d with
  | zero =>
    unfold geoLoop
    dsimp only
    rw [pow_zero, mul_one] at hb
    simp only [hb, if_true]
  | succ k ih =>
    unfold geoLoop
    dsimp only
    split_ifs
    · rfl
    · apply ih _ _ (signed_step h hpos)
      have hc := geoDz_contract hr (by linarith) hp h (signed_step h hpos)
      have : 43000 / R ≤ 1 / 2 := by rw [div_le_div_iff₀ (by linarith) (by norm_num)]; linarith
      have h2 : 43000 / R * |d - geoDz rho2 z d| ≤ 1 / 2 * |d - geoDz rho2 z d| :=
        mul_le_mul_of_nonneg_right this (abs_nonneg _)
      rw [pow_succ] at hb
      linarith

/-- C58. The iteration converges, within its bound on the number of passes, for every point at least 100 km from the
centre of the Earth: above, on or below the ellipsoid, at any latitude, poles included. -/
theorem C58_converges {x y z : ℝ} (hp : (100000 : ℝ) ^ 2 ≤ x ^ 2 + y ^ 2 + z ^ 2) :
    (ecefToGeodetic x y z).2 = true := by
  have hr : 0 ≤ x * x + y * y := add_nonneg (mul_self_nonneg _) (mul_self_nonneg _)
  have hpos : 0 < x * x + y * y + z ^ 2 := by nlinarith
  set R := √(x * x + y * y + z ^ 2) with hRdef
  have hR2 : R ^ 2 = x * x + y * y + z ^ 2 := Real.sq_sqrt hpos.le
  have hR : 100000 ≤ R := Real.le_sqrt_of_sq_le (by nlinarith)
  have h0 := signed_start z
  have h1 := signed_step h0 hpos
  have hc := geoDz_contract hr (by linarith) hR2.le h0 h1
  -- the size of one pass
  have hb : ∀ d, Signed z d → |geoDz (x * x + y * y) z d| ≤ 43000 := by
    intro d hd
    rw [geoDz_eq (signed_w hd hpos), abs_mul, abs_of_pos (mul_pos a_pos e2_pos)]
    have hK : wgsA * wgsE2 ≤ 43000 * (996 / 1000) := by unfold wgsA wgsE2; norm_num
    have hW : 0 ≤ x * x + y * y + (1 - wgsE2) * (z + d) ^ 2 := by
      have := e2_lt; nlinarith [sq_nonneg (z + d)]
    have hq : |(z + d) / √(x * x + y * y + (1 - wgsE2) * (z + d) ^ 2)| ≤ 1000 / 996 := by
      rw [abs_div, abs_of_nonneg (Real.sqrt_nonneg _)]
      apply div_le_of_le_mul₀ (Real.sqrt_nonneg _) (by norm_num)
      rw [← div_le_iff₀' (by norm_num)]
      apply Real.le_sqrt_of_sq_le
      have h3 : (996 / 1000 : ℝ) ^ 2 ≤ 1 - wgsE2 := by unfold wgsE2; norm_num
      rw [div_pow, sq_abs]
      have h4 : (z + d) ^ 2 / (1000 / 996) ^ 2 = (996 / 1000) ^ 2 * (z + d) ^ 2 := by ring
      have h5 := mul_le_mul_of_nonneg_right h3 (sq_nonneg (z + d))
      linarith
    calc wgsA * wgsE2 * _ ≤ 43000 * (996 / 1000) * (1000 / 996) := mul_le_mul hK hq (abs_nonneg _) (by norm_num)
      _ = 43000 := by norm_num
  have hd1 := hb _ h0
  have hz : |z| ≤ R := abs_le_of_sq_le_sq (by nlinarith) (by linarith)
  have hd0 : |wgsE2 * z| ≤ 7 / 1000 * R := by
    rw [abs_mul, abs_of_pos e2_pos]
    have : wgsE2 ≤ 7 / 1000 := by unfold wgsE2; norm_num
    exact mul_le_mul this hz (abs_nonneg _) (by norm_num)
  have hbig : |geoDz (x * x + y * y) z (wgsE2 * z)
      - geoDz (x * x + y * y) z (geoDz (x * x + y * y) z (wgsE2 * z))| ≤ 20000 := by
    have : |wgsE2 * z - geoDz (x * x + y * y) z (wgsE2 * z)| ≤ 7 / 1000 * R + 43000 :=
      (abs_sub _ _).trans (by linarith)
    have h43 : 0 ≤ 43000 / R := by positivity
    calc _ ≤ 43000 / R * |wgsE2 * z - geoDz (x * x + y * y) z (wgsE2 * z)| := hc
      _ ≤ 43000 / R * (7 / 1000 * R + 43000) := mul_le_mul_of_nonneg_left this h43
      _ = 301 + 43000 ^ 2 / R := by field_simp; ring
      _ ≤ 301 + 43000 ^ 2 / 100000 := by
          have : (43000 : ℝ) ^ 2 / R ≤ 43000 ^ 2 / 100000 := div_le_div_of_nonneg_left (by norm_num) (by norm_num) hR
          linarith
      _ ≤ 20000 := by norm_num
  unfold ecefToGeodetic
  dsimp only
  show (geoLoop (f64Eps * 100) (x * x + y * y) z (100 + 1) 0 (wgsE2 * z)).converged = true
  unfold geoLoop
  dsimp only
  split_ifs
  · rfl
  · apply geoLoop_converges hr hR hR2.le 99 _ _ h1
    refine lt_of_le_of_lt hbig ?_
    unfold f64Eps
    norm_num

/-- C58. Hence every position at least 100 km from the centre is recovered: x and y exactly, z within `100 ε`
metres (in exact arithmetic). -/
theorem C58_all_positions {x y z : ℝ} (hp : (100000 : ℝ) ^ 2 ≤ x ^ 2 + y ^ 2 + z ^ 2) :
    let g := (ecefToGeodetic x y z).1
    let back := geodeticToEcef (g 0) (g 1) (g 2)
    back 0 = x ∧ back 1 = y ∧ |back 2 - z| < f64Eps * 100 :=
  C58_round_trip (lt_of_lt_of_le (by norm_num) hp) (C58_converges hp)

/-- C58. The reported longitude and latitude are in their principal ranges. -/
theorem C58_ranges (x y z : ℝ) (_h : x ≠ 0 ∨ y ≠ 0 ∨ z ≠ 0) :
    let g := (ecefToGeodetic x y z).1
    (-(π / 2) ≤ g 0 ∧ g 0 ≤ π / 2) ∧ (-π < g 1 ∧ g 1 ≤ π) := by
  intro g
  simp only [g, ecefToGeodetic, Matrix.cons_val]
  unfold atan2
  refine ⟨abs_le.1 (Complex.abs_arg_le_pi_div_two_iff.2 (Real.sqrt_nonneg _)), Complex.neg_pi_lt_arg _,
    Complex.arg_le_pi _⟩

example : ((100000 : ℝ)) ^ 2 ≤ 0 ^ 2 + 0 ^ 2 + 6356752 ^ 2 := by norm_num

end Verif.Frames
