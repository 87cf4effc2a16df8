import Verif.Frames.PropsFerrariError

/-!
# C97: bounds for the closed-form geodetic conversion at every point from 20 km below the ellipsoid upwards
-/

namespace Verif.Frames

open Verif.Att Real

/-- Specification: the point at geodetic latitude `φ`, longitude `lon` and altitude `h` over the ellipsoid with the axes `wgsA` and `wgsB`: the point of the
ellipsoid whose normal has the latitude `φ`, and `h` along that normal. -/
noncomputable def overEllipsoid (φ lon h : ℝ) : Fin 3 → ℝ :=
  let n := wgsA ^ 2 / √(wgsA ^ 2 * cos φ ^ 2 + wgsB ^ 2 * sin φ ^ 2)
  ![(n + h) * cos φ * cos lon, (n + h) * cos φ * sin lon, (wgsB ^ 2 / wgsA ^ 2 * n + h) * sin φ]

theorem atan2_polar {M φ : ℝ} (hM : 0 < M) (h1 : -(π / 2) ≤ φ) (h2 : φ ≤ π / 2) : atan2 (M * sin φ) (M * cos φ) = φ := by
  unfold atan2
  have : (⟨M * cos φ, M * sin φ⟩ : ℂ) = M * (Complex.cos φ + Complex.sin φ * Complex.I) := by
    apply Complex.ext <;> simp [← Complex.ofReal_cos, ← Complex.ofReal_sin]
  rw [this, Complex.arg_mul_cos_add_sin_mul_I hM ⟨by linarith [pi_pos], by linarith [pi_pos]⟩]

theorem atan2_arctan {y x : ℝ} (hx : 0 < x) : atan2 y x = arctan (y / x) := by
  unfold atan2
  rw [Complex.arg_of_re_nonneg (show (0 : ℝ) ≤ (⟨x, y⟩ : ℂ).re from hx.le)]
  rw [Real.arctan_eq_arcsin]
  congr 1
  show y / ‖(⟨x, y⟩ : ℂ)‖ = _
  have hn : ‖(⟨x, y⟩ : ℂ)‖ = x * √(1 + (y / x) ^ 2) := by
    rw [Complex.norm_def, Complex.normSq_mk, show x * x + y * y = x ^ 2 * (1 + (y / x) ^ 2) by field_simp,
      Real.sqrt_mul (by positivity), Real.sqrt_sq hx.le]
  rw [hn]
  field_simp

theorem arctan_sub_le (x y : ℝ) : |arctan x - arctan y| ≤ |x - y| := by
  have := Convex.norm_image_sub_le_of_norm_deriv_le (f := arctan) (C := 1) (s := Set.univ) (x := y) (y := x)
    (fun z _ => Real.differentiableAt_arctan z) (fun z _ => by
      rw [Real.deriv_arctan, Real.norm_eq_abs, abs_of_pos (by positivity)]
      rw [div_le_one (by positivity)]; nlinarith [sq_nonneg z]) convex_univ (Set.mem_univ _) (Set.mem_univ _)
  simpa using this

/-- The resolvent variable is small. -/
theorem cc_bound {A E Y Z G : ℝ} (hE : 0 < E) (hE2 : E ≤ 0.0066945) (hA : 0 < A) (hY : 0 ≤ Y) (hZ : 0 ≤ Z) (hR : 0 < Y + Z)
    (hAR : A ≤ 1.0204 * (Y + Z)) (hG : G = Y + Z - E ^ 2 * A) :
    0 < G ∧ 0 ≤ 54 * E ^ 2 * A * Z * Y / G ^ 3 ∧ 54 * E ^ 2 * A * Z * Y / G ^ 3 ≤ 0.001 := by
  have hE22 : E ^ 2 ≤ 0.0000449 := by
    have := pow_le_pow_left₀ hE.le hE2 2
    norm_num at this ⊢; linarith
  have h1 : Z * Y ≤ (Y + Z) ^ 2 / 4 := by nlinarith only [sq_nonneg (Y - Z)]
  generalize hRd : Y + Z = R at *
  have hGR : 0.99995 * R ≤ G := by
    rw [hG]
    have : E ^ 2 * A ≤ 0.0000449 * (1.0204 * R) := mul_le_mul hE22 hAR hA.le (by norm_num)
    linarith
  have hG0 : 0 < G := by linarith
  refine ⟨hG0, by positivity, ?_⟩
  rw [div_le_iff₀ (by positivity)]
  have h2 : (0.99995 * R) ^ 3 ≤ G ^ 3 := pow_le_pow_left₀ (by positivity) hGR 3
  have h3 : 54 * E ^ 2 * A * Z * Y ≤ 54 * 0.0000449 * (1.0204 * R) * (R ^ 2 / 4) := by
    have : 54 * E ^ 2 * A * Z * Y = 54 * E ^ 2 * A * (Z * Y) := by ring
    rw [this]; gcongr
  have h4 : 0 < R ^ 3 := by positivity
  linarith

set_option maxHeartbeats 1000000 in
/-- The computed foot point lies close to the true one. -/
theorem foot_near {a b E c σ w N h U p z g cc k' P' Q' r0' : ℝ} (ha : 0 < a) (hbE : b ^ 2 = a ^ 2 * (1 - E)) (hE : 0 < E) (hE2 : E ≤ 0.0066945)
    (hc : 0 ≤ c) (hcs : σ ^ 2 + c ^ 2 = 1) (hw : 0 < w) (hw1 : w ≤ 1) (hww : w ^ 2 = 1 - E * σ ^ 2) (hNw : N * w = a)
    (hUd : U = N * (1 - E) + h) (hVa : 0.99 * a ≤ U * w) (hp : p = (N + h) * c) (hz : z = U * σ)
    (hg : g = p * p + (1 - E) * (z * z) - E * (a * a - b * b)) (hcc : cc = E ^ 2 * (54 * (b * b) * (z * z)) * (p * p) / g ^ 3)
    (hk' : k' = (1 + cc + (cc ^ 2 + 2 * cc)) ^ (1 / 3 : ℝ) + 1 / (1 + cc + (cc ^ 2 + 2 * cc)) ^ (1 / 3 : ℝ) + 1)
    (hP' : P' = 54 * (b * b) * (z * z) / (3 * k' ^ 2 * g ^ 2)) (hQ' : Q' = √(1 + 2 * E ^ 2 * P'))
    (hr0' : r0' = -P' * E * p / (1 + Q') + √(if footSq a E p z P' Q' > 0 then footSq a E p z P' Q' else 0)) :
    0 ≤ N * c - r0' ∧ c * (N * c - r0') ≤ 1.236 * E ^ 2 * a ∧ N * c - r0' ≤ 8.52 * E ^ 2 * a * c := by
  have hU : 0 < U := by
    by_contra hneg
    push Not at hneg
    have := mul_nonpos_of_nonpos_of_nonneg hneg hw.le
    linarith
  have hN : 0 < N := by
    by_contra hneg
    push Not at hneg
    have := mul_nonpos_of_nonpos_of_nonneg hneg hw.le
    linarith
  have haN : a ≤ N := by nlinarith only [hNw, hw1, hN]
  have hM : 0 < N + h := by nlinarith only [hUd, hU, hN, hE]
  obtain ⟨r0, hr0⟩ : ∃ r0, r0 = N * c := ⟨_, rfl⟩
  rw [← hr0]
  have hp0 : 0 ≤ p := by rw [hp]; positivity
  have hr00 : 0 ≤ r0 := by rw [hr0]; positivity
  have hpr : p - E * r0 = U * c := by rw [hp, hr0, hUd]; ring
  have hV2 : (U * w) ^ 2 = (U * c) ^ 2 + (1 - E) * z ^ 2 := by
    rw [mul_pow, hww, hz]; linear_combination (-U ^ 2) * hcs
  have hwl : 0.9933 ≤ w ^ 2 := by rw [hww]; nlinarith only [hcs, sq_nonneg c, sq_nonneg σ, hE, hE2]
  have hra : r0 ≤ a := by
    have : r0 ^ 2 ≤ a ^ 2 := by
      have e : a ^ 2 - r0 ^ 2 = N ^ 2 * ((1 - E) * σ ^ 2) := by
        rw [← hNw, hr0, mul_pow, mul_pow, hww]; linear_combination (-N ^ 2) * hcs
      have : 0 ≤ N ^ 2 * ((1 - E) * σ ^ 2) := mul_nonneg (sq_nonneg _) (mul_nonneg (by linarith) (sq_nonneg _))
      linarith
    exact (pow_le_pow_iff_left₀ hr00 ha.le (by norm_num)).1 this
  have hquart : r0 ^ 2 * (p - E * r0) ^ 2 + (1 - E) * z ^ 2 * r0 ^ 2 = a ^ 2 * (p - E * r0) ^ 2 := by
    rw [hpr, ← hNw, hr0, hz]
    linear_combination (N ^ 2 * c ^ 2 * U ^ 2) * (hcs - hww)
  obtain ⟨V, hV⟩ : ∃ V, V = U * w := ⟨_, rfl⟩
  rw [← hV] at hVa hV2
  have hV0 : 0 < V := lt_of_lt_of_le (by positivity) hVa
  have haV : a ^ 2 ≤ 1.0204 * V ^ 2 := by nlinarith only [hVa, ha]
  have hVR : V ^ 2 ≤ p ^ 2 + (1 - E) * z ^ 2 := by
    rw [hV2]
    have : U * c ≤ p := by rw [← hpr]; linarith [mul_nonneg hE.le hr00]
    have := pow_le_pow_left₀ (mul_nonneg hU.le hc) this 2
    linarith
  have hMV : (N + h) ^ 2 ≤ 1.0206 * V ^ 2 := by
    have e : (N + h) * w = V + E * a := by rw [hV, hUd, ← hNw]; ring
    have h1 : (N + h) ^ 2 * w ^ 2 = (V + E * a) ^ 2 := by rw [← mul_pow, e]
    have h2 : E * a ≤ 0.00677 * V := by nlinarith only [hVa, hE2, ha, hE]
    have h3 : (V + E * a) ^ 2 ≤ (1.00677 * V) ^ 2 := pow_le_pow_left₀ (by positivity) (by linarith) 2
    have h4 : (N + h) ^ 2 * 0.9933 ≤ (N + h) ^ 2 * w ^ 2 := mul_le_mul_of_nonneg_left hwl (sq_nonneg _)
    linarith only [h1, h3, h4, sq_nonneg V]
  have hZ0 : 0 ≤ (1 - E) * z ^ 2 := mul_nonneg (by linarith) (sq_nonneg z)
  have hR0 : 0 < p ^ 2 + (1 - E) * z ^ 2 := lt_of_lt_of_le (by positivity) hVR
  have hAR : a ^ 2 ≤ 1.0204 * (p ^ 2 + (1 - E) * z ^ 2) := haV.trans (mul_le_mul_of_nonneg_left hVR (by norm_num))
  have hgG : g = p ^ 2 + (1 - E) * z ^ 2 - E ^ 2 * a ^ 2 := by rw [hg]; linear_combination E * hbE
  have hcc2 : cc = 54 * E ^ 2 * a ^ 2 * ((1 - E) * z ^ 2) * p ^ 2 / g ^ 3 := by
    rw [hcc]; congr 1; linear_combination E ^ 2 * 54 * z ^ 2 * p ^ 2 * hbE
  obtain ⟨hg0, hcc0, hcc1⟩ := cc_bound hE hE2 (show 0 < a ^ 2 by positivity) (sq_nonneg p) hZ0 hR0 hAR hgG
  rw [← hcc2] at hcc0 hcc1
  -- the exact resolvent
  obtain ⟨k, hk3, hkc⟩ : ∃ k, 3 ≤ k ∧ k ^ 2 * (k - 3) = 2 * cc := by
    have hT1 : 1 ≤ 1 + cc + √(cc ^ 2 + 2 * cc) := by linarith [Real.sqrt_nonneg (cc ^ 2 + 2 * cc)]
    obtain ⟨h1, h2⟩ := resolvent hT1
    refine ⟨_, h1, ?_⟩
    rw [h2, div_eq_iff (by linarith)]
    have := Real.sq_sqrt (show 0 ≤ cc ^ 2 + 2 * cc by positivity)
    linear_combination this
  obtain ⟨hk3', hkk'⟩ := resolvent (show 1 ≤ 1 + cc + (cc ^ 2 + 2 * cc) by nlinarith only [hcc0])
  rw [← hk'] at hk3' hkk'
  have hkc' : k' ^ 2 * (k' - 3) ≤ 2 * cc := by
    rw [hkk', div_le_iff₀ (by positivity)]
    nlinarith only [hcc0, hcc1, mul_nonneg hcc0 hcc0, mul_nonneg (mul_nonneg hcc0 hcc0) hcc0, mul_nonneg hcc0 (sub_nonneg.2 hcc1),
      mul_nonneg (mul_nonneg hcc0 hcc0) (mul_nonneg hcc0 (sub_nonneg.2 hcc1)), mul_nonneg (mul_nonneg hcc0 hcc0) (sub_nonneg.2 hcc1)]
  obtain ⟨-, hPP, hdP⟩ := delta_bound hE hE2 (show 0 < a ^ 2 by positivity) (sq_nonneg p) hZ0 hR0 hAR hgG hcc2 hk3 hkc hk3' hkc'
  have hP'2 : P' = 18 * a ^ 2 * ((1 - E) * z ^ 2) / (k' ^ 2 * g ^ 2) := by
    have hk0 : k' ≠ 0 := by positivity
    rw [hP', ← sq b, hbE]
    field_simp
    ring
  obtain ⟨P, hP⟩ : ∃ P, P = 18 * a ^ 2 * ((1 - E) * z ^ 2) / (k ^ 2 * g ^ 2) := ⟨_, rfl⟩
  rw [← hP, ← hP'2] at hPP hdP
  have hP0 : 0 ≤ P := by rw [hP]; positivity
  have hP0' : 0 ≤ P' := hP0.trans hPP
  have hQ1' : 1 ≤ Q' := by rw [hQ']; exact Real.one_le_sqrt.2 (by linarith only [mul_nonneg (sq_nonneg E) hP0'])
  have hQ2' : Q' ^ 2 = 1 + 2 * E ^ 2 * P' := by rw [hQ']; exact Real.sq_sqrt (by positivity)
  obtain ⟨Q, hQ⟩ : ∃ Q, Q = √(1 + 2 * E ^ 2 * P) := ⟨_, rfl⟩
  have hQ1 : 1 ≤ Q := by rw [hQ]; exact Real.one_le_sqrt.2 (by linarith only [mul_nonneg (sq_nonneg E) hP0])
  have hQ2 : Q ^ 2 = 1 + 2 * E ^ 2 * P := by rw [hQ]; exact Real.sq_sqrt (by positivity)
  have hk0 : 0 < k := by linarith
  have hPP2 : P * (p ^ 2 + (1 - E) * z ^ 2 - a ^ 2 * E ^ 2 + 2 * E ^ 2 * P * p ^ 2) ^ 2 = 2 * a ^ 2 * (1 - E) * z ^ 2 := by
    have e1 : 2 * E ^ 2 * P * p ^ 2 = g * (k - 3) / 3 := by
      have h1 : k - 3 = 2 * cc / k ^ 2 := by rw [← hkc]; field_simp
      rw [h1, hcc2, hP]
      field_simp
      ring
    have e2 : p ^ 2 + (1 - E) * z ^ 2 - a ^ 2 * E ^ 2 + 2 * E ^ 2 * P * p ^ 2 = g * k / 3 := by
      rw [e1]; linear_combination -hgG
    rw [e2, hP]
    field_simp
    ring
  have hroot := ferrari_root ha hE hr00 hra hp0 (by rw [← sub_nonneg, hpr]; positivity) hQ1 hQ2 hquart (by
    rw [hpr, ← hV2]
    have h1 : E ^ 2 ≤ 0.01 := by nlinarith only [hE, hE2]
    have h2 : E ^ 2 * a ^ 2 ≤ 0.01 * (1.0204 * V ^ 2) := mul_le_mul h1 haV (sq_nonneg a) (by norm_num)
    have h3 : 0 < V ^ 2 := by positivity
    linarith) hPP2
  obtain ⟨hd0, hd1, hd2⟩ := perturb (a := a) (z := z) hE (by linarith) hr00 hp0 hPP hQ1 hQ1' hQ2 hQ2' hroot
  rw [← hr0'] at hd0 hd1 hd2
  refine ⟨hd0, foot_bound hE hE2 ha hc (by rw [hr0]; gcongr) hra hd0 hp hV0 hVa hVR hMV hp0 hdP hd1 fun e => ?_⟩
  have hp00 : p = 0 := by rw [hp, e, mul_zero]
  have : P' - P ≤ 0 := by
    refine hdP.trans (le_of_eq ?_)
    rw [hp00]; simp
  rw [hd2 (by linarith), sub_self]

set_option maxHeartbeats 1000000 in
/-- What the error of the foot point means for altitude and latitude: `y` is what the code passes to `atan2` beside `p`. -/
theorem answer_near {a b E c σ w N h U p z r0' u v d : ℝ} (ha : a = 6378137) (hbE : b ^ 2 = a ^ 2 * (1 - E)) (hE : 0 < E) (hE2 : E ≤ 0.0066945)
    (hc : 0 ≤ c) (hcs : σ ^ 2 + c ^ 2 = 1) (hw : 0 < w) (hw1 : w ≤ 1) (hww : w ^ 2 = 1 - E * σ ^ 2) (hNw : N * w = a)
    (hUd : U = N * (1 - E) + h) (hVa : 0.99 * a ≤ U * w) (hp : p = (N + h) * c) (hz : z = U * σ) (hd : d = N * c - r0')
    (hd0 : 0 ≤ d) (hd1 : c * d ≤ 1.236 * E ^ 2 * a) (hd2 : d ≤ 8.52 * E ^ 2 * a * c)
    (hu : u = √((p - E * r0') ^ 2 + z * z)) (hv : v = √((p - E * r0') ^ 2 + (1 - E) * (z * z))) :
    |u * (1 - b * b / (a * v)) - h| ≤ 2.5 ∧ 0 < v ∧ ∃ η, z + E / (1 - E) * (b * b * z / (a * v)) = (N + h) * σ - η ∧ |η| ≤ 2e-8 * (p * c) := by
  have ha0 : 0 < a := by rw [ha]; norm_num
  have hU : 0 < U := by
    by_contra hneg
    push Not at hneg
    have := mul_nonpos_of_nonpos_of_nonneg hneg hw.le
    linarith
  obtain ⟨V, hV⟩ : ∃ V, V = U * w := ⟨_, rfl⟩
  rw [← hV] at hVa
  have hV0 : 0 < V := lt_of_lt_of_le (by positivity) hVa
  have hVU : V ≤ U := by rw [hV]; nlinarith only [hU, hw1]
  have hwl : 0.9933 ≤ w ^ 2 := by rw [hww]; nlinarith only [hcs, sq_nonneg c, sq_nonneg σ, hE, hE2]
  have hw9 : 0.996 ≤ w := by nlinarith only [hwl, hw]
  have hUV : U ≤ 1.0041 * V := by rw [hV]; nlinarith only [hU, hw9]
  have hV2 : V ^ 2 = (U * c) ^ 2 + (1 - E) * z ^ 2 := by
    rw [hV, mul_pow, hww, hz]; linear_combination (-U ^ 2) * hcs
  have hpr : p - E * r0' = U * c + E * d := by rw [hp, hd, hUd]; ring
  obtain ⟨x, hx⟩ : ∃ x, x = 2 * U * c * (E * d) + (E * d) ^ 2 := ⟨_, rfl⟩
  have hx0 : 0 ≤ x := by rw [hx]; positivity
  have hu2 : u = √(U ^ 2 + x) := by
    rw [hu, hpr, hx, hz]; congr 1; linear_combination U ^ 2 * hcs
  have hv2 : v = √(V ^ 2 + x) := by
    rw [hv, hpr, hx, hV2]; congr 1; ring
  have hE1 : 0 < 1 - E := by linarith
  obtain ⟨n1, n2, n3⟩ := height_near (a := a) hE hU hV0 hVU hc hd0 ha0 (by linarith) (by
    have : U ^ 2 - V ^ 2 = E * U ^ 2 * σ ^ 2 := by rw [hV, mul_pow, hww]; ring
    rw [this]
    have h1 : σ ^ 2 ≤ 1 := by linarith [sq_nonneg c]
    have h2 : 0 ≤ E * U ^ 2 := by positivity
    nlinarith only [h1, h2]) hx
  rw [← hu2, ← hv2] at n1
  rw [← hv2] at n2 n3
  have hv0 : 0 < v := by rw [hv2]; exact Real.sqrt_pos.2 (by positivity)
  -- sizes
  have hE22 : E ^ 2 ≤ 0.00004482 := by
    have := pow_le_pow_left₀ hE.le hE2 2
    norm_num at this ⊢; linarith
  have hcd : c * d ≤ 353.4 := by
    have : 1.236 * E ^ 2 * a ≤ 1.236 * 0.00004482 * 6378137 := by rw [ha]; linarith
    norm_num at this; linarith
  have hdc : d ≤ 2436 * c := by
    have : 8.52 * E ^ 2 * a ≤ 2436 := by rw [ha]; linarith
    have := mul_le_mul_of_nonneg_right this hc
    linarith
  have hEd : E * d ≤ 16.31 * c := by
    have := mul_le_mul hE2 hdc hd0 (by norm_num)
    linarith
  have hEd0 : 0 ≤ E * d := by positivity
  have hsq : (E * d) ^ 2 ≤ 267 * c ^ 2 := by
    have := pow_le_pow_left₀ hEd0 hEd 2
    have h3 := sq_nonneg c
    rw [mul_pow 16.31] at this
    linarith
  have hVn : 6314355 ≤ V := by rw [ha] at hVa; linarith
  have hx1 : x ≤ 4.74 * U := by
    have h1 : U * (E * (c * d)) ≤ U * (0.0066945 * 353.4) := mul_le_mul_of_nonneg_left (mul_le_mul hE2 hcd (by positivity) (by norm_num)) hU.le
    have h2 : c ^ 2 ≤ 1 := by linarith [sq_nonneg σ]
    rw [hx]
    linarith
  have hx2 : x ≤ c ^ 2 * (32.63 * U) := by
    have h1 : U * c * (E * d) ≤ U * c * (16.31 * c) := mul_le_mul_of_nonneg_left hEd (by positivity)
    have h2 : 267 * c ^ 2 ≤ 0.01 * U * c ^ 2 := mul_le_mul_of_nonneg_right (by linarith) (sq_nonneg c)
    rw [hx]
    linarith
  refine ⟨?_, hv0, ?_⟩
  · have e1 : b * b / (a * v) = a * (1 - E) / v := by rw [← sq b, hbE]; field_simp
    have e2 : U * (1 - a * (1 - E) / V) = h := by
      have : a * (1 - E) / V = N * (1 - E) / U := by rw [hV, ← hNw]; field_simp
      rw [this]
      field_simp
      linarith
    rw [e1]
    rw [e2] at n1
    refine n1.trans ?_
    have t1 : x / (2 * U) ≤ 2.37 := by rw [div_le_iff₀ (by positivity)]; linarith
    have t2 : a * (E * U ^ 2 * x / (2 * V ^ 4)) ≤ 0.1 := by
      rw [← mul_div_assoc, div_le_iff₀ (by positivity)]
      have h1 : U ^ 2 * x ≤ (1.0041 * V) ^ 2 * (4.74 * (1.0041 * V)) :=
        mul_le_mul (pow_le_pow_left₀ hU.le hUV 2) (hx1.trans (by linarith)) hx0 (by positivity)
      have h2 : a ≤ 1.0102 * V := by linarith
      have h3 : a * (E * (U ^ 2 * x)) ≤ 1.0102 * V * (0.0066945 * ((1.0041 * V) ^ 2 * (4.74 * (1.0041 * V)))) :=
        mul_le_mul h2 (mul_le_mul hE2 h1 (by positivity) (by norm_num)) (by positivity) (by positivity)
      have h4 : 0 < V ^ 4 := by positivity
      linarith
    linarith
  · refine ⟨E * a * z * (1 / V - 1 / v), ?_, ?_⟩
    · have e1 : E / (1 - E) * (b * b * z / (a * v)) = E * a * z / v := by rw [← sq b, hbE]; field_simp
      have e2 : E * a * z / V = E * N * σ := by rw [hV, ← hNw, hz]; field_simp
      rw [e1, mul_sub, mul_one_div, mul_one_div, e2, hz, hUd]
      ring
    · rw [abs_mul, abs_of_nonneg n2, abs_mul, abs_of_pos (by positivity : 0 < E * a)]
      have hzU : |z| ≤ U := by
        rw [hz, abs_mul, abs_of_pos hU]
        have : |σ| ≤ 1 := abs_le_one_iff_mul_self_le_one.2 (by nlinarith only [hcs, sq_nonneg c])
        nlinarith only [this, hU]
      have hpU : U * c ^ 2 ≤ p * c := by
        rw [hp, hUd]
        have : 0 ≤ E * N * c ^ 2 := by
          have : 0 < N := by
            by_contra hneg
            push Not at hneg
            have := mul_nonpos_of_nonpos_of_nonneg hneg hw.le
            linarith
          positivity
        linarith
      refine le_trans ?_ (mul_le_mul_of_nonneg_left hpU (by norm_num : (0 : ℝ) ≤ 2e-8))
      have h1 : 1 / V - 1 / v ≤ c ^ 2 * (32.63 * U) / (2 * V ^ 3) := n3.trans (by gcongr)
      have h2 : E * a * |z| * (1 / V - 1 / v) ≤ 0.0066945 * (1.0102 * V) * U * (c ^ 2 * (32.63 * U) / (2 * V ^ 3)) := by
        have : a ≤ 1.0102 * V := by linarith
        gcongr
      refine h2.trans ?_
      have e : 0.0066945 * (1.0102 * V) * U * (c ^ 2 * (32.63 * U) / (2 * V ^ 3)) = U * c ^ 2 * (0.0066945 * 1.0102 * 32.63 * U / (2 * V ^ 2)) := by
        field_simp
      rw [e, mul_comm (2e-8 : ℝ)]
      apply mul_le_mul_of_nonneg_left _ (by positivity)
      rw [div_le_iff₀ (by positivity)]
      nlinarith only [hUV, hVn]

set_option maxHeartbeats 1600000 in
/-- C97 (partial). From 20 km below the ellipsoid upwards, at every latitude and longitude, the reported altitude is within 2.5 m of
the true one and the latitude within 2e-8 rad (13 cm on the surface); the longitude is exact. Missing: exactness (`C97_fails`). -/
theorem C97_error_partial {φ lon h : ℝ} (h1 : -(π / 2) ≤ φ) (h2 : φ ≤ π / 2) (hl1 : -π < lon) (hl2 : lon ≤ π) (hh : -20000 ≤ h) :
    let p := overEllipsoid φ lon h
    let q := ferrari (p 0) (p 1) (p 2)
    |q 2 - h| ≤ 2.5 ∧ |q 0 - φ| ≤ 2e-8 ∧ (|φ| < π / 2 → q 1 = lon) := by
  intro pt q
  have ha := a_pos
  have hb := b_pos
  set a := wgsA with haD
  set b := wgsB with hbD
  set E := 1 - b ^ 2 / a ^ 2 with hEd
  have hbE : b ^ 2 = a ^ 2 * (1 - E) := by rw [hEd]; field_simp; ring
  have hE : 0 < E := by rw [hEd, haD, hbD]; unfold wgsA wgsB; norm_num
  have hE2 : E ≤ 0.0066945 := by rw [hEd, haD, hbD]; unfold wgsA wgsB; norm_num
  have hc : 0 ≤ cos φ := cos_nonneg_of_neg_pi_div_two_le_of_le h1 h2
  have hcs := sin_sq_add_cos_sq φ
  set c := cos φ with hcd
  set σ := sin φ with hσd
  have hw2 : 0 < 1 - E * σ ^ 2 := by nlinarith [sq_nonneg c, sq_nonneg σ]
  set w := √(1 - E * σ ^ 2) with hwd
  have hw : 0 < w := Real.sqrt_pos.2 hw2
  have hww : w ^ 2 = 1 - E * σ ^ 2 := Real.sq_sqrt hw2.le
  have hw1 : w ≤ 1 := by
    rw [hwd]; exact Real.sqrt_le_one.2 (by nlinarith [sq_nonneg σ])
  have hwl : 0.9933 ≤ w ^ 2 := by rw [hww]; nlinarith [sq_nonneg c, sq_nonneg σ]
  have hn : a ^ 2 / √(a ^ 2 * c ^ 2 + b ^ 2 * σ ^ 2) = a / w := by
    have : a ^ 2 * c ^ 2 + b ^ 2 * σ ^ 2 = a ^ 2 * (1 - E * σ ^ 2) := by rw [hbE]; linear_combination a ^ 2 * hcs
    rw [this, Real.sqrt_mul (by positivity), Real.sqrt_sq ha.le, ← hwd]
    field_simp
  set N := a / w with hN
  have hNw : N * w = a := by rw [hN]; field_simp
  have haN : a ≤ N := by nlinarith
  set M := N + h with hMd
  set U := N * (1 - E) + h with hUd
  have hUM : M = U + E * N := by rw [hMd, hUd]; ring
  set V := U * w with hVd
  have hVa : 0.99 * a ≤ V := by
    have e : V = a * (1 - E) + h * w := by rw [hVd, hUd, add_mul, mul_right_comm, hNw]
    have : -20000 ≤ h * w := by nlinarith
    have h3 : 0.99 * a + 20000 ≤ a * (1 - 0.0066945) := by rw [haD]; unfold wgsA; norm_num
    rw [e]; nlinarith
  have hV : 0 < V := lt_of_lt_of_le (by positivity) hVa
  have hU : 0 < U := by
    by_contra hneg
    push Not at hneg
    have := mul_nonpos_of_nonpos_of_nonneg hneg hw.le
    linarith
  have hVU : V ≤ U := by rw [hVd]; nlinarith
  have hM : 0 < M := by rw [hUM]; positivity
  set p := M * c with hp
  set z := U * σ with hz
  set r0 := N * c with hr0
  have hp0 : 0 ≤ p := by positivity
  have hr00 : 0 ≤ r0 := by positivity
  have hpr : p - E * r0 = U * c := by rw [hp, hr0, hUM]; ring
  have hV2 : V ^ 2 = (U * c) ^ 2 + (1 - E) * z ^ 2 := by
    rw [hVd, mul_pow, hww, hz]; linear_combination (-U ^ 2) * hcs
  have hc1 : c ≤ 1 := by nlinarith [sq_nonneg σ]
  have hra : r0 ≤ a := by
    have : r0 ^ 2 ≤ a ^ 2 := by
      have e : a ^ 2 - r0 ^ 2 = N ^ 2 * ((1 - E) * σ ^ 2) := by
        rw [← hNw, hr0, mul_pow, mul_pow, hww]; linear_combination (-N ^ 2) * hcs
      have : 0 ≤ N ^ 2 * ((1 - E) * σ ^ 2) := mul_nonneg (sq_nonneg _) (mul_nonneg (by linarith) (sq_nonneg _))
      linarith
    exact (pow_le_pow_iff_left₀ hr00 ha.le (by norm_num)).1 this
  -- the code's variables
  have hpt : pt 0 * pt 0 + pt 1 * pt 1 = p ^ 2 ∧ pt 2 = z := by
    constructor
    · simp only [pt, overEllipsoid, Matrix.cons_val]
      rw [← haD, ← hbD, ← hcd, ← hσd, hn, ← hMd, ← hp]
      linear_combination p ^ 2 * sin_sq_add_cos_sq lon
    · simp only [pt, overEllipsoid, Matrix.cons_val]
      rw [← haD, ← hbD, ← hcd, ← hσd, hn, hz, hUd, hbE]
      field_simp
  have hS : √(pt 0 * pt 0 + pt 1 * pt 1) = p := by rw [hpt.1, Real.sqrt_sq hp0]
  set g := p * p + (1 - E) * (z * z) - E * (a * a - b * b) with hg
  set cc := E ^ 2 * (54 * (b * b) * (z * z)) * (p * p) / g ^ 3 with hcc
  set k' := (1 + cc + (cc ^ 2 + 2 * cc)) ^ (1 / 3 : ℝ) + 1 / (1 + cc + (cc ^ 2 + 2 * cc)) ^ (1 / 3 : ℝ) + 1 with hk'
  set P' := 54 * (b * b) * (z * z) / (3 * k' ^ 2 * g ^ 2) with hP'
  set Q' := √(1 + 2 * E ^ 2 * P') with hQ'
  set r0' := -P' * E * p / (1 + Q') + √(if footSq a E p z P' Q' > 0 then footSq a E p z P' Q' else 0) with hr0'
  set u := √((p - E * r0') ^ 2 + z * z) with hu
  set v := √((p - E * r0') ^ 2 + (1 - E) * (z * z)) with hv
  have hq2 : q 2 = u * (1 - b * b / (a * v)) := by
    simp only [q, ferrari, Matrix.cons_val, Real.rpow_ofNat]
    rw [hS, flat_eq, hpt.2]
    rfl
  have hq0 : q 0 = atan2 (z + √(a * a / (b * b) - 1) * √(a * a / (b * b) - 1) * (b * b * z / (a * v))) p := by
    simp only [q, ferrari, Matrix.cons_val, Real.rpow_ofNat]
    rw [hS, flat_eq, hpt.2]
    rfl
  have hq1 : q 1 = atan2 (pt 1) (pt 0) := rfl
  have near := foot_near (h := h) ha hbE hE hE2 hc hcs hw hw1 hww hNw hUd hVa hp hz hg hcc hk' hP' hQ' hr0'
  obtain ⟨f1, f2, f3⟩ := near
  obtain ⟨g1, g2, η, g3, g4⟩ := answer_near (b := b) (h := h) haD hbE hE hE2 hc hcs hw hw1 hww hNw hUd hVa hp hz rfl f1 f2 f3 hu hv
  refine ⟨by rw [hq2]; exact g1, ?_, ?_⟩
  · have hep : √(a * a / (b * b) - 1) * √(a * a / (b * b) - 1) = E / (1 - E) := by
      have e : a * a / (b * b) - 1 = E / (1 - E) := by
        have : (1 - E) ≠ 0 := by linarith
        rw [← sq b, hbE]; field_simp; ring
      rw [Real.mul_self_sqrt (by rw [e]; exact div_nonneg hE.le (by linarith)), e]
    rw [hq0, hep, g3]
    rcases hc.eq_or_lt with e0 | hcp
    · have : η = 0 := by
        rw [← e0, mul_zero, mul_zero] at g4
        exact abs_nonpos_iff.1 g4
      rw [this, sub_zero, hp, ← hMd, atan2_polar hM h1 h2, sub_self, abs_zero]
      norm_num
    · have hpp : 0 < p := by positivity
      have e1 : φ = arctan (M * σ / p) := by rw [← atan2_arctan hpp, hp, atan2_polar hM h1 h2]
      rw [atan2_arctan hpp]
      have key := arctan_sub_le (((N + h) * σ - η) / p) (M * σ / p)
      rw [← e1] at key
      refine key.trans ?_
      rw [← hMd, ← sub_div, sub_sub_cancel_left, abs_div, abs_neg, abs_of_pos hpp, div_le_iff₀ hpp]
      refine g4.trans ?_
      have : p * c ≤ p := by nlinarith only [hpp, hc1]
      linarith
  · intro hφ
    have hcp : 0 < c := cos_pos_of_mem_Ioo ⟨(abs_lt.1 hφ).1, (abs_lt.1 hφ).2⟩
    have hpp : 0 < p := by positivity
    have e : pt 0 = p * cos lon ∧ pt 1 = p * sin lon := by
      constructor <;>
      · simp only [pt, overEllipsoid, Matrix.cons_val]
        rw [← haD, ← hbD, ← hcd, ← hσd, hn]
    rw [hq1, e.1, e.2]
    unfold atan2
    have : (⟨p * cos lon, p * sin lon⟩ : ℂ) = p * (Complex.cos lon + Complex.sin lon * Complex.I) := by
      apply Complex.ext <;> simp [← Complex.ofReal_cos, ← Complex.ofReal_sin]
    rw [this, Complex.arg_mul_cos_add_sin_mul_I hpp ⟨hl1, hl2⟩]

example : -(π / 2) ≤ (1 : ℝ) ∧ (1 : ℝ) ≤ π / 2 ∧ -π < (2 : ℝ) ∧ (2 : ℝ) ≤ π ∧ (-20000 : ℝ) ≤ 8848 := by
  have := two_le_pi
  exact ⟨by linarith, by linarith, by linarith, by linarith, by norm_num⟩

end Verif.Frames
