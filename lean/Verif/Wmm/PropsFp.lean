import Mathlib.Analysis.Real.Pi.Bounds
import Verif.Wmm.FpGeo

/-!
# C194: the magnetic field in floating point
-/

namespace Verif.Wmm.Fp

open Real Verif.Stats Verif.Round
open Verif.Simd (Accurate)
open Verif.Float (Libm Small)

variable {fl : ℝ → ℝ} {lib : Libm} {powi : ℝ → ℕ → ℝ} {u e : ℝ}

/-! ## Angles -/

/-- Two angles with close sines, the second away from the poles: half their difference has a small sine. -/
theorem half_angle {t t' τ : ℝ} (ht : |t| ≤ 1) (ht' : |t'| ≤ 1) (h : |t' - t| ≤ τ) (hc : 0 < cos (arcsin t)) :
    |sin ((arcsin t' - arcsin t) / 2)| ≤ τ / cos (arcsin t) := by
  have a1 := arcsin_le_pi_div_two t
  have a2 := neg_pi_div_two_le_arcsin t
  have b1 := arcsin_le_pi_div_two t'
  have b2 := neg_pi_div_two_le_arcsin t'
  have hs : sin (arcsin t) = t := Real.sin_arcsin (abs_le.1 ht).1 (abs_le.1 ht).2
  have hs' : sin (arcsin t') = t' := Real.sin_arcsin (abs_le.1 ht').1 (abs_le.1 ht').2
  have hc' : 0 ≤ cos (arcsin t') := Real.cos_arcsin_nonneg t'
  have h1 := Real.sin_sub_sin (arcsin t') (arcsin t)
  have h2 := Real.cos_add_cos (arcsin t') (arcsin t)
  rw [hs, hs'] at h1
  have h3 : 0 ≤ cos ((arcsin t' + arcsin t) / 2) := Real.cos_nonneg_of_mem_Icc ⟨by linarith, by linarith⟩
  have h4 : cos ((arcsin t' + arcsin t) / 2) * cos ((arcsin t' - arcsin t) / 2) ≤ cos ((arcsin t' + arcsin t) / 2) * 1 :=
    mul_le_mul_of_nonneg_left (Real.cos_le_one _) h3
  rw [le_div_iff₀ hc]
  have h5 : |sin ((arcsin t' - arcsin t) / 2)| * cos (arcsin t) ≤ |sin ((arcsin t' - arcsin t) / 2)| * (2 * cos ((arcsin t' + arcsin t) / 2)) :=
    mul_le_mul_of_nonneg_left (by linarith) (abs_nonneg _)
  refine h5.trans (le_trans (le_of_eq ?_) h)
  rw [h1, abs_mul, abs_mul, abs_of_nonneg h3, abs_of_pos (show (0 : ℝ) < 2 by norm_num)]
  ring

theorem cos_half {a b σ : ℝ} (x : ℝ) (h : |sin ((a - b) / 2)| ≤ σ) : |cos (a - x) - cos (b - x)| ≤ 2 * σ := by
  rw [Real.cos_sub_cos, show (a - x - (b - x)) / 2 = (a - b) / 2 by ring, abs_mul, abs_mul, abs_neg, abs_of_pos (show (0 : ℝ) < 2 by norm_num)]
  have h1 := Real.abs_sin_le_one ((a - x + (b - x)) / 2)
  have := mul_le_mul h1 h (abs_nonneg _) zero_le_one
  linarith

theorem sin_half {a b σ : ℝ} (x : ℝ) (h : |sin ((a - b) / 2)| ≤ σ) : |sin (a - x) - sin (b - x)| ≤ 2 * σ := by
  rw [Real.sin_sub_sin, show (a - x - (b - x)) / 2 = (a - b) / 2 by ring, abs_mul, abs_mul, abs_of_pos (show (0 : ℝ) < 2 by norm_num)]
  have h1 := Real.abs_cos_le_one ((a - x + (b - x)) / 2)
  have := mul_le_mul h h1 (abs_nonneg _) ((abs_nonneg _).trans h)
  linarith

theorem err_of_abs {ε : ℝ} (h0 : 0 ≤ ε) (hu : ε < 1) {a s A : ℝ} (h : |a - s| ≤ ε * A) (hA : |s| ≤ A) : Err ε 1 a s A := by
  refine ⟨h.trans (mul_le_mul_of_nonneg_right ?_ ((abs_nonneg _).trans hA)), hA⟩
  rw [growth_one hu, ← div_eq_mul_inv, le_div_iff₀ (by linarith)]
  nlinarith

theorem growth_le {ε : ℝ} (h0 : 0 ≤ ε) (hu : ε < 1) {d : ℕ} (hd : (d : ℝ) * ε ≤ 1 / 2) : growth ε d ≤ 2 * d * ε := by
  have h1 := one_add_mul_le_pow (show (-2 : ℝ) ≤ -ε by linarith) d
  unfold growth
  have h2 : 0 < (1 - ε) ^ d := pow_pos (by linarith) d
  have h3 : 1 - d * ε ≤ (1 - ε) ^ d := by rw [sub_eq_add_neg 1 ε]; linarith
  rw [sub_le_iff_le_add, inv_le_iff_one_le_mul₀' h2]
  have hk : 0 ≤ (d : ℝ) * ε := mul_nonneg (Nat.cast_nonneg d) h0
  nlinarith

theorem cos_add_sin_abs (x : ℝ) : |cos x| + |sin x| ≤ 142 / 100 := by
  have h1 := Real.sin_sq_add_cos_sq x
  refine le_of_sq_le_sq ?_ (by norm_num)
  have h2 := sq_abs (cos x)
  have h3 := sq_abs (sin x)
  nlinarith [sq_nonneg (|cos x| - |sin x|)]

/-! ## The trigonometric inputs -/

/-- The unit of the error estimates: the rounding and library errors magnified by the nearness of the pole. -/
noncomputable def unit (u e c : ℝ) : ℝ := 110 * (u + e) / c ^ 2

structure Setting (fl : ℝ → ℝ) (lib : Libm) (powi : ℝ → ℕ → ℝ) (u e lat alt c : ℝ) : Prop where
  small : Small fl u
  library : Library lib powi u e
  latitude : |lat| ≤ π / 2
  height : -10000 ≤ alt
  cosine : c = cos (geocentricLatitude lat alt)
  pole : 4e-12 ≤ c
  far : 70000 * (u + e) ≤ c ^ 2

variable {lat alt c : ℝ}

theorem Setting.basics (S : Setting fl lib powi u e lat alt c) :
    0 < c ∧ c ≤ 1 ∧ 0 ≤ e ∧ 0 < u + e ∧ u + e ≤ 1 / 70000 ∧ unit u e c * c ^ 2 = 110 * (u + e) ∧ 110 * (u + e) ≤ unit u e c * c ∧
      110 * (u + e) ≤ unit u e c ∧ unit u e c ≤ 11 / 7000 ∧ Accurate fl (unit u e c) := by
  have hc : 0 < c := lt_of_lt_of_le (by norm_num) S.pole
  have hc1 : c ≤ 1 := by rw [S.cosine]; exact Real.cos_le_one _
  have he0 : 0 ≤ e := (abs_nonneg _).trans (S.library.sin 0)
  have hu := S.small.pos
  have hK : 0 < u + e := by linarith
  have hc2 : 0 < c ^ 2 := by positivity
  have hc21 : c ^ 2 ≤ 1 := pow_le_one₀ hc.le hc1
  have e1 : unit u e c * c ^ 2 = 110 * (u + e) := by unfold unit; field_simp
  have h0 : 0 < unit u e c := by unfold unit; positivity
  have h1 : unit u e c * c ^ 2 ≤ unit u e c * c := by
    refine mul_le_mul_of_nonneg_left ?_ h0.le
    rw [pow_two]
    exact mul_le_of_le_one_left hc.le hc1
  have h2 : unit u e c * c ≤ unit u e c := mul_le_of_le_one_right h0.le hc1
  refine ⟨hc, hc1, he0, hK, ?_, e1, by linarith, by linarith, ?_, ?_⟩
  · have := S.far; linarith
  · unfold unit
    rw [div_le_iff₀ hc2]
    have := S.far; linarith
  · intro x
    refine (S.small.acc x).trans (mul_le_mul_of_nonneg_right ?_ (abs_nonneg x))
    linarith

/-- The sine of the geocentric latitude. -/
theorem geo_sin : sin (geocentricLatitude lat alt) = planeHeight lat alt / centreDistance lat alt := by
  have h := abs_le.1 (plane_le lat alt)
  exact Real.sin_arcsin h.1 h.2

/-- The computed latitude is close to the geocentric latitude of a sine that is close to the exact one. -/
theorem Setting.latitude_near (S : Setting fl lib powi u e lat alt c) :
    ∃ θ, |(geocentric fl lib lat alt).2 - θ| ≤ e ∧ |θ| ≤ π / 2 ∧ |sin θ - sin (geocentricLatitude lat alt)| ≤ 27 * u + 4 * e ∧
      |sin ((θ - geocentricLatitude lat alt) / 2)| ≤ (27 * u + 4 * e) / c := by
  obtain ⟨hc, hc1, he0, hK, hK1, -⟩ := S.basics
  have hu := S.small.pos
  obtain ⟨-, t, ht, hd⟩ := geocentric_step S.small (by linarith) S.library (lat := lat) S.height
  have hcos := S.cosine
  have hs := geo_sin (lat := lat) (alt := alt)
  have hsq := Real.sin_sq_add_cos_sq (geocentricLatitude lat alt)
  rw [← hcos, hs] at hsq
  have hp := plane_le lat alt
  set x := planeHeight lat alt / centreDistance lat alt with hx
  have ht1 : |t| ≤ 1 := by
    have h1 := abs_sub_abs_le_abs_sub t x
    have h2 : |x| ≤ 1 - c ^ 2 / 2 := by
      refine abs_le_of_sq_le_sq ?_ (by have : c ^ 2 ≤ 1 := pow_le_one₀ hc.le hc1; linarith)
      nlinarith [sq_nonneg (c ^ 2)]
    have := S.far
    linarith
  refine ⟨arcsin t, ?_, abs_le.2 ⟨by linarith [neg_pi_div_two_le_arcsin t], arcsin_le_pi_div_two t⟩, ?_, ?_⟩
  · rw [ht]
    exact S.library.asin t ht1
  · rw [Real.sin_arcsin (abs_le.1 ht1).1 (abs_le.1 ht1).2, hs]
    exact hd
  · rw [hcos]
    exact half_angle hp ht1 hd (by rw [show arcsin x = geocentricLatitude lat alt from rfl, ← hcos]; exact hc)

theorem Setting.sine (S : Setting fl lib powi u e lat alt c) :
    |lib.sin (geocentric fl lib lat alt).2 - sin (geocentricLatitude lat alt)| ≤ 27 * (u + e) := by
  obtain ⟨hc, hc1, he0, hK, hK1, -⟩ := S.basics
  have hu := S.small.pos
  obtain ⟨θ, h1, -, h2, -⟩ := S.latitude_near
  have h3 := S.library.sin (geocentric fl lib lat alt).2
  have h4 := Real.abs_sin_sub_sin_le (geocentric fl lib lat alt).2 θ
  have h5 := abs_sub_le (lib.sin (geocentric fl lib lat alt).2) (sin (geocentric fl lib lat alt).2) (sin (geocentricLatitude lat alt))
  have h6 := abs_sub_le (sin (geocentric fl lib lat alt).2) (sin θ) (sin (geocentricLatitude lat alt))
  linarith

theorem Setting.cosine_near (S : Setting fl lib powi u e lat alt c) : Near (unit u e c) 1 (lib.cos (geocentric fl lib lat alt).2) c := by
  obtain ⟨hc, hc1, he0, hK, hK1, e1, e2, e3, e4, acc⟩ := S.basics
  have hu := S.small.pos
  obtain ⟨θ, h1, -, -, h2⟩ := S.latitude_near
  have h3 := S.library.cos (geocentric fl lib lat alt).2
  have h4 := Real.abs_cos_sub_cos_le (geocentric fl lib lat alt).2 θ
  have h5 := abs_sub_le (lib.cos (geocentric fl lib lat alt).2) (cos (geocentric fl lib lat alt).2) c
  have h6 := abs_sub_le (cos (geocentric fl lib lat alt).2) (cos θ) c
  have h7 := cos_half 0 h2
  rw [sub_zero, sub_zero, ← S.cosine] at h7
  refine near_of_abs (accurate_nonneg acc) (by linarith) hc.ne' ?_
  rw [abs_of_pos hc]
  have h8 : 2 * ((27 * u + 4 * e) / c) ≤ unit u e c * c - 2 * e := by
    rw [mul_div_assoc', div_le_iff₀ hc, sub_mul, mul_assoc, ← pow_two, e1]
    have : e * c ≤ e * 1 := mul_le_mul_of_nonneg_left hc1 he0
    linarith
  linarith

theorem Setting.pole_passed (S : Setting fl lib powi u e lat alt c) : poleEps < |lib.cos (geocentric fl lib lat alt).2| := by
  obtain ⟨hc, hc1, he0, hK, hK1, e1, e2, e3, e4, acc⟩ := S.basics
  obtain ⟨f, hf, e⟩ := S.cosine_near
  have h1 := hf.1
  rw [pow_one] at h1
  rw [e, abs_of_pos (mul_pos hc (by linarith))]
  have hp : poleEps = 1e-12 := rfl
  have h2 : c * (1 / 2) ≤ c * f := mul_le_mul_of_nonneg_left (by linarith) hc.le
  have h3 := S.pole
  rw [hp]
  norm_num at h3 ⊢
  linarith

theorem Setting.denominator (S : Setting fl lib powi u e lat alt c) :
    Near (unit u e c) 2 (fl (fl (lib.sin (geocentric fl lib lat alt).2 * lib.sin (geocentric fl lib lat alt).2) - 1))
      (sin (geocentricLatitude lat alt) * sin (geocentricLatitude lat alt) - 1) := by
  obtain ⟨hc, hc1, he0, hK, hK1, e1, e2, e3, e4, acc⟩ := S.basics
  have hu := S.small.pos
  have h1 := S.sine
  have hs1 := Real.abs_sin_le_one (geocentricLatitude lat alt)
  have hsq := Real.sin_sq_add_cos_sq (geocentricLatitude lat alt)
  rw [← S.cosine] at hsq
  generalize sin (geocentricLatitude lat alt) = s at *
  generalize lib.sin (geocentric fl lib lat alt).2 = s' at *
  have hs' : |s'| ≤ 1001 / 1000 := by
    have := abs_sub_abs_le_abs_sub s' s
    linarith
  refine near_round acc (by linarith) (near_of_abs (accurate_nonneg acc) (by linarith) ?_ ?_)
  · rw [show s * s - 1 = -(c ^ 2) by linarith]
    exact neg_ne_zero.2 (by positivity)
  · rw [show s * s - 1 = -(c ^ 2) by linarith, abs_neg, abs_of_pos (show 0 < c ^ 2 by positivity), e1]
    have h2 := S.small.acc (s' * s')
    have h3 : |s' * s'| ≤ 1003 / 1000 := by
      rw [abs_mul]
      calc |s'| * |s'| ≤ (1001 / 1000) * (1001 / 1000) := mul_le_mul hs' hs' (abs_nonneg _) (by norm_num)
        _ ≤ _ := by norm_num
    have h4 : |s' * s' - s * s| ≤ 27 * (u + e) * (2001 / 1000) := by
      rw [show s' * s' - s * s = (s' - s) * (s' + s) by ring, abs_mul]
      have h5 : |s' + s| ≤ 2001 / 1000 := (abs_add_le _ _).trans (by linarith)
      exact mul_le_mul h1 h5 (abs_nonneg _) (by positivity)
    have h6 := abs_sub_le (fl (s' * s')) (s' * s') (s * s)
    have h7 := mul_le_mul_of_nonneg_left h3 hu.le
    rw [show fl (s' * s') - 1 - -c ^ 2 = fl (s' * s') - s * s by linarith]
    linarith

theorem Setting.rotation (S : Setting fl lib powi u e lat alt c) :
    Err (unit u e c) 1 (lib.cos (fl ((geocentric fl lib lat alt).2 - lat))) (cos (geocentricLatitude lat alt - lat)) 1 ∧
    Err (unit u e c) 1 (lib.sin (fl ((geocentric fl lib lat alt).2 - lat))) (sin (geocentricLatitude lat alt - lat)) 1 := by
  obtain ⟨hc, hc1, he0, hK, hK1, e1, e2, e3, e4, acc⟩ := S.basics
  have hu := S.small.pos
  obtain ⟨θ, h1, hθ, -, h2⟩ := S.latitude_near
  set φ := (geocentric fl lib lat alt).2 with hφ
  have hpi : π < 3.15 := Real.pi_lt_d2
  have h3 : |φ - lat| ≤ 32 / 10 := by
    have a1 := abs_sub_le φ θ lat
    have a2 := abs_sub θ lat
    have a3 := S.latitude
    linarith
  have h4 := S.small.acc (φ - lat)
  have h5 := mul_le_mul_of_nonneg_left h3 hu.le
  have h6 : |fl (φ - lat) - (θ - lat)| ≤ 32 / 10 * u + e := by
    have a1 := abs_sub_le (fl (φ - lat)) (φ - lat) (θ - lat)
    rw [show φ - lat - (θ - lat) = φ - θ by ring] at a1
    linarith
  have h8 : 2 * ((27 * u + 4 * e) / c) ≤ unit u e c - 4 * (u + e) := by
    rw [mul_div_assoc', div_le_iff₀ hc, sub_mul]
    have : (u + e) * c ≤ (u + e) * 1 := mul_le_mul_of_nonneg_left hc1 hK.le
    linarith
  refine ⟨err_of_abs (accurate_nonneg acc) (by linarith) ?_ (Real.abs_cos_le_one _), err_of_abs (accurate_nonneg acc) (by linarith) ?_ (Real.abs_sin_le_one _)⟩
  · have b1 := S.library.cos (fl (φ - lat))
    have b2 := (Real.abs_cos_sub_cos_le (fl (φ - lat)) (θ - lat)).trans h6
    have b3 := cos_half lat h2
    have b4 := abs_sub_le (lib.cos (fl (φ - lat))) (cos (fl (φ - lat))) (cos (geocentricLatitude lat alt - lat))
    have b5 := abs_sub_le (cos (fl (φ - lat))) (cos (θ - lat)) (cos (geocentricLatitude lat alt - lat))
    linarith
  · have b1 := S.library.sin (fl (φ - lat))
    have b2 := (Real.abs_sin_sub_sin_le (fl (φ - lat)) (θ - lat)).trans h6
    have b3 := sin_half lat h2
    have b4 := abs_sub_le (lib.sin (fl (φ - lat))) (sin (fl (φ - lat))) (sin (geocentricLatitude lat alt - lat))
    have b5 := abs_sub_le (sin (fl (φ - lat))) (sin (θ - lat)) (sin (geocentricLatitude lat alt - lat))
    linarith

theorem Setting.longitude (S : Setting fl lib powi u e lat alt c) (lon : ℝ) : ∀ m ≤ 12,
    Err (unit u e c) (3 * m) ((Fp.harmonics fl 12 (lib.cos lon) (lib.sin lon)).1 m) (cos (m * lon)) ((3 / 2) ^ m) ∧
    Err (unit u e c) (3 * m) ((Fp.harmonics fl 12 (lib.cos lon) (lib.sin lon)).2 m) (sin (m * lon)) ((3 / 2) ^ m) := by
  obtain ⟨hc, hc1, he0, hK, hK1, e1, e2, e3, e4, acc⟩ := S.basics
  have hu := S.small.pos
  have h0 := accurate_nonneg acc
  have h1 : Err (unit u e c) 1 (lib.cos lon) (cos lon) (|cos lon| + 1 / 25) := by
    refine err_of_abs h0 (by linarith) ?_ (by linarith)
    have := S.library.cos lon
    have h2 := mul_nonneg h0 (abs_nonneg (cos lon))
    linarith
  have h2 : Err (unit u e c) 1 (lib.sin lon) (sin lon) (|sin lon| + 1 / 25) := by
    refine err_of_abs h0 (by linarith) ?_ (by linarith)
    have := S.library.sin lon
    have h2 := mul_nonneg h0 (abs_nonneg (sin lon))
    linarith
  exact harmonics_err acc (by linarith) h1 h2 (by linarith [cos_add_sin_abs lon]) 12

theorem near_unit {a b : ℝ} (hab : a ≤ b) (hb : b < 1) {d : ℕ} {y t : ℝ} (h : Near a d y t) : Near b d y t := by
  obtain ⟨f, hf, rfl⟩ := h
  have h1 : (1 - b) ^ d ≤ (1 - a) ^ d := pow_le_pow_left₀ (by linarith) (by linarith) d
  exact ⟨f, ⟨h1.trans hf.1, hf.2.trans (inv_anti₀ (pow_pos (by linarith) d) h1)⟩, rfl⟩

theorem Setting.power (S : Setting fl lib powi u e lat alt c) (n : ℕ) (hn : n ≤ 12) :
    Near (unit u e c) (5 * (n + 2)) (powi (fl (fl (fl 6371.2 * 1000) / (geocentric fl lib lat alt).1)) (n + 2))
      ((referenceRadius / centreDistance lat alt) ^ (n + 2)) := by
  obtain ⟨hc, hc1, he0, hK, hK1, e1, e2, e3, e4, acc⟩ := S.basics
  have hu := S.small.pos
  have h0 := accurate_nonneg acc
  have h1 : unit u e c < 1 := by linarith
  obtain ⟨hr, -⟩ := geocentric_step S.small (by linarith) S.library (lat := lat) S.height
  obtain ⟨-, -, r3⟩ := radius_range (lat := lat) S.height
  have hr0 : 0 < centreDistance lat alt := by linarith
  have hR : Near (unit u e c) 1 (geocentric fl lib lat alt).1 (centreDistance lat alt) := by
    refine near_of_abs h0 h1 hr0.ne' (hr.trans ?_)
    rw [abs_of_pos hr0]
    exact mul_le_mul_of_nonneg_right (by linarith) hr0.le
  have h2 := near_round acc h1 (near_div h1 (near_round acc h1 (near_mul h1 (near_round acc h1 (near_self 6371.2)) (near_self 1000))) hR)
  have e5 : (6371.2 : ℝ) * 1000 = referenceRadius := rfl
  rw [e5] at h2
  have hq0 : 0 < referenceRadius / centreDistance lat alt := div_pos (by unfold referenceRadius; norm_num) hr0
  have hq : 0 < fl (fl (fl 6371.2 * 1000) / (geocentric fl lib lat alt).1) := by
    obtain ⟨f, hf, e6⟩ := h2
    rw [e6]
    exact mul_pos hq0 (hf.pos h1)
  obtain ⟨f, hf, e7⟩ := near_unit (show u ≤ unit u e c by linarith) h1 (S.library.powi _ (n + 2) hq (by omega))
  obtain ⟨g, hg, e8⟩ := near_pow h1 h2 (n + 2)
  rw [e7, e8]
  exact near_mono acc h1 (by omega) ⟨g * f, hg.mul h1 hf, by ring⟩

theorem Setting.inputs (S : Setting fl lib powi u e lat alt c) {g h g' h' : ℕ → ℕ → ℝ} (lon : ℝ)
    (hg : ∀ n m, m ≤ n → n ≤ 12 → Err (unit u e c) 4 (g' n m) (g n m) ((reach rawG rawGDot n m : ℝ) / 10))
    (hh : ∀ n m, m ≤ n → n ≤ 12 → Err (unit u e c) 4 (h' n m) (h n m) ((reach rawH rawHDot n m : ℝ) / 10)) :
    Inputs fl (unit u e c) powi g h g' h' lon
      (Fp.harmonics fl 12 (lib.cos lon) (lib.sin lon)).1 (Fp.harmonics fl 12 (lib.cos lon) (lib.sin lon)).2
      (fun n m => schmidtP n m (geocentricLatitude lat alt))
      (schmidtLegendre 12 (sin (geocentricLatitude lat alt)) (cos (geocentricLatitude lat alt))).2
      (Fp.legendre fl 12 (lib.sin (geocentric fl lib lat alt).2) (lib.cos (geocentric fl lib lat alt).2)).1
      (Fp.legendre fl 12 (lib.sin (geocentric fl lib lat alt).2) (lib.cos (geocentric fl lib lat alt).2)).2
      c (lib.cos (geocentric fl lib lat alt).2) (referenceRadius / centreDistance lat alt) (geocentric fl lib lat alt).1 := by
  obtain ⟨hc, hc1, he0, hK, hK1, e1, e2, e3, e4, acc⟩ := S.basics
  have h0 := accurate_nonneg acc
  have h1 : unit u e c < 1 := by linarith
  obtain ⟨-, -, r3⟩ := radius_range (lat := lat) S.height
  have hr0 : 0 < centreDistance lat alt := by linarith
  have hsE : Err (unit u e c) 1 (lib.sin (geocentric fl lib lat alt).2) (sin (geocentricLatitude lat alt)) 1 :=
    err_of_abs h0 h1 (by linarith [S.sine]) (Real.abs_sin_le_one _)
  have hcE : Err (unit u e c) 1 (lib.cos (geocentric fl lib lat alt).2) c c := by
    have := near_err acc h1 S.cosine_near
    rwa [abs_of_pos hc] at this
  have hsc : sin (geocentricLatitude lat alt) * sin (geocentricLatitude lat alt) - 1 = -(c * c) := by
    have := Real.sin_sq_add_cos_sq (geocentricLatitude lat alt)
    rw [← S.cosine] at this
    linarith
  exact {
    g_err := hg
    h_err := hh
    cos_err := fun m hm => (S.longitude lon m hm).1
    sin_err := fun m hm => (S.longitude lon m hm).2
    p_err := fun n m hm hn => by
      have := entry_value acc h1 hsE hcE n m hm hn
      rw [S.cosine] at this ⊢
      exact this
    dp_err := fun n m hm hn => by
      rw [← S.cosine]
      refine entry_slope acc h1 hsE S.cosine_near hc hc1 hsc ?_ S.pole_passed S.denominator n m hm hn
      rw [abs_of_pos hc]
      exact lt_of_lt_of_le (by unfold poleEps; norm_num) S.pole
    c_near := S.cosine_near
    c_pos := hc
    c_le := hc1
    q_pos := div_pos (by unfold referenceRadius; norm_num) hr0
    q_le := by
      rw [div_le_iff₀ hr0]
      have : referenceRadius = 6371200 := by unfold referenceRadius; norm_num
      rw [this]
      linarith
    power := fun n hn => S.power n hn }

/-- The three rotated sums, for any coefficients of the size of the model's. -/
theorem Setting.components (S : Setting fl lib powi u e lat alt c) {g h g' h' : ℕ → ℕ → ℝ} (lon : ℝ)
    (hg : ∀ n m, m ≤ n → n ≤ 12 → Err (unit u e c) 4 (g' n m) (g n m) ((reach rawG rawGDot n m : ℝ) / 10))
    (hh : ∀ n m, m ≤ n → n ≤ 12 → Err (unit u e c) 4 (h' n m) (h n m) ((reach rawH rawHDot n m : ℝ) / 10)) :
    let A := Fp.accumulate fl powi 12 g' h'
        (Fp.harmonics fl 12 (lib.cos lon) (lib.sin lon)).1 (Fp.harmonics fl 12 (lib.cos lon) (lib.sin lon)).2
        (Fp.legendre fl 12 (lib.sin (geocentric fl lib lat alt).2) (lib.cos (geocentric fl lib lat alt).2)).1
        (Fp.legendre fl 12 (lib.sin (geocentric fl lib lat alt).2) (lib.cos (geocentric fl lib lat alt).2)).2
        (lib.cos (geocentric fl lib lat alt).2) (geocentric fl lib lat alt).1
    let X := sumX 12 (referenceRadius / centreDistance lat alt) g h
      (schmidtLegendre 12 (sin (geocentricLatitude lat alt)) (cos (geocentricLatitude lat alt))).2 lon
    let Y := sumY 12 (referenceRadius / centreDistance lat alt) g h (fun n m => schmidtP n m (geocentricLatitude lat alt)) lon c
    let Z := sumZ 12 (referenceRadius / centreDistance lat alt) g h (fun n m => schmidtP n m (geocentricLatitude lat alt)) lon
    Err (unit u e c) 302 (fl (fl (A.1 * lib.cos (fl ((geocentric fl lib lat alt).2 - lat))) -
        fl (A.2.2 * lib.sin (fl ((geocentric fl lib lat alt).2 - lat)))))
      (X * cos (geocentricLatitude lat alt - lat) - Z * sin (geocentricLatitude lat alt - lat)) (6100000 / c * 1 + 5000000 * 1) ∧
    Err (unit u e c) 299 A.2.1 Y 1400000 ∧
    Err (unit u e c) 302 (fl (fl (A.1 * lib.sin (fl ((geocentric fl lib lat alt).2 - lat))) +
        fl (A.2.2 * lib.cos (fl ((geocentric fl lib lat alt).2 - lat)))))
      (X * sin (geocentricLatitude lat alt - lat) + Z * cos (geocentricLatitude lat alt - lat)) (6100000 / c * 1 + 5000000 * 1) := by
  obtain ⟨hc, hc1, he0, hK, hK1, e1, e2, e3, e4, acc⟩ := S.basics
  have hu1 : unit u e c < 1 := by linarith
  obtain ⟨sx, sy, sz⟩ := (S.inputs lon hg hh).sums acc hu1
  obtain ⟨rc, rs⟩ := S.rotation
  exact ⟨esub acc hu1 (emul acc hu1 sx rc) (emul acc hu1 sz rs), sy, eadd acc hu1 (emul acc hu1 sx rs) (emul acc hu1 sz rc)⟩

/-! ## C194 -/

theorem final_bound (hK : 0 < u + e) (hc : 0 < c) (hc1 : c ≤ 1) (h0 : 0 ≤ unit u e c) (hu1 : unit u e c < 1) (e4 : unit u e c ≤ 11 / 7000) :
    growth (unit u e c) 302 * (6100000 / c * 1 + 5000000 * 1) ≤ 8 * 10 ^ 11 * (u + e) / c ^ 3 := by
  have hgr := growth_le (d := 302) h0 hu1 (by push_cast; linarith)
  have h1 : 6100000 / c * 1 + 5000000 * 1 ≤ 11100000 / c := by
    rw [le_div_iff₀ hc, add_mul, mul_one, div_mul_cancel₀ _ hc.ne']
    linarith
  have hu : unit u e c = 110 * (u + e) / c ^ 2 := rfl
  rw [hu] at hgr ⊢
  calc _ ≤ 2 * (302 : ℕ) * (110 * (u + e) / c ^ 2) * (11100000 / c) :=
        mul_le_mul hgr h1 (by positivity) (by positivity)
    _ = (737484000000 * (u + e)) / c ^ 3 := by push_cast; field_simp; ring
    _ ≤ _ := div_le_div_of_nonneg_right (by linarith) (by positivity)

theorem final_bound_y (hK : 0 < u + e) (hc : 0 < c) (h0 : 0 ≤ unit u e c) (hu1 : unit u e c < 1) (e4 : unit u e c ≤ 11 / 7000) :
    growth (unit u e c) 299 * 1400000 ≤ 10 ^ 11 * (u + e) / c ^ 2 := by
  have hgr := growth_le (d := 299) h0 hu1 (by push_cast; linarith)
  have : unit u e c = 110 * (u + e) / c ^ 2 := rfl
  rw [this] at hgr ⊢
  calc _ ≤ 2 * (299 : ℕ) * (110 * (u + e) / c ^ 2) * 1400000 := mul_le_mul_of_nonneg_right hgr (by norm_num)
    _ = (92092000000 * (u + e)) / c ^ 2 := by push_cast; ring
    _ ≤ _ := div_le_div_of_nonneg_right (by linarith) (by positivity)

theorem field_some {lon : ℝ} (year : ℝ) (h : poleEps < |lib.cos (geocentric fl lib lat alt).2|) :
    field fl lib powi year lat lon alt =
      let A := accumulate fl powi 12 (coefficient fl rawG rawGDot (fl (year - 2025))) (coefficient fl rawH rawHDot (fl (year - 2025)))
        (Fp.harmonics fl 12 (lib.cos lon) (lib.sin lon)).1 (Fp.harmonics fl 12 (lib.cos lon) (lib.sin lon)).2
        (Fp.legendre fl 12 (lib.sin (geocentric fl lib lat alt).2) (lib.cos (geocentric fl lib lat alt).2)).1
        (Fp.legendre fl 12 (lib.sin (geocentric fl lib lat alt).2) (lib.cos (geocentric fl lib lat alt).2)).2
        (lib.cos (geocentric fl lib lat alt).2) (geocentric fl lib lat alt).1
      some (fl (fl (A.1 * lib.cos (fl ((geocentric fl lib lat alt).2 - lat))) - fl (A.2.2 * lib.sin (fl ((geocentric fl lib lat alt).2 - lat)))),
        A.2.1, fl (fl (A.1 * lib.sin (fl ((geocentric fl lib lat alt).2 - lat))) + fl (A.2.2 * lib.cos (fl ((geocentric fl lib lat alt).2 - lat))))) := by
  unfold field
  dsimp only
  rw [if_neg (not_le.2 h), show maxDegree = 12 from rfl]

/-- The exact sums of the embedded model. -/
theorem acc_model {year : ℝ} {p : Geodetic} {C : Coefficients} (h1 : (wmm 2025 maxDegree).coefficientsAt year = some C)
    (hN : C.maxDegree = maxDegree) :
    (accAt C p).x = sumX 12 (referenceRadius / centreDistance p.latitude p.height)
      (fun n m => (tableOf rawG).get n m + (year - 2025) * (tableOf rawGDot).get n m)
      (fun n m => (tableOf rawH).get n m + (year - 2025) * (tableOf rawHDot).get n m)
      (schmidtLegendre 12 (sin (geocentricLatitude p.latitude p.height)) (cos (geocentricLatitude p.latitude p.height))).2 p.longitude ∧
    (accAt C p).y = sumY 12 (referenceRadius / centreDistance p.latitude p.height)
      (fun n m => (tableOf rawG).get n m + (year - 2025) * (tableOf rawGDot).get n m)
      (fun n m => (tableOf rawH).get n m + (year - 2025) * (tableOf rawHDot).get n m)
      (fun n m => schmidtP n m (geocentricLatitude p.latitude p.height)) p.longitude (cos (geocentricLatitude p.latitude p.height)) ∧
    (accAt C p).z = sumZ 12 (referenceRadius / centreDistance p.latitude p.height)
      (fun n m => (tableOf rawG).get n m + (year - 2025) * (tableOf rawGDot).get n m)
      (fun n m => (tableOf rawH).get n m + (year - 2025) * (tableOf rawHDot).get n m)
      (fun n m => schmidtP n m (geocentricLatitude p.latitude p.height)) p.longitude ∧
    (accAt C p).xDot = sumX 12 (referenceRadius / centreDistance p.latitude p.height) (tableOf rawGDot).get (tableOf rawHDot).get
      (schmidtLegendre 12 (sin (geocentricLatitude p.latitude p.height)) (cos (geocentricLatitude p.latitude p.height))).2 p.longitude ∧
    (accAt C p).yDot = sumY 12 (referenceRadius / centreDistance p.latitude p.height) (tableOf rawGDot).get (tableOf rawHDot).get
      (fun n m => schmidtP n m (geocentricLatitude p.latitude p.height)) p.longitude (cos (geocentricLatitude p.latitude p.height)) ∧
    (accAt C p).zDot = sumZ 12 (referenceRadius / centreDistance p.latitude p.height) (tableOf rawGDot).get (tableOf rawHDot).get
      (fun n m => schmidtP n m (geocentricLatitude p.latitude p.height)) p.longitude := by
  obtain ⟨C', h1', -, -, hg, hh', hd, hd'⟩ := coefficients_eq 2025 year maxDegree
  obtain rfl : C' = C := Option.some.inj (h1'.symm.trans h1)
  unfold accAt
  dsimp only
  rw [hN, show C'.g.get = _ from funext fun n => funext fun m => hg n m, show C'.h.get = _ from funext fun n => funext fun m => hh' n m, hd, hd']
  exact ⟨rfl, rfl, rfl, rfl, rfl, rfl⟩

/-- **C194**: with roundings of relative size `u`, at most a millionth, and a library whose sine, cosine and arcsine are
within `e` and whose powers are within as many roundings as the exponent says, at a geodetic latitude between the poles, a
height of at least ten kilometres below the ellipsoid and a date within five years of 2025, and with `c` the cosine of the
geocentric latitude, `70000 (u + e) ≤ c²`: when the evaluation in real numbers reports a field, the evaluation in floating
point does not report the pole error, and the northward and downward components it computes are within
`8·10¹¹ (u + e) / c³` nanotesla of the exact ones, and the eastward one within `10¹¹ (u + e) / c²`. -/
theorem C194_field (hs : Small fl u) (hl : Library lib powi u e) {year : ℝ} {p : Geodetic} {E : Elements}
    (h : wmm2025.evaluate year p = .ok E) (hy : |year - 2025| ≤ 5) (hlat : |p.latitude| ≤ π / 2) (hh : -10000 ≤ p.height)
    (hp : 4e-12 ≤ cos E.geocentric.latitude) (hf : 70000 * (u + e) ≤ cos E.geocentric.latitude ^ 2) :
    ∃ x y z, field fl lib powi year p.latitude p.longitude p.height = some (x, y, z) ∧
      |x - E.x| ≤ 8 * 10 ^ 11 * (u + e) / cos E.geocentric.latitude ^ 3 ∧
      |y - E.y| ≤ 10 ^ 11 * (u + e) / cos E.geocentric.latitude ^ 2 ∧
      |z - E.z| ≤ 8 * 10 ^ 11 * (u + e) / cos E.geocentric.latitude ^ 3 := by
  obtain ⟨C, h1, -, hN, -, hpole, hel⟩ := evaluate_ok h
  obtain ⟨-, eg, -, ex, ey, ez, -⟩ := elements_ok hel
  have egl : E.geocentric.latitude = geocentricLatitude p.latitude p.height := by rw [eg, toGeocentric_eq]
  have eql : (toGeocentric p).latitude = geocentricLatitude p.latitude p.height := by rw [toGeocentric_eq]
  rw [egl] at hp hf ⊢
  rw [eql] at ex ez
  have S : Setting fl lib powi u e p.latitude p.height (cos (geocentricLatitude p.latitude p.height)) :=
    ⟨hs, hl, hlat, hh, rfl, hp, hf⟩
  obtain ⟨hc, hc1, he0, hK, hK1, e1, e2, e3, e4, acc⟩ := S.basics
  have hu1 : unit u e (cos (geocentricLatitude p.latitude p.height)) < 1 := by linarith
  have h0 := accurate_nonneg acc
  obtain ⟨ax, ay, az, -⟩ := acc_model h1 hN
  obtain ⟨fx, fy, fz⟩ := S.components p.longitude (fun n m hm hn => coefficient_err acc hu1 rawG rawGDot hy n m hm hn)
    (fun n m hm hn => coefficient_err acc hu1 rawH rawHDot hy n m hm hn)
  rw [← ax, ← az, ← ex] at fx
  rw [← ax, ← az, ← ez] at fz
  rw [← ay, ← ey] at fy
  have hfield := field_some (fl := fl) (lib := lib) (powi := powi) year (lon := p.longitude) S.pole_passed
  exact ⟨_, _, _, hfield, fx.1.trans (final_bound hK hc hc1 h0 hu1 e4), fy.1.trans (final_bound_y hK hc h0 hu1 e4),
    fz.1.trans (final_bound hK hc hc1 h0 hu1 e4)⟩

/-! ## The hypotheses can be met -/

/-- Far enough out above the equator the dipole dominates, so the full model reports a field there. -/
theorem far_field : ∃ alt, 0 ≤ alt ∧ ∃ E, wmm2025.evaluate 2025 ⟨0, 0, alt⟩ = .ok E := by
  obtain ⟨C, h1, h2, h3, hg, -⟩ := coefficients_eq 2025 2025 maxDegree
  have hd : ∀ alt : ℝ, 0 ≤ alt → centreDistance 0 alt = 6378137 + alt ∧ geocentricLatitude 0 alt = 0 := by
    intro alt ha
    refine ⟨?_, by simp [geocentricLatitude, planeHeight]⟩
    unfold centreDistance axisDistance planeHeight
    rw [equator.1, sin_zero, cos_zero, mul_one, mul_zero, zero_pow two_ne_zero, add_zero, Real.sqrt_sq (by linarith)]
  let T : ℕ → ℝ := fun n => ∑ m ∈ Finset.Icc 0 n, (C.g.get n m * cos (m * 0) + C.h.get n m * sin (m * 0)) *
    (schmidtLegendre maxDegree (sin 0) (cos 0)).2 n m
  let F : ℝ → ℝ := fun q => ∑ n ∈ Finset.Icc 1 maxDegree, q ^ (n - 1) * T n
  have hT : T 1 = -29351.8 := by
    have hgv : C.g.get 1 0 = -29351.8 := by
      rw [hg, first_entry]
      unfold tenths
      norm_num
    show ∑ m ∈ Finset.Icc 0 1, _ = _
    rw [show Finset.Icc 0 1 = {0, 1} by decide, Finset.sum_pair (by decide), equator_slopes.1, equator_slopes.2, hgv]
    simp
  have hF0 : F 0 = T 1 := by
    show ∑ n ∈ Finset.Icc 1 maxDegree, _ = _
    rw [Finset.sum_eq_single_of_mem 1 (by decide)]
    · simp
    · intro n hn h1
      have : n - 1 ≠ 0 := by have := (Finset.mem_Icc.1 hn).1; omega
      rw [zero_pow this, zero_mul]
  have hFc : Continuous F := by
    show Continuous fun q : ℝ => ∑ n ∈ Finset.Icc 1 maxDegree, q ^ (n - 1) * T n
    fun_prop
  have hq : Filter.Tendsto (fun alt : ℝ => referenceRadius / (6378137 + alt)) Filter.atTop (nhds 0) :=
    Filter.Tendsto.const_div_atTop (Filter.tendsto_atTop_add_const_left _ _ Filter.tendsto_id) _
  have hev : ∀ᶠ alt : ℝ in Filter.atTop, F (referenceRadius / (6378137 + alt)) ≠ 0 := by
    refine (hFc.tendsto 0 |>.comp hq).eventually_ne ?_
    rw [hF0, hT]
    norm_num
  obtain ⟨alt, hne, ha⟩ := (hev.and (Filter.eventually_ge_atTop 0)).exists
  refine ⟨alt, ha, ?_⟩
  obtain ⟨hr, hl⟩ := hd alt ha
  have hc : poleEps < |cos (geocentricLatitude 0 alt)| := by rw [hl]; norm_num [poleEps]
  rcases (C64_errors 2025 2025 maxDegree ⟨0, 0, alt⟩ (by linarith)).2.2 hc (by decide) with h | h
  · exact h
  · exfalso
    unfold MagneticModel.evaluate at h
    rw [h1] at h
    dsimp only at h
    rw [evaluateWith_eq C ⟨0, 0, alt⟩ (by rw [h3]) hc] at h
    have h0 := elements_error h
    rw [toGeocentric_eq] at h0
    dsimp only at h0
    have hx : (accAt C ⟨0, 0, alt⟩).x = -((referenceRadius / (6378137 + alt)) ^ 3 * F (referenceRadius / (6378137 + alt))) := by
      unfold accAt sumX
      dsimp only
      rw [h3, hl, hr, Finset.mul_sum]
      congr 1
      refine Finset.sum_congr rfl fun n hn => ?_
      have := (Finset.mem_Icc.1 hn).1
      show _ = _ ^ 3 * (_ * ∑ m ∈ Finset.Icc 0 n, _)
      rw [← mul_assoc, ← pow_add, show 3 + (n - 1) = n + 2 by omega, Finset.mul_sum]
      exact Finset.sum_congr rfl fun m _ => by ring
    have hxne : (accAt C ⟨0, 0, alt⟩).x ≠ 0 := by
      rw [hx]
      refine neg_ne_zero.2 (mul_ne_zero (pow_ne_zero _ (div_ne_zero ?_ (by linarith))) hne)
      unfold referenceRadius
      norm_num
    rw [hl, sub_zero, cos_zero, sin_zero, mul_one, mul_zero, sub_zero, Real.sqrt_eq_zero (add_nonneg (mul_self_nonneg _) (mul_self_nonneg _))] at h0
    have := mul_self_pos.2 hxne
    nlinarith [mul_self_nonneg (accAt C ⟨0, 0, alt⟩).y]

/-- Binary64 roundings, with exact library functions: `powi` may be the exact power. -/
example : ∃ alt E, wmm2025.evaluate 2025 ⟨0, 0, alt⟩ = .ok E ∧
    ∃ x y z, field (Verif.Float.rnd 53) Verif.Float.exactLib (fun x k => x ^ k) 2025 0 0 alt = some (x, y, z) ∧ |x - E.x| ≤ 1 / 10000 := by
  obtain ⟨alt, ha, E, hE⟩ := far_field
  have hgeo : cos E.geocentric.latitude = 1 := by
    obtain ⟨C, -, -, -, -, -, hel⟩ := evaluate_ok hE
    rw [(elements_ok hel).2.1, toGeocentric_eq]
    simp [geocentricLatitude, planeHeight]
  have hsm : Small (Verif.Float.rnd 53) (2 ^ (-53 : ℤ)) :=
    ⟨Verif.Float.Nearest.accurate (Verif.Float.rnd_nearest (by norm_num)) (by norm_num), by positivity, by norm_num⟩
  have hlib : Library Verif.Float.exactLib (fun x k => x ^ k) (2 ^ (-53 : ℤ)) 0 := by
    refine ⟨fun x => ?_, fun x => ?_, fun x hx => ?_, fun x k hx hk => ?_⟩
    · simp [Verif.Float.exactLib]
    · simp [Verif.Float.exactLib]
    · simp [Verif.Float.exactLib]
    · exact near_mono hsm.acc (by norm_num) (Nat.zero_le k) (near_self _)
  obtain ⟨x, y, z, h1, h2, -⟩ := C194_field hsm hlib hE (by norm_num) (by simp; positivity) (by simpa using by linarith)
    (by rw [hgeo]; norm_num) (by rw [hgeo]; norm_num)
  refine ⟨alt, E, hE, x, y, z, h1, h2.trans ?_⟩
  rw [hgeo]
  norm_num

end Verif.Wmm.Fp
