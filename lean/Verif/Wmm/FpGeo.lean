import Verif.Wmm.FpSum
import Verif.Float.PropsGeo

/-!
# Lemmas: rounding errors of the conversion to geocentric coordinates
-/

namespace Verif.Wmm.Fp

open Real
open Verif.Simd (Accurate)
open Verif.Float (Libm Small Rel mul_step trig_step)
open Verif.Frames (wgsA)

variable {fl : ℝ → ℝ} {lib : Libm}

/-- The radius of curvature for the sine `s` of the latitude. -/
noncomputable def primeV (s : ℝ) : ℝ := wgsA / √(1 - ecc2 * s * s)

theorem ecc2_range : 66 / 10000 < ecc2 ∧ ecc2 < 67 / 10000 := by
  unfold ecc2
  norm_num

theorem primeV_range {s : ℝ} (hs : |s| ≤ 1) :
    993 / 1000 ≤ 1 - ecc2 * s * s ∧ 996 / 1000 ≤ √(1 - ecc2 * s * s) ∧ √(1 - ecc2 * s * s) ≤ 1 ∧ wgsA ≤ primeV s ∧
      primeV s ≤ 1005 / 1000 * wgsA := by
  obtain ⟨e1, e2⟩ := ecc2_range
  have hss : s * s ≤ 1 := by
    have := abs_le.1 hs
    nlinarith
  have hs0 := mul_self_nonneg s
  have h1 : 993 / 1000 ≤ 1 - ecc2 * s * s := by nlinarith
  have h2 : 1 - ecc2 * s * s ≤ 1 := by nlinarith
  have h3 : 996 / 1000 ≤ √(1 - ecc2 * s * s) := Real.le_sqrt_of_sq_le (by linarith)
  have h4 : √(1 - ecc2 * s * s) ≤ 1 := Real.sqrt_le_one.2 h2
  have ha := Frames.a_pos
  refine ⟨h1, h3, h4, ?_, ?_⟩
  · unfold primeV
    rw [le_div_iff₀ (by linarith)]
    nlinarith
  · unfold primeV
    rw [div_le_iff₀ (by linarith)]
    nlinarith

/-- The radius of curvature in floating point, from an approximation `t` of the sine. -/
theorem primeV_step {u : ℝ} (hs : Small fl u) {E s t σ : ℝ} (hE : Rel u 5 E ecc2) (hs1 : |s| ≤ 1) (ht : |t - s| ≤ σ)
    (hσ : σ ≤ 1 / 1000) :
    0 ≤ fl (1 - fl (fl (E * t) * t)) ∧ 0 < fl √(fl (1 - fl (fl (E * t) * t))) ∧
      |fl (wgsA / fl √(fl (1 - fl (fl (E * t) * t)))) - primeV s| ≤ (7 / 2 * u + 1 / 20 * σ) * wgsA := by
  obtain ⟨e1, e2⟩ := ecc2_range
  obtain ⟨a1, a2, a3, c1, c2⟩ := primeV_range hs1
  have ha := Frames.a_pos
  have hu := hs.pos
  have hu1 := hs.le
  have hσ0 : 0 ≤ σ := (abs_nonneg _).trans ht
  -- the product
  have r1 : Rel u (5 + 0 + 1 / 100) (E * t) (ecc2 * t) :=
    hE.mul hs (by norm_num) (by norm_num) le_rfl (by norm_num) (Rel.refl u t)
  have r2 := r1.round hs (by norm_num) (by norm_num)
  have r3 := r2.mul hs (by norm_num) (by norm_num) le_rfl (by norm_num) (Rel.refl u t)
  have r4 := r3.round hs (by norm_num) (by norm_num)
  set q := fl (fl (E * t) * t) with hq
  have ht1 : |t| ≤ 1001 / 1000 := by
    have := abs_sub_abs_le_abs_sub t s
    linarith
  have htt : t * t ≤ 1003 / 1000 := by
    have := abs_le.1 ht1
    nlinarith
  have htt0 := mul_self_nonneg t
  have hq1 : |q - ecc2 * t * t| ≤ 6 / 100 * u := by
    refine r4.trans ?_
    have h0 : 0 ≤ ecc2 * t * t := by
      rw [mul_assoc]
      exact mul_nonneg (by linarith) htt0
    rw [abs_of_nonneg h0]
    have : ecc2 * t * t ≤ 673 / 100000 := by
      rw [mul_assoc]
      calc ecc2 * (t * t) ≤ 67 / 10000 * (1003 / 1000) := mul_le_mul e2.le htt htt0 (by norm_num)
        _ ≤ _ := by norm_num
    have h2 := mul_le_mul_of_nonneg_left this hu.le
    linarith
  have hq2 : |ecc2 * t * t - ecc2 * s * s| ≤ 14 / 1000 * σ := by
    rw [show ecc2 * t * t - ecc2 * s * s = ecc2 * ((t - s) * (t + s)) by ring, abs_mul, abs_mul,
      abs_of_pos (by linarith)]
    have h1 : |t + s| ≤ 2001 / 1000 := (abs_add_le t s).trans (by linarith)
    have h2 : |t - s| * |t + s| ≤ σ * (2001 / 1000) := mul_le_mul ht h1 (abs_nonneg _) hσ0
    have h3 : ecc2 * (|t - s| * |t + s|) ≤ 67 / 10000 * (σ * (2001 / 1000)) :=
      mul_le_mul e2.le h2 (by positivity) (by norm_num)
    linarith
  have hq3 : |q - ecc2 * s * s| ≤ 6 / 100 * u + 14 / 1000 * σ :=
    (abs_sub_le _ (ecc2 * t * t) _).trans (by linarith)
  -- one minus it
  set Q := 1 - ecc2 * s * s with hQ
  have hQ1 : Q ≤ 1 := by
    have : 0 ≤ ecc2 * s * s := by rw [mul_assoc]; exact mul_nonneg (by linarith) (mul_self_nonneg s)
    linarith
  have d1 : |1 - q - Q| ≤ 6 / 100 * u + 14 / 1000 * σ := by
    rw [show 1 - q - Q = -(q - ecc2 * s * s) by rw [hQ]; ring, abs_neg]
    exact hq3
  obtain ⟨d2, d3⟩ := abs_le.1 d1
  have d4 : |1 - q| ≤ 1001 / 1000 := abs_le.2 ⟨by linarith, by linarith⟩
  have d5 := hs.acc (1 - q)
  have d6 : |fl (1 - q) - Q| ≤ 107 / 100 * u + 14 / 1000 * σ := by
    have h1 := abs_sub_le (fl (1 - q)) (1 - q) Q
    have h2 := mul_le_mul_of_nonneg_left d4 hu.le
    linarith
  obtain ⟨d7, d8⟩ := abs_le.1 d6
  have d9 : 0 ≤ fl (1 - q) := by linarith
  -- the root
  have f1 : |√(fl (1 - q)) - √Q| ≤ 108 / 100 * u + 15 / 1000 * σ := by
    have hQ0 : 0 ≤ Q := by linarith
    have e : (√(fl (1 - q)) - √Q) * (√(fl (1 - q)) + √Q) = fl (1 - q) - Q := by
      have := Real.mul_self_sqrt hQ0
      have := Real.mul_self_sqrt d9
      linarith
    have h2 : |√(fl (1 - q)) - √Q| * (996 / 1000) ≤ |fl (1 - q) - Q| := by
      rw [← e, abs_mul]
      refine mul_le_mul_of_nonneg_left ?_ (abs_nonneg _)
      have := Real.sqrt_nonneg (fl (1 - q))
      exact le_trans (by linarith) (le_abs_self _)
    linarith
  have f2 := hs.acc √(fl (1 - q))
  rw [abs_of_nonneg (Real.sqrt_nonneg _)] at f2
  obtain ⟨f3, f4⟩ := abs_le.1 f1
  have f5 : u * √(fl (1 - q)) ≤ u * (1001 / 1000) := mul_le_mul_of_nonneg_left (by linarith) hu.le
  set T := fl √(fl (1 - q)) with hT
  have f6 : |T - √Q| ≤ 209 / 100 * u + 15 / 1000 * σ := by
    have := abs_sub_le T √(fl (1 - q)) √Q
    linarith
  obtain ⟨f7, f8⟩ := abs_le.1 f6
  have f9 : 995 / 1000 ≤ T := by linarith
  refine ⟨d9, by linarith, ?_⟩
  -- the quotient
  have g1 : |wgsA / T - primeV s| ≤ (213 / 100 * u + 16 / 1000 * σ) * wgsA := by
    unfold primeV
    rw [← hQ]
    generalize √Q = p at *
    have hT0 : 0 < T := by linarith
    have hp0 : 0 < p := by linarith
    have e3 : wgsA / T - wgsA / p = wgsA * ((p - T) / (T * p)) := by field_simp
    rw [e3, abs_mul, abs_of_pos ha, mul_comm wgsA]
    refine mul_le_mul_of_nonneg_right ?_ ha.le
    have hpq : 0 < T * p := mul_pos hT0 hp0
    rw [abs_div, abs_of_pos hpq, div_le_iff₀ hpq, abs_sub_comm]
    have h5 : (995 / 1000) * (996 / 1000) ≤ T * p := mul_le_mul f9 a2 (by norm_num) hT0.le
    have h6 : (213 / 100 * u + 16 / 1000 * σ) * ((995 / 1000) * (996 / 1000)) ≤ (213 / 100 * u + 16 / 1000 * σ) * (T * p) :=
      mul_le_mul_of_nonneg_left h5 (by positivity)
    linarith
  have g2 := hs.acc (wgsA / T)
  have g3 : |wgsA / T| ≤ 101 / 100 * wgsA := by
    have := abs_sub_abs_le_abs_sub (wgsA / T) (primeV s)
    rw [abs_of_pos (show 0 < primeV s by linarith)] at this
    have h7 : (213 / 100 * u + 16 / 1000 * σ) * wgsA ≤ 1 / 1000 * wgsA := mul_le_mul_of_nonneg_right (by linarith) ha.le
    linarith
  have g4 := mul_le_mul_of_nonneg_left g3 hu.le
  have g5 := abs_sub_le (fl (wgsA / T)) (wgsA / T) (primeV s)
  have g6 : 0 ≤ u * wgsA := by positivity
  have g7 : 0 ≤ σ * wgsA := by positivity
  linarith


/-- The square of the eccentricity in floating point. -/
theorem ecc2_step {u : ℝ} (hs : Small fl u) : Rel u 5 (fl (fl wgsF * fl (2 - fl wgsF))) ecc2 := by
  have hu := hs.pos
  have hu1 := hs.le
  have hf : 0 < wgsF ∧ wgsF < 4 / 1000 := by unfold wgsF; norm_num
  have h1 := hs.rel wgsF
  have h2 : |fl wgsF - wgsF| ≤ 4 / 1000 * u := by
    refine le_trans h1 ?_
    rw [abs_of_pos hf.1, one_mul, mul_comm]
    exact mul_le_mul_of_nonneg_right hf.2.le hu.le
  have h3 : Rel u 1 (2 - fl wgsF) (2 - wgsF) := by
    unfold Float.Rel
    rw [show 2 - fl wgsF - (2 - wgsF) = -(fl wgsF - wgsF) by ring, abs_neg, abs_of_pos (show 0 < 2 - wgsF by linarith [hf.2])]
    have : u * 1 ≤ u * (2 - wgsF) := mul_le_mul_of_nonneg_left (by linarith [hf.2]) hu.le
    linarith
  have h4 := h3.round hs zero_le_one (by norm_num)
  have h5 := (h1.mul hs zero_le_one (by norm_num) (by norm_num) (by norm_num) h4).round hs (by norm_num) (by norm_num)
  have e : wgsF * (2 - wgsF) = ecc2 := rfl
  rw [e] at h5
  exact h5.mono hs (by norm_num)

/-- What is needed of the mathematical library: sine, cosine and arcsine within `e`, and powers up to as many roundings as
the exponent says. -/
structure Library (lib : Libm) (powi : ℝ → ℕ → ℝ) (u e : ℝ) : Prop where
  sin : ∀ x, |lib.sin x - Real.sin x| ≤ e
  cos : ∀ x, |lib.cos x - Real.cos x| ≤ e
  asin : ∀ x, |x| ≤ 1 → |lib.asin x - arcsin x| ≤ e
  powi : ∀ x k, 0 < x → k ≤ 14 → Near u k (powi x k) (x ^ k)

theorem primeV_eq (lat : ℝ) : primeVertical lat = primeV (sin lat) := by
  unfold primeVertical primeV
  rw [pow_two, ← mul_assoc]
  rfl

/-- Distance from the axis and height over the equatorial plane in floating point. -/
theorem point_step {u : ℝ} (hs : Small fl u) {e : ℝ} (he : e ≤ 1 / 10000) (he0 : 0 ≤ e) {lat alt : ℝ} (hsin : |lib.sin lat - sin lat| ≤ e)
    (hcos : |lib.cos lat - cos lat| ≤ e) {E n : ℝ} (hE : Rel u 5 E ecc2) (hn : n = fl (wgsA / fl √(fl (1 - fl (fl (E * lib.sin lat) * lib.sin lat))))) :
    |fl (fl (n + alt) * lib.cos lat) - axisDistance lat alt| ≤ (6 * u + 11 / 10 * e) * (wgsA + |alt|) ∧
    |fl (fl (fl (n * fl (1 - E)) + alt) * lib.sin lat) - planeHeight lat alt| ≤ (8 * u + 11 / 10 * e) * (wgsA + |alt|) := by
  have ha := Frames.a_pos
  have hu := hs.pos
  have hu1 := hs.le
  obtain ⟨-, -, k3⟩ := primeV_step hs hE (Real.abs_sin_le_one lat) hsin (by linarith)
  obtain ⟨-, -, -, c1, c2⟩ := primeV_range (Real.abs_sin_le_one lat)
  obtain ⟨E1, E2⟩ := ecc2_range
  rw [← hn] at k3
  unfold axisDistance planeHeight
  rw [primeV_eq]
  set P := wgsA + |alt| with hP
  have habs := abs_nonneg alt
  have hP0 : 0 ≤ P := by linarith
  have hN0 : 0 ≤ primeV (sin lat) := by linarith
  have hPa : wgsA ≤ P := by linarith
  have hue : 7 / 2 * u + 1 / 20 * e ≤ 1 / 10000 := by linarith
  have hau : 0 ≤ u * wgsA := by positivity
  have heu : 0 ≤ e * wgsA := by positivity
  have hPu : u * wgsA ≤ u * P := mul_le_mul_of_nonneg_left hPa hu.le
  have hPe : e * wgsA ≤ e * P := mul_le_mul_of_nonneg_left hPa he0
  have hsmall : (7 / 2 * u + 1 / 20 * e) * wgsA ≤ 1 / 10000 * wgsA := mul_le_mul_of_nonneg_right hue ha.le
  have huP : u * P ≤ 1 / 1000000 * P := mul_le_mul_of_nonneg_right hu1 hP0
  have heP : e * P ≤ 1 / 10000 * P := mul_le_mul_of_nonneg_right he hP0
  -- the distance from the axis
  have hm0 : |primeV (sin lat) + alt| ≤ 1005 / 1000 * P := by
    have := abs_add_le (primeV (sin lat)) alt
    rw [abs_of_nonneg hN0] at this
    linarith
  have hm : |fl (n + alt) - (primeV (sin lat) + alt)| ≤ 46 / 10 * u * P + 1 / 20 * e * P := by
    have h1 := hs.acc (n + alt)
    have h2 : |n + alt - (primeV (sin lat) + alt)| ≤ (7 / 2 * u + 1 / 20 * e) * wgsA := by
      rw [show n + alt - (primeV (sin lat) + alt) = n - primeV (sin lat) by ring]
      exact k3
    have h3 : |n + alt| ≤ 1006 / 1000 * P := by
      have := abs_sub_abs_le_abs_sub (n + alt) (primeV (sin lat) + alt)
      linarith
    have h4 := mul_le_mul_of_nonneg_left h3 hu.le
    have h5 := abs_sub_le (fl (n + alt)) (n + alt) (primeV (sin lat) + alt)
    linarith
  have w1 := (trig_step hs (by linarith) hcos (Real.abs_cos_le_one lat) hm hm0 (by linarith) hP0).1
  have hz1 : |fl (1 - E) - (1 - ecc2)| ≤ 104 / 100 * u := by
    have h1 := hs.acc (1 - E)
    have h2 : |E - ecc2| ≤ 5 * u * |ecc2| := hE
    rw [abs_of_pos (show 0 < ecc2 by linarith)] at h2
    have h3 : u * ecc2 ≤ u * (67 / 10000) := mul_le_mul_of_nonneg_left E2.le hu.le
    have h6 : |1 - E - (1 - ecc2)| ≤ 5 * (u * (67 / 10000)) := by
      rw [show 1 - E - (1 - ecc2) = -(E - ecc2) by ring, abs_neg]
      linarith
    obtain ⟨g1, g2⟩ := abs_le.1 h6
    have h4 : |1 - E| ≤ 1 := abs_le.2 ⟨by linarith, by linarith⟩
    have h5 := mul_le_mul_of_nonneg_left h4 hu.le
    have := abs_sub_le (fl (1 - E)) (1 - E) (1 - ecc2)
    linarith
  obtain ⟨z1, z2⟩ := abs_le.1 hz1
  have hz2 : |fl (1 - E)| ≤ 1 := abs_le.2 ⟨by linarith, by linarith⟩
  have hz3 := mul_step hs.acc hu.le k3 hz1 hz2
  have hn1 : |n| ≤ 1006 / 1000 * wgsA := by
    have := abs_sub_abs_le_abs_sub n (primeV (sin lat))
    rw [abs_of_nonneg hN0] at this
    linarith
  have hz4 : |fl (n * fl (1 - E)) - primeV (sin lat) * (1 - ecc2)| ≤ 565 / 100 * u * wgsA + 1 / 20 * e * wgsA := by
    rw [abs_of_nonneg hN0] at hz3
    have h1 := mul_le_mul_of_nonneg_left hn1 hu.le
    have h2 := mul_le_mul_of_nonneg_right c2 (show 0 ≤ 104 / 100 * u by positivity)
    linarith
  have hz0 : |primeV (sin lat) * (1 - ecc2) + alt| ≤ 1005 / 1000 * P := by
    have := abs_add_le (primeV (sin lat) * (1 - ecc2)) alt
    have h1 : primeV (sin lat) * (1 - ecc2) ≤ primeV (sin lat) * 1 := mul_le_mul_of_nonneg_left (by linarith) hN0
    rw [abs_of_nonneg (mul_nonneg hN0 (by linarith))] at this
    linarith
  have hz5 : |fl (fl (n * fl (1 - E)) + alt) - (primeV (sin lat) * (1 - ecc2) + alt)| ≤
      675 / 100 * u * P + 1 / 20 * e * P := by
    have h1 := hs.acc (fl (n * fl (1 - E)) + alt)
    have h2 : |fl (n * fl (1 - E)) + alt - (primeV (sin lat) * (1 - ecc2) + alt)| ≤
        565 / 100 * u * wgsA + 1 / 20 * e * wgsA := by
      rw [show fl (n * fl (1 - E)) + alt - (primeV (sin lat) * (1 - ecc2) + alt) =
        fl (n * fl (1 - E)) - primeV (sin lat) * (1 - ecc2) by ring]
      exact hz4
    have h3 : |fl (n * fl (1 - E)) + alt| ≤ 1006 / 1000 * P := by
      have := abs_sub_abs_le_abs_sub (fl (n * fl (1 - E)) + alt) (primeV (sin lat) * (1 - ecc2) + alt)
      linarith
    have h4 := mul_le_mul_of_nonneg_left h3 hu.le
    have h5 := abs_sub_le (fl (fl (n * fl (1 - E)) + alt)) (fl (n * fl (1 - E)) + alt)
      (primeV (sin lat) * (1 - ecc2) + alt)
    linarith
  have w3 := (trig_step hs (by linarith) hsin (Real.abs_sin_le_one lat) hz5 hz0 (by linarith) hP0).1
  constructor <;> linarith

theorem sqrt_near (X Y x y : ℝ) : |√(X * X + Y * Y) - √(x * x + y * y)| ≤ |X - x| + |Y - y| := by
  have key : ∀ X Y x y : ℝ, √(X * X + Y * Y) ≤ √(x * x + y * y) + (|X - x| + |Y - y|) := by
    intro X Y x y
    have hr0 := Real.sqrt_nonneg (x * x + y * y)
    have hr2 := Real.mul_self_sqrt (add_nonneg (mul_self_nonneg x) (mul_self_nonneg y))
    have hx : |x| ≤ √(x * x + y * y) := Real.abs_le_sqrt (by nlinarith)
    have hy : |y| ≤ √(x * x + y * y) := Real.abs_le_sqrt (by nlinarith)
    have h1 : |X| ≤ |x| + |X - x| := by have := abs_add_le x (X - x); rwa [add_sub_cancel] at this
    have h2 : |Y| ≤ |y| + |Y - y| := by have := abs_add_le y (Y - y); rwa [add_sub_cancel] at this
    have hX := abs_mul_abs_self X
    have hY := abs_mul_abs_self Y
    have hx2 := abs_mul_abs_self x
    have hy2 := abs_mul_abs_self y
    generalize √(x * x + y * y) = r at *
    have a1 := abs_nonneg (X - x)
    have a2 := abs_nonneg (Y - y)
    generalize |X - x| = d1 at *
    generalize |Y - y| = d2 at *
    have b1 := abs_nonneg X
    have b2 := abs_nonneg Y
    have b3 := abs_nonneg x
    have b4 := abs_nonneg y
    refine Real.sqrt_le_iff.2 ⟨by linarith, ?_⟩
    have q1 : |X| * |X| ≤ (|x| + d1) * (|x| + d1) := mul_self_le_mul_self b1 h1
    have q2 : |Y| * |Y| ≤ (|y| + d2) * (|y| + d2) := mul_self_le_mul_self b2 h2
    have q3 : |x| * d1 ≤ r * d1 := mul_le_mul_of_nonneg_right hx a1
    have q4 : |y| * d2 ≤ r * d2 := mul_le_mul_of_nonneg_right hy a2
    have q5 : 0 ≤ d1 * d2 := mul_nonneg a1 a2
    nlinarith
  rw [abs_le]
  have h1 := key X Y x y
  have h2 := key x y X Y
  rw [abs_sub_comm x X, abs_sub_comm y Y] at h2
  constructor <;> linarith

/-- The distance from the centre, for heights down to ten kilometres below the ellipsoid. -/
theorem radius_range {lat alt : ℝ} (hh : -10000 ≤ alt) :
    99 / 100 * (wgsA + |alt|) ≤ centreDistance lat alt ∧ centreDistance lat alt ≤ 1005 / 1000 * (wgsA + |alt|) ∧
    6325000 ≤ centreDistance lat alt := by
  obtain ⟨-, -, -, c1, c2⟩ := primeV_range (Real.abs_sin_le_one lat)
  obtain ⟨E1, E2⟩ := ecc2_range
  unfold centreDistance axisDistance planeHeight
  rw [primeV_eq]
  have ha : wgsA = 6378137 := rfl
  have h2 := Real.sin_sq_add_cos_sq lat
  set n := primeV (sin lat) with hn
  have hm : 9933 / 10000 * wgsA + alt ≤ n * (1 - ecc2) + alt := by
    have : wgsA * (9933 / 10000) ≤ n * (1 - ecc2) := mul_le_mul c1 (by linarith) (by norm_num) (by rw [ha] at c1; linarith)
    linarith
  have hm0 : 0 ≤ n * (1 - ecc2) + alt := by rw [ha] at hm; linarith
  have hmn : n * (1 - ecc2) + alt ≤ n + alt := by
    have : n * (1 - ecc2) ≤ n * 1 := mul_le_mul_of_nonneg_left (by linarith) (by rw [ha] at c1; linarith)
    linarith
  set m := n * (1 - ecc2) + alt with hmd
  set w := n + alt with hw
  have q1 : m ^ 2 ≤ w ^ 2 := pow_le_pow_left₀ hm0 hmn 2
  have lower : m ≤ √((w * cos lat) ^ 2 + (m * sin lat) ^ 2) := by
    refine Real.le_sqrt_of_sq_le ?_
    have : m ^ 2 * cos lat ^ 2 ≤ w ^ 2 * cos lat ^ 2 := mul_le_mul_of_nonneg_right q1 (sq_nonneg _)
    calc m ^ 2 = m ^ 2 * cos lat ^ 2 + m ^ 2 * sin lat ^ 2 := by linear_combination -m ^ 2 * h2
      _ ≤ _ := by rw [mul_pow, mul_pow]; linarith
  have upper : √((w * cos lat) ^ 2 + (m * sin lat) ^ 2) ≤ w := by
    refine Real.sqrt_le_iff.2 ⟨by linarith, ?_⟩
    have : m ^ 2 * sin lat ^ 2 ≤ w ^ 2 * sin lat ^ 2 := mul_le_mul_of_nonneg_right q1 (sq_nonneg _)
    calc (w * cos lat) ^ 2 + (m * sin lat) ^ 2 ≤ w ^ 2 * cos lat ^ 2 + w ^ 2 * sin lat ^ 2 := by rw [mul_pow, mul_pow]; linarith
      _ = w ^ 2 := by linear_combination w ^ 2 * h2
  have habs : alt ≤ |alt| := le_abs_self alt
  refine ⟨le_trans ?_ lower, upper.trans ?_, le_trans ?_ lower⟩
  · rcases le_total 0 alt with h0 | h0
    · rw [abs_of_nonneg h0]; rw [ha] at hm ⊢; linarith
    · rw [abs_of_nonpos h0]; rw [ha] at hm ⊢; linarith
  · rw [hw]; linarith [abs_nonneg alt]
  · rw [ha] at hm; linarith

theorem plane_le (lat alt : ℝ) : |planeHeight lat alt / centreDistance lat alt| ≤ 1 := by
  unfold centreDistance
  rw [abs_div, abs_of_nonneg (Real.sqrt_nonneg _)]
  refine div_le_one_of_le₀ (Real.abs_le_sqrt ?_) (Real.sqrt_nonneg _)
  nlinarith [sq_nonneg (axisDistance lat alt)]

/-- The geocentric coordinates in floating point: the radius, and the sine of the latitude before its arcsine. -/
theorem geocentric_step {u : ℝ} (hs : Small fl u) {e : ℝ} (he : e ≤ 1 / 10000) {powi : ℝ → ℕ → ℝ} (hl : Library lib powi u e) {lat alt : ℝ}
    (hh : -10000 ≤ alt) :
    |(geocentric fl lib lat alt).1 - centreDistance lat alt| ≤ (18 * u + 3 * e) * centreDistance lat alt ∧
    ∃ t, (geocentric fl lib lat alt).2 = lib.asin t ∧ |t - planeHeight lat alt / centreDistance lat alt| ≤ 27 * u + 4 * e := by
  have hu := hs.pos
  have hu1 := hs.le
  have he0 : 0 ≤ e := (abs_nonneg _).trans (hl.sin 0)
  have ha := Frames.a_pos
  obtain ⟨dx, dy⟩ := point_step (alt := alt) hs he he0 (hl.sin lat) (hl.cos lat) (ecc2_step hs) rfl
  obtain ⟨r1, r2, r3⟩ := radius_range (lat := lat) hh
  have hz := plane_le lat alt
  unfold geocentric
  dsimp only
  set E := fl (fl wgsF * fl (2 - fl wgsF)) with hE
  set n := fl (wgsA / fl √(fl (1 - fl (fl (E * lib.sin lat) * lib.sin lat)))) with hn
  set X := fl (fl (n + alt) * lib.cos lat) with hX
  set Y := fl (fl (fl (n * fl (1 - E)) + alt) * lib.sin lat) with hY
  set P := wgsA + |alt| with hP
  have hP0 : 0 < P := by have := abs_nonneg alt; linarith
  have hr : centreDistance lat alt = √(axisDistance lat alt * axisDistance lat alt + planeHeight lat alt * planeHeight lat alt) := by
    unfold centreDistance
    rw [pow_two, pow_two]
  have hs1 := sqrt_near X Y (axisDistance lat alt) (planeHeight lat alt)
  rw [← hr] at hs1
  set r := centreDistance lat alt with hrd
  set z := planeHeight lat alt with hzd
  have hr0 : 0 < r := by linarith
  set s := √(X * X + Y * Y) with hsd
  have uP : u * P ≤ 1 / 1000000 * P := mul_le_mul_of_nonneg_right hu1 hP0.le
  have eP : e * P ≤ 1 / 10000 * P := mul_le_mul_of_nonneg_right he hP0.le
  have uP0 : 0 < u * P := mul_pos hu hP0
  have eP0 : 0 ≤ e * P := mul_nonneg he0 hP0.le
  have hs2 : |s - r| ≤ 14 * (u * P) + 22 / 10 * (e * P) := hs1.trans (by linarith)
  obtain ⟨s1, s2⟩ := abs_le.1 hs2
  have n1 := mul_self_nonneg X
  have n2 := mul_self_nonneg Y
  have k1 := ((hs.rel (X * X)).add (hs.rel (Y * Y)) n1 n2).round hs zero_le_one (by norm_num)
  have k2 := (k1.sqrt (add_nonneg n1 n2) (k1.nonneg hs (by norm_num) (by norm_num) (add_nonneg n1 n2))).round hs (by norm_num) (by norm_num)
  rw [← hsd] at k2
  set R := fl √(fl (fl (X * X) + fl (Y * Y))) with hR
  have k3 : |R - s| ≤ 31 / 10 * (u * P) := by
    refine le_trans k2 ?_
    rw [abs_of_nonneg (Real.sqrt_nonneg _)]
    have : u * s ≤ u * (101 / 100 * P) := mul_le_mul_of_nonneg_left (by linarith) hu.le
    linarith
  have k4 : |R - r| ≤ 171 / 10 * (u * P) + 22 / 10 * (e * P) := (abs_sub_le R s r).trans (by linarith)
  obtain ⟨k5, k6⟩ := abs_le.1 k4
  refine ⟨?_, fl (Y / R), rfl, ?_⟩
  · refine k4.trans ?_
    have h1 : u * (99 / 100 * P) ≤ u * r := mul_le_mul_of_nonneg_left r1 hu.le
    have h2 : e * (99 / 100 * P) ≤ e * r := mul_le_mul_of_nonneg_left r1 he0
    linarith
  · have hR1 : 98 / 100 * P ≤ R := by linarith
    have hR0 : 0 < R := by linarith
    have e1 : Y / R - z / r = ((Y - z) + z / r * (r - R)) / R := by field_simp; ring
    have e2 : |z / r * (r - R)| ≤ 171 / 10 * (u * P) + 22 / 10 * (e * P) := by
      rw [abs_mul, abs_sub_comm]
      calc |z / r| * |R - r| ≤ 1 * |R - r| := mul_le_mul_of_nonneg_right hz (abs_nonneg _)
        _ ≤ _ := by rw [one_mul]; exact k4
    have e3 : |Y / R - z / r| ≤ 257 / 10 * u + 34 / 10 * e := by
      rw [e1, abs_div, abs_of_pos hR0, div_le_iff₀ hR0]
      have h1 := abs_add_le (Y - z) (z / r * (r - R))
      have h2 : (257 / 10 * u + 34 / 10 * e) * (98 / 100 * P) ≤ (257 / 10 * u + 34 / 10 * e) * R :=
        mul_le_mul_of_nonneg_left hR1 (by positivity)
      linarith
    have e4 := hs.acc (Y / R)
    have e5 : |Y / R| ≤ 1001 / 1000 := by
      have := abs_sub_abs_le_abs_sub (Y / R) (z / r)
      linarith
    have e6 := mul_le_mul_of_nonneg_left e5 hu.le
    have := abs_sub_le (fl (Y / R)) (Y / R) (z / r)
    linarith

end Verif.Wmm.Fp
