import Verif.Float.Geo
import Verif.Float.Rel
import Verif.Frames.PropsGeo

/-!
# C192, C193: geodetic conversions in floating point
-/

namespace Verif.Float

open Verif.Simd (Accurate)
open Verif.Frames (wgsA wgsE2)
open Real

variable {fl : ℝ → ℝ} {lib : Libm}

/-! ## The radius of curvature -/

/-- The radius of curvature for the sine `s` of the latitude. -/
noncomputable def curv (s : ℝ) : ℝ := wgsA / √(1 - wgsE2 * s * s)

theorem e2_range : 66 / 10000 < wgsE2 ∧ wgsE2 < 67 / 10000 := by
  unfold wgsE2
  norm_num

theorem curv_range {s : ℝ} (hs : |s| ≤ 1) :
    993 / 1000 ≤ 1 - wgsE2 * s * s ∧ 996 / 1000 ≤ √(1 - wgsE2 * s * s) ∧ √(1 - wgsE2 * s * s) ≤ 1 ∧ wgsA ≤ curv s ∧
      curv s ≤ 1005 / 1000 * wgsA := by
  obtain ⟨e1, e2⟩ := e2_range
  have hss : s * s ≤ 1 := by
    have := abs_le.1 hs
    nlinarith
  have hs0 := mul_self_nonneg s
  have h1 : 993 / 1000 ≤ 1 - wgsE2 * s * s := by nlinarith
  have h2 : 1 - wgsE2 * s * s ≤ 1 := by nlinarith
  have h3 : 996 / 1000 ≤ √(1 - wgsE2 * s * s) := Real.le_sqrt_of_sq_le (by linarith)
  have h4 : √(1 - wgsE2 * s * s) ≤ 1 := Real.sqrt_le_one.2 h2
  have ha := Frames.a_pos
  refine ⟨h1, h3, h4, ?_, ?_⟩
  · unfold curv
    rw [le_div_iff₀ (by linarith)]
    nlinarith
  · unfold curv
    rw [div_le_iff₀ (by linarith)]
    nlinarith

/-- How the radius of curvature depends on the sine. -/
theorem curv_diff {s t σ : ℝ} (hs : |s| ≤ 1) (ht : |t| ≤ 1) (h : |s - t| ≤ σ) :
    |curv s - curv t| ≤ 14 / 1000 * σ * wgsA := by
  obtain ⟨e1, e2⟩ := e2_range
  obtain ⟨a1, a2, a3, -, -⟩ := curv_range hs
  obtain ⟨b1, b2, b3, -, -⟩ := curv_range ht
  have ha := Frames.a_pos
  have hd : |(1 - wgsE2 * s * s) - (1 - wgsE2 * t * t)| ≤ 134 / 10000 * σ := by
    rw [show (1 - wgsE2 * s * s) - (1 - wgsE2 * t * t) = -(wgsE2 * ((s - t) * (s + t))) by ring, abs_neg, abs_mul,
      abs_mul, abs_of_pos (by linarith)]
    have h1 : |s + t| ≤ 2 := (abs_add_le s t).trans (by linarith)
    have h2 : |s - t| * |s + t| ≤ σ * 2 := mul_le_mul h h1 (abs_nonneg _) ((abs_nonneg _).trans h)
    calc wgsE2 * (|s - t| * |s + t|) ≤ 67 / 10000 * (σ * 2) := mul_le_mul e2.le h2 (by positivity) (by norm_num)
      _ = _ := by ring
  have e : (√(1 - wgsE2 * s * s) - √(1 - wgsE2 * t * t)) * (√(1 - wgsE2 * s * s) + √(1 - wgsE2 * t * t)) =
      (1 - wgsE2 * s * s) - (1 - wgsE2 * t * t) := by
    have := Real.mul_self_sqrt (show 0 ≤ 1 - wgsE2 * s * s by linarith)
    have := Real.mul_self_sqrt (show 0 ≤ 1 - wgsE2 * t * t by linarith)
    linarith
  unfold curv
  generalize √(1 - wgsE2 * s * s) = p at *
  generalize √(1 - wgsE2 * t * t) = q at *
  have h3 : |p - q| * (1992 / 1000) ≤ 134 / 10000 * σ := by
    refine le_trans ?_ hd
    rw [← e, abs_mul]
    refine mul_le_mul_of_nonneg_left ?_ (abs_nonneg _)
    exact le_trans (by linarith) (le_abs_self _)
  have e3 : wgsA / p - wgsA / q = wgsA * ((q - p) / (p * q)) := by
    have : p ≠ 0 := by positivity
    have : q ≠ 0 := by positivity
    field_simp
  rw [e3, abs_mul, abs_of_pos ha, mul_comm wgsA]
  refine mul_le_mul_of_nonneg_right ?_ ha.le
  have hpq : 0 < p * q := by positivity
  rw [abs_div, abs_of_pos hpq, div_le_iff₀ hpq, abs_sub_comm]
  have h5 : (996 / 1000) * (996 / 1000) ≤ p * q := mul_le_mul a2 b2 (by norm_num) (by linarith)
  have hσ : 0 ≤ σ := (abs_nonneg _).trans h
  have h6 : 14 / 1000 * σ * ((996 / 1000) * (996 / 1000)) ≤ 14 / 1000 * σ * (p * q) :=
    mul_le_mul_of_nonneg_left h5 (by positivity)
  linarith

/-- The radius of curvature in floating point, from an approximation `t` of the sine. -/
theorem curv_step {u : ℝ} (hs : Small fl u) {E s t σ : ℝ} (hE : Rel u 1 E wgsE2) (hs1 : |s| ≤ 1) (ht : |t - s| ≤ σ)
    (hσ : σ ≤ 1 / 1000) :
    0 ≤ fl (1 - fl (fl (E * t) * t)) ∧ 0 < fl √(fl (1 - fl (fl (E * t) * t))) ∧
      |fl (wgsA / fl √(fl (1 - fl (fl (E * t) * t)))) - curv s| ≤ (7 / 2 * u + 1 / 20 * σ) * wgsA := by
  obtain ⟨e1, e2⟩ := e2_range
  obtain ⟨a1, a2, a3, c1, c2⟩ := curv_range hs1
  have ha := Frames.a_pos
  have hu := hs.pos
  have hu1 := hs.le
  have hσ0 : 0 ≤ σ := (abs_nonneg _).trans ht
  -- the product
  have r1 : Rel u (1 + 0 + 1 / 100) (E * t) (wgsE2 * t) :=
    hE.mul hs zero_le_one (by norm_num) le_rfl (by norm_num) (Rel.refl u t)
  have r2 := r1.round hs (by norm_num) (by norm_num)
  have r3 := r2.mul hs (by norm_num) (by norm_num) le_rfl (by norm_num) (Rel.refl u t)
  have r4 := r3.round hs (by norm_num) (by norm_num)
  set q := fl (fl (E * t) * t) with hq
  have ht1 : |t| ≤ 1001 / 1000 := by
    have := abs_sub_abs_le_abs_sub t s
    linarith
  have htt : t * t ≤ 1003 / 1000 := by
    have := abs_le.1 ht1
    nlinarith
  have htt0 := mul_self_nonneg t
  have hq1 : |q - wgsE2 * t * t| ≤ 3 / 100 * u := by
    refine r4.trans ?_
    have h0 : 0 ≤ wgsE2 * t * t := by
      rw [mul_assoc]
      exact mul_nonneg (by linarith) htt0
    rw [abs_of_nonneg h0]
    have : wgsE2 * t * t ≤ 673 / 100000 := by
      rw [mul_assoc]
      calc wgsE2 * (t * t) ≤ 67 / 10000 * (1003 / 1000) := mul_le_mul e2.le htt htt0 (by norm_num)
        _ ≤ _ := by norm_num
    have h2 := mul_le_mul_of_nonneg_left this hu.le
    linarith
  have hq2 : |wgsE2 * t * t - wgsE2 * s * s| ≤ 14 / 1000 * σ := by
    rw [show wgsE2 * t * t - wgsE2 * s * s = wgsE2 * ((t - s) * (t + s)) by ring, abs_mul, abs_mul,
      abs_of_pos (by linarith)]
    have h1 : |t + s| ≤ 2001 / 1000 := (abs_add_le t s).trans (by linarith)
    have h2 : |t - s| * |t + s| ≤ σ * (2001 / 1000) := mul_le_mul ht h1 (abs_nonneg _) hσ0
    have h3 : wgsE2 * (|t - s| * |t + s|) ≤ 67 / 10000 * (σ * (2001 / 1000)) :=
      mul_le_mul e2.le h2 (by positivity) (by norm_num)
    linarith
  have hq3 : |q - wgsE2 * s * s| ≤ 3 / 100 * u + 14 / 1000 * σ :=
    (abs_sub_le _ (wgsE2 * t * t) _).trans (by linarith)
  -- one minus it
  set Q := 1 - wgsE2 * s * s with hQ
  have hQ1 : Q ≤ 1 := by
    have : 0 ≤ wgsE2 * s * s := by rw [mul_assoc]; exact mul_nonneg (by linarith) (mul_self_nonneg s)
    linarith
  have d1 : |1 - q - Q| ≤ 3 / 100 * u + 14 / 1000 * σ := by
    rw [show 1 - q - Q = -(q - wgsE2 * s * s) by rw [hQ]; ring, abs_neg]
    exact hq3
  obtain ⟨d2, d3⟩ := abs_le.1 d1
  have d4 : |1 - q| ≤ 1001 / 1000 := abs_le.2 ⟨by linarith, by linarith⟩
  have d5 := hs.acc (1 - q)
  have d6 : |fl (1 - q) - Q| ≤ 104 / 100 * u + 14 / 1000 * σ := by
    have h1 := abs_sub_le (fl (1 - q)) (1 - q) Q
    have h2 := mul_le_mul_of_nonneg_left d4 hu.le
    linarith
  obtain ⟨d7, d8⟩ := abs_le.1 d6
  have d9 : 0 ≤ fl (1 - q) := by linarith
  -- the root
  have f1 : |√(fl (1 - q)) - √Q| ≤ 105 / 100 * u + 15 / 1000 * σ := by
    have hQ0 : 0 ≤ Q := by linarith
    have e : (√(fl (1 - q)) - √Q) * (√(fl (1 - q)) + √Q) = fl (1 - q) - Q := by
      have := Real.mul_self_sqrt hQ0
      have := Real.mul_self_sqrt d9
      linarith
    have h2 : |√(fl (1 - q)) - √Q| * (996 / 1000) ≤ |fl (1 - q) - Q| := by
      rw [← e, abs_mul]
      refine mul_le_mul_of_nonneg_left ?_ (abs_nonneg _)
      have := Real.sqrt_nonneg (fl (1 - q))
      exact le_trans (by linarith) (le_abs_self _)
    linarith
  have f2 := hs.acc √(fl (1 - q))
  rw [abs_of_nonneg (Real.sqrt_nonneg _)] at f2
  obtain ⟨f3, f4⟩ := abs_le.1 f1
  have f5 : u * √(fl (1 - q)) ≤ u * (1001 / 1000) := mul_le_mul_of_nonneg_left (by linarith) hu.le
  set T := fl √(fl (1 - q)) with hT
  have f6 : |T - √Q| ≤ 206 / 100 * u + 15 / 1000 * σ := by
    have := abs_sub_le T √(fl (1 - q)) √Q
    linarith
  obtain ⟨f7, f8⟩ := abs_le.1 f6
  have f9 : 995 / 1000 ≤ T := by linarith
  refine ⟨d9, by linarith, ?_⟩
  -- the quotient
  have g1 : |wgsA / T - curv s| ≤ (21 / 10 * u + 16 / 1000 * σ) * wgsA := by
    unfold curv
    rw [← hQ]
    generalize √Q = p at *
    have hT0 : 0 < T := by linarith
    have hp0 : 0 < p := by linarith
    have e3 : wgsA / T - wgsA / p = wgsA * ((p - T) / (T * p)) := by field_simp
    rw [e3, abs_mul, abs_of_pos ha, mul_comm wgsA]
    refine mul_le_mul_of_nonneg_right ?_ ha.le
    have hpq : 0 < T * p := mul_pos hT0 hp0
    rw [abs_div, abs_of_pos hpq, div_le_iff₀ hpq, abs_sub_comm]
    have h5 : (995 / 1000) * (996 / 1000) ≤ T * p := mul_le_mul f9 a2 (by norm_num) hT0.le
    have h6 : (21 / 10 * u + 16 / 1000 * σ) * ((995 / 1000) * (996 / 1000)) ≤ (21 / 10 * u + 16 / 1000 * σ) * (T * p) :=
      mul_le_mul_of_nonneg_left h5 (by positivity)
    linarith
  have g2 := hs.acc (wgsA / T)
  have g3 : |wgsA / T| ≤ 101 / 100 * wgsA := by
    have := abs_sub_abs_le_abs_sub (wgsA / T) (curv s)
    rw [abs_of_pos (show 0 < curv s by linarith)] at this
    have h7 : (21 / 10 * u + 16 / 1000 * σ) * wgsA ≤ 1 / 1000 * wgsA := mul_le_mul_of_nonneg_right (by linarith) ha.le
    linarith
  have g4 := mul_le_mul_of_nonneg_left g3 hu.le
  have g5 := abs_sub_le (fl (wgsA / T)) (wgsA / T) (curv s)
  have g6 : 0 ≤ u * wgsA := by positivity
  have g7 : 0 ≤ σ * wgsA := by positivity
  linarith

/-! ## C192 -/

/-- One factor: a number `b` within `α` of `a`, times an approximation of a sine or cosine, rounded. -/
theorem trig_step {u : ℝ} (hs : Small fl u) {a b t s α e P : ℝ} (he : e ≤ 1 / 1000) (ht : |t - s| ≤ e) (hs1 : |s| ≤ 1)
    (hb : |b - a| ≤ α) (ha : |a| ≤ 1005 / 1000 * P) (hα : α ≤ 1 / 1000 * P) (hP : 0 ≤ P) :
    |fl (b * t) - a * s| ≤ 102 / 100 * u * P + 1001 / 1000 * α + 1005 / 1000 * e * P ∧ |a * s| ≤ 1005 / 1000 * P := by
  have hu := hs.pos
  have ht1 : |t| ≤ 1001 / 1000 := by
    have := abs_sub_abs_le_abs_sub t s
    linarith
  have h := mul_step hs.acc hu.le hb ht ht1
  have hb1 : |b| ≤ 1006 / 1000 * P := by
    have := abs_sub_abs_le_abs_sub b a
    linarith
  have h1 : u * (|b| * (1001 / 1000)) ≤ u * (1006 / 1000 * P * (1001 / 1000)) := by gcongr
  have he0 : 0 ≤ e := (abs_nonneg _).trans ht
  have h2 : |a| * e ≤ 1005 / 1000 * P * e := mul_le_mul_of_nonneg_right ha he0
  have h3 : 0 ≤ u * P := by positivity
  refine ⟨by linarith, ?_⟩
  rw [abs_mul]
  calc |a| * |s| ≤ 1005 / 1000 * P * 1 := mul_le_mul ha hs1 (abs_nonneg _) (by positivity)
    _ = _ := mul_one _

theorem LibNear.sub_abs {e : ℝ} (hl : LibNear lib e) : 0 ≤ e := (abs_nonneg _).trans (hl.sin 0)

/-- **C192**: with roundings of relative size `u`, at most a millionth, the constant `e²` rounded, and a library whose sine
and cosine are within `e`, every Earth-fixed coordinate of a geodetic position is computed within `8 u + 3 e` times the
sum of the semi-major axis and the height. -/
theorem C192_ecef {u : ℝ} (hs : Small fl u) {e : ℝ} (he : e ≤ 1 / 10000) (hl : LibNear lib e) {E : ℝ} (hE : Rel u 1 E wgsE2)
    (lat lon alt : ℝ) :
    ∃ q : Fin 3 → ℝ, geodeticToEcef (CF.num wgsA : CF fl lib) (CF.num E) (CF.num lat) (CF.num lon) (CF.num alt) =
        (fun i => CF.num (q i)) ∧
      ∀ i, |q i - Frames.geodeticToEcef lat lon alt i| ≤ (8 * u + 3 * e) * (wgsA + |alt|) := by
  have ha := Frames.a_pos
  have hu := hs.pos
  have hu1 := hs.le
  have he0 := hl.sub_abs
  obtain ⟨k1, k2, k3⟩ := curv_step hs hE (Real.abs_sin_le_one lat) (hl.sin lat) (by linarith)
  obtain ⟨-, -, -, c1, c2⟩ := curv_range (Real.abs_sin_le_one lat)
  obtain ⟨E1, E2⟩ := e2_range
  set n := fl (wgsA / fl √(fl (1 - fl (fl (E * lib.sin lat) * lib.sin lat)))) with hn
  refine ⟨![fl (fl (fl (n + alt) * lib.cos lat) * lib.cos lon), fl (fl (fl (n + alt) * lib.cos lat) * lib.sin lon),
    fl (fl (fl (n * fl (1 - E)) + alt) * lib.sin lat)], ?_, ?_⟩
  · unfold geodeticToEcef
    dsimp only
    simp only [cf_one, cf_mul, cf_add, cf_sub, cf_sin, cf_cos, cf_sqrt k1, cf_div _ k2.ne', ← hn]
    funext i
    fin_cases i <;> rfl
  · set P := wgsA + |alt| with hP
    have habs := abs_nonneg alt
    have hP0 : 0 ≤ P := by linarith
    have hN0 : 0 ≤ curv (Real.sin lat) := by linarith
    have hPa : wgsA ≤ P := by linarith
    have hue : 7 / 2 * u + 1 / 20 * e ≤ 1 / 10000 := by linarith
    have hau : 0 ≤ u * wgsA := by positivity
    have heu : 0 ≤ e * wgsA := by positivity
    have hPu : u * wgsA ≤ u * P := mul_le_mul_of_nonneg_left hPa hu.le
    have hPe : e * wgsA ≤ e * P := mul_le_mul_of_nonneg_left hPa he0
    have hsmall : (7 / 2 * u + 1 / 20 * e) * wgsA ≤ 1 / 10000 * wgsA := mul_le_mul_of_nonneg_right hue ha.le
    have huP : u * P ≤ 1 / 1000000 * P := mul_le_mul_of_nonneg_right hu1 hP0
    have heP : e * P ≤ 1 / 10000 * P := mul_le_mul_of_nonneg_right he hP0
    -- the distance from the axis
    have hm0 : |curv (Real.sin lat) + alt| ≤ 1005 / 1000 * P := by
      have := abs_add_le (curv (Real.sin lat)) alt
      rw [abs_of_nonneg hN0] at this
      linarith
    have hm : |fl (n + alt) - (curv (Real.sin lat) + alt)| ≤ 46 / 10 * u * P + 1 / 20 * e * P := by
      have h1 := hs.acc (n + alt)
      have h2 : |n + alt - (curv (Real.sin lat) + alt)| ≤ (7 / 2 * u + 1 / 20 * e) * wgsA := by
        rw [show n + alt - (curv (Real.sin lat) + alt) = n - curv (Real.sin lat) by ring]
        exact k3
      have h3 : |n + alt| ≤ 1006 / 1000 * P := by
        have := abs_sub_abs_le_abs_sub (n + alt) (curv (Real.sin lat) + alt)
        linarith
      have h4 := mul_le_mul_of_nonneg_left h3 hu.le
      have h5 := abs_sub_le (fl (n + alt)) (n + alt) (curv (Real.sin lat) + alt)
      linarith
    obtain ⟨w1, w2⟩ := trig_step hs (by linarith) (hl.cos lat) (Real.abs_cos_le_one lat) hm hm0 (by linarith) hP0
    have fin : ∀ t s : ℝ, |t - s| ≤ e → |s| ≤ 1 →
        |fl (fl (fl (n + alt) * lib.cos lat) * t) - (curv (Real.sin lat) + alt) * Real.cos lat * s| ≤ (8 * u + 3 * e) * P := by
      intro t s h1 h2
      have := (trig_step hs (by linarith) h1 h2 w1 w2 (by linarith) hP0).1
      linarith
    have hz1 : |fl (1 - E) - (1 - wgsE2)| ≤ 101 / 100 * u := by
      have h1 := hs.acc (1 - E)
      have h2 : |E - wgsE2| ≤ 1 * u * |wgsE2| := hE
      rw [abs_of_pos (show 0 < wgsE2 by linarith)] at h2
      have h3 : u * wgsE2 ≤ u * (67 / 10000) := mul_le_mul_of_nonneg_left E2.le hu.le
      have h6 : |1 - E - (1 - wgsE2)| ≤ u * (67 / 10000) := by
        rw [show 1 - E - (1 - wgsE2) = -(E - wgsE2) by ring, abs_neg]
        linarith
      obtain ⟨g1, g2⟩ := abs_le.1 h6
      have h4 : |1 - E| ≤ 1 := abs_le.2 ⟨by linarith, by linarith⟩
      have h5 := mul_le_mul_of_nonneg_left h4 hu.le
      have := abs_sub_le (fl (1 - E)) (1 - E) (1 - wgsE2)
      linarith
    obtain ⟨z1, z2⟩ := abs_le.1 hz1
    have hz2 : |fl (1 - E)| ≤ 1 := abs_le.2 ⟨by linarith, by linarith⟩
    have hz3 := mul_step hs.acc hu.le k3 hz1 hz2
    have hn1 : |n| ≤ 1006 / 1000 * wgsA := by
      have := abs_sub_abs_le_abs_sub n (curv (Real.sin lat))
      rw [abs_of_nonneg hN0] at this
      linarith
    have hz4 : |fl (n * fl (1 - E)) - curv (Real.sin lat) * (1 - wgsE2)| ≤ 56 / 10 * u * wgsA + 1 / 20 * e * wgsA := by
      rw [abs_of_nonneg hN0] at hz3
      have h1 := mul_le_mul_of_nonneg_left hn1 hu.le
      have h2 := mul_le_mul_of_nonneg_right c2 (show 0 ≤ 101 / 100 * u by positivity)
      linarith
    have hz0 : |curv (Real.sin lat) * (1 - wgsE2) + alt| ≤ 1005 / 1000 * P := by
      have := abs_add_le (curv (Real.sin lat) * (1 - wgsE2)) alt
      have h1 : curv (Real.sin lat) * (1 - wgsE2) ≤ curv (Real.sin lat) * 1 := mul_le_mul_of_nonneg_left (by linarith) hN0
      rw [abs_of_nonneg (mul_nonneg hN0 (by linarith))] at this
      linarith
    have hz5 : |fl (fl (n * fl (1 - E)) + alt) - (curv (Real.sin lat) * (1 - wgsE2) + alt)| ≤
        67 / 10 * u * P + 1 / 20 * e * P := by
      have h1 := hs.acc (fl (n * fl (1 - E)) + alt)
      have h2 : |fl (n * fl (1 - E)) + alt - (curv (Real.sin lat) * (1 - wgsE2) + alt)| ≤
          56 / 10 * u * wgsA + 1 / 20 * e * wgsA := by
        rw [show fl (n * fl (1 - E)) + alt - (curv (Real.sin lat) * (1 - wgsE2) + alt) =
          fl (n * fl (1 - E)) - curv (Real.sin lat) * (1 - wgsE2) by ring]
        exact hz4
      have h3 : |fl (n * fl (1 - E)) + alt| ≤ 1006 / 1000 * P := by
        have := abs_sub_abs_le_abs_sub (fl (n * fl (1 - E)) + alt) (curv (Real.sin lat) * (1 - wgsE2) + alt)
        linarith
      have h4 := mul_le_mul_of_nonneg_left h3 hu.le
      have h5 := abs_sub_le (fl (fl (n * fl (1 - E)) + alt)) (fl (n * fl (1 - E)) + alt)
        (curv (Real.sin lat) * (1 - wgsE2) + alt)
      linarith
    intro i
    fin_cases i
    · exact fin _ _ (hl.cos lon) (Real.abs_cos_le_one lon)
    · exact fin _ _ (hl.sin lon) (Real.abs_sin_le_one lon)
    · have := (trig_step hs (by linarith) (hl.sin lat) (Real.abs_sin_le_one lat) hz5 hz0 (by linarith) hP0).1
      refine le_trans this ?_
      linarith

/-! ## C193: one pass -/

open Verif.Frames (geoN geoDz Signed)

theorem sine_le {rho2 w : ℝ} (hr : 0 ≤ rho2) : |w / √(rho2 + w * w)| ≤ 1 := by
  rw [abs_div, abs_of_nonneg (Real.sqrt_nonneg _)]
  refine div_le_one_of_le₀ ?_ (Real.sqrt_nonneg _)
  rw [← Real.sqrt_mul_self_eq_abs]
  exact Real.sqrt_le_sqrt (by linarith)

theorem geoN_eq (rho2 z d : ℝ) : geoN rho2 z d = curv ((z + d) / √(rho2 + (z + d) * (z + d))) := rfl

theorem geoDz_bound {rho2 z d : ℝ} (hr : 0 ≤ rho2) : |geoDz rho2 z d| ≤ 43000 := by
  have h : geoDz rho2 z d = geoN rho2 z d * wgsE2 * ((z + d) / √(rho2 + (z + d) * (z + d))) := rfl
  obtain ⟨-, -, -, c1, c2⟩ := curv_range (sine_le (w := z + d) hr)
  obtain ⟨e1, e2⟩ := e2_range
  have ha := Frames.a_pos
  rw [h, abs_mul, geoN_eq]
  have h1 : |curv ((z + d) / √(rho2 + (z + d) * (z + d))) * wgsE2| ≤ 43000 := by
    rw [abs_of_nonneg (mul_nonneg (by linarith) (by linarith))]
    have : wgsA = 6378137 := rfl
    calc curv ((z + d) / √(rho2 + (z + d) * (z + d))) * wgsE2 ≤ 1005 / 1000 * wgsA * (67 / 10000) :=
          mul_le_mul c2 e2.le (by linarith) (by positivity)
      _ ≤ _ := by rw [this]; norm_num
  calc _ ≤ 43000 * 1 := mul_le_mul h1 (sine_le hr) (abs_nonneg _) (by norm_num)
    _ = _ := mul_one _

/-- The distance `nh` of one pass. -/
theorem nh_step {u : ℝ} (hs : Small fl u) {r rho2 z d : ℝ} (hr : 0 ≤ rho2) (hr' : Rel u (201 / 100) r rho2) :
    Rel u 1 (fl (z + d)) (z + d) ∧ 0 ≤ fl (r + fl (fl (z + d) * fl (z + d))) ∧
      Rel u (504 / 100) (fl √(fl (r + fl (fl (z + d) * fl (z + d))))) √(rho2 + (z + d) * (z + d)) := by
  have h1 := hs.rel (z + d)
  have h2 := (h1.mul hs zero_le_one (by norm_num) zero_le_one (by norm_num) h1).round hs (by norm_num) (by norm_num)
  have h3 := ((hr'.mono hs (m := 302 / 100) (by norm_num)).add (h2.mono hs (m := 302 / 100) (by norm_num)) hr
    (mul_self_nonneg _)).round hs (by norm_num) (by norm_num)
  have h0 := h3.nonneg hs (by norm_num) (by norm_num) (add_nonneg hr (mul_self_nonneg _))
  exact ⟨h1, h0, ((h3.sqrt (add_nonneg hr (mul_self_nonneg _)) h0).round hs (by norm_num) (by norm_num)).mono hs
    (by norm_num)⟩

/-- One pass of the loop. -/
theorem pass_step {u : ℝ} (hs : Small fl u) {E : ℝ} (hE : Rel u 1 E wgsE2) {r rho2 z d : ℝ} (hr : 0 ≤ rho2)
    (hr' : Rel u (201 / 100) r rho2) (hd : Signed z d) (hp : 0 < rho2 + z ^ 2) :
    ∃ n d' : ℝ, geoPass (CF.num wgsA : CF fl lib) (CF.num E) (CF.num r) (CF.num z) (CF.num d) = (CF.num n, CF.num d') ∧
      |n - geoN rho2 z d| ≤ 39 / 10 * u * wgsA ∧ Rel u 14 d' (geoDz rho2 z d) ∧ Signed z d' := by
  have hw := Frames.signed_w hd hp
  have hu := hs.pos
  have ha := Frames.a_pos
  obtain ⟨n1, n2, n3⟩ := nh_step hs (z := z) (d := d) hr hr'
  have n4 := n3.pos hs (by norm_num) (by norm_num) (Real.sqrt_pos.2 hw)
  have s1 := ((n1.div hs zero_le_one (by norm_num) (by norm_num) (by norm_num) n3 (Real.sqrt_pos.2 hw).ne').round hs
    (by norm_num) (by norm_num)).mono hs (m := 706 / 100) (by norm_num)
  have sl := sine_le (w := z + d) hr
  have hdz : geoDz rho2 z d = geoN rho2 z d * wgsE2 * ((z + d) / √(rho2 + (z + d) * (z + d))) := rfl
  have hsg := Frames.signed_step hd hp
  rw [hdz] at hsg
  rw [hdz, geoN_eq] at *
  generalize hS : (z + d) / √(rho2 + (z + d) * (z + d)) = S at *
  generalize hsp : fl (fl (z + d) / fl √(fl (r + fl (fl (z + d) * fl (z + d))))) = sp at *
  have s2 : |sp - S| ≤ 706 / 100 * u := by
    refine s1.trans ?_
    have : 706 / 100 * u * |S| ≤ 706 / 100 * u * 1 := mul_le_mul_of_nonneg_left sl (by positivity)
    linarith
  obtain ⟨k1, k2, k3⟩ := curv_step hs hE sl s2 (by have := hs.le; linarith)
  obtain ⟨-, -, -, c1, c2⟩ := curv_range sl
  set n := fl (wgsA / fl √(fl (1 - fl (fl (E * sp) * sp)))) with hn
  have hau : 0 ≤ u * wgsA := by positivity
  have k4 : |n - curv S| ≤ 39 / 10 * u * wgsA := by linarith
  have k5 : Rel u (39 / 10) n (curv S) := by
    refine k4.trans ?_
    rw [abs_of_nonneg (by linarith : (0 : ℝ) ≤ curv S)]
    exact mul_le_mul_of_nonneg_left c1 (by positivity)
  have k6 := (k5.mul hs (by norm_num) (by norm_num) zero_le_one (by norm_num) hE).round hs (by norm_num) (by norm_num)
  have k7 := ((k6.mul hs (by norm_num) (by norm_num) (by norm_num) (by norm_num) s1).round hs (by norm_num)
    (by norm_num)).mono hs (m := 14) (by norm_num)
  refine ⟨n, fl (fl (n * E) * sp), ?_, k4, k7, ?_⟩
  · unfold geoPass
    dsimp only
    simp only [cf_one, cf_mul, cf_add, cf_sub, cf_sqrt n2, cf_div _ n4.ne', hsp, cf_sqrt k1, cf_div _ k2.ne', ← hn]
  · obtain ⟨δ, h1, h2⟩ := k7.factor hs (by norm_num)
    obtain ⟨t, ht, h3⟩ := hsg
    have h4 := (abs_le.1 (h1.trans (hs.ku (by norm_num)))).1
    exact ⟨t * (1 + δ), mul_nonneg ht (by linarith), by rw [h2, h3]; ring⟩

/-- How the sine of the latitude depends on the correction. -/
theorem sine_lip {rho2 z d d' R : ℝ} (hr : 0 ≤ rho2) (hR : 0 < R) (hp : R ^ 2 ≤ rho2 + z ^ 2) (h : Signed z d)
    (h' : Signed z d') :
    |(z + d) / √(rho2 + (z + d) * (z + d)) - (z + d') / √(rho2 + (z + d') * (z + d'))| ≤ |d - d'| / R := by
  obtain ⟨t, ht, rfl⟩ := h
  obtain ⟨s, hs, rfl⟩ := h'
  have hM : ∀ t : ℝ, 0 ≤ t → R ^ 2 ≤ rho2 + 1 * (z * (1 + t)) ^ 2 := by
    intro t ht
    have : (z * (1 + t)) ^ 2 = z ^ 2 + z ^ 2 * (2 * t + t ^ 2) := by ring
    rw [this]
    have := mul_nonneg (sq_nonneg z) (show 0 ≤ 2 * t + t ^ 2 by positivity)
    linarith
  have hl := Frames.lipschitz (c := 1) (z := z) (p := 1 + t) (q := 1 + s) hr zero_le_one (by linarith) (by linarith) hR
    (hM t ht) (hM s hs)
  rw [show z + z * t = z * (1 + t) by ring, show z + z * s = z * (1 + s) by ring,
    show z * t - z * s = z * (1 + t) - z * (1 + s) by ring]
  simp only [one_mul, pow_two] at hl
  exact hl

/-! ## The loop -/

theorem loop_step {u : ℝ} (hs : Small fl u) {E : ℝ} (hE : Rel u 1 E wgsE2) {r rho2 z R eps : ℝ} (hr : 0 ≤ rho2)
    (hr' : Rel u (201 / 100) r rho2) (hR : 6000000 ≤ R) (hp : R ^ 2 ≤ rho2 + z ^ 2) (heps : eps ≤ 400 * u) {G0 : ℝ}
    (hG0 : 0 ≤ G0) (fuel : ℕ) : ∀ (j : ℕ) (nn : CF fl lib) (d : ℝ), j + fuel = 101 → Signed z d →
    |d - geoDz rho2 z d| ≤ (1 / 100) ^ j * G0 + 112 / 1000 * u * R →
    (fuel = 0 → ∃ n, nn = CF.num n ∧ |n - geoN rho2 z d| ≤
      39 / 10 * u * wgsA + 15 / 1000 * ((1 / 100) ^ 100 * G0 + 23 / 100 * u * R)) →
    ∃ n d' : ℝ, geoLoop (CF.num wgsA : CF fl lib) (CF.num E) (CF.num eps) (CF.num r) (CF.num z) fuel nn (CF.num d) =
        (CF.num n, CF.num d') ∧ Signed z d' ∧
      |d' - geoDz rho2 z d'| ≤ (1 / 100) ^ 101 * G0 + 113 / 1000 * u * R ∧
      |n - geoN rho2 z d'| ≤ 39 / 10 * u * wgsA + 15 / 1000 * ((1 / 100) ^ 100 * G0 + 23 / 100 * u * R) := by
  have hu := hs.pos
  have ha := Frames.a_pos
  have hR0 : 0 < R := by linarith
  have huR : 0 < u * R := by positivity
  have huR6 : u * 6000000 ≤ u * R := mul_le_mul_of_nonneg_left hR hu.le
  have hpos : 0 < rho2 + z ^ 2 := lt_of_lt_of_le (by positivity) hp
  induction fuel with
  | zero =>
    intro j nn d hj hd hg hn
    obtain ⟨n, rfl, h⟩ := hn rfl
    obtain rfl : j = 101 := by omega
    refine ⟨n, d, rfl, hd, ?_, h⟩
    linarith
  | succ k ih =>
    intro j nn d hj hd hg hn
    obtain ⟨n, d', h1, h2, h3, h4⟩ := pass_step (lib := lib) hs hE hr hr' hd hpos
    have hη : |d' - geoDz rho2 z d| ≤ 101 / 1000 * u * R := by
      refine h3.trans ?_
      have h5 : 14 * u * |geoDz rho2 z d| ≤ 14 * u * 43000 := mul_le_mul_of_nonneg_left (geoDz_bound hr) (by positivity)
      linarith
    have hB : 0 ≤ (1 / 100 : ℝ) ^ 100 * G0 := mul_nonneg (pow_nonneg (by norm_num) _) hG0
    have hB' : 0 ≤ (1 / 100 : ℝ) ^ 101 * G0 := mul_nonneg (pow_nonneg (by norm_num) _) hG0
    unfold geoLoop
    rw [h1]
    dsimp only
    rw [cf_sub, cf_abs]
    by_cases hc : |fl (d - d')| < eps
    · rw [if_pos ((cf_lt _ _).2 hc)]
      refine ⟨n, d, rfl, hd, ?_, ?_⟩
      · have h6 := hs.acc (d - d')
        have h7 := abs_sub_abs_le_abs_sub (d - d') (fl (d - d'))
        rw [abs_sub_comm (d - d')] at h7
        have h8 : u * |d - d'| ≤ 1 / 1000000 * |d - d'| := mul_le_mul_of_nonneg_right hs.le (abs_nonneg _)
        have h9 := abs_sub_le d d' (geoDz rho2 z d)
        linarith
      · linarith
    · rw [if_neg (mt (cf_lt _ _).1 hc)]
      have h5 : |d - d'| ≤ (1 / 100) ^ j * G0 + 213 / 1000 * u * R := by
        have := abs_sub_le d (geoDz rho2 z d) d'
        rw [abs_sub_comm (geoDz rho2 z d)] at this
        linarith
      have h6 := Frames.geoDz_contract hr hR0 hp hd h4
      have h7 : 43000 / R ≤ 1 / 100 := by
        rw [div_le_iff₀ hR0]
        linarith
      have h8 : 43000 / R * |d - d'| ≤ 1 / 100 * ((1 / 100) ^ j * G0 + 213 / 1000 * u * R) :=
        mul_le_mul h7 h5 (abs_nonneg _) (by norm_num)
      refine ih (j + 1) (CF.num n) d' (by omega) h4 ?_ ?_
      · have := abs_sub_le d' (geoDz rho2 z d) (geoDz rho2 z d')
        rw [pow_succ]
        linarith
      · rintro rfl
        obtain rfl : j = 100 := by omega
        refine ⟨n, rfl, ?_⟩
        have h9 := sine_lip hr hR0 hp hd h4
        have h10 := curv_diff (sine_le hr) (sine_le hr) h9
        rw [← geoN_eq, ← geoN_eq] at h10
        have h11 : 14 / 1000 * (|d - d'| / R) * wgsA ≤ 15 / 1000 * |d - d'| := by
          have : wgsA ≤ 107 / 100 * R := by
            have : wgsA = 6378137 := rfl
            rw [this]
            linarith
          rw [mul_div_assoc', div_mul_eq_mul_div, div_le_iff₀ hR0]
          have h12 : |d - d'| * wgsA ≤ |d - d'| * (107 / 100 * R) := mul_le_mul_of_nonneg_left this (abs_nonneg _)
          have h13 : 0 ≤ |d - d'| * R := by positivity
          linarith
        have := abs_sub_le n (geoN rho2 z d) (geoN rho2 z d')
        linarith

/-- The whole loop, from the starting value. -/
theorem loop_all {u : ℝ} (hs : Small fl u) (hu30 : 1 / 10 ^ 30 ≤ u) {E : ℝ} (hE : Rel u 1 E wgsE2) {r rho2 z R eps : ℝ}
    (hr : 0 ≤ rho2) (hr' : Rel u (201 / 100) r rho2) (hR : 6000000 ≤ R) (hp : R ^ 2 = rho2 + z ^ 2) (heps : eps ≤ 400 * u) :
    ∃ n d : ℝ, geoLoop (CF.num wgsA : CF fl lib) (CF.num E) (CF.num eps) (CF.num r) (CF.num z) 101 0
        (CF.num E * CF.num z) = (CF.num n, CF.num d) ∧ Signed z d ∧
      |d - geoDz rho2 z d| ≤ 12 / 100 * u * R ∧ |n - geoN rho2 z d| ≤ 42 / 10 * u * R := by
  have hu := hs.pos
  have hu1 := hs.le
  have hR0 : 0 < R := by linarith
  obtain ⟨e1, e2⟩ := e2_range
  have hzR : |z| ≤ R := abs_le_of_sq_le_sq (by linarith) hR0.le
  have h1 := (hE.mul hs zero_le_one (by norm_num) le_rfl (by norm_num) (Rel.refl u z)).round hs (by norm_num) (by norm_num)
  obtain ⟨δ, h2, h3⟩ := h1.factor hs (by norm_num)
  have h4 := abs_le.1 (h2.trans (hs.ku (by norm_num)))
  have hsg : Signed z (fl (E * z)) := ⟨wgsE2 * (1 + δ), mul_nonneg (by linarith) (by linarith [h4.1]), by rw [h3]; ring⟩
  have hd0 : |fl (E * z)| ≤ 68 / 10000 * R := by
    rw [h3, abs_mul, abs_mul, abs_of_pos (show 0 < wgsE2 by linarith), abs_of_pos (show 0 < 1 + δ by linarith [h4.1])]
    have h5 : wgsE2 * |z| ≤ 67 / 10000 * R := mul_le_mul e2.le hzR (abs_nonneg _) (by norm_num)
    have h6 : wgsE2 * |z| * (1 + δ) ≤ 67 / 10000 * R * (1 + 1 / 20000) :=
      mul_le_mul h5 (by linarith [h4.2]) (by linarith [h4.1]) (by positivity)
    linarith
  have hg : |fl (E * z) - geoDz rho2 z (fl (E * z))| ≤ 2 / 100 * R := by
    have h5 := abs_sub (fl (E * z)) (geoDz rho2 z (fl (E * z)))
    have h6 := geoDz_bound (rho2 := rho2) (z := z) (d := fl (E * z)) hr
    linarith
  have huR : 0 < u * R := by positivity
  obtain ⟨n, d, q1, q2, q3, q4⟩ := loop_step (lib := lib) hs hE hr hr' hR hp.le heps (G0 := 2 / 100 * R) (by positivity) 101
    0 0 (fl (E * z)) (by norm_num) hsg (by rw [pow_zero]; linarith) (by norm_num)
  have hk : ((1 : ℝ) / 100) ^ 20 ≤ 1 / 1000 * u := by
    have : ((1 : ℝ) / 100) ^ 20 ≤ 1 / 1000 * (1 / 10 ^ 30) := by norm_num
    linarith
  have hk1 : ((1 : ℝ) / 100) ^ 100 ≤ 1 / 1000 * u :=
    (pow_le_pow_of_le_one (by norm_num) (by norm_num) (by norm_num : 20 ≤ 100)).trans hk
  have hk2 : ((1 : ℝ) / 100) ^ 101 ≤ 1 / 1000 * u :=
    (pow_le_pow_of_le_one (by norm_num) (by norm_num) (by norm_num : 20 ≤ 101)).trans hk
  generalize ((1 : ℝ) / 100) ^ 100 = A at *
  generalize ((1 : ℝ) / 100) ^ 101 = B at *
  have hA : A * (2 / 100 * R) ≤ 1 / 1000 * u * (2 / 100 * R) := mul_le_mul_of_nonneg_right hk1 (by positivity)
  have hB : B * (2 / 100 * R) ≤ 1 / 1000 * u * (2 / 100 * R) := mul_le_mul_of_nonneg_right hk2 (by positivity)
  have ha : u * wgsA ≤ u * (10631 / 10000 * R) := by
    have : wgsA = 6378137 := rfl
    rw [this]
    exact mul_le_mul_of_nonneg_left (by linarith) hu.le
  refine ⟨n, d, ?_, q2, by linarith, by linarith⟩
  rw [cf_mul]
  exact q1

/-! ## The result -/

/-- The angle of the latitude. -/
theorem lat_step {u : ℝ} (hs : Small fl u) {e : ℝ} (hl : LibNear lib e) {rho2 W w ro : ℝ} (hr : 0 ≤ rho2)
    (hH : 0 < rho2 + W * W) (hw : Rel u 1 w W) (hro : Rel u (302 / 100) ro √rho2) :
    |Real.sin (lib.atan2 w ro) - W / √(rho2 + W * W)| ≤ e + 707 / 100 * u ∧
      |Real.cos (lib.atan2 w ro) - √rho2 / √(rho2 + W * W)| ≤ e + 909 / 100 * u := by
  have hu := hs.pos
  have h1 := hro.mul hs (by norm_num) (by norm_num) (by norm_num) (by norm_num) hro
  rw [Real.mul_self_sqrt hr] at h1
  have h2 := hw.mul hs (by norm_num) (by norm_num) (by norm_num) (by norm_num) hw
  have h3 := (h1.mono hs (m := 605 / 100) (by norm_num)).add (h2.mono hs (m := 605 / 100) (by norm_num)) hr
    (mul_self_nonneg W)
  have h4 := h3.sqrt hH.le (h3.nonneg hs (by norm_num) (by norm_num) hH.le)
  have hHp := Real.sqrt_pos.2 hH
  have hH' := h4.pos hs (by norm_num) (by norm_num) hHp
  have h5 := hw.div hs (by norm_num) (by norm_num) (by norm_num) (by norm_num) h4 hHp.ne'
  have h6 := hro.div hs (by norm_num) (by norm_num) (by norm_num) (by norm_num) h4 hHp.ne'
  have hy := Frames.polar_y ro w
  have hx := Frames.polar_x ro w
  have hat := hl.atan2 w ro
  have hsin : Real.sin (Att.atan2 w ro) = w / √(ro * ro + w * w) := by
    rw [eq_div_iff hH'.ne', mul_comm]
    exact hy
  have hcos : Real.cos (Att.atan2 w ro) = ro / √(ro * ro + w * w) := by
    rw [eq_div_iff hH'.ne', mul_comm]
    exact hx
  have s1 := sin_lip (lib.atan2 w ro) (Att.atan2 w ro)
  have c1 := cos_lip (lib.atan2 w ro) (Att.atan2 w ro)
  rw [hsin] at s1
  rw [hcos] at c1
  have l1 : |W / √(rho2 + W * W)| ≤ 1 := sine_le hr
  have l2 : |√rho2 / √(rho2 + W * W)| ≤ 1 := by
    rw [abs_of_nonneg (by positivity)]
    exact div_le_one_of_le₀ (Real.sqrt_le_sqrt (by linarith [mul_self_nonneg W])) hHp.le
  unfold Rel at h5 h6
  have m1 := mul_le_mul_of_nonneg_left l1 hu.le
  have m2 := mul_le_mul_of_nonneg_left l2 hu.le
  have t1 := abs_sub_le (Real.sin (lib.atan2 w ro)) (w / √(ro * ro + w * w)) (W / √(rho2 + W * W))
  have t2 := abs_sub_le (Real.cos (lib.atan2 w ro)) (ro / √(ro * ro + w * w)) (√rho2 / √(rho2 + W * W))
  constructor <;> linarith

/-- A product of two factors, each known up to an error. -/
theorem prod_near {a a' b b' α β M : ℝ} (ha : |a' - a| ≤ α) (hb : |b' - b| ≤ β) (hb' : |b'| ≤ 1) (hM : |a| ≤ M) :
    |a' * b' - a * b| ≤ α + M * β := by
  rw [show a' * b' - a * b = (a' - a) * b' + a * (b' - b) by ring]
  refine (abs_add_le _ _).trans (add_le_add ?_ ?_)
  · rw [abs_mul]
    calc _ ≤ α * 1 := mul_le_mul ha hb' (abs_nonneg _) ((abs_nonneg _).trans ha)
      _ = _ := mul_one _
  · rw [abs_mul]
    exact mul_le_mul hM hb (abs_nonneg _) ((abs_nonneg _).trans hM)

/-- What the exact forward conversion makes of the computed angles and height. -/
theorem forward_near {u e R rho2 z d lat alt : ℝ} (hu : 0 ≤ u) (he : 0 ≤ e) (hR : 6000000 ≤ R) (hr : 0 ≤ rho2)
    (hp : R ^ 2 = rho2 + z ^ 2) (hd : Signed z d) (hd1 : |d| ≤ 8 / 1000 * R)
    (hg : |d - geoDz rho2 z d| ≤ 12 / 100 * u * R)
    (hsin : |Real.sin lat - (z + d) / √(rho2 + (z + d) * (z + d))| ≤ e + 707 / 100 * u)
    (hcos : |Real.cos lat - √rho2 / √(rho2 + (z + d) * (z + d))| ≤ e + 909 / 100 * u)
    (halt : |alt - (√(rho2 + (z + d) * (z + d)) - geoN rho2 z d)| ≤ 104 / 10 * u * R) :
    |(curv (Real.sin lat) + alt) * Real.cos lat - √rho2| ≤ (20 * u + 2 * e) * R ∧
      |(curv (Real.sin lat) * (1 - wgsE2) + alt) * Real.sin lat - z| ≤ (20 * u + 2 * e) * R := by
  have hR0 : 0 < R := by linarith
  have hpos : 0 < rho2 + z ^ 2 := by rw [← hp]; positivity
  have hw := Frames.signed_w hd hpos
  have hH0 := Real.sqrt_pos.2 hw
  have sl := sine_le (w := z + d) hr
  obtain ⟨E1, E2⟩ := e2_range
  have ha : wgsA ≤ 10631 / 10000 * R := by
    have : wgsA = 6378137 := rfl
    rw [this]
    linarith
  have hHR : √(rho2 + (z + d) * (z + d)) ≤ 101 / 100 * R := by
    refine Real.sqrt_le_iff.2 ⟨by positivity, ?_⟩
    have hz : |z| ≤ R := abs_le_of_sq_le_sq (by linarith) hR0.le
    have h1 : 2 * (z * d) ≤ 2 * (R * (8 / 1000 * R)) := by
      have : z * d ≤ |z| * |d| := by rw [← abs_mul]; exact le_abs_self _
      have := mul_le_mul hz hd1 (abs_nonneg _) hR0.le
      linarith
    have h2 : d ^ 2 ≤ (8 / 1000 * R) ^ 2 := sq_le_sq' (abs_le.1 hd1).1 (abs_le.1 hd1).2
    have h3 : rho2 + (z + d) * (z + d) = R ^ 2 + 2 * (z * d) + d ^ 2 := by rw [hp]; ring
    rw [h3]
    have := sq_nonneg R
    linarith
  have cd := curv_diff (Real.abs_sin_le_one lat) sl hsin
  rw [← geoN_eq] at cd
  have gz : geoDz rho2 z d = geoN rho2 z d * wgsE2 * ((z + d) / √(rho2 + (z + d) * (z + d))) := rfl
  obtain ⟨-, -, -, n1, n2⟩ := curv_range sl
  rw [← geoN_eq] at n1 n2
  have c1 : √(rho2 + (z + d) * (z + d)) * (√rho2 / √(rho2 + (z + d) * (z + d))) = √rho2 := mul_div_cancel₀ _ hH0.ne'
  have c2 : √(rho2 + (z + d) * (z + d)) * ((z + d) / √(rho2 + (z + d) * (z + d))) = z + d := mul_div_cancel₀ _ hH0.ne'
  have hue : 0 ≤ e * R := by positivity
  have huR : 0 ≤ u * R := by positivity
  have hca : 14 / 1000 * (e + 707 / 100 * u) * wgsA ≤ 14 / 1000 * (e + 707 / 100 * u) * (10631 / 10000 * R) :=
    mul_le_mul_of_nonneg_left ha (by positivity)
  generalize √(rho2 + (z + d) * (z + d)) = H at *
  generalize geoN rho2 z d = N at *
  generalize √rho2 / H = C at *
  generalize (z + d) / H = S at *
  generalize curv (Real.sin lat) = N' at *
  have g1 : |N' + alt - H| ≤ 15 / 1000 * e * R + 1051 / 100 * u * R := by
    have := abs_add_le (N' - N) (alt - (H - N))
    rw [show N' - N + (alt - (H - N)) = N' + alt - H by ring] at this
    linarith
  have g2 : |N' * (1 - wgsE2) + alt - (H - wgsE2 * N)| ≤ 15 / 1000 * e * R + 1051 / 100 * u * R := by
    have := abs_add_le ((N' - N) * (1 - wgsE2)) (alt - (H - N))
    rw [show (N' - N) * (1 - wgsE2) + (alt - (H - N)) = N' * (1 - wgsE2) + alt - (H - wgsE2 * N) by ring, abs_mul,
      abs_of_pos (show 0 < 1 - wgsE2 by linarith)] at this
    have h1 : |N' - N| * (1 - wgsE2) ≤ |N' - N| * 1 := mul_le_mul_of_nonneg_left (by linarith) (abs_nonneg _)
    linarith
  have hHa : |H| ≤ 101 / 100 * R := by rwa [abs_of_pos hH0]
  have hA := Frames.a_pos
  have hHb : |H - wgsE2 * N| ≤ 101 / 100 * R := by
    have h1 : 0 ≤ wgsE2 * N := mul_nonneg (by linarith) (by linarith)
    have h2 : wgsE2 * N ≤ 67 / 10000 * (1005 / 1000 * wgsA) := mul_le_mul E2.le n2 (by linarith) (by norm_num)
    exact abs_le.2 ⟨by linarith, by linarith⟩
  have f1 := prod_near g1 hcos (Real.abs_cos_le_one lat) hHa
  have f2 := prod_near g2 hsin (Real.abs_sin_le_one lat) hHb
  rw [c1] at f1
  have e2 : (H - wgsE2 * N) * S = z + (d - geoDz rho2 z d) := by
    rw [gz]
    linear_combination c2
  rw [e2] at f2
  refine ⟨by linarith, ?_⟩
  have := abs_sub_le ((N' * (1 - wgsE2) + alt) * Real.sin lat) (z + (d - geoDz rho2 z d)) z
  rw [show z + (d - geoDz rho2 z d) - z = d - geoDz rho2 z d by ring] at this
  linarith

/-- C193 below, with a bound for the altitude. -/
theorem geodetic_full {u : ℝ} (hs : Small fl u) (hu30 : 1 / 10 ^ 30 ≤ u) {e : ℝ} (hl : LibNear lib e) {E : ℝ}
    (hE : Rel u 1 E wgsE2) {eps : ℝ} (heps : eps ≤ 400 * u) {x y z : ℝ} (hp : (6000000 : ℝ) ^ 2 ≤ x ^ 2 + y ^ 2 + z ^ 2) :
    ∃ q : Fin 3 → ℝ, ecefToGeodetic (CF.num wgsA : CF fl lib) (CF.num E) (CF.num eps) (CF.num x) (CF.num y) (CF.num z) =
        (fun i => CF.num (q i)) ∧
      |q 2| ≤ 11 / 10 * √(x ^ 2 + y ^ 2 + z ^ 2) ∧ ∀ i, |Frames.geodeticToEcef (q 0) (q 1) (q 2) i - (![x, y, z] : Fin 3 → ℝ) i| ≤
        (20 * u + 3 * e) * √(x ^ 2 + y ^ 2 + z ^ 2) := by
  have hu := hs.pos
  have he0 := hl.sub_abs
  set R := √(x ^ 2 + y ^ 2 + z ^ 2) with hRdef
  have hR : 6000000 ≤ R := Real.le_sqrt_of_sq_le hp
  have hR0 : 0 < R := by linarith
  have hR2 : R ^ 2 = (x * x + y * y) + z ^ 2 := by
    rw [hRdef, Real.sq_sqrt (by positivity)]
    ring
  clear_value R
  have hr : 0 ≤ x * x + y * y := add_nonneg (mul_self_nonneg _) (mul_self_nonneg _)
  have hr' : Rel u (201 / 100) (fl (fl (x * x) + fl (y * y))) (x * x + y * y) :=
    (((hs.rel (x * x)).add (hs.rel (y * y)) (mul_self_nonneg _) (mul_self_nonneg _)).round hs (by norm_num)
      (by norm_num)).mono hs (by norm_num)
  obtain ⟨n, d, l1, l2, l3, l4⟩ := loop_all (lib := lib) hs hu30 hE hr hr' hR hR2 heps
  obtain ⟨n1, n2, n3⟩ := nh_step hs (z := z) (d := d) hr hr'
  have hpos : 0 < (x * x + y * y) + z ^ 2 := by rw [← hR2]; positivity
  have hw := Frames.signed_w l2 hpos
  have hr0 := hr'.nonneg hs (by norm_num) (by norm_num) hr
  have hro := ((hr'.sqrt hr hr0).round hs (by norm_num) (by norm_num)).mono hs (m := 302 / 100) (by norm_num)
  obtain ⟨t1, t2⟩ := lat_step hs hl hr hw n1 hro
  set w := fl (z + d) with hwd
  set r := fl (fl (x * x) + fl (y * y)) with hrd
  set nh := fl √(fl (r + fl (w * w))) with hnh
  have hd1 : |d| ≤ 8 / 1000 * R := by
    have h1 := abs_add_le (d - geoDz (x * x + y * y) z d) (geoDz (x * x + y * y) z d)
    rw [sub_add_cancel] at h1
    have h2 := geoDz_bound (rho2 := x * x + y * y) (z := z) (d := d) hr
    have h3 : u * R ≤ 1 / 1000000 * R := mul_le_mul_of_nonneg_right hs.le hR0.le
    linarith
  have halt : |fl (nh - n) - (√(x * x + y * y + (z + d) * (z + d)) - geoN (x * x + y * y) z d)| ≤ 104 / 10 * u * R ∧
      |fl (nh - n)| ≤ 11 / 10 * R := by
    have hHR : √(x * x + y * y + (z + d) * (z + d)) ≤ 101 / 100 * R := by
      refine Real.sqrt_le_iff.2 ⟨by positivity, ?_⟩
      have hz : |z| ≤ R := abs_le_of_sq_le_sq (by linarith) hR0.le
      have h1 : 2 * (z * d) ≤ 2 * (R * (8 / 1000 * R)) := by
        have : z * d ≤ |z| * |d| := by rw [← abs_mul]; exact le_abs_self _
        have := mul_le_mul hz hd1 (abs_nonneg _) hR0.le
        linarith
      have h2 : d ^ 2 ≤ (8 / 1000 * R) ^ 2 := sq_le_sq' (abs_le.1 hd1).1 (abs_le.1 hd1).2
      have h3 : x * x + y * y + (z + d) * (z + d) = R ^ 2 + 2 * (z * d) + d ^ 2 := by rw [hR2]; ring
      rw [h3]
      have := sq_nonneg R
      linarith
    have hH0 := Real.sqrt_nonneg (x * x + y * y + (z + d) * (z + d))
    obtain ⟨-, -, -, c1, c2⟩ := curv_range (sine_le (w := z + d) hr)
    rw [← geoN_eq] at c1 c2
    unfold Rel at n3
    rw [abs_of_nonneg hH0] at n3
    have ha : wgsA ≤ 10631 / 10000 * R := by
      have : wgsA = 6378137 := rfl
      rw [this]
      linarith
    have ha0 := Frames.a_pos
    generalize √(x * x + y * y + (z + d) * (z + d)) = H at *
    generalize geoN (x * x + y * y) z d = N at *
    have huR : 0 < u * R := by positivity
    have h1 : u * H ≤ u * (101 / 100 * R) := mul_le_mul_of_nonneg_left hHR hu.le
    have h2 : |nh - n - (H - N)| ≤ 93 / 10 * u * R := by
      have := abs_sub (nh - H) (n - N)
      rw [show nh - H - (n - N) = nh - n - (H - N) by ring] at this
      linarith
    have h3 : |H - N| ≤ 107 / 100 * R := abs_le.2 ⟨by linarith, by linarith⟩
    have h4 := hs.acc (nh - n)
    have h5 : |nh - n| ≤ 108 / 100 * R := by
      have := abs_sub_abs_le_abs_sub (nh - n) (H - N)
      have h6 : u * R ≤ 1 / 1000000 * R := mul_le_mul_of_nonneg_right hs.le hR0.le
      linarith
    have h6 := mul_le_mul_of_nonneg_left h5 hu.le
    have h7 := abs_sub_le (fl (nh - n)) (nh - n) (H - N)
    have h8 := abs_sub_abs_le_abs_sub (fl (nh - n)) (nh - n)
    have h9 : u * R ≤ 1 / 1000000 * R := mul_le_mul_of_nonneg_right hs.le hR0.le
    exact ⟨by linarith, by linarith⟩
  obtain ⟨f1, f2⟩ := forward_near hu.le he0 hR hr hR2 l2 hd1 l3 t1 t2 halt.1
  refine ⟨![lib.atan2 w (fl √r), lib.atan2 y x, fl (nh - n)], ?_, ?_, ?_⟩
  · unfold ecefToGeodetic
    dsimp only
    rw [cf_mul x x, cf_mul y y, cf_add, ← hrd, l1]
    dsimp only
    rw [cf_add, ← hwd, cf_mul, cf_add, cf_sqrt n2, cf_sqrt hr0, cf_atan2, cf_atan2, cf_sub, ← hnh]
    funext i
    fin_cases i <;> rfl
  · exact halt.2
  · have hρ : √(x * x + y * y) ≤ R := by
      refine Real.sqrt_le_iff.2 ⟨hR0.le, ?_⟩
      rw [hR2]
      have := sq_nonneg z
      linarith
    have hρ0 : |√(x * x + y * y)| ≤ R := by rwa [abs_of_nonneg (Real.sqrt_nonneg _)]
    have px := prod_near f1 ((cos_lip (lib.atan2 y x) (Att.atan2 y x)).trans (hl.atan2 y x))
      (Real.abs_cos_le_one _) hρ0
    have py := prod_near f1 ((sin_lip (lib.atan2 y x) (Att.atan2 y x)).trans (hl.atan2 y x))
      (Real.abs_sin_le_one _) hρ0
    rw [Frames.polar_x] at px
    rw [Frames.polar_y] at py
    have heR : 0 ≤ e * R := by positivity
    intro i
    fin_cases i
    · exact px.trans (by linarith)
    · exact py.trans (by linarith)
    · exact f2.trans (by linarith)

/-- **C193**: with roundings of relative size `u` between `10⁻³⁰` and a millionth, a library whose functions are within `e`,
the constant `e²` rounded and the tolerance at most `400 u`, every position at least six million metres from the centre is
converted without a NaN into a latitude, longitude and altitude whose exact position is within `20 u + 3 e` times that
distance in each coordinate, whether or not the loop was left early. -/
theorem C193_geodetic {u : ℝ} (hs : Small fl u) (hu30 : 1 / 10 ^ 30 ≤ u) {e : ℝ} (hl : LibNear lib e) {E : ℝ}
    (hE : Rel u 1 E wgsE2) {eps : ℝ} (heps : eps ≤ 400 * u) {x y z : ℝ} (hp : (6000000 : ℝ) ^ 2 ≤ x ^ 2 + y ^ 2 + z ^ 2) :
    ∃ q : Fin 3 → ℝ, ecefToGeodetic (CF.num wgsA : CF fl lib) (CF.num E) (CF.num eps) (CF.num x) (CF.num y) (CF.num z) =
        (fun i => CF.num (q i)) ∧
      ∀ i, |Frames.geodeticToEcef (q 0) (q 1) (q 2) i - (![x, y, z] : Fin 3 → ℝ) i| ≤
        (20 * u + 3 * e) * √(x ^ 2 + y ^ 2 + z ^ 2) := by
  obtain ⟨q, h1, -, h2⟩ := geodetic_full (lib := lib) hs hu30 hl hE heps hp
  exact ⟨q, h1, h2⟩

/-- **C193**: converting such a position to geodetic coordinates and back, both in floating point, returns every coordinate
within `40 u + 10 e` times the distance from the centre. -/
theorem C193_round_trip {u : ℝ} (hs : Small fl u) (hu30 : 1 / 10 ^ 30 ≤ u) {e : ℝ} (he : e ≤ 1 / 10000)
    (hl : LibNear lib e) {E : ℝ} (hE : Rel u 1 E wgsE2) {eps : ℝ} (heps : eps ≤ 400 * u) {x y z : ℝ}
    (hp : (6000000 : ℝ) ^ 2 ≤ x ^ 2 + y ^ 2 + z ^ 2) :
    ∃ q : Fin 3 → ℝ,
      (let g := ecefToGeodetic (CF.num wgsA : CF fl lib) (CF.num E) (CF.num eps) (CF.num x) (CF.num y) (CF.num z)
       geodeticToEcef (CF.num wgsA : CF fl lib) (CF.num E) (g 0) (g 1) (g 2)) = (fun i => CF.num (q i)) ∧
      ∀ i, |q i - (![x, y, z] : Fin 3 → ℝ) i| ≤ (40 * u + 10 * e) * √(x ^ 2 + y ^ 2 + z ^ 2) := by
  obtain ⟨g, h1, h2, h3⟩ := geodetic_full (lib := lib) hs hu30 hl hE heps hp
  obtain ⟨q, h4, h5⟩ := C192_ecef hs he hl hE (g 0) (g 1) (g 2)
  have hR : 6000000 ≤ √(x ^ 2 + y ^ 2 + z ^ 2) := Real.le_sqrt_of_sq_le hp
  refine ⟨q, by dsimp only; rw [h1]; exact h4, fun i => ?_⟩
  have h6 := h3 i
  have h7 := h5 i
  generalize √(x ^ 2 + y ^ 2 + z ^ 2) = R at *
  have hu := hs.pos
  have he0 := hl.sub_abs
  have ha : wgsA = 6378137 := rfl
  have h8 : (8 * u + 3 * e) * (wgsA + |g 2|) ≤ (8 * u + 3 * e) * (217 / 100 * R) :=
    mul_le_mul_of_nonneg_left (by rw [ha]; linarith) (by positivity)
  have h9 := abs_sub_le (q i) (Frames.geodeticToEcef (g 0) (g 1) (g 2) i) ((![x, y, z] : Fin 3 → ℝ) i)
  have h10 : 0 ≤ u * R := mul_nonneg hu.le (by linarith)
  have h11 : 0 ≤ e * R := mul_nonneg he0 (by linarith)
  linarith

/-- The hypotheses of C192 and C193 are those of binary64 with an exact library, for a point on the equator and one at the
pole. -/
example : Small (rnd 53) (2⁻¹ ^ 53) ∧ (1 : ℝ) / 10 ^ 30 ≤ 2⁻¹ ^ 53 ∧ LibNear exactLib (1 / 10000) ∧
    Rel (2⁻¹ ^ 53) 1 (rnd 53 wgsE2) wgsE2 ∧ (2 : ℝ)⁻¹ ^ 52 * 100 ≤ 400 * 2⁻¹ ^ 53 ∧
    (6000000 : ℝ) ^ 2 ≤ wgsA ^ 2 + 0 ^ 2 + 0 ^ 2 ∧ (6000000 : ℝ) ^ 2 ≤ 0 ^ 2 + 0 ^ 2 + (-6356752) ^ 2 := by
  have ha : Accurate (rnd 53) (2⁻¹ ^ 53) := by
    have h := (rnd_nearest (p := 53) (by norm_num)).accurate (by norm_num)
    rwa [show (2 : ℝ) ^ (-((53 : ℕ) : ℤ)) = 2⁻¹ ^ 53 by rw [zpow_neg, zpow_natCast, inv_pow]] at h
  have hs : Small (rnd 53) (2⁻¹ ^ 53) := ⟨ha, by positivity, by norm_num⟩
  refine ⟨hs, by norm_num, exactLib_near (by norm_num), hs.rel _, by norm_num, ?_, by norm_num⟩
  have : wgsA = 6378137 := rfl
  rw [this]
  norm_num

end Verif.Float
