import Verif.Float.Rel
import Verif.Float.Stars
import Verif.Stars.Model
import Mathlib.Analysis.Real.Pi.Bounds

/-!
# C203, C204: star positions, velocities and uncertainties in floating point
-/

namespace Verif.Float

open Verif.Simd (Accurate)
open Real

variable {fl : ℝ → ℝ} {p : ℕ} {lib : Libm} {u e : ℝ}

/-! ## Specification -/

/-- The right ascension or declination at epoch `t`, in radians, of a star that has `deg` degrees in 2016 and moves by `pm`
milliarcseconds a year (not at all if there is no proper motion). -/
noncomputable def angleAt (deg : ℝ) (pm : Option ℝ) (t : ℝ) : ℝ := (deg + pm.getD 0 * (t - 2016) / 3600000) * (π / 180)

/-- The size of the same angle and of its change since 2016, added up, in radians. -/
noncomputable def angleSize (deg : ℝ) (pm : Option ℝ) (t : ℝ) : ℝ :=
  (|deg| + |pm.getD 0 * (t - 2016) / 3600000|) * (π / 180)

/-- The distance in AU: one parsec over the parallax in arcseconds; 1 without a positive parallax. -/
noncomputable def distanceOf (plx : Option ℝ) : ℝ := if 0 < plx.getD 0 then 206264.806 / (plx.getD 0 / 1000) else 1

/-- The bound on the error of a direction: `e` for the library, `u` for one rounding. -/
noncomputable def starError (u e : ℝ) (s : StarRec ℝ) (t : ℝ) : ℝ :=
  3 * e + (9 * (angleSize s.ra s.pmra t + angleSize s.de s.pmde t) + 8) * u

/-- The literals in floating point; `to_radians` multiplies with the rounded quotient of the rounded `π` by 180. -/
noncomputable def flConsts (fl : ℝ → ℝ) (lib : Libm) : StarConsts (CF fl lib) where
  gaia := CF.num 2016
  hip := CF.num 1991.25
  mas := CF.num 3600000
  rad := CF.num (fl (fl π / 180))
  thousand := CF.num 1000
  au := CF.num (fl 206264.806)
  speed := CF.num (fl 4.74047)

/-- A record of numbers. -/
def numRec (fl : ℝ → ℝ) (lib : Libm) (s : StarRec ℝ) : StarRec (CF fl lib) where
  ra := CF.num s.ra
  de := CF.num s.de
  eRa := CF.num s.eRa
  eDe := CF.num s.eDe
  pmra := s.pmra.map CF.num
  pmde := s.pmde.map CF.num
  ePmra := s.ePmra.map CF.num
  ePmde := s.ePmde.map CF.num
  plx := s.plx.map CF.num
  gaiaDr3 := s.gaiaDr3

/-! ## Errors relative to a bound -/

/-- `a` is at most `A`, and `a'` is `a` up to `α` times the bound. -/
def Close (A α a' a : ℝ) : Prop := |a| ≤ A ∧ |a' - a| ≤ α * A

theorem Close.size {A α a' a : ℝ} (h : Close A α a' a) : |a'| ≤ (1 + α) * A := by
  have := abs_add_le (a' - a) a
  rw [sub_add_cancel] at this
  have := h.1
  have := h.2
  linarith

theorem Close.mono {A α β a' a : ℝ} (h : Close A α a' a) (hab : α ≤ β) : Close A β a' a :=
  ⟨h.1, h.2.trans (mul_le_mul_of_nonneg_right hab ((abs_nonneg _).trans h.1))⟩

theorem Close.exact (a : ℝ) : Close |a| 0 a a := ⟨le_rfl, by simp⟩

theorem Close.of_rel {k a' a : ℝ} (h : Rel u k a' a) : Close |a| (k * u) a' a := ⟨le_rfl, h⟩

theorem Close.neg {A α a' a : ℝ} (h : Close A α a' a) : Close A α (-a') (-a) := by
  refine ⟨by rw [abs_neg]; exact h.1, ?_⟩
  rw [show -a' - -a = -(a' - a) by ring, abs_neg]
  exact h.2

theorem Close.mul (hs : Small fl u) {A B α β a' a b' b : ℝ} (ha : Close A α a' a) (hb : Close B β b' b) (hα : 0 ≤ α) :
    Close (A * B) (α + β + α * β + u * ((1 + α) * (1 + β))) (fl (a' * b')) (a * b) := by
  have hA : 0 ≤ A := (abs_nonneg _).trans ha.1
  have hB : 0 ≤ B := (abs_nonneg _).trans hb.1
  refine ⟨by rw [abs_mul]; exact mul_le_mul ha.1 hb.1 (abs_nonneg _) hA, ?_⟩
  have h1 := hs.acc (a' * b')
  have h2 : |a' * b'| ≤ (1 + α) * A * ((1 + β) * B) := by
    rw [abs_mul]
    exact mul_le_mul ha.size hb.size (abs_nonneg _) (by positivity)
  have h3 : |(a' - a) * b'| ≤ α * A * ((1 + β) * B) := by
    rw [abs_mul]
    exact mul_le_mul ha.2 hb.size (abs_nonneg _) (by positivity)
  have h4 : |a * (b' - b)| ≤ A * (β * B) := by
    rw [abs_mul]
    exact mul_le_mul ha.1 hb.2 (abs_nonneg _) hA
  have h5 := abs_add_le (fl (a' * b') - a' * b') ((a' - a) * b' + a * (b' - b))
  have h6 := abs_add_le ((a' - a) * b') (a * (b' - b))
  rw [show fl (a' * b') - a' * b' + ((a' - a) * b' + a * (b' - b)) = fl (a' * b') - a * b by ring] at h5
  have h7 := mul_le_mul_of_nonneg_left h2 hs.pos.le
  nlinarith

theorem Close.add (hs : Small fl u) {A B α a' a b' b : ℝ} (ha : Close A α a' a) (hb : Close B α b' b) :
    Close (A + B) (α + u * (1 + α)) (fl (a' + b')) (a + b) := by
  refine ⟨(abs_add_le _ _).trans (add_le_add ha.1 hb.1), ?_⟩
  have h1 := hs.acc (a' + b')
  have h2 := (abs_add_le a' b').trans (add_le_add ha.size hb.size)
  have h3 := (abs_add_le (a' - a) (b' - b)).trans (add_le_add ha.2 hb.2)
  have h5 := abs_add_le (fl (a' + b') - (a' + b')) ((a' - a) + (b' - b))
  rw [show fl (a' + b') - (a' + b') + ((a' - a) + (b' - b)) = fl (a' + b') - (a + b) by ring] at h5
  have h7 := mul_le_mul_of_nonneg_left h2 hs.pos.le
  nlinarith

/-! ## The angles -/

theorem angleSize_nonneg (deg : ℝ) (pm : Option ℝ) (t : ℝ) : 0 ≤ angleSize deg pm t := by
  unfold angleSize
  positivity

theorem getD_map (pm : Option ℝ) : (pm.map CF.num).getD (0 : CF fl lib) = CF.num (pm.getD 0) := by
  cases pm <;> rfl

theorem star_angle (hs : Small fl u) (deg : ℝ) (pm : Option ℝ) (t : ℝ) :
    ∃ a, starAngle (flConsts fl lib) (CF.num deg) (pm.map CF.num) (CF.num t) = CF.num a ∧
      |a - angleAt deg pm t| ≤ 8 * u * angleSize deg pm t := by
  have hu := hs.pos
  have hu1 := hs.le
  refine ⟨fl (fl (deg + fl (fl (pm.getD 0 * fl (t - 2016)) / 3600000)) * fl (fl π / 180)), ?_, ?_⟩
  · unfold starAngle flConsts
    simp only [getD_map]
    rw [cf_sub, cf_mul, cf_div _ (by norm_num), cf_add, cf_mul]
  · have r1 : Rel u 1 (fl (t - 2016)) (t - 2016) := hs.rel _
    have r2 := (Rel.mul hs le_rfl (by norm_num) zero_le_one (by norm_num) (Rel.refl u (pm.getD 0)) r1).round hs (by norm_num) (by norm_num)
    have r3 := (Rel.div hs (by norm_num) (by norm_num) le_rfl (by norm_num) r2 (Rel.refl u 3600000) (by norm_num)).round hs
      (by norm_num) (by norm_num)
    have c1 : Close |deg| (31 / 10 * u) deg deg := (Close.exact deg).mono (by positivity)
    have c2 : Close |pm.getD 0 * (t - 2016) / 3600000| (31 / 10 * u) _ _ := (Close.of_rel r3).mono (by nlinarith)
    have c3 := Close.add hs c1 c2
    have r4 : Rel u (203 / 100) (fl (fl π / 180)) (π / 180) :=
      ((Rel.div hs zero_le_one (by norm_num) le_rfl (by norm_num) (hs.rel π) (Rel.refl u 180) (by norm_num)).round hs
        (by norm_num) (by norm_num)).mono hs (by norm_num)
    have c4 := Close.of_rel r4
    have c5 := (Close.mul hs c3 c4 (by positivity)).2
    rw [abs_of_pos (show 0 < π / 180 by positivity)] at c5
    unfold angleAt angleSize
    refine c5.trans (mul_le_mul_of_nonneg_right ?_ (by positivity))
    nlinarith [mul_nonneg hu.le (sub_nonneg.2 hu1), mul_nonneg (mul_nonneg hu.le hu.le) (sub_nonneg.2 hu1),
      mul_nonneg (mul_nonneg (mul_nonneg hu.le hu.le) hu.le) (sub_nonneg.2 hu1)]

/-- Sine and cosine of the angles. -/
theorem star_trig (hl : LibNear lib e) {a b E : ℝ} (h : |a - b| ≤ E) :
    Close 1 (e + E) (lib.cos a) (cos b) ∧ Close 1 (e + E) (lib.sin a) (sin b) := by
  have h1 := hl.cos a
  have h2 := hl.sin a
  have h3 := cos_lip a b
  have h4 := sin_lip a b
  refine ⟨⟨abs_cos_le_one b, ?_⟩, ⟨abs_sin_le_one b, ?_⟩⟩
  · have := abs_sub_le (lib.cos a) (cos a) (cos b)
    linarith
  · have := abs_sub_le (lib.sin a) (sin a) (sin b)
    linarith

theorem star_distance (hs : Small fl u) (plx : Option ℝ) :
    ∃ d, starDistance (flConsts fl lib) (plx.map CF.num) = CF.num d ∧ Close (distanceOf plx) (41 / 10 * u) d (distanceOf plx) := by
  have hu := hs.pos
  cases plx with
  | none => exact ⟨1, rfl, by simp [distanceOf], by simp [distanceOf]; positivity⟩
  | some q =>
    simp only [starDistance, flConsts, Option.map_some, distanceOf, Option.getD_some, cf_zero, cf_one, cf_lt]
    by_cases hq : 0 < q
    · rw [if_pos hq, if_pos hq]
      have r1 := (Rel.div hs le_rfl (by norm_num) le_rfl (by norm_num) (Rel.refl u q) (Rel.refl u 1000) (by norm_num)).round hs
        (by norm_num) (by norm_num)
      have hpos : 0 < q / 1000 := by positivity
      have h1 := r1.pos hs (by norm_num) (by norm_num) hpos
      have r2 := (Rel.div hs le_rfl (by norm_num) (by norm_num) (by norm_num) (Rel.refl u 1) r1 hpos.ne').round hs
        (by norm_num) (by norm_num)
      have r3 := (Rel.mul hs (by norm_num) (by norm_num) zero_le_one (by norm_num) r2 (hs.rel 206264.806)).round hs
        (by norm_num) (by norm_num)
      rw [cf_div _ (by norm_num), cf_div _ h1.ne', cf_mul]
      refine ⟨_, rfl, ?_⟩
      have hd : 1 / (q / 1000) * 206264.806 = 206264.806 / (q / 1000) := by ring
      rw [hd] at r3
      have := Close.of_rel (r3.mono hs (m := 41 / 10) (by norm_num))
      rwa [abs_of_pos (show 0 < 206264.806 / (q / 1000) by positivity)] at this
    · rw [if_neg hq, if_neg hq]
      exact ⟨1, rfl, by simp, by simp; positivity⟩

theorem distanceOf_pos (plx : Option ℝ) : 0 < distanceOf plx := by
  unfold distanceOf
  split
  · positivity
  · exact one_pos

/-! ## C203 -/

/-- The unit vector in the direction with right ascension `α` and declination `δ`. -/
noncomputable def skyDir (α δ : ℝ) : Fin 3 → ℝ := ![cos δ * cos α, cos δ * sin α, sin δ]
/-- The unit vector towards increasing right ascension. -/
noncomputable def skyEast (α : ℝ) : Fin 3 → ℝ := ![-sin α, cos α, 0]
/-- The unit vector towards increasing declination. -/
noncomputable def skyNorth (α δ : ℝ) : Fin 3 → ℝ := ![-cos α * sin δ, -sin α * sin δ, cos δ]

/-- What the angles give. -/
theorem star_setup (hs : Small fl u) (hl : LibNear lib e) (s : StarRec ℝ) (t : ℝ) (he : 0 ≤ e) (hb : starError u e s t ≤ 1 / 10) :
    ∃ a d g, starAngle (flConsts fl lib) (CF.num s.ra) (s.pmra.map CF.num) (CF.num t) = CF.num a ∧
      starAngle (flConsts fl lib) (CF.num s.de) (s.pmde.map CF.num) (CF.num t) = CF.num d ∧ 0 ≤ g ∧ g ≤ 1 / 10 ∧
      g + 13 / 2 * u ≤ starError u e s t ∧
      (∀ i, Close 1 g (![fl (lib.cos d * lib.cos a), fl (lib.cos d * lib.sin a), lib.sin d] i)
        (skyDir (angleAt s.ra s.pmra t) (angleAt s.de s.pmde t) i)) ∧
      (∀ i, Close 1 g (![-lib.sin a, lib.cos a, 0] i) (skyEast (angleAt s.ra s.pmra t) i)) ∧
      (∀ i, Close 1 g (![fl (-lib.cos a * lib.sin d), fl (-lib.sin a * lib.sin d), lib.cos d] i)
        (skyNorth (angleAt s.ra s.pmra t) (angleAt s.de s.pmde t) i)) := by
  have hu := hs.pos
  have hu1 := hs.le
  obtain ⟨a, ha, ha'⟩ := star_angle (lib := lib) hs s.ra s.pmra t
  obtain ⟨d, hd, hd'⟩ := star_angle (lib := lib) hs s.de s.pmde t
  obtain ⟨ca, sa⟩ := star_trig hl ha'
  obtain ⟨cd, sd⟩ := star_trig hl hd'
  unfold starError at hb ⊢
  have hA := angleSize_nonneg s.ra s.pmra t
  have hD := angleSize_nonneg s.de s.pmde t
  generalize angleSize s.ra s.pmra t = A at *
  generalize angleSize s.de s.pmde t = D at *
  have huA : 0 ≤ u * A := by positivity
  have huD : 0 ≤ u * D := by positivity
  have e1 : 0 ≤ e + 8 * u * A := by nlinarith
  have e2 : 0 ≤ e + 8 * u * D := by nlinarith
  obtain ⟨x, hx⟩ : ∃ x, x = e + 8 * u * A := ⟨_, rfl⟩
  obtain ⟨y, hy⟩ : ∃ y, y = e + 8 * u * D := ⟨_, rfl⟩
  rw [← hx] at ca sa e1
  rw [← hy] at cd sd e2
  have hxy : x + y ≤ 1 / 10 := by nlinarith
  have hm : 0 ≤ x * y := mul_nonneg e1 e2
  have hm2 : x * y ≤ 1 / 40 * (x + y) := by nlinarith [sq_nonneg (x - y)]
  have hm3 : u * ((1 + x) * (1 + y)) ≤ u * (111 / 100) := mul_le_mul_of_nonneg_left (by nlinarith) hu.le
  have hm4 : 0 ≤ u * ((1 + x) * (1 + y)) := by positivity
  have e4 : y + x + y * x + u * ((1 + y) * (1 + x)) = x + y + x * y + u * ((1 + x) * (1 + y)) := by ring
  have hxg : x ≤ x + y + x * y + u * ((1 + x) * (1 + y)) := by linarith
  have hyg : y ≤ x + y + x * y + u * ((1 + x) * (1 + y)) := by linarith
  refine ⟨a, d, x + y + x * y + u * ((1 + x) * (1 + y)), ha, hd, by linarith, by linarith, ?_, ?_, ?_, ?_⟩
  · rw [hx, hy] at hm2 hm3 ⊢
    linarith
  · intro i
    have h1 := Close.mul hs cd ca e2
    have h2 := Close.mul hs cd sa e2
    rw [one_mul, e4] at h1 h2
    fin_cases i
    · exact h1
    · exact h2
    · exact sd.mono hyg
  · intro i
    fin_cases i
    · exact sa.neg.mono hxg
    · exact ca.mono hxg
    · refine ⟨by simp [skyEast], ?_⟩
      simp only [skyEast]
      simp
      linarith
  · intro i
    have h1 := Close.mul hs ca.neg sd e1
    have h2 := Close.mul hs sa.neg sd e1
    rw [one_mul] at h1 h2
    fin_cases i
    · exact h1
    · exact h2
    · exact cd.mono hyg

/-- C203. The position of every star at every epoch, computed in floating point, is a number in each component, and equals the
distance of the star times the unit vector in the direction of its catalogue place moved by its proper motion, up to
`starError` times the distance. -/
theorem C203_position (hs : Small fl u) (hl : LibNear lib e) (he : 0 ≤ e) (s : StarRec ℝ) (t : ℝ)
    (hb : starError u e s t ≤ 1 / 10) :
    (starSample (flConsts fl lib) (numRec fl lib s) (CF.num t)).epoch = CF.num t ∧
    ∃ x : Fin 3 → ℝ, ∀ i, (starSample (flConsts fl lib) (numRec fl lib s) (CF.num t)).position i = CF.num (x i) ∧
      |x i - distanceOf s.plx * skyDir (angleAt s.ra s.pmra t) (angleAt s.de s.pmde t) i|
        ≤ starError u e s t * distanceOf s.plx := by
  refine ⟨rfl, ?_⟩
  have hu := hs.pos
  have hu1 := hs.le
  obtain ⟨a, d, g, ha, hd, hg0, hg1, hg, c1, -, -⟩ := star_setup hs hl s t he hb
  obtain ⟨r, hr, cr⟩ := star_distance (lib := lib) hs s.plx
  refine ⟨fun i => fl (![fl (lib.cos d * lib.cos a), fl (lib.cos d * lib.sin a), lib.sin d] i * r), fun i => ⟨?_, ?_⟩⟩
  · simp only [starSample, starPosition, numRec, ha, hd, hr, cf_cos, cf_sin, cf_mul]
    fin_cases i
    · exact cf_mul _ _
    · exact cf_mul _ _
    · exact cf_mul _ _
  · have h := (Close.mul hs (c1 i) cr hg0).2
    rw [one_mul] at h
    rw [mul_comm (distanceOf s.plx)]
    refine h.trans (mul_le_mul_of_nonneg_right ?_ (distanceOf_pos _).le)
    have h1 : g * (41 / 10 * u) ≤ 1 / 10 * (41 / 10 * u) := mul_le_mul_of_nonneg_right hg1 (by positivity)
    have h2 : u * ((1 + g) * (1 + 41 / 10 * u)) ≤ u * (12 / 10) := mul_le_mul_of_nonneg_left (by nlinarith) hu.le
    linarith

/-- The products of position and velocity. -/
theorem tangent_step {D W B S V x v : ℝ} (hB : B ≤ 1 / 10) (hS : |S| ≤ 1) (hV : |V| ≤ W) (hx : |x - D * S| ≤ B * D)
    (hv : |v - V| ≤ B * W) (hD : 0 ≤ D) : |x * v - D * S * V| ≤ 21 / 10 * B * (D * W) := by
  have hW : 0 ≤ W := (abs_nonneg _).trans hV
  have h1 : |D * S * (v - V)| ≤ D * 1 * (B * W) := by
    rw [abs_mul, abs_mul, abs_of_nonneg hD]
    exact mul_le_mul (mul_le_mul_of_nonneg_left hS hD) hv (abs_nonneg _) (by positivity)
  have h2 : |(x - D * S) * V| ≤ B * D * W := by
    rw [abs_mul]
    exact mul_le_mul hx hV (abs_nonneg _) ((abs_nonneg _).trans hx)
  have h3 : |(x - D * S) * (v - V)| ≤ B * D * (B * W) := by
    rw [abs_mul]
    exact mul_le_mul hx hv (abs_nonneg _) ((abs_nonneg _).trans hx)
  have h4 : B * D * (B * W) ≤ B * D * (1 / 10 * W) :=
    mul_le_mul_of_nonneg_left (mul_le_mul_of_nonneg_right hB hW) ((abs_nonneg _).trans hx)
  have h5 := abs_add_le (D * S * (v - V) + (x - D * S) * V) ((x - D * S) * (v - V))
  have h6 := abs_add_le (D * S * (v - V)) ((x - D * S) * V)
  rw [show D * S * (v - V) + (x - D * S) * V + (x - D * S) * (v - V) = x * v - D * S * V by ring] at h5
  linarith

/-- C203. The velocity of every star at every epoch is a number in each component. With a positive parallax and both proper
motions it is the tangential velocity (4.74047 over the parallax times the proper motions along the two tangents) up to
`starError` times its size, and at right angles to the position up to seven times that; otherwise it is zero. -/
theorem C203_velocity (hs : Small fl u) (hl : LibNear lib e) (he : 0 ≤ e) (s : StarRec ℝ) (t : ℝ)
    (hb : starError u e s t ≤ 1 / 10) :
    ∃ v : Fin 3 → ℝ, (∀ i, (starSample (flConsts fl lib) (numRec fl lib s) (CF.num t)).velocity i = CF.num (v i)) ∧
      (∀ q a d, s.plx = some q → 0 < q → s.pmra = some a → s.pmde = some d →
        (∀ i, |v i - 4.74047 / q * (a * skyEast (angleAt s.ra s.pmra t) i + d * skyNorth (angleAt s.ra s.pmra t) (angleAt s.de s.pmde t) i)|
          ≤ starError u e s t * (4.74047 / q * (|a| + |d|))) ∧
        ∀ x : Fin 3 → ℝ, (∀ i, (starSample (flConsts fl lib) (numRec fl lib s) (CF.num t)).position i = CF.num (x i)) →
          |x 0 * v 0 + x 1 * v 1 + x 2 * v 2| ≤ 7 * starError u e s t * (distanceOf s.plx * (4.74047 / q * (|a| + |d|)))) ∧
      ((¬ ∃ q a d, s.plx = some q ∧ 0 < q ∧ s.pmra = some a ∧ s.pmde = some d) → v = 0) := by
  have hu := hs.pos
  have hu1 := hs.le
  obtain ⟨α, δ, g, ha, hd, hg0, hg1, hg, -, c2, c3⟩ := star_setup hs hl s t he hb
  by_cases hex : ∃ q a d, s.plx = some q ∧ 0 < q ∧ s.pmra = some a ∧ s.pmde = some d
  · obtain ⟨q, a, d, hq, hq0, hpa, hpd⟩ := hex
    refine ⟨fun i => fl (fl (fl 4.74047 / q) * fl (fl (a * ![-lib.sin α, lib.cos α, 0] i) +
      fl (d * ![fl (-lib.cos α * lib.sin δ), fl (-lib.sin α * lib.sin δ), lib.cos δ] i))), ?_, ?_, ?_⟩
    · intro i
      simp only [starSample, starVelocity, numRec, hq, hpa, hpd, Option.map_some, flConsts, cf_zero, cf_lt] at *
      rw [ha, hd, if_pos hq0, cf_div _ hq0.ne']
      simp only [cf_cos, cf_sin, cf_mul, cf_neg]
      fin_cases i
      · simp only [Fin.zero_eta, Matrix.cons_val_zero, cf_mul, cf_add]
      · simp only [Fin.mk_one, Matrix.cons_val_one, Matrix.cons_val_zero, cf_mul, cf_add]
      · simp only [Fin.reduceFinMk, Matrix.cons_val, cf_mul, cf_add]
    · intro q' a' d' hq' _ ha' hd'
      obtain rfl : q = q' := Option.some_inj.1 (hq.symm.trans hq')
      obtain rfl : a = a' := Option.some_inj.1 (hpa.symm.trans ha')
      obtain rfl : d = d' := Option.some_inj.1 (hpd.symm.trans hd')
      have r1 : Rel u (21 / 10) (fl (fl 4.74047 / q)) (4.74047 / q) :=
        ((Rel.div hs zero_le_one (by norm_num) le_rfl (by norm_num) (hs.rel 4.74047) (Rel.refl u q) hq0.ne').round hs
          (by norm_num) (by norm_num)).mono hs (by norm_num)
      have cs := Close.of_rel r1
      rw [abs_of_pos (show 0 < 4.74047 / q by positivity)] at cs
      have key : ∀ i, Close (4.74047 / q * (|a| + |d|)) (starError u e s t)
          (fl (fl (fl 4.74047 / q) * fl (fl (a * ![-lib.sin α, lib.cos α, 0] i) +
            fl (d * ![fl (-lib.cos α * lib.sin δ), fl (-lib.sin α * lib.sin δ), lib.cos δ] i))))
          (4.74047 / q * (a * skyEast (angleAt s.ra s.pmra t) i + d * skyNorth (angleAt s.ra s.pmra t) (angleAt s.de s.pmde t) i)) := by
        intro i
        have h1 := Close.mul hs (Close.exact a) (c2 i) le_rfl
        have h2 := Close.mul hs (Close.exact d) (c3 i) le_rfl
        have h3 := Close.add hs h1 h2
        rw [mul_one, mul_one] at h3
        have h4 : u * ((1 + 0) * (1 + g)) ≤ u * (11 / 10) := mul_le_mul_of_nonneg_left (by linarith) hu.le
        have h5 := h3.mono (β := g + 23 / 10 * u) (by
          have : u * (1 + (0 + g + 0 * g + u * ((1 + 0) * (1 + g)))) ≤ u * (12 / 10) :=
            mul_le_mul_of_nonneg_left (by linarith) hu.le
          linarith)
        refine (Close.mul hs cs h5 (by positivity)).mono ?_
        have h6 : 21 / 10 * u * (g + 23 / 10 * u) ≤ 21 / 10 * u * (11 / 100) := mul_le_mul_of_nonneg_left (by linarith) (by positivity)
        have h7 : u * ((1 + 21 / 10 * u) * (1 + (g + 23 / 10 * u))) ≤ u * (112 / 100) :=
          mul_le_mul_of_nonneg_left (by nlinarith) hu.le
        linarith
      refine ⟨fun i => (key i).2, fun x hx => ?_⟩
      obtain ⟨-, y, hy⟩ := C203_position hs hl he s t hb
      have hxy : ∀ i, |x i - distanceOf s.plx * skyDir (angleAt s.ra s.pmra t) (angleAt s.de s.pmde t) i|
          ≤ starError u e s t * distanceOf s.plx := by
        intro i
        rw [show x i = y i from num_inj.1 ((hx i).symm.trans (hy i).1)]
        exact (hy i).2
      have hS : ∀ i, |skyDir (angleAt s.ra s.pmra t) (angleAt s.de s.pmde t) i| ≤ 1 := by
        obtain ⟨_, _, _, -, -, -, -, -, c, -⟩ := star_setup hs hl s t he hb
        exact fun i => (c i).1
      have ht := fun i => tangent_step hb (hS i) (key i).1 (hxy i) (key i).2 (distanceOf_pos s.plx).le
      have t0 := ht 0
      have t1 := ht 1
      have t2 := ht 2
      beta_reduce
      generalize fl (fl (fl 4.74047 / q) * fl (fl (a * ![-lib.sin α, lib.cos α, 0] 0) +
            fl (d * ![fl (-lib.cos α * lib.sin δ), fl (-lib.sin α * lib.sin δ), lib.cos δ] 0))) = v0 at *
      generalize fl (fl (fl 4.74047 / q) * fl (fl (a * ![-lib.sin α, lib.cos α, 0] 1) +
            fl (d * ![fl (-lib.cos α * lib.sin δ), fl (-lib.sin α * lib.sin δ), lib.cos δ] 1))) = v1 at *
      generalize fl (fl (fl 4.74047 / q) * fl (fl (a * ![-lib.sin α, lib.cos α, 0] 2) +
            fl (d * ![fl (-lib.cos α * lib.sin δ), fl (-lib.sin α * lib.sin δ), lib.cos δ] 2))) = v2 at *
      simp only [skyDir, skyEast, skyNorth, Matrix.cons_val_zero, Matrix.cons_val_one, Matrix.cons_val] at t0 t1 t2
      have h5 := abs_add_le (x 0 * v0 - distanceOf s.plx * (cos (angleAt s.de s.pmde t) * cos (angleAt s.ra s.pmra t)) *
        (4.74047 / q * (a * -sin (angleAt s.ra s.pmra t) + d * (-cos (angleAt s.ra s.pmra t) * sin (angleAt s.de s.pmde t)))) +
        (x 1 * v1 - distanceOf s.plx * (cos (angleAt s.de s.pmde t) * sin (angleAt s.ra s.pmra t)) *
        (4.74047 / q * (a * cos (angleAt s.ra s.pmra t) + d * (-sin (angleAt s.ra s.pmra t) * sin (angleAt s.de s.pmde t))))))
        (x 2 * v2 - distanceOf s.plx * sin (angleAt s.de s.pmde t) * (4.74047 / q * (a * 0 + d * cos (angleAt s.de s.pmde t))))
      have h6 := abs_add_le (x 0 * v0 - distanceOf s.plx * (cos (angleAt s.de s.pmde t) * cos (angleAt s.ra s.pmra t)) *
        (4.74047 / q * (a * -sin (angleAt s.ra s.pmra t) + d * (-cos (angleAt s.ra s.pmra t) * sin (angleAt s.de s.pmde t)))))
        (x 1 * v1 - distanceOf s.plx * (cos (angleAt s.de s.pmde t) * sin (angleAt s.ra s.pmra t)) *
        (4.74047 / q * (a * cos (angleAt s.ra s.pmra t) + d * (-sin (angleAt s.ra s.pmra t) * sin (angleAt s.de s.pmde t)))))
      have hz : x 0 * v0 + x 1 * v1 + x 2 * v2 = (x 0 * v0 - distanceOf s.plx * (cos (angleAt s.de s.pmde t) * cos (angleAt s.ra s.pmra t)) *
        (4.74047 / q * (a * -sin (angleAt s.ra s.pmra t) + d * (-cos (angleAt s.ra s.pmra t) * sin (angleAt s.de s.pmde t)))) +
        (x 1 * v1 - distanceOf s.plx * (cos (angleAt s.de s.pmde t) * sin (angleAt s.ra s.pmra t)) *
        (4.74047 / q * (a * cos (angleAt s.ra s.pmra t) + d * (-sin (angleAt s.ra s.pmra t) * sin (angleAt s.de s.pmde t))))) +
        (x 2 * v2 - distanceOf s.plx * sin (angleAt s.de s.pmde t) * (4.74047 / q * (a * 0 + d * cos (angleAt s.de s.pmde t))))) := by
        linear_combination (-(cos (angleAt s.de s.pmde t) * sin (angleAt s.de s.pmde t) * distanceOf s.plx * (4.74047 / q) * d)) *
          sin_sq_add_cos_sq (angleAt s.ra s.pmra t)
      have hW : 0 ≤ starError u e s t * (distanceOf s.plx * (4.74047 / q * (|a| + |d|))) := by
        have : 0 ≤ starError u e s t := by linarith
        have := (distanceOf_pos s.plx).le
        positivity
      show |x 0 * v0 + x 1 * v1 + x 2 * v2| ≤ _
      rw [hz]
      linarith
    · exact fun h => absurd ⟨q, a, d, hq, hq0, hpa, hpd⟩ h
  · refine ⟨0, fun i => ?_, ?_, fun _ => rfl⟩
    · simp only [starSample, starVelocity, numRec]
      rcases hq : s.plx with _ | q
      · rfl
      rcases ha : s.pmra with _ | a
      · rfl
      rcases hd : s.pmde with _ | d
      · rfl
      simp only [Option.map_some, cf_zero, cf_lt]
      rw [if_neg fun h0 => hex ⟨q, a, d, hq, h0, ha, hd⟩]
      rfl
    · intro q a d h1 h2 h3 h4
      exact absurd ⟨q, a, d, h1, h2, h3, h4⟩ hex

/-- C203. In `f64`, with sine and cosine within one unit in the last place of 1, for every place on the sky, proper motions of
up to 11 arcseconds a year and epochs up to ten thousand years from 2016, the error of the
direction is less than three billionths of an arcsecond. -/
theorem C203_arcsec (s : StarRec ℝ) (t : ℝ) (he : e ≤ 2 ^ (-52 : ℤ)) (hra : |s.ra| ≤ 360) (hde : |s.de| ≤ 90)
    (ha : |s.pmra.getD 0| ≤ 11000) (hd : |s.pmde.getD 0| ≤ 11000) (ht : |t - 2016| ≤ 10000) :
    starError (2 ^ (-53 : ℤ)) e s t ≤ 3 / 10 ^ 9 * (π / 648000) := by
  have key : ∀ {deg : ℝ} {pm : Option ℝ} {M : ℝ}, |deg| ≤ M → |pm.getD 0| ≤ 11000 →
      angleSize deg pm t ≤ (M + 31) * (π / 180) := by
    intro deg pm M h1 h2
    unfold angleSize
    refine mul_le_mul_of_nonneg_right ?_ (by positivity)
    have h3 : |pm.getD 0 * (t - 2016) / 3600000| ≤ 11000 * 10000 / 3600000 := by
      rw [abs_div, abs_mul, abs_of_pos (show (0 : ℝ) < 3600000 by norm_num)]
      exact div_le_div_of_nonneg_right (mul_le_mul h2 ht (abs_nonneg _) (by norm_num)) (by norm_num)
    norm_num at h3
    linarith
  have h1 := key hra ha
  have h2 := key hde hd
  have p1 := pi_gt_d2
  have p2 := pi_lt_d2
  unfold starError
  generalize angleSize s.ra s.pmra t = A at *
  generalize angleSize s.de s.pmde t = D at *
  norm_num at he ⊢
  linarith

/-- In `f64` with exact sine and cosine: Barnard's star in the year 3000. -/
example : ∃ x : Fin 3 → ℝ, ∀ i, (starSample (flConsts (rnd 53) exactLib)
      (numRec (rnd 53) exactLib ⟨269.45, 4.74, 0.03, 0.04, some (-801.55), some 10362.4, none, none, some 547, true⟩) (CF.num 3000)).position i
        = CF.num (x i) ∧
    |x i - distanceOf (some 547) * skyDir (angleAt 269.45 (some (-801.55)) 3000) (angleAt 4.74 (some 10362.4) 3000) i|
      ≤ 3 / 10 ^ 9 * (π / 648000) * distanceOf (some 547) := by
  have hb : starError (2 ^ (-53 : ℤ)) 0 ⟨269.45, 4.74, 0.03, 0.04, some (-801.55), some 10362.4, none, none, some 547, true⟩ 3000
      ≤ 3 / 10 ^ 9 * (π / 648000) := by
    refine C203_arcsec _ _ (by positivity) ?_ ?_ ?_ ?_ ?_ <;> norm_num [abs_le]
  obtain ⟨-, x, hx⟩ := C203_position (nearest_small (p := 53) (by norm_num) (rnd_nearest (by norm_num))) (exactLib_near le_rfl) le_rfl
    ⟨269.45, 4.74, 0.03, 0.04, some (-801.55), some 10362.4, none, none, some 547, true⟩ 3000 (hb.trans (by linarith [pi_lt_four]))
  exact ⟨x, fun i => ⟨(hx i).1, (hx i).2.trans (mul_le_mul_of_nonneg_right hb (distanceOf_pos _).le)⟩⟩

/-- The velocity of the same star: both proper motions and the parallax are there. -/
example : ∃ v : Fin 3 → ℝ, ∀ i, (starSample (flConsts (rnd 53) exactLib)
      (numRec (rnd 53) exactLib ⟨269.45, 4.74, 0.03, 0.04, some (-801.55), some 10362.4, none, none, some 547, true⟩) (CF.num 3000)).velocity i
        = CF.num (v i) ∧
    |v i - 4.74047 / 547 * (-801.55 * skyEast (angleAt 269.45 (some (-801.55)) 3000) i +
        10362.4 * skyNorth (angleAt 269.45 (some (-801.55)) 3000) (angleAt 4.74 (some 10362.4) 3000) i)| ≤ 2 / 10 ^ 12 := by
  have hb : starError (2 ^ (-53 : ℤ)) 0 ⟨269.45, 4.74, 0.03, 0.04, some (-801.55), some 10362.4, none, none, some 547, true⟩ 3000
      ≤ 3 / 10 ^ 9 * (π / 648000) := by
    refine C203_arcsec _ _ (by positivity) ?_ ?_ ?_ ?_ ?_ <;> norm_num [abs_le]
  obtain ⟨v, hv, h, -⟩ := C203_velocity (nearest_small (p := 53) (by norm_num) (rnd_nearest (by norm_num))) (exactLib_near le_rfl) le_rfl
    ⟨269.45, 4.74, 0.03, 0.04, some (-801.55), some 10362.4, none, none, some 547, true⟩ 3000 (hb.trans (by linarith [pi_lt_four]))
  refine ⟨v, fun i => ⟨hv i, ((h 547 (-801.55) 10362.4 rfl (by norm_num) rfl rfl).1 i).trans ?_⟩⟩
  refine (mul_le_mul_of_nonneg_right hb (by positivity)).trans ?_
  rw [show |(-801.55 : ℝ)| + |10362.4| = 11163.95 by norm_num [abs_of_neg, abs_of_pos]]
  have := pi_lt_d2
  norm_num
  linarith

/-! ## C204 -/

theorem star_gaia (hp : 24 ≤ p) (h : Nearest p fl) {c pm t : ℝ} (hc : IsFloat p c) :
    ∃ r, starUncertainty (flConsts fl lib) true (CF.num c) (some (CF.num pm)) (CF.num t) = CF.num r ∧ |c| ≤ r ∧
      |r - √(c ^ 2 + pm ^ 2 * (t - 2016) ^ 2)| ≤ 8 * 2 ^ (-p : ℤ) * √(c ^ 2 + pm ^ 2 * (t - 2016) ^ 2) := by
  have hs := nearest_small hp h
  have hp1 : 1 ≤ p := by omega
  have hnn : 0 ≤ fl (fl (pm * pm) * fl (fl (t - 2016) * fl (t - 2016))) :=
    h.nonneg (mul_nonneg (h.nonneg (mul_self_nonneg _)) (h.nonneg (mul_self_nonneg _)))
  have hle : fl (c * c) ≤ fl (fl (c * c) + fl (fl (pm * pm) * fl (fl (t - 2016) * fl (t - 2016)))) :=
    h.float_le (h.float _) (by linarith)
  have hX : 0 ≤ fl (fl (c * c) + fl (fl (pm * pm) * fl (fl (t - 2016) * fl (t - 2016)))) :=
    (h.nonneg (mul_self_nonneg _)).trans hle
  refine ⟨fl √(fl (fl (c * c) + fl (fl (pm * pm) * fl (fl (t - 2016) * fl (t - 2016))))), ?_, h.sqrt_sq hp1 hc hle, ?_⟩
  · unfold starUncertainty flConsts
    simp only [Option.getD_some, if_true]
    rw [cf_sub, cf_mul, cf_mul, cf_mul, cf_mul, cf_add, cf_sqrt hX]
  · have r1 : Rel (2 ^ (-p : ℤ)) 1 (fl (t - 2016)) (t - 2016) := hs.rel _
    have r2 := (Rel.mul hs zero_le_one (by norm_num) zero_le_one (by norm_num) r1 r1).round hs (by norm_num) (by norm_num)
    have r3 := (Rel.mul hs zero_le_one (by norm_num) (by norm_num) (by norm_num) (hs.rel (pm * pm)) r2).round hs (by norm_num) (by norm_num)
    have r4 := (((hs.rel (c * c)).mono hs (by norm_num)).add r3 (mul_self_nonneg _)
      (mul_nonneg (mul_self_nonneg _) (mul_self_nonneg _))).round hs (by norm_num) (by norm_num)
    have r5 := (r4.sqrt (add_nonneg (mul_self_nonneg _) (mul_nonneg (mul_self_nonneg _) (mul_self_nonneg _))) hX).round hs (by norm_num) (by norm_num)
    have r6 := r5.mono hs (m := 8) (by norm_num)
    unfold Rel at r6
    rw [abs_of_nonneg (Real.sqrt_nonneg _), show c * c + pm * pm * ((t - 2016) * (t - 2016)) = c ^ 2 + pm ^ 2 * (t - 2016) ^ 2 by ring] at r6
    exact r6

theorem isFloat_small (hp : 24 ≤ p) {m k : ℤ} (hm : |m| < 2 ^ 24) : IsFloat p (m * 2 ^ k) :=
  ⟨m, k, hm.trans_le (pow_le_pow_right₀ (by norm_num) hp), rfl⟩

theorem star_other (hp : 24 ≤ p) (h : Nearest p fl) {c pm t : ℝ} (hc : IsFloat p c) (ht : 2016 ≤ t ∨ t ≤ 1966.5) :
    ∃ r, starUncertainty (flConsts fl lib) false (CF.num c) (some (CF.num pm)) (CF.num t) = CF.num r ∧ |c| ≤ r ∧
      |r ^ 2 - (c ^ 2 + pm ^ 2 * ((t - 1991.25) ^ 2 - 24.75 ^ 2))| ≤ 10 * 2 ^ (-p : ℤ) * (c ^ 2 + pm ^ 2 * (t - 1991.25) ^ 2) := by
  have hs := nearest_small hp h
  have hp1 : 1 ≤ p := by omega
  have f1 : IsFloat p 24.75 := by
    have := isFloat_small hp (m := 99) (k := -2) (by norm_num)
    norm_num at this ⊢
    exact this
  have f2 : IsFloat p 612.5625 := by
    have := isFloat_small hp (m := 9801) (k := -4) (by norm_num)
    norm_num at this ⊢
    exact this
  have g1 : fl (2016 - 1991.25) = 24.75 := by rw [show (2016 : ℝ) - 1991.25 = 24.75 by norm_num, h.fix f1]
  have g2 : fl ((24.75 : ℝ) * 24.75) = 612.5625 := by rw [show (24.75 : ℝ) * 24.75 = 612.5625 by norm_num, h.fix f2]
  have hT : 24.75 * 24.75 ≤ fl (t - 1991.25) * fl (t - 1991.25) := by
    rcases ht with ht | ht
    · have : 24.75 ≤ fl (t - 1991.25) := h.float_le f1 (by linarith)
      exact mul_self_le_mul_self (by norm_num) this
    · have : fl (t - 1991.25) ≤ -24.75 := h.le_float f1.neg (by linarith)
      nlinarith
  have hQ : 612.5625 ≤ fl (fl (t - 1991.25) * fl (t - 1991.25)) := h.float_le f2 (by linarith)
  have hD : 0 ≤ fl (fl (fl (t - 1991.25) * fl (t - 1991.25)) - 612.5625) := h.nonneg (by linarith)
  have hnn : 0 ≤ fl (fl (pm * pm) * fl (fl (fl (t - 1991.25) * fl (t - 1991.25)) - 612.5625)) :=
    h.nonneg (mul_nonneg (h.nonneg (mul_self_nonneg _)) hD)
  have hle : fl (c * c) ≤ fl (fl (c * c) + fl (fl (pm * pm) * fl (fl (fl (t - 1991.25) * fl (t - 1991.25)) - 612.5625))) :=
    h.float_le (h.float _) (by linarith)
  have hX : 0 ≤ fl (fl (c * c) + fl (fl (pm * pm) * fl (fl (fl (t - 1991.25) * fl (t - 1991.25)) - 612.5625))) :=
    (h.nonneg (mul_self_nonneg _)).trans hle
  refine ⟨fl √(fl (fl (c * c) + fl (fl (pm * pm) * fl (fl (fl (t - 1991.25) * fl (t - 1991.25)) - 612.5625)))), ?_,
    h.sqrt_sq hp1 hc hle, ?_⟩
  · unfold starUncertainty flConsts
    simp only [Option.getD_some, Bool.false_eq_true, if_false]
    rw [cf_sub, cf_mul, cf_sub, cf_mul, cf_mul, cf_mul, cf_sub, cf_mul, cf_add, g1, g2, cf_sqrt hX]
  · have hu := hs.pos
    have hu1 := hs.le
    generalize (2 : ℝ) ^ (-p : ℤ) = u at *
    have c1 : Close ((t - 1991.25) ^ 2) (31 / 10 * u) (fl (fl (t - 1991.25) * fl (t - 1991.25))) ((t - 1991.25) ^ 2) := by
      have r1 : Rel u 1 (fl (t - 1991.25)) (t - 1991.25) := hs.rel _
      have r2 := ((Rel.mul hs zero_le_one (by norm_num) zero_le_one (by norm_num) r1 r1).round hs (by norm_num) (by norm_num)).mono hs
        (m := 31 / 10) (by norm_num)
      have := Close.of_rel r2
      rwa [abs_of_nonneg (mul_self_nonneg _), ← sq] at this
    have hT2 : 612.5625 ≤ (t - 1991.25) ^ 2 := by
      rcases ht with ht | ht <;> nlinarith
    have c2 : Close ((t - 1991.25) ^ 2) (42 / 10 * u) (fl (fl (fl (t - 1991.25) * fl (t - 1991.25)) - 612.5625))
        ((t - 1991.25) ^ 2 - 24.75 ^ 2) := by
      have h2 := c1.2
      have h3 := c1.size
      generalize (t - 1991.25) ^ 2 = T at *
      generalize fl (fl (t - 1991.25) * fl (t - 1991.25)) = Q at *
      constructor
      · rw [abs_le]
        constructor <;> norm_num <;> linarith
      · have h1 := hs.acc (Q - 612.5625)
        rw [abs_of_nonneg (show 0 ≤ Q - 612.5625 by linarith)] at h1
        have h4 := abs_add_le (fl (Q - 612.5625) - (Q - 612.5625)) (Q - T)
        rw [show fl (Q - 612.5625) - (Q - 612.5625) + (Q - T) = fl (Q - 612.5625) - (T - 24.75 ^ 2) by norm_num; ring] at h4
        have h5 : Q ≤ (1 + 31 / 10 * u) * T := (le_abs_self _).trans h3
        have h6 : u * (Q - 612.5625) ≤ u * (11 / 10 * T) := mul_le_mul_of_nonneg_left (by nlinarith) hu.le
        nlinarith
    have c3 : Close (pm ^ 2) (1 * u) (fl (pm * pm)) (pm ^ 2) := by
      have := Close.of_rel (hs.rel (pm * pm))
      rw [abs_of_nonneg (mul_self_nonneg _), ← sq] at this
      rwa [← sq]
    have c4 : Close (c ^ 2) (63 / 10 * u) (fl (c * c)) (c ^ 2) := by
      have := Close.of_rel (hs.rel (c * c))
      rw [abs_of_nonneg (mul_self_nonneg _), ← sq] at this
      rw [← sq]
      exact this.mono (by linarith)
    have c5 := (Close.mul hs c3 c2 (by positivity)).mono (β := 63 / 10 * u) (by
        have h1 : u * u ≤ 1 / 1000000 * u := mul_le_mul_of_nonneg_right hu1 hu.le
        have h2 : u * u * u ≤ 1 / 1000000 * u * u := mul_le_mul_of_nonneg_right h1 hu.le
        nlinarith)
    have c6 := (Close.add hs c4 c5).mono (β := 74 / 10 * u) (by nlinarith [mul_nonneg hu.le (sub_nonneg.2 hu1)])
    generalize fl (fl (c * c) + fl (fl (pm * pm) * fl (fl (fl (t - 1991.25) * fl (t - 1991.25)) - 612.5625))) = X at *
    obtain ⟨δ, hδ, e1⟩ := (hs.rel √X).factor hs zero_le_one
    have e2 : (fl √X) ^ 2 - X = X * (2 * δ + δ ^ 2) := by
      rw [e1, mul_pow, Real.sq_sqrt hX]
      ring
    have h1 := abs_le.1 hδ
    have h2 : |2 * δ + δ ^ 2| ≤ 21 / 10 * u := by
      rw [abs_le]
      constructor <;> nlinarith [sq_nonneg δ]
    have h3 : |(fl √X) ^ 2 - X| ≤ X * (21 / 10 * u) := by
      rw [e2, abs_mul, abs_of_nonneg hX]
      exact mul_le_mul_of_nonneg_left h2 hX
    have h4 : X ≤ (1 + 74 / 10 * u) * (c ^ 2 + pm ^ 2 * (t - 1991.25) ^ 2) := (le_abs_self _).trans c6.size
    have h5 := abs_sub_le ((fl √X) ^ 2) X (c ^ 2 + pm ^ 2 * ((t - 1991.25) ^ 2 - 24.75 ^ 2))
    have h6 := c6.2
    have h7 : 0 ≤ c ^ 2 + pm ^ 2 * (t - 1991.25) ^ 2 := by positivity
    generalize c ^ 2 + pm ^ 2 * (t - 1991.25) ^ 2 = M at *
    have h8 : X * (21 / 10 * u) ≤ 12 / 10 * M * (21 / 10 * u) := mul_le_mul_of_nonneg_right (by nlinarith) (by positivity)
    nlinarith

theorem unc_some (k : StarConsts (CF fl lib)) (g : Bool) (c : CF fl lib) (pm : Option ℝ) (t : CF fl lib) :
    starUncertainty k g c (pm.map CF.num) t = starUncertainty k g c (some (CF.num (pm.getD 0))) t := by
  unfold starUncertainty
  rw [getD_map, Option.getD_some]

/-- C204. For a Gaia star both uncertainties are numbers at every epoch, never below the catalogue uncertainty, and equal to the
root of the sum of the squares of the catalogue uncertainty and of the uncertainty of the proper motion times the years since
2016, up to eight roundings. -/
theorem C204_gaia (hp : 24 ≤ p) (h : Nearest p fl) (s : StarRec ℝ) (hg : s.gaiaDr3 = true) (h1 : IsFloat p s.eRa)
    (h2 : IsFloat p s.eDe) (t : ℝ) :
    ∃ a d, (starSample (flConsts fl lib) (numRec fl lib s) (CF.num t)).uncertaintyRa = CF.num a ∧
      (starSample (flConsts fl lib) (numRec fl lib s) (CF.num t)).uncertaintyDec = CF.num d ∧ |s.eRa| ≤ a ∧ |s.eDe| ≤ d ∧
      |a - √(s.eRa ^ 2 + s.ePmra.getD 0 ^ 2 * (t - 2016) ^ 2)|
        ≤ 8 * 2 ^ (-p : ℤ) * √(s.eRa ^ 2 + s.ePmra.getD 0 ^ 2 * (t - 2016) ^ 2) ∧
      |d - √(s.eDe ^ 2 + s.ePmde.getD 0 ^ 2 * (t - 2016) ^ 2)|
        ≤ 8 * 2 ^ (-p : ℤ) * √(s.eDe ^ 2 + s.ePmde.getD 0 ^ 2 * (t - 2016) ^ 2) := by
  obtain ⟨a, a1, a2, a3⟩ := star_gaia (lib := lib) hp h (pm := s.ePmra.getD 0) (t := t) h1
  obtain ⟨d, d1, d2, d3⟩ := star_gaia (lib := lib) hp h (pm := s.ePmde.getD 0) (t := t) h2
  refine ⟨a, d, ?_, ?_, a2, d2, a3, d3⟩
  · rw [← a1, ← unc_some, ← hg]
    rfl
  · rw [← d1, ← unc_some, ← hg]
    rfl

/-- C204. For every other star both uncertainties are numbers from 2016 on and up to the middle of 1966, never below the catalogue
uncertainty, and their squares follow the variance law up to ten roundings of the variance added up from 1991.25. -/
theorem C204_other (hp : 24 ≤ p) (h : Nearest p fl) (s : StarRec ℝ) (hg : s.gaiaDr3 = false) (h1 : IsFloat p s.eRa)
    (h2 : IsFloat p s.eDe) (t : ℝ) (ht : 2016 ≤ t ∨ t ≤ 1966.5) :
    ∃ a d, (starSample (flConsts fl lib) (numRec fl lib s) (CF.num t)).uncertaintyRa = CF.num a ∧
      (starSample (flConsts fl lib) (numRec fl lib s) (CF.num t)).uncertaintyDec = CF.num d ∧ |s.eRa| ≤ a ∧ |s.eDe| ≤ d ∧
      |a ^ 2 - (s.eRa ^ 2 + s.ePmra.getD 0 ^ 2 * ((t - 1991.25) ^ 2 - 24.75 ^ 2))|
        ≤ 10 * 2 ^ (-p : ℤ) * (s.eRa ^ 2 + s.ePmra.getD 0 ^ 2 * (t - 1991.25) ^ 2) ∧
      |d ^ 2 - (s.eDe ^ 2 + s.ePmde.getD 0 ^ 2 * ((t - 1991.25) ^ 2 - 24.75 ^ 2))|
        ≤ 10 * 2 ^ (-p : ℤ) * (s.eDe ^ 2 + s.ePmde.getD 0 ^ 2 * (t - 1991.25) ^ 2) := by
  obtain ⟨a, a1, a2, a3⟩ := star_other (lib := lib) hp h (pm := s.ePmra.getD 0) (t := t) h1 ht
  obtain ⟨d, d1, d2, d3⟩ := star_other (lib := lib) hp h (pm := s.ePmde.getD 0) (t := t) h2 ht
  refine ⟨a, d, ?_, ?_, a2, d2, a3, d3⟩
  · rw [← a1, ← unc_some, ← hg]
    rfl
  · rw [← d1, ← unc_some, ← hg]
    rfl

theorem sq_mono_gap (h : Nearest p fl) {x y : ℝ} (hxy : 0 ≤ x ∧ x ≤ y ∨ y ≤ x ∧ x ≤ 0) : fl (fl x * fl x) ≤ fl (fl y * fl y) := by
  have h0 : fl 0 = 0 := h.fix isFloat_zero
  apply h.mono
  rcases hxy with ⟨h1, h2⟩ | ⟨h1, h2⟩
  · exact mul_self_le_mul_self (h.nonneg h1) (h.mono h2)
  · have a1 := h.mono h1
    have a2 := h.mono h2
    rw [h0] at a2
    nlinarith

theorem star_growth (h : Nearest p fl) (g : Bool) (c pm t t' r r' : ℝ) (hg : 2016 ≤ t ∧ t ≤ t' ∨ t' ≤ t ∧ t ≤ 1966.5)
    (h1 : starUncertainty (flConsts fl lib) g (CF.num c) (some (CF.num pm)) (CF.num t) = CF.num r)
    (h2 : starUncertainty (flConsts fl lib) g (CF.num c) (some (CF.num pm)) (CF.num t') = CF.num r') : r ≤ r' := by
  have hpm : 0 ≤ fl (pm * pm) := h.nonneg (mul_self_nonneg _)
  have root : ∀ {X Y : ℝ}, X ≤ Y → Scalar.sqrt (CF.num X : CF fl lib) = CF.num r → Scalar.sqrt (CF.num Y : CF fl lib) = CF.num r' → r ≤ r' := by
    intro X Y hXY e1 e2
    have hX : 0 ≤ X := by
      by_contra hX
      have : Scalar.sqrt (CF.num X : CF fl lib) = CF.nan := by
        show CF.op1 _ _ _ = _
        unfold CF.op1 CF.num
        exact if_neg hX
      rw [this] at e1
      exact num_ne_nan r e1.symm
    rw [cf_sqrt hX] at e1
    rw [cf_sqrt (hX.trans hXY)] at e2
    rw [← num_inj.1 e1, ← num_inj.1 e2]
    exact h.mono (Real.sqrt_le_sqrt hXY)
  unfold starUncertainty flConsts at h1 h2
  cases g
  · simp only [Option.getD_some, Bool.false_eq_true, if_false] at h1 h2
    rw [cf_sub, cf_mul, cf_sub, cf_mul, cf_mul, cf_mul, cf_sub, cf_mul, cf_add] at h1 h2
    refine root ?_ h1 h2
    have := sq_mono_gap h (x := t - 1991.25) (y := t' - 1991.25) (by
      rcases hg with ⟨a, b⟩ | ⟨a, b⟩
      · exact Or.inl ⟨by norm_num; linarith, by linarith⟩
      · exact Or.inr ⟨by linarith, by norm_num at b ⊢; linarith⟩)
    exact h.mono (add_le_add le_rfl (h.mono (mul_le_mul_of_nonneg_left (h.mono (sub_le_sub_right this _)) hpm)))
  · simp only [Option.getD_some, if_true] at h1 h2
    rw [cf_sub, cf_mul, cf_mul, cf_mul, cf_mul, cf_add] at h1 h2
    refine root ?_ h1 h2
    have := sq_mono_gap h (x := t - 2016) (y := t' - 2016) (by
      rcases hg with ⟨a, b⟩ | ⟨a, b⟩
      · exact Or.inl ⟨by linarith, by linarith⟩
      · exact Or.inr ⟨by linarith, by norm_num at b ⊢; linarith⟩)
    exact h.mono (add_le_add le_rfl (h.mono (mul_le_mul_of_nonneg_left this hpm)))

/-- C204. The uncertainties computed in floating point never decrease from 2016 on, nor towards the past before the middle of
1966: there is no loss of this to rounding. -/
theorem C204_growth (h : Nearest p fl) (s : StarRec ℝ) (t t' : ℝ) (ht : 2016 ≤ t ∧ t ≤ t' ∨ t' ≤ t ∧ t ≤ 1966.5) (a d a' d' : ℝ)
    (h1 : (starSample (flConsts fl lib) (numRec fl lib s) (CF.num t)).uncertaintyRa = CF.num a)
    (h2 : (starSample (flConsts fl lib) (numRec fl lib s) (CF.num t)).uncertaintyDec = CF.num d)
    (h3 : (starSample (flConsts fl lib) (numRec fl lib s) (CF.num t')).uncertaintyRa = CF.num a')
    (h4 : (starSample (flConsts fl lib) (numRec fl lib s) (CF.num t')).uncertaintyDec = CF.num d') : a ≤ a' ∧ d ≤ d' := by
  simp only [starSample, numRec, unc_some] at h1 h2 h3 h4
  exact ⟨star_growth h _ _ _ _ _ _ _ ht h1 h3, star_growth h _ _ _ _ _ _ _ ht h2 h4⟩

/-- In `f64`: a Gaia star and another one in 2026 and 2036. -/
example (g : Bool) : ∃ a d a' d',
    (starSample (flConsts (rnd 53) exactLib) (numRec (rnd 53) exactLib ⟨10, 20, 1 / 4, 1 / 2, none, none, some 1, some 2, none, g⟩)
      (CF.num 2026)).uncertaintyRa = CF.num a ∧
    (starSample (flConsts (rnd 53) exactLib) (numRec (rnd 53) exactLib ⟨10, 20, 1 / 4, 1 / 2, none, none, some 1, some 2, none, g⟩)
      (CF.num 2026)).uncertaintyDec = CF.num d ∧
    (starSample (flConsts (rnd 53) exactLib) (numRec (rnd 53) exactLib ⟨10, 20, 1 / 4, 1 / 2, none, none, some 1, some 2, none, g⟩)
      (CF.num 2036)).uncertaintyRa = CF.num a' ∧
    (starSample (flConsts (rnd 53) exactLib) (numRec (rnd 53) exactLib ⟨10, 20, 1 / 4, 1 / 2, none, none, some 1, some 2, none, g⟩)
      (CF.num 2036)).uncertaintyDec = CF.num d' ∧ 1 / 4 ≤ a ∧ a ≤ a' ∧ d ≤ d' := by
  have hn := rnd_nearest (p := 53) (by norm_num)
  have f1 : IsFloat 53 (1 / 4) := by
    have := isFloat_zpow (p := 53) (by norm_num) (-2)
    norm_num at this ⊢
    exact this
  have f2 : IsFloat 53 (1 / 2) := by
    have := isFloat_zpow (p := 53) (by norm_num) (-1)
    norm_num at this ⊢
    exact this
  have key : ∀ t : ℝ, 2016 ≤ t → ∃ a d, (starSample (flConsts (rnd 53) exactLib)
      (numRec (rnd 53) exactLib ⟨10, 20, 1 / 4, 1 / 2, none, none, some 1, some 2, none, g⟩) (CF.num t)).uncertaintyRa = CF.num a ∧
      (starSample (flConsts (rnd 53) exactLib)
      (numRec (rnd 53) exactLib ⟨10, 20, 1 / 4, 1 / 2, none, none, some 1, some 2, none, g⟩) (CF.num t)).uncertaintyDec = CF.num d ∧
      1 / 4 ≤ a := by
    intro t ht
    cases g
    · obtain ⟨a, d, h1, h2, h3, -⟩ := C204_other (lib := exactLib) (by norm_num) hn
        ⟨10, 20, 1 / 4, 1 / 2, none, none, some 1, some 2, none, false⟩ rfl f1 f2 t (Or.inl ht)
      exact ⟨a, d, h1, h2, (le_abs_self _).trans h3⟩
    · obtain ⟨a, d, h1, h2, h3, -⟩ := C204_gaia (lib := exactLib) (by norm_num) hn
        ⟨10, 20, 1 / 4, 1 / 2, none, none, some 1, some 2, none, true⟩ rfl f1 f2 t
      exact ⟨a, d, h1, h2, (le_abs_self _).trans h3⟩
  obtain ⟨a, d, h1, h2, h3⟩ := key 2026 (by norm_num)
  obtain ⟨a', d', h1', h2', -⟩ := key 2036 (by norm_num)
  obtain ⟨g1, g2⟩ := C204_growth hn _ 2026 2036 (Or.inl ⟨by norm_num, by norm_num⟩) a d a' d' h1 h2 h1' h2'
  exact ⟨a, d, a', d', h1, h2, h1', h2', h3, g1, g2⟩

/-! ## Over the reals -/

/-- The literals over the reals. -/
noncomputable def realConsts : StarConsts ℝ := ⟨2016, 1991.25, 3600000, π / 180, 1000, 206264.806, 4.74047⟩

/-- The fields of a catalogue record that the sample reads. -/
noncomputable def recOf (s : Stars.Star) : StarRec ℝ :=
  ⟨s.ra, s.de, s.eRa, s.eDe, s.pmra, s.pmde, s.ePmra, s.ePmde, s.plx, s.cat == some "GAIADR3"⟩

theorem starPosition_real (s : Stars.Star) (t : ℝ) : (starSample realConsts (recOf s) t).position = (s.icrsSample t).position := by
  funext i
  simp only [starSample, starPosition, recOf, realConsts, starAngle, starDistance, Stars.Star.icrsSample, Stars.Star.distance,
    Stars.toRadians, Scalar.cos, Scalar.sin, Scalar.lt]
  rcases s.plx with _ | p
  · rfl
  · by_cases h : 0 < p <;> simp only [h, if_true, if_false]

theorem starVelocity_real (s : Stars.Star) (t : ℝ) : (starSample realConsts (recOf s) t).velocity = (s.icrsSample t).velocity := by
  funext i
  simp only [starSample, starVelocity, recOf, realConsts, starAngle, Stars.Star.icrsSample,
    Stars.toRadians, Scalar.cos, Scalar.sin, Scalar.lt]
  rcases s.plx with _ | p <;> rcases s.pmra with _ | a <;> rcases s.pmde with _ | d <;> try rfl

theorem starUncertainty_real (s : Stars.Star) (t a d : ℝ) (ha : (s.icrsSample t).uncertaintyRa = some a)
    (hd : (s.icrsSample t).uncertaintyDec = some d) :
    (starSample realConsts (recOf s) t).uncertaintyRa = a ∧ (starSample realConsts (recOf s) t).uncertaintyDec = d := by
  simp only [Stars.Star.icrsSample, Stars.Star.uncertainty, Stars.sqrt?] at ha hd
  simp only [starSample, starUncertainty, recOf, realConsts, Scalar.sqrt, beq_iff_eq]
  by_cases hc : s.cat = some "GAIADR3"
  · simp only [hc, if_true] at ha hd ⊢
    split at ha
    · simp at ha
    split at hd
    · simp at hd
    rw [← Option.some_inj.1 ha, ← Option.some_inj.1 hd]
    simp only [sq, and_self]
  · simp only [hc, if_false] at ha hd ⊢
    split at ha
    · simp at ha
    split at hd
    · simp at hd
    rw [← Option.some_inj.1 ha, ← Option.some_inj.1 hd]
    simp only [sq, and_self]

end Verif.Float
