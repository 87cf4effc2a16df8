import Verif.Wmm.Field
import Verif.Wmm.Coeff
import Mathlib.Analysis.SpecialFunctions.Complex.LogDeriv

/-!
# C64: the magnetic field of the model
-/

namespace Verif.Wmm

open Real Polynomial

/-- C64. At every latitude and for tables of any size: the tabulated functions are the Schmidt semi-normalised associated Legendre functions
(Legendre polynomials by Rodrigues' formula) and, away from the poles, the tabulated slopes are their derivatives in the latitude. -/
theorem C64_legendre (N n m : ℕ) (hm : m ≤ n) (hn : n ≤ N) (φ : ℝ) :
    (schmidtLegendre N (sin φ) (cos φ)).1 n m = schmidtP n m φ ∧
    (1e-12 < |cos φ| → HasDerivAt (schmidtP n m) ((schmidtLegendre N (sin φ) (cos φ)).2 n m) φ) :=
  ⟨schmidt_table N φ n m hm hn, fun h => schmidt_table_deriv N φ n m hm hn h⟩

/-- Degree 2, order 1: `√3 sin φ cos φ`. -/
example (φ : ℝ) : (schmidtLegendre 12 (sin φ) (cos φ)).1 2 1 = √3 * (sin φ * cos φ) := by
  rw [(C64_legendre 12 2 1 (by norm_num) (by norm_num) φ).1]
  unfold schmidtP schmidt
  rw [if_neg (by norm_num), legendreD_off 1, legendreD_diag 0]
  rw [show (2 : ℝ) * ((2 - 1 : ℕ).factorial : ℝ) / ((2 + 1 : ℕ).factorial : ℝ) = 1 / 3 by norm_num [Nat.factorial], Real.sqrt_div (by norm_num), Real.sqrt_one]
  simp [legendreD, legendre_zero]
  have h3 : √(3 : ℝ) * √3 = 3 := Real.mul_self_sqrt (by norm_num)
  have : √(3 : ℝ) ≠ 0 := by positivity
  field_simp
  linear_combination (-cos φ * sin φ) * h3

/-- C64. The longitude tables hold `cos mλ` and `sin mλ`. -/
theorem C64_harmonics (N m : ℕ) (hm : m ≤ N) (lon : ℝ) : (longitudeHarmonics N lon).1 m = cos (m * lon) ∧ (longitudeHarmonics N lon).2 m = sin (m * lon) :=
  harmonics N lon m hm

theorem toGeocentric_eq (p : Geodetic) : toGeocentric p = ⟨centreDistance p.latitude p.height, geocentricLatitude p.latitude p.height, p.longitude⟩ := by
  have e : wgsF * (2 - wgsF) = ecc2 := rfl
  unfold toGeocentric geocentricLatitude centreDistance axisDistance planeHeight primeVertical
  dsimp only
  rw [e, show Frames.wgsA = 6378137 from rfl]
  simp only [pow_two, ← mul_assoc]

/-- What `evaluate` computes once the coefficients are known. -/
noncomputable def accAt (C : Coefficients) (p : Geodetic) : Acc :=
  let φ := geocentricLatitude p.latitude p.height
  let r := centreDistance p.latitude p.height
  { x := sumX C.maxDegree (referenceRadius / r) C.g.get C.h.get (schmidtLegendre maxDegree (sin φ) (cos φ)).2 p.longitude
    y := sumY C.maxDegree (referenceRadius / r) C.g.get C.h.get (fun n m => schmidtP n m φ) p.longitude (cos φ)
    z := sumZ C.maxDegree (referenceRadius / r) C.g.get C.h.get (fun n m => schmidtP n m φ) p.longitude
    xDot := sumX C.maxDegree (referenceRadius / r) C.gDot.get C.hDot.get (schmidtLegendre maxDegree (sin φ) (cos φ)).2 p.longitude
    yDot := sumY C.maxDegree (referenceRadius / r) C.gDot.get C.hDot.get (fun n m => schmidtP n m φ) p.longitude (cos φ)
    zDot := sumZ C.maxDegree (referenceRadius / r) C.gDot.get C.hDot.get (fun n m => schmidtP n m φ) p.longitude }

theorem evaluateWith_eq (C : Coefficients) (p : Geodetic) (hN : C.maxDegree ≤ maxDegree)
    (hc : poleEps < |cos (geocentricLatitude p.latitude p.height)|) :
    evaluateWith C p = elements C.decimalYear p (toGeocentric p) (accAt C p) := by
  unfold evaluateWith
  dsimp only
  rw [if_neg (by rw [toGeocentric_eq]; exact not_le.mpr hc), if_neg (not_lt.mpr hN)]
  congr 1
  rw [toGeocentric_eq]
  exact accumulate_eq C p.longitude _ _ hN

/-- Success of `evaluate` unfolded. -/
theorem evaluate_ok {epoch t : ℝ} {N : ℕ} {p : Geodetic} {e : Elements} (h : (wmm epoch N).evaluate t p = .ok e) :
    ∃ C, (wmm epoch N).coefficientsAt t = some C ∧ N ≤ maxDegree ∧ C.maxDegree = N ∧ C.decimalYear = t ∧
      poleEps < |cos (geocentricLatitude p.latitude p.height)| ∧ elements t p (toGeocentric p) (accAt C p) = .ok e := by
  obtain ⟨C, h1, h2, h3, -⟩ := coefficients_eq epoch t N
  unfold MagneticModel.evaluate at h
  rw [h1] at h
  dsimp only at h
  have hN : N ≤ maxDegree := by
    by_contra hN
    unfold evaluateWith at h
    dsimp only at h
    by_cases hp : |cos (toGeocentric p).latitude| ≤ poleEps
    · rw [if_pos hp] at h; cases h
    · rw [if_neg hp, if_pos (by omega)] at h; cases h
  have hc : poleEps < |cos (geocentricLatitude p.latitude p.height)| := by
    by_contra hp
    unfold evaluateWith at h
    dsimp only at h
    rw [if_pos (by rw [toGeocentric_eq]; exact not_lt.mp hp)] at h
    cases h
  rw [evaluateWith_eq C p (by omega) hc, h2] at h
  exact ⟨C, h1, hN, h3, h2, hc, h⟩

theorem elements_ok {t : ℝ} {p : Geodetic} {q : Geocentric} {a : Acc} {e : Elements} (h : elements t p q a = .ok e) :
    e.geodetic = p ∧ e.geocentric = q ∧ e.decimalYear = t ∧
    e.x = a.x * cos (q.latitude - p.latitude) - a.z * sin (q.latitude - p.latitude) ∧ e.y = a.y ∧
    e.z = a.x * sin (q.latitude - p.latitude) + a.z * cos (q.latitude - p.latitude) ∧
    e.xDot = a.xDot * cos (q.latitude - p.latitude) - a.zDot * sin (q.latitude - p.latitude) ∧ e.yDot = a.yDot ∧
    e.zDot = a.xDot * sin (q.latitude - p.latitude) + a.zDot * cos (q.latitude - p.latitude) ∧
    e.horizontal = √(e.x * e.x + e.y * e.y) ∧ e.horizontal ≠ 0 ∧ e.total = √(e.horizontal * e.horizontal + e.z * e.z) ∧
    e.declination = Att.atan2 e.y e.x ∧ e.inclination = Att.atan2 e.z e.horizontal ∧ e.gridVariation = e.declination ∧
    e.horizontalRate = (e.x * e.xDot + e.y * e.yDot) / e.horizontal ∧
    e.totalRate = (e.x * e.xDot + e.y * e.yDot + e.z * e.zDot) / e.total ∧
    e.declinationRate = (e.x * e.yDot - e.y * e.xDot) / (e.horizontal * e.horizontal) ∧
    e.inclinationRate = (e.horizontal * e.zDot - e.z * e.horizontalRate) / (e.total * e.total) := by
  unfold elements at h
  dsimp only at h
  by_cases h0 : √((a.x * cos (q.latitude - p.latitude) - a.z * sin (q.latitude - p.latitude)) *
      (a.x * cos (q.latitude - p.latitude) - a.z * sin (q.latitude - p.latitude)) + a.y * a.y) = 0
  · rw [if_pos h0] at h; cases h
  · rw [if_neg h0] at h
    cases h
    exact ⟨rfl, rfl, rfl, rfl, rfl, rfl, rfl, rfl, rfl, rfl, h0, rfl, rfl, rfl, rfl, rfl, rfl, rfl, rfl⟩

/-- C64. The field that `evaluate` reports is minus the gradient of the scalar potential whose Gauss coefficients are the published ones moved to
the date (`G`, `H` below), in the local north, east, down directions of the ellipsoid: moving a little north, east or up changes the potential by
minus that displacement times the component. For every date, every point off the axis with latitude between the poles and height above -6378137 m,
every epoch and every maximum degree. -/
theorem C64_field (epoch t : ℝ) (N : ℕ) (p : Geodetic) (e : Elements) (h : (wmm epoch N).evaluate t p = .ok e)
    (hlat : |p.latitude| < π / 2) (hh : -6378137 < p.height) (G H : ℕ → ℕ → ℝ)
    (hG : ∀ r ∈ (wmm epoch N).records, G r.degree r.order = r.g + (t - epoch) * r.gDot ∧ H r.degree r.order = r.h + (t - epoch) * r.hDot) :
    HasDerivAt (fun lat => geodeticPotential N G H lat p.longitude p.height) (-((meridian p.latitude + p.height) * e.x)) p.latitude ∧
    HasDerivAt (fun lon => geodeticPotential N G H p.latitude lon p.height) (-((primeVertical p.latitude + p.height) * cos p.latitude * e.y)) p.longitude ∧
    HasDerivAt (fun height => geodeticPotential N G H p.latitude p.longitude height) e.z p.height ∧
    e.geodetic = p ∧ e.decimalYear = t ∧
    e.geocentric = ⟨centreDistance p.latitude p.height, geocentricLatitude p.latitude p.height, p.longitude⟩ := by
  obtain ⟨C, h1, hN, h3, h2, hc, hel⟩ := evaluate_ok h
  obtain ⟨C', h1', -, -, hg, hh', hgd, hhd⟩ := coefficients_eq epoch t N
  obtain rfl : C' = C := Option.some.inj (h1'.symm.trans h1)
  obtain ⟨e1, e2, e3, ex, ey, ez, -⟩ := elements_ok hel
  have hGC : ∀ n ∈ Finset.Icc 1 N, ∀ m ∈ Finset.Icc 0 n, G n m = C'.g.get n m ∧ H n m = C'.h.get n m := by
    intro n hn m hm
    rw [Finset.mem_Icc] at hn hm
    obtain ⟨r, hr, hd, ho⟩ := cover hn.1 (by omega) hm.2
    obtain ⟨a, b, c, d⟩ := table_record hr
    have := hG r.toRecord (List.mem_map.mpr ⟨r, hr, rfl⟩)
    rw [hg, hh', ← hd, ← ho, a, b, c, d]
    exact this
  have hpot : ∀ r φ lon, potential 6371200 N G H r φ lon = potential referenceRadius N C'.g.get C'.h.get r φ lon := by
    intro r φ lon
    unfold potential
    rw [show referenceRadius = 6371200 by unfold referenceRadius; norm_num]
    congr 1
    refine Finset.sum_congr rfl fun n hn => ?_
    congr 1
    refine Finset.sum_congr rfl fun m hm => ?_
    rw [(hGC n hn m hm).1, (hGC n hn m hm).2]
  have hcos : 0 < cos p.latitude := Real.cos_pos_of_mem_Ioo ⟨by linarith [(abs_lt.mp hlat).1], (abs_lt.mp hlat).2⟩
  have hpv := primeVertical_ge p.latitude
  have hax : 0 < axisDistance p.latitude p.height := mul_pos (by linarith) hcos
  have hr2 : 0 < axisDistance p.latitude p.height ^ 2 + planeHeight p.latitude p.height ^ 2 := by positivity
  have hr : 0 < centreDistance p.latitude p.height := Real.sqrt_pos.mpr hr2
  have hrr : centreDistance p.latitude p.height ^ 2 = axisDistance p.latitude p.height ^ 2 + planeHeight p.latitude p.height ^ 2 := Real.sq_sqrt hr2.le
  have hc0 : cos (geocentricLatitude p.latitude p.height) ≠ 0 := by
    intro h0
    rw [h0, abs_zero] at hc
    norm_num [poleEps] at hc
  have hsin : sin (geocentricLatitude p.latitude p.height) = planeHeight p.latitude p.height / centreDistance p.latitude p.height := by
    unfold geocentricLatitude
    have hb : (planeHeight p.latitude p.height / centreDistance p.latitude p.height) ^ 2 ≤ 1 := by
      rw [div_pow, hrr, div_le_one hr2]; nlinarith [sq_nonneg (axisDistance p.latitude p.height)]
    exact Real.sin_arcsin (by nlinarith) (by nlinarith)
  have hcosg : cos (geocentricLatitude p.latitude p.height) = axisDistance p.latitude p.height / centreDistance p.latitude p.height := by
    unfold geocentricLatitude
    rw [Real.cos_arcsin, show 1 - (planeHeight p.latitude p.height / centreDistance p.latitude p.height) ^ 2 =
      (axisDistance p.latitude p.height / centreDistance p.latitude p.height) ^ 2 by rw [div_pow, div_pow, hrr]; field_simp; ring]
    exact Real.sqrt_sq (by positivity)
  have hP : ∀ n ∈ Finset.Icc 1 N, ∀ m ∈ Finset.Icc 0 n, HasDerivAt (schmidtP n m)
      ((schmidtLegendre maxDegree (sin (geocentricLatitude p.latitude p.height)) (cos (geocentricLatitude p.latitude p.height))).2 n m)
      (geocentricLatitude p.latitude p.height) := by
    intro n hn m hm
    rw [Finset.mem_Icc] at hn hm
    exact schmidt_table_deriv _ _ n m hm.2 (by omega) hc
  have hsd := Real.sin_sub (geocentricLatitude p.latitude p.height) p.latitude
  have hcd := Real.cos_sub (geocentricLatitude p.latitude p.height) p.latitude
  rw [toGeocentric_eq] at ex ez e2
  dsimp only at ex ez
  rw [hsd, hcd, hsin, hcosg] at ex ez
  unfold geodeticPotential
  simp only [hpot]
  have ax : (accAt C' p).x = sumX N (referenceRadius / centreDistance p.latitude p.height) C'.g.get C'.h.get
    (schmidtLegendre maxDegree (sin (geocentricLatitude p.latitude p.height)) (cos (geocentricLatitude p.latitude p.height))).2 p.longitude := by
    unfold accAt; dsimp only; rw [h3]
  have ay : (accAt C' p).y = sumY N (referenceRadius / centreDistance p.latitude p.height) C'.g.get C'.h.get
    (fun n m => schmidtP n m (geocentricLatitude p.latitude p.height)) p.longitude (cos (geocentricLatitude p.latitude p.height)) := by
    unfold accAt; dsimp only; rw [h3]
  have az : (accAt C' p).z = sumZ N (referenceRadius / centreDistance p.latitude p.height) C'.g.get C'.h.get
    (fun n m => schmidtP n m (geocentricLatitude p.latitude p.height)) p.longitude := by
    unfold accAt; dsimp only; rw [h3]
  refine ⟨?_, ?_, ?_, e1, e3, e2⟩
  · have hd := polar_deriv (axis_deriv_lat p.latitude p.height) (plane_deriv_lat p.latitude p.height) hax
    have hcv := potential_curve referenceRadius N C'.g.get C'.h.get _ (fun lat => centreDistance lat p.height) (fun lat => geocentricLatitude lat p.height)
      (fun _ => p.longitude) _ _ 0 p.latitude hd.1 hd.2 (hasDerivAt_const _ _) hr.ne' hc0 hP
    refine hcv.congr_deriv ?_
    rw [← ax, ← ay, ← az, ex, ← hrr]
    rw [Real.sqrt_sq hr.le]
    field_simp
    ring
  · have hcv := potential_curve referenceRadius N C'.g.get C'.h.get _ (fun _ => centreDistance p.latitude p.height) (fun _ => geocentricLatitude p.latitude p.height)
      (fun lon => lon) 0 0 1 p.longitude (hasDerivAt_const _ _) (hasDerivAt_const _ _) (hasDerivAt_id _) hr.ne' hc0 hP
    refine hcv.congr_deriv ?_
    rw [← ay, ey, hcosg]
    unfold axisDistance
    field_simp
    ring
  · have hd := polar_deriv (axis_deriv_height p.latitude p.height) (plane_deriv_height p.latitude p.height) hax
    have hcv := potential_curve referenceRadius N C'.g.get C'.h.get _ (fun height => centreDistance p.latitude height) (fun height => geocentricLatitude p.latitude height)
      (fun _ => p.longitude) _ _ 0 p.height hd.1 hd.2 (hasDerivAt_const _ _) hr.ne' hc0 hP
    refine hcv.congr_deriv ?_
    rw [← ax, ← ay, ← az, ez, ← hrr]
    rw [Real.sqrt_sq hr.le]
    field_simp
    ring

/-! ## Magnetic elements -/

theorem norm_mk (x y : ℝ) : ‖(⟨x, y⟩ : ℂ)‖ = √(x * x + y * y) := by
  rw [Complex.norm_def, Complex.normSq_apply]

theorem atan2_polar {x y : ℝ} (h : √(x * x + y * y) ≠ 0) : x = √(x * x + y * y) * cos (Att.atan2 y x) ∧ y = √(x * x + y * y) * sin (Att.atan2 y x) := by
  have hz : (⟨x, y⟩ : ℂ) ≠ 0 := by
    intro h0
    rw [← norm_mk, h0, norm_zero] at h
    exact h rfl
  unfold Att.atan2
  rw [Complex.cos_arg hz, Complex.sin_arg, norm_mk]
  constructor <;> rw [mul_div_assoc', mul_div_cancel_left₀ _ h]

/-- C64. Whenever `evaluate` succeeds, the horizontal and total intensity are the lengths of the horizontal and the whole field vector, both
positive, and the field is `F (cos I cos D, cos I sin D, sin I)` with the reported declination and inclination, `D` in `(-π, π]` and `I` strictly
between `-π/2` and `π/2`; the grid variation is the declination. -/
theorem C64_elements (epoch t : ℝ) (N : ℕ) (p : Geodetic) (_hh : -6356752 < p.height) (e : Elements)
    (h : (wmm epoch N).evaluate t p = .ok e) :
    e.horizontal ^ 2 = e.x ^ 2 + e.y ^ 2 ∧ 0 < e.horizontal ∧ e.total ^ 2 = e.x ^ 2 + e.y ^ 2 + e.z ^ 2 ∧ 0 < e.total ∧
    e.x = e.total * cos e.inclination * cos e.declination ∧ e.y = e.total * cos e.inclination * sin e.declination ∧
    e.z = e.total * sin e.inclination ∧ e.horizontal = e.total * cos e.inclination ∧
    -π < e.declination ∧ e.declination ≤ π ∧ -(π / 2) < e.inclination ∧ e.inclination < π / 2 ∧ e.gridVariation = e.declination := by
  obtain ⟨C, -, -, -, -, -, hel⟩ := evaluate_ok h
  obtain ⟨-, -, -, -, -, -, -, -, -, hH, hH0, hF, hD, hI, hgv, -⟩ := elements_ok hel
  have hHpos : 0 < e.horizontal := lt_of_le_of_ne (by rw [hH]; exact Real.sqrt_nonneg _) (Ne.symm hH0)
  have hH2 : e.horizontal ^ 2 = e.x ^ 2 + e.y ^ 2 := by
    rw [hH, Real.sq_sqrt (by nlinarith [mul_self_nonneg e.x, mul_self_nonneg e.y])]; ring
  have hF2 : e.total ^ 2 = e.horizontal ^ 2 + e.z ^ 2 := by
    rw [hF, Real.sq_sqrt (by nlinarith [mul_self_nonneg e.z, mul_self_nonneg e.horizontal])]; ring
  have hFpos : 0 < e.total := by
    rw [hF]; exact Real.sqrt_pos.mpr (by nlinarith [mul_self_nonneg e.z, mul_pos hHpos hHpos])
  obtain ⟨p1, p2⟩ := atan2_polar (x := e.x) (y := e.y) (by rw [← hH]; exact hH0)
  obtain ⟨p3, p4⟩ := atan2_polar (x := e.horizontal) (y := e.z) (by rw [← hF]; exact hFpos.ne')
  rw [← hH, ← hD] at p1 p2
  rw [← hF, ← hI] at p3 p4
  have hI' : |e.inclination| < π / 2 := by
    rw [hI]
    exact Complex.abs_arg_lt_pi_div_two_iff.mpr (Or.inl hHpos)
  refine ⟨hH2, hHpos, by rw [hF2, hH2], hFpos, ?_, ?_, p4, p3, ?_, ?_, (abs_lt.mp hI').1, (abs_lt.mp hI').2, hgv⟩
  · rw [← p3]; exact p1
  · rw [← p3]; exact p2
  · rw [hD]; exact Complex.neg_pi_lt_arg _
  · rw [hD]; exact Complex.arg_le_pi _

/-! ## Rates -/

theorem sumX_linear (N : ℕ) (R : ℝ) {g h g' h' gd hd : ℕ → ℕ → ℝ} (dP : ℕ → ℕ → ℝ) (lon δ : ℝ) (e1 : ∀ n m, g' n m = g n m + δ * gd n m)
    (e2 : ∀ n m, h' n m = h n m + δ * hd n m) : sumX N R g' h' dP lon = sumX N R g h dP lon + δ * sumX N R gd hd dP lon := by
  unfold sumX
  rw [mul_neg, ← neg_add, Finset.mul_sum, ← Finset.sum_add_distrib]
  congr 1
  refine Finset.sum_congr rfl fun n _ => ?_
  rw [Finset.mul_sum, ← Finset.sum_add_distrib]
  refine Finset.sum_congr rfl fun m _ => ?_
  rw [e1, e2]
  ring

theorem sumZ_linear (N : ℕ) (R : ℝ) {g h g' h' gd hd : ℕ → ℕ → ℝ} (P : ℕ → ℕ → ℝ) (lon δ : ℝ) (e1 : ∀ n m, g' n m = g n m + δ * gd n m)
    (e2 : ∀ n m, h' n m = h n m + δ * hd n m) : sumZ N R g' h' P lon = sumZ N R g h P lon + δ * sumZ N R gd hd P lon := by
  unfold sumZ
  rw [mul_neg, ← neg_add, Finset.mul_sum, ← Finset.sum_add_distrib]
  congr 1
  refine Finset.sum_congr rfl fun n _ => ?_
  rw [Finset.mul_sum, ← Finset.sum_add_distrib]
  refine Finset.sum_congr rfl fun m _ => ?_
  rw [e1, e2]
  ring

theorem sumY_linear (N : ℕ) (R : ℝ) {g h g' h' gd hd : ℕ → ℕ → ℝ} (P : ℕ → ℕ → ℝ) (lon c δ : ℝ) (e1 : ∀ n m, g' n m = g n m + δ * gd n m)
    (e2 : ∀ n m, h' n m = h n m + δ * hd n m) : sumY N R g' h' P lon c = sumY N R g h P lon c + δ * sumY N R gd hd P lon c := by
  unfold sumY
  rw [Finset.mul_sum, ← Finset.sum_add_distrib]
  refine Finset.sum_congr rfl fun n _ => ?_
  rw [Finset.mul_sum, ← Finset.sum_add_distrib]
  refine Finset.sum_congr rfl fun m _ => ?_
  rw [e1, e2]
  ring

theorem evaluate_at {epoch t : ℝ} {N : ℕ} {p : Geodetic} {e : Elements} (h : (wmm epoch N).evaluate t p = .ok e) (s : ℝ)
    (hs : √((e.x + (s - t) * e.xDot) * (e.x + (s - t) * e.xDot) + (e.y + (s - t) * e.yDot) * (e.y + (s - t) * e.yDot)) ≠ 0) :
    ∃ e', (wmm epoch N).evaluate s p = .ok e' ∧ e'.x = e.x + (s - t) * e.xDot ∧ e'.y = e.y + (s - t) * e.yDot ∧ e'.z = e.z + (s - t) * e.zDot ∧
      e'.horizontal = √(e'.x * e'.x + e'.y * e'.y) ∧ e'.total = √(e'.horizontal * e'.horizontal + e'.z * e'.z) ∧
      e'.declination = Att.atan2 e'.y e'.x ∧ e'.inclination = Att.atan2 e'.z e'.horizontal := by
  obtain ⟨C, h1, hN, h3, h2, hc, hel⟩ := evaluate_ok h
  obtain ⟨C0, h1', -, -, hg, hh, hgd, hhd⟩ := coefficients_eq epoch t N
  obtain rfl : C0 = C := Option.some.inj (h1'.symm.trans h1)
  obtain ⟨C1, k1, k2, k3, kg, kh, kgd, khd⟩ := coefficients_eq epoch s N
  obtain ⟨-, -, -, ex, ey, ez, exd, eyd, ezd, -⟩ := elements_ok hel
  have lg : ∀ n m, C1.g.get n m = C0.g.get n m + (s - t) * C0.gDot.get n m := by intro n m; rw [kg, hg, hgd]; ring
  have lh : ∀ n m, C1.h.get n m = C0.h.get n m + (s - t) * C0.hDot.get n m := by intro n m; rw [kh, hh, hhd]; ring
  have ax : (accAt C1 p).x = (accAt C0 p).x + (s - t) * (accAt C0 p).xDot := by
    unfold accAt; dsimp only; rw [k3, h3]; exact sumX_linear N _ _ _ _ lg lh
  have ay : (accAt C1 p).y = (accAt C0 p).y + (s - t) * (accAt C0 p).yDot := by
    unfold accAt; dsimp only; rw [k3, h3]; exact sumY_linear N _ _ _ _ _ lg lh
  have az : (accAt C1 p).z = (accAt C0 p).z + (s - t) * (accAt C0 p).zDot := by
    unfold accAt; dsimp only; rw [k3, h3]; exact sumZ_linear N _ _ _ _ lg lh
  have hev : (wmm epoch N).evaluate s p = elements s p (toGeocentric p) (accAt C1 p) := by
    unfold MagneticModel.evaluate
    rw [k1]
    dsimp only
    rw [evaluateWith_eq C1 p (by omega) hc, k2]
  set d := (toGeocentric p).latitude - p.latitude with hd
  have vx : (accAt C1 p).x * cos d - (accAt C1 p).z * sin d = e.x + (s - t) * e.xDot := by rw [ax, az, ex, exd]; ring
  have vy : (accAt C1 p).y = e.y + (s - t) * e.yDot := by rw [ay, ey, eyd]
  have vz : (accAt C1 p).x * sin d + (accAt C1 p).z * cos d = e.z + (s - t) * e.zDot := by rw [ax, az, ez, ezd]; ring
  have hne : √(((accAt C1 p).x * cos d - (accAt C1 p).z * sin d) * ((accAt C1 p).x * cos d - (accAt C1 p).z * sin d) +
      (accAt C1 p).y * (accAt C1 p).y) ≠ 0 := by rw [vx, vy]; exact hs
  have hok : ∃ e', elements s p (toGeocentric p) (accAt C1 p) = .ok e' := by
    unfold elements
    dsimp only
    rw [if_neg hne]
    exact ⟨_, rfl⟩
  obtain ⟨e', he'⟩ := hok
  obtain ⟨-, -, -, fx, fy, fz, -, -, -, fH, -, fF, fD, fI, -⟩ := elements_ok he'
  exact ⟨e', by rw [hev]; exact he', by rw [fx]; exact vx, by rw [fy]; exact vy, by rw [fz]; exact vz, fH, fF, fD, fI⟩

theorem atan2_deriv {x y : ℝ → ℝ} {x' y' t : ℝ} (hx : HasDerivAt x x' t) (hy : HasDerivAt y y' t) (h : 0 < x t ∨ y t ≠ 0) :
    HasDerivAt (fun t => Att.atan2 (y t) (x t)) ((x t * y' - y t * x') / (x t * x t + y t * y t)) t := by
  have hz : HasDerivAt (fun t => ((⟨x t, y t⟩ : ℂ))) ⟨x', y'⟩ t := by
    have h1 := (hx.ofReal_comp).add ((hy.ofReal_comp).mul_const Complex.I)
    have e1 : ∀ a b : ℝ, (⟨a, b⟩ : ℂ) = (a : ℂ) + b * Complex.I := fun a b => Complex.mk_eq_add_mul_I a b
    simp only [e1]
    exact h1
  have hs : (⟨x t, y t⟩ : ℂ) ∈ Complex.slitPlane := by
    rw [Complex.mem_slitPlane_iff]
    exact h
  have hl := hz.clog_real hs
  have hi := (Complex.imCLM.hasFDerivAt.comp_hasDerivAt t hl)
  have e2 : (fun t => Att.atan2 (y t) (x t)) = (fun t => (Complex.log ⟨x t, y t⟩).im) := by
    funext s
    rw [Complex.log_im]
    rfl
  rw [e2]
  refine hi.congr_deriv ?_
  change ((⟨x', y'⟩ : ℂ) / ⟨x t, y t⟩).im = _
  rw [Complex.div_im, Complex.normSq_apply]
  dsimp only
  ring

/-- C64. Wherever `evaluate` succeeds it succeeds for all nearby dates, and the reported rates are the derivatives with respect to the date of what
it reports there: components, horizontal and total intensity, inclination, and declination unless the field points exactly south (where the
declination jumps between `-π` and `π`). -/
theorem C64_rates (epoch t : ℝ) (N : ℕ) (p : Geodetic) (_hh : -6356752 < p.height) (e : Elements)
    (h : (wmm epoch N).evaluate t p = .ok e) :
    ∃ el : ℝ → Elements, el t = e ∧ (∀ᶠ s in nhds t, (wmm epoch N).evaluate s p = .ok (el s)) ∧
      HasDerivAt (fun s => (el s).x) e.xDot t ∧ HasDerivAt (fun s => (el s).y) e.yDot t ∧ HasDerivAt (fun s => (el s).z) e.zDot t ∧
      HasDerivAt (fun s => (el s).horizontal) e.horizontalRate t ∧ HasDerivAt (fun s => (el s).total) e.totalRate t ∧
      HasDerivAt (fun s => (el s).inclination) e.inclinationRate t ∧
      (0 < e.x ∨ e.y ≠ 0 → HasDerivAt (fun s => (el s).declination) e.declinationRate t) := by
  obtain ⟨C, -, -, -, -, -, hel⟩ := evaluate_ok h
  obtain ⟨-, -, -, -, -, -, -, -, -, hH, hH0, hF, hD, hI, -, hHr, hFr, hDr, hIr⟩ := elements_ok hel
  have hHpos : 0 < e.horizontal := lt_of_le_of_ne (by rw [hH]; exact Real.sqrt_nonneg _) (Ne.symm hH0)
  have lin : ∀ a b : ℝ, HasDerivAt (fun s => a + (s - t) * b) b t := by
    intro a b
    have := (((hasDerivAt_id t).sub_const t).mul_const b).const_add a
    simpa using this
  have dx := lin e.x e.xDot
  have dy := lin e.y e.yDot
  have dz := lin e.z e.zDot
  have dq := (dx.fun_mul dx).fun_add (dy.fun_mul dy)
  have hq0 : (e.x + (t - t) * e.xDot) * (e.x + (t - t) * e.xDot) + (e.y + (t - t) * e.yDot) * (e.y + (t - t) * e.yDot) = e.x * e.x + e.y * e.y := by ring
  have hqpos : 0 < e.x * e.x + e.y * e.y := by
    rw [hH] at hHpos
    exact Real.sqrt_pos.mp hHpos
  have dH := dq.sqrt (by rw [hq0]; exact hqpos.ne')
  have hev : ∀ᶠ s in nhds t, √((e.x + (s - t) * e.xDot) * (e.x + (s - t) * e.xDot) + (e.y + (s - t) * e.yDot) * (e.y + (s - t) * e.yDot)) ≠ 0 := by
    refine dH.continuousAt.eventually_ne ?_
    rw [hq0, ← hH]
    exact hH0
  classical
  let el : ℝ → Elements := fun s => match (wmm epoch N).evaluate s p with
    | .ok e' => e'
    | .error _ => e
  have hel' : ∀ᶠ s in nhds t, (wmm epoch N).evaluate s p = .ok (el s) ∧ (el s).x = e.x + (s - t) * e.xDot ∧ (el s).y = e.y + (s - t) * e.yDot ∧
      (el s).z = e.z + (s - t) * e.zDot ∧ (el s).horizontal = √((el s).x * (el s).x + (el s).y * (el s).y) ∧
      (el s).total = √((el s).horizontal * (el s).horizontal + (el s).z * (el s).z) ∧
      (el s).declination = Att.atan2 (el s).y (el s).x ∧ (el s).inclination = Att.atan2 (el s).z (el s).horizontal := by
    filter_upwards [hev] with s hs
    obtain ⟨e', he', r⟩ := evaluate_at h s hs
    have : el s = e' := by
      change (match (wmm epoch N).evaluate s p with
        | .ok e' => e'
        | .error _ => e) = e'
      rw [he']
    rw [this]
    exact ⟨he', r⟩
  have c1 : (fun s => (el s).x) =ᶠ[nhds t] fun s => e.x + (s - t) * e.xDot := hel'.mono fun s r => r.2.1
  have c2 : (fun s => (el s).y) =ᶠ[nhds t] fun s => e.y + (s - t) * e.yDot := hel'.mono fun s r => r.2.2.1
  have c3 : (fun s => (el s).z) =ᶠ[nhds t] fun s => e.z + (s - t) * e.zDot := hel'.mono fun s r => r.2.2.2.1
  have c4 : (fun s => (el s).horizontal) =ᶠ[nhds t] fun s => √((e.x + (s - t) * e.xDot) * (e.x + (s - t) * e.xDot) + (e.y + (s - t) * e.yDot) * (e.y + (s - t) * e.yDot)) :=
    hel'.mono fun s r => by
      dsimp only
      rw [r.2.2.2.2.1, r.2.1, r.2.2.1]
  have hHt : √((e.x + (t - t) * e.xDot) * (e.x + (t - t) * e.xDot) + (e.y + (t - t) * e.yDot) * (e.y + (t - t) * e.yDot)) = e.horizontal := by rw [hq0, ← hH]
  have dH' : HasDerivAt (fun s => √((e.x + (s - t) * e.xDot) * (e.x + (s - t) * e.xDot) + (e.y + (s - t) * e.yDot) * (e.y + (s - t) * e.yDot))) e.horizontalRate t := by
    refine dH.congr_deriv ?_
    rw [hHt, hHr]
    field_simp
    ring
  have dF := ((dH'.fun_mul dH').fun_add (dz.fun_mul dz)).sqrt (by
    rw [hHt]
    have : 0 < e.horizontal * e.horizontal + (e.z + (t - t) * e.zDot) * (e.z + (t - t) * e.zDot) :=
      add_pos_of_pos_of_nonneg (mul_pos hHpos hHpos) (mul_self_nonneg _)
    exact this.ne')
  have hFpos : 0 < e.total := by
    rw [hF]; exact Real.sqrt_pos.mpr (add_pos_of_pos_of_nonneg (mul_pos hHpos hHpos) (mul_self_nonneg _))
  have hFt : √(e.horizontal * e.horizontal + (e.z + (t - t) * e.zDot) * (e.z + (t - t) * e.zDot)) = e.total := by
    rw [hF]; congr 1; ring
  have hHH : e.horizontal * e.horizontal = e.x * e.x + e.y * e.y := by rw [hH]; exact Real.mul_self_sqrt hqpos.le
  have hFF : e.total * e.total = e.horizontal * e.horizontal + e.z * e.z := by rw [hF]; exact Real.mul_self_sqrt (add_nonneg (mul_self_nonneg _) (mul_self_nonneg _))
  have dF' : HasDerivAt (fun s => √(√((e.x + (s - t) * e.xDot) * (e.x + (s - t) * e.xDot) + (e.y + (s - t) * e.yDot) * (e.y + (s - t) * e.yDot)) *
      √((e.x + (s - t) * e.xDot) * (e.x + (s - t) * e.xDot) + (e.y + (s - t) * e.yDot) * (e.y + (s - t) * e.yDot)) +
      (e.z + (s - t) * e.zDot) * (e.z + (s - t) * e.zDot))) e.totalRate t := by
    refine dF.congr_deriv ?_
    rw [hHt, hFt, hFr, hHr]
    field_simp
    ring
  refine ⟨el, ?_, hel'.mono fun s r => r.1, dx.congr_of_eventuallyEq c1, dy.congr_of_eventuallyEq c2, dz.congr_of_eventuallyEq c3,
    dH'.congr_of_eventuallyEq c4, ?_, ?_, ?_⟩
  · change (match (wmm epoch N).evaluate t p with
        | .ok e' => e'
        | .error _ => e) = e
    rw [h]
  · refine dF'.congr_of_eventuallyEq (hel'.mono fun s r => ?_)
    dsimp only
    rw [r.2.2.2.2.2.1, r.2.2.2.2.1, r.2.1, r.2.2.1, r.2.2.2.1]
  · have hi := atan2_deriv dH' dz (Or.inl (by rw [hHt]; exact hHpos))
    have hi' : HasDerivAt (fun s => Att.atan2 (e.z + (s - t) * e.zDot) (√((e.x + (s - t) * e.xDot) * (e.x + (s - t) * e.xDot) +
        (e.y + (s - t) * e.yDot) * (e.y + (s - t) * e.yDot)))) e.inclinationRate t := by
      refine hi.congr_deriv ?_
      rw [hHt, hIr, hFF]
      congr 1 <;> ring
    refine hi'.congr_of_eventuallyEq (hel'.mono fun s r => ?_)
    dsimp only
    rw [r.2.2.2.2.2.2.2, r.2.2.2.2.1, r.2.1, r.2.2.1, r.2.2.2.1]
  · intro hb
    have hd := atan2_deriv dx dy (by simpa using hb)
    have hd' : HasDerivAt (fun s => Att.atan2 (e.y + (s - t) * e.yDot) (e.x + (s - t) * e.xDot)) e.declinationRate t := by
      refine hd.congr_deriv ?_
      rw [hDr, hHH]
      congr 1
      all_goals ring
    refine hd'.congr_of_eventuallyEq (hel'.mono fun s r => ?_)
    dsimp only
    rw [r.2.2.2.2.2.2.1, r.2.1, r.2.2.1]

/-! ## Errors -/

/-- C64. What `evaluate` returns, for every date and point (the centre of the Earth, where it divides by zero, lies below the admitted heights): the pole error exactly within `10⁻¹²` of the axis (in the cosine of the geocentric
latitude), a panic exactly when the public maximum degree was raised above 12, and otherwise a result or the error for a field without horizontal
part. -/
theorem C64_errors (epoch t : ℝ) (N : ℕ) (p : Geodetic) (_hh : -6356752 < p.height) :
    ((wmm epoch N).evaluate t p = .error (.poleSingularity (geocentricLatitude p.latitude p.height)) ↔
      |cos (geocentricLatitude p.latitude p.height)| ≤ 1e-12) ∧
    ((wmm epoch N).evaluate t p = .error .panic ↔ 1e-12 < |cos (geocentricLatitude p.latitude p.height)| ∧ 12 < N) ∧
    (1e-12 < |cos (geocentricLatitude p.latitude p.height)| → N ≤ 12 →
      (∃ e, (wmm epoch N).evaluate t p = .ok e) ∨ (wmm epoch N).evaluate t p = .error .undefinedHorizontalField) := by
  obtain ⟨C, h1, h2, h3, -⟩ := coefficients_eq epoch t N
  have hev : (wmm epoch N).evaluate t p = evaluateWith C p := by
    unfold MagneticModel.evaluate
    rw [h1]
  have hfin : ∀ a, (∃ e, elements t p (toGeocentric p) a = .ok e) ∨ elements t p (toGeocentric p) a = .error .undefinedHorizontalField := by
    intro a
    unfold elements
    dsimp only
    by_cases h0 : √((a.x * cos ((toGeocentric p).latitude - p.latitude) - a.z * sin ((toGeocentric p).latitude - p.latitude)) *
      (a.x * cos ((toGeocentric p).latitude - p.latitude) - a.z * sin ((toGeocentric p).latitude - p.latitude)) + a.y * a.y) = 0
    · rw [if_pos h0]; exact Or.inr rfl
    · rw [if_neg h0]; exact Or.inl ⟨_, rfl⟩
  rw [hev]
  by_cases hp : |cos (geocentricLatitude p.latitude p.height)| ≤ poleEps
  · have e1 : evaluateWith C p = .error (.poleSingularity (geocentricLatitude p.latitude p.height)) := by
      unfold evaluateWith
      dsimp only
      rw [toGeocentric_eq, if_pos hp]
    rw [e1]
    refine ⟨⟨fun _ => hp, fun _ => rfl⟩, ⟨fun h => by simp at h, fun h => absurd h.1 (not_lt.mpr hp)⟩, fun h => absurd h (not_lt.mpr hp)⟩
  · by_cases hN : N ≤ maxDegree
    · rw [evaluateWith_eq C p (by omega) (not_le.mp hp), h2]
      refine ⟨⟨fun h => ?_, fun h => absurd h hp⟩, ⟨fun h => ?_, fun h => absurd h.2 (not_lt.mpr hN)⟩, fun _ _ => hfin _⟩
      · rcases hfin (accAt C p) with ⟨e, he⟩ | he <;> rw [he] at h <;> simp at h
      · rcases hfin (accAt C p) with ⟨e, he⟩ | he <;> rw [he] at h <;> simp at h
    · have e1 : evaluateWith C p = .error .panic := by
        unfold evaluateWith
        dsimp only
        rw [if_neg (by rw [toGeocentric_eq]; exact hp), if_pos (by omega)]
      rw [e1]
      exact ⟨⟨fun h => by simp at h, fun h => absurd h hp⟩, ⟨fun _ => ⟨not_le.mp hp, not_le.mp hN⟩, fun _ => rfl⟩, fun _ h => absurd h hN⟩

/-- C64. At the geodetic poles (at any height above -6000 km) `evaluate` reports the pole error. -/
theorem C64_pole (epoch t : ℝ) (N : ℕ) (p : Geodetic) (hp : p.latitude = π / 2 ∨ p.latitude = -(π / 2)) (hh : -6000000 < p.height) :
    ∃ lat, (wmm epoch N).evaluate t p = .error (.poleSingularity lat) ∧ |lat| = π / 2 := by
  have hcos : cos p.latitude = 0 := by rcases hp with h | h <;> rw [h] <;> simp
  have hax : axisDistance p.latitude p.height = 0 := by unfold axisDistance; rw [hcos, mul_zero]
  have hpv := primeVertical_ge p.latitude
  have hz : 0 < primeVertical p.latitude * (1 - ecc2) + p.height := by
    have := ecc2_bounds.2
    nlinarith
  have hlat : geocentricLatitude p.latitude p.height = p.latitude := by
    unfold geocentricLatitude centreDistance
    rw [hax, zero_pow two_ne_zero, zero_add, Real.sqrt_sq_eq_abs]
    unfold planeHeight
    rcases hp with h | h
    · rw [h, Real.sin_pi_div_two, mul_one, ← h, abs_of_pos hz, div_self hz.ne', Real.arcsin_one, h]
    · rw [h, Real.sin_neg, Real.sin_pi_div_two, mul_neg, mul_one, ← h, abs_neg, abs_of_pos hz, neg_div, div_self hz.ne', Real.arcsin_neg, Real.arcsin_one, h]
  refine ⟨p.latitude, ?_, ?_⟩
  · have := (C64_errors epoch t N p (by linarith)).1.mpr (by rw [hlat, hcos, abs_zero]; norm_num)
    rw [hlat] at this
    exact this
  · rcases hp with h | h
    all_goals rw [h]
    · exact abs_of_pos (by positivity)
    · rw [abs_neg]; exact abs_of_pos (by positivity)

theorem schmidtP_10 (φ : ℝ) : schmidtP 1 0 φ = sin φ := by
  unfold schmidtP schmidt
  rw [if_pos rfl, legendreD_off 0]
  simp [legendreD, legendre_zero]

theorem schmidtP_11 (φ : ℝ) : schmidtP 1 1 φ = cos φ := by
  unfold schmidtP schmidt
  rw [if_neg (by norm_num), legendreD_diag 0]
  simp [legendreD, legendre_zero]

theorem first_record : (⟨1, 0, -293518, 0, 120, 0⟩ : RawRecord) ∈ rawRecords := by decide +kernel

theorem first_entry : (tableOf rawG).get 1 0 = tenths (-293518) := by
  have h := (table_record first_record).1
  dsimp only at h
  exact h

theorem elements_error {t : ℝ} {p : Geodetic} {q : Geocentric} {a : Acc} (h : elements t p q a = .error .undefinedHorizontalField) :
    √((a.x * cos (q.latitude - p.latitude) - a.z * sin (q.latitude - p.latitude)) *
      (a.x * cos (q.latitude - p.latitude) - a.z * sin (q.latitude - p.latitude)) + a.y * a.y) = 0 := by
  unfold elements at h
  dsimp only at h
  by_contra h0
  rw [if_neg h0] at h
  cases h

theorem equator : primeVertical 0 = 6378137 ∧ centreDistance 0 0 = 6378137 ∧ geocentricLatitude 0 0 = 0 := by
  have hpv : primeVertical 0 = 6378137 := by simp [primeVertical]
  refine ⟨hpv, ?_, by simp [geocentricLatitude, planeHeight]⟩
  unfold centreDistance axisDistance planeHeight
  rw [hpv]
  simp

theorem equator_slopes : (schmidtLegendre maxDegree (sin 0) (cos 0)).2 1 0 = 1 ∧ (schmidtLegendre maxDegree (sin 0) (cos 0)).2 1 1 = 0 := by
  constructor
  · have e1 := schmidt_table_deriv maxDegree 0 1 0 (by norm_num) (by decide) (by norm_num [poleEps])
    have e2 : HasDerivAt (schmidtP 1 0) (cos 0) 0 := by
      rw [show schmidtP 1 0 = sin from funext schmidtP_10]; exact Real.hasDerivAt_sin 0
    rw [e1.unique e2, cos_zero]
  · have e1 := schmidt_table_deriv maxDegree 0 1 1 (by norm_num) (by decide) (by norm_num [poleEps])
    have e2 : HasDerivAt (schmidtP 1 1) (-sin 0) 0 := by
      rw [show schmidtP 1 1 = cos from funext schmidtP_11]; exact Real.hasDerivAt_cos 0
    rw [e1.unique e2, sin_zero, neg_zero]

theorem equator_north (C : Coefficients) (h3 : C.maxDegree = 1) (hg : C.g.get 1 0 = -29351.8) :
    (accAt C ⟨0, 0, 0⟩).x = (referenceRadius / 6378137) ^ 3 * 29351.8 := by
  unfold accAt sumX
  dsimp only
  rw [h3, equator.2.2, equator.2.1, Finset.Icc_self, Finset.sum_singleton, show Finset.Icc 0 1 = {0, 1} by decide, Finset.sum_pair (by decide),
    equator_slopes.1, equator_slopes.2, hg]
  simp

/-- On the equator at longitude zero the model cut off at degree 1 evaluates: the hypotheses of `C64_field`, `C64_elements` and `C64_rates` are met. -/
example : ∃ e, (wmm 2025 1).evaluate 2025 ⟨0, 0, 0⟩ = .ok e := by
  obtain ⟨hpv, hr, hl⟩ := equator
  have hc : poleEps < |cos (geocentricLatitude 0 0)| := by rw [hl]; norm_num [poleEps]
  obtain ⟨C, h1, h2, h3, hg, -⟩ := coefficients_eq 2025 2025 1
  rcases (C64_errors 2025 2025 1 ⟨0, 0, 0⟩ (by norm_num)).2.2 hc (by norm_num) with h | h
  · exact h
  · exfalso
    unfold MagneticModel.evaluate at h
    rw [h1] at h
    dsimp only at h
    rw [evaluateWith_eq C ⟨0, 0, 0⟩ (by rw [h3]; decide) hc] at h
    have h0 := elements_error h
    have hgv : C.g.get 1 0 = -29351.8 := by
      rw [hg, first_entry]
      unfold tenths
      norm_num
    rw [toGeocentric_eq] at h0
    dsimp only at h0
    rw [hl, equator_north C h3 hgv, sub_zero, cos_zero, sin_zero, mul_one, mul_zero, sub_zero, Real.sqrt_eq_zero (add_nonneg (mul_self_nonneg _) (mul_self_nonneg _))] at h0
    have hp : (0 : ℝ) < (referenceRadius / 6378137) ^ 3 * 29351.8 := by
      unfold referenceRadius
      norm_num
    nlinarith [mul_self_nonneg (accAt C ⟨0, 0, 0⟩).y, mul_pos hp hp]

end Verif.Wmm
