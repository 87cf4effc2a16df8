import Verif.Wmm.Lemmas
import Mathlib.Analysis.SpecialFunctions.Trigonometric.InverseDeriv
import Mathlib.Analysis.SpecialFunctions.Sqrt
import Mathlib.Analysis.Calculus.Deriv.Inv

/-!
# Lemmas: the accumulated sums are derivatives of the potential
-/

namespace Verif.Wmm

open Real Polynomial

/-! ## Sums -/

theorem acc_inner (C : Coefficients) (cm sm : ℕ → ℝ) (pBar dpBar : ℕ → ℕ → ℝ) (cosPhi R : ℝ) (n : ℕ) (l : List ℕ) (a : Acc) :
    l.foldl (accStep C cm sm pBar dpBar cosPhi R n) a =
      { x := a.x - (l.map fun m : ℕ => R * (C.g.get n m * cm m + C.h.get n m * sm m) * dpBar n m).sum
        y := a.y + (l.map fun m : ℕ => R * ((m : ℝ) * (C.g.get n m * sm m - C.h.get n m * cm m)) * pBar n m / cosPhi).sum
        z := a.z - (l.map fun m : ℕ => R * ((n : ℝ) + 1) * (C.g.get n m * cm m + C.h.get n m * sm m) * pBar n m).sum
        xDot := a.xDot - (l.map fun m : ℕ => R * (C.gDot.get n m * cm m + C.hDot.get n m * sm m) * dpBar n m).sum
        yDot := a.yDot + (l.map fun m : ℕ => R * ((m : ℝ) * (C.gDot.get n m * sm m - C.hDot.get n m * cm m)) * pBar n m / cosPhi).sum
        zDot := a.zDot - (l.map fun m : ℕ => R * ((n : ℝ) + 1) * (C.gDot.get n m * cm m + C.hDot.get n m * sm m) * pBar n m).sum } := by
  induction l generalizing a with
  | nil => simp
  | cons m l ih =>
    rw [List.foldl_cons, ih]
    simp only [List.map_cons, List.sum_cons, accStep, Acc.mk.injEq]
    refine ⟨?_, ?_, ?_, ?_, ?_, ?_⟩ <;> ring

/-- The three sums of the evaluation: northward, eastward and downward component in the geocentric frame. -/
noncomputable def sumX (N : ℕ) (R : ℝ) (g h dP : ℕ → ℕ → ℝ) (lon : ℝ) : ℝ :=
  -∑ n ∈ Finset.Icc 1 N, ∑ m ∈ Finset.Icc 0 n, R ^ (n + 2) * (g n m * cos (m * lon) + h n m * sin (m * lon)) * dP n m
noncomputable def sumY (N : ℕ) (R : ℝ) (g h P : ℕ → ℕ → ℝ) (lon c : ℝ) : ℝ :=
  ∑ n ∈ Finset.Icc 1 N, ∑ m ∈ Finset.Icc 0 n, R ^ (n + 2) * ((m : ℝ) * (g n m * sin (m * lon) - h n m * cos (m * lon))) * P n m / c
noncomputable def sumZ (N : ℕ) (R : ℝ) (g h P : ℕ → ℕ → ℝ) (lon : ℝ) : ℝ :=
  -∑ n ∈ Finset.Icc 1 N, ∑ m ∈ Finset.Icc 0 n, R ^ (n + 2) * ((n : ℝ) + 1) * (g n m * cos (m * lon) + h n m * sin (m * lon)) * P n m

theorem acc_outer (C : Coefficients) (cm sm : ℕ → ℝ) (pBar dpBar : ℕ → ℕ → ℝ) (cosPhi : ℝ) (R : ℕ → ℝ) (l : List ℕ) (a : Acc) :
    l.foldl (fun a n => (upto 0 n).foldl (accStep C cm sm pBar dpBar cosPhi (R n) n) a) a =
      { x := a.x - (l.map fun n : ℕ => ∑ m ∈ Finset.Icc 0 n, R n * (C.g.get n m * cm m + C.h.get n m * sm m) * dpBar n m).sum
        y := a.y + (l.map fun n : ℕ => ∑ m ∈ Finset.Icc 0 n, R n * ((m : ℝ) * (C.g.get n m * sm m - C.h.get n m * cm m)) * pBar n m / cosPhi).sum
        z := a.z - (l.map fun n : ℕ => ∑ m ∈ Finset.Icc 0 n, R n * ((n : ℝ) + 1) * (C.g.get n m * cm m + C.h.get n m * sm m) * pBar n m).sum
        xDot := a.xDot - (l.map fun n : ℕ => ∑ m ∈ Finset.Icc 0 n, R n * (C.gDot.get n m * cm m + C.hDot.get n m * sm m) * dpBar n m).sum
        yDot := a.yDot + (l.map fun n : ℕ => ∑ m ∈ Finset.Icc 0 n, R n * ((m : ℝ) * (C.gDot.get n m * sm m - C.hDot.get n m * cm m)) * pBar n m / cosPhi).sum
        zDot := a.zDot - (l.map fun n : ℕ => ∑ m ∈ Finset.Icc 0 n, R n * ((n : ℝ) + 1) * (C.gDot.get n m * cm m + C.hDot.get n m * sm m) * pBar n m).sum } := by
  induction l generalizing a with
  | nil => simp
  | cons n l ih =>
    rw [List.foldl_cons, ih, acc_inner]
    simp only [List.map_cons, List.sum_cons, sum_upto, Acc.mk.injEq]
    refine ⟨?_, ?_, ?_, ?_, ?_, ?_⟩ <;> ring

theorem accumulate_eq (C : Coefficients) (lon φ r : ℝ) (hN : C.maxDegree ≤ maxDegree) :
    accumulate C (longitudeHarmonics maxDegree lon).1 (longitudeHarmonics maxDegree lon).2
      (schmidtLegendre maxDegree (sin φ) (cos φ)).1 (schmidtLegendre maxDegree (sin φ) (cos φ)).2 (cos φ) r =
    { x := sumX C.maxDegree (referenceRadius / r) C.g.get C.h.get (schmidtLegendre maxDegree (sin φ) (cos φ)).2 lon
      y := sumY C.maxDegree (referenceRadius / r) C.g.get C.h.get (fun n m => schmidtP n m φ) lon (cos φ)
      z := sumZ C.maxDegree (referenceRadius / r) C.g.get C.h.get (fun n m => schmidtP n m φ) lon
      xDot := sumX C.maxDegree (referenceRadius / r) C.gDot.get C.hDot.get (schmidtLegendre maxDegree (sin φ) (cos φ)).2 lon
      yDot := sumY C.maxDegree (referenceRadius / r) C.gDot.get C.hDot.get (fun n m => schmidtP n m φ) lon (cos φ)
      zDot := sumZ C.maxDegree (referenceRadius / r) C.gDot.get C.hDot.get (fun n m => schmidtP n m φ) lon } := by
  unfold accumulate
  rw [acc_outer C _ _ _ _ _ (fun n => (referenceRadius / r) ^ (n + 2))]
  simp only [sum_upto, zero_sub, zero_add]
  unfold sumX sumY sumZ
  have hh : ∀ n ∈ Finset.Icc 1 C.maxDegree, ∀ m ∈ Finset.Icc 0 n,
      (longitudeHarmonics maxDegree lon).1 m = cos (m * lon) ∧ (longitudeHarmonics maxDegree lon).2 m = sin (m * lon) ∧
      (schmidtLegendre maxDegree (sin φ) (cos φ)).1 n m = schmidtP n m φ := by
    intro n hn m hm
    rw [Finset.mem_Icc] at hn hm
    exact ⟨(harmonics _ lon m (by omega)).1, (harmonics _ lon m (by omega)).2, schmidt_table _ φ n m hm.2 (by omega)⟩
  simp only [Acc.mk.injEq, neg_inj]
  refine ⟨?_, ?_, ?_, ?_, ?_, ?_⟩ <;>
  · refine Finset.sum_congr rfl fun n hn => Finset.sum_congr rfl fun m hm => ?_
    obtain ⟨h1, h2, h3⟩ := hh n hn m hm
    simp only [h1, h2, h3]

/-! ## The potential along a curve -/

theorem potential_curve (a : ℝ) (N : ℕ) (g h dP : ℕ → ℕ → ℝ) (r φ lon : ℝ → ℝ) (r' φ' lon' t : ℝ)
    (hr : HasDerivAt r r' t) (hφ : HasDerivAt φ φ' t) (hl : HasDerivAt lon lon' t) (hr0 : r t ≠ 0) (hc : cos (φ t) ≠ 0)
    (hP : ∀ n ∈ Finset.Icc 1 N, ∀ m ∈ Finset.Icc 0 n, HasDerivAt (schmidtP n m) (dP n m) (φ t)) :
    HasDerivAt (fun t => potential a N g h (r t) (φ t) (lon t))
      (sumZ N (a / r t) g h (fun n m => schmidtP n m (φ t)) (lon t) * r' - r t * sumX N (a / r t) g h dP (lon t) * φ' -
        r t * cos (φ t) * sumY N (a / r t) g h (fun n m => schmidtP n m (φ t)) (lon t) (cos (φ t)) * lon') t := by
  unfold potential
  have key : ∀ n ∈ Finset.Icc 1 N, HasDerivAt (fun t => (a / r t) ^ (n + 1) * ∑ m ∈ Finset.Icc 0 n,
      (g n m * cos (m * lon t) + h n m * sin (m * lon t)) * schmidtP n m (φ t))
      (((n + 1 : ℕ) * (a / r t) ^ n * (-(a * r') / r t ^ 2)) * (∑ m ∈ Finset.Icc 0 n,
        (g n m * cos (m * lon t) + h n m * sin (m * lon t)) * schmidtP n m (φ t)) +
       (a / r t) ^ (n + 1) * ∑ m ∈ Finset.Icc 0 n, ((g n m * (-sin (m * lon t) * (m * lon')) + h n m * (cos (m * lon t) * (m * lon'))) * schmidtP n m (φ t) +
        (g n m * cos (m * lon t) + h n m * sin (m * lon t)) * (dP n m * φ'))) t := by
    intro n hn
    refine HasDerivAt.mul ?_ ?_
    · have h1 : HasDerivAt (fun t => a / r t) (-(a * r') / r t ^ 2) t := by
        have := (hasDerivAt_const t a).fun_div hr hr0
        simpa using this
      simpa using h1.fun_pow (n + 1)
    · refine HasDerivAt.fun_sum fun m hm => ?_
      refine HasDerivAt.mul ?_ ?_
      · have hml : HasDerivAt (fun t => (m : ℝ) * lon t) (m * lon') t := hl.const_mul _
        exact ((hml.cos).const_mul _).add ((hml.sin).const_mul _)
      · exact (hP n hn m hm).comp t hφ
  have hs := (HasDerivAt.fun_sum key).const_mul a
  refine hs.congr_deriv ?_
  unfold sumX sumY sumZ
  rw [neg_mul, mul_neg, neg_mul, Finset.mul_sum, Finset.sum_mul, Finset.mul_sum, Finset.sum_mul, Finset.mul_sum, Finset.sum_mul,
    sub_neg_eq_add, ← Finset.sum_neg_distrib, ← Finset.sum_add_distrib, ← Finset.sum_sub_distrib]
  refine Finset.sum_congr rfl fun n _ => ?_
  rw [Finset.mul_sum, Finset.mul_sum, ← Finset.sum_add_distrib, Finset.mul_sum, Finset.sum_mul, Finset.mul_sum, Finset.sum_mul, Finset.mul_sum, Finset.sum_mul,
    ← Finset.sum_neg_distrib, ← Finset.sum_add_distrib, ← Finset.sum_sub_distrib]
  refine Finset.sum_congr rfl fun m _ => ?_
  push_cast
  obtain ⟨q, hq⟩ : ∃ q, q = a / r t := ⟨_, rfl⟩
  have ha : a = r t * q := by rw [hq]; field_simp
  have hd : -(a * r') / r t ^ 2 = -(q * r') / r t := by rw [ha]; field_simp
  rw [hd, ← hq, ha]
  field_simp
  ring

/-! ## The ellipsoid -/

theorem ecc2_bounds : 0 < ecc2 ∧ ecc2 < 1 / 100 := by unfold ecc2; constructor <;> norm_num

theorem w_pos (φ : ℝ) : 0 < 1 - ecc2 * sin φ ^ 2 := by
  have h1 := ecc2_bounds
  have h2 := sin_sq_le_one φ
  nlinarith [sq_nonneg (sin φ)]

theorem primeVertical_ge (φ : ℝ) : 6378137 ≤ primeVertical φ := by
  unfold primeVertical
  have hw := w_pos φ
  have h1 : √(1 - ecc2 * sin φ ^ 2) ≤ 1 := by
    rw [Real.sqrt_le_one]
    have := ecc2_bounds.1
    nlinarith [sq_nonneg (sin φ)]
  rw [le_div_iff₀ (Real.sqrt_pos.mpr hw)]
  nlinarith

theorem primeVertical_deriv (φ : ℝ) : HasDerivAt primeVertical (primeVertical φ * ecc2 * sin φ * cos φ / (1 - ecc2 * sin φ ^ 2)) φ := by
  have hw := w_pos φ
  have h1 : HasDerivAt (fun φ => 1 - ecc2 * sin φ ^ 2) (-(ecc2 * (2 * sin φ * cos φ))) φ := by
    have := (((Real.hasDerivAt_sin φ).fun_pow 2).const_mul ecc2).const_sub 1
    simpa using this
  have h2 := (h1.sqrt hw.ne').fun_inv (Real.sqrt_pos.mpr hw).ne'
  have h3 := h2.const_mul 6378137
  unfold primeVertical
  simp only [div_eq_mul_inv]
  refine h3.congr_deriv ?_
  have hs : √(1 - ecc2 * sin φ ^ 2) ^ 2 = 1 - ecc2 * sin φ ^ 2 := Real.sq_sqrt hw.le
  have hs0 := (Real.sqrt_pos.mpr hw).ne'
  rw [hs]
  field_simp

theorem meridian_eq (φ : ℝ) : meridian φ = primeVertical φ * (1 - ecc2) / (1 - ecc2 * sin φ ^ 2) := by
  unfold meridian primeVertical
  have hw := w_pos φ
  have hs : √(1 - ecc2 * sin φ ^ 2) ^ 2 = 1 - ecc2 * sin φ ^ 2 := Real.sq_sqrt hw.le
  have hs0 := (Real.sqrt_pos.mpr hw).ne'
  generalize √(1 - ecc2 * sin φ ^ 2) = u at *
  rw [← hs]
  field_simp

theorem axis_deriv_lat (φ h : ℝ) : HasDerivAt (fun φ => axisDistance φ h) (-(meridian φ + h) * sin φ) φ := by
  have h1 := ((primeVertical_deriv φ).add_const h).mul (Real.hasDerivAt_cos φ)
  refine h1.congr_deriv ?_
  rw [meridian_eq]
  have hw := (w_pos φ).ne'
  field_simp
  linear_combination (ecc2 * primeVertical φ * sin φ) * sin_sq_add_cos_sq φ

theorem plane_deriv_lat (φ h : ℝ) : HasDerivAt (fun φ => planeHeight φ h) ((meridian φ + h) * cos φ) φ := by
  have h1 := (((primeVertical_deriv φ).mul_const (1 - ecc2)).add_const h).mul (Real.hasDerivAt_sin φ)
  refine h1.congr_deriv ?_
  rw [meridian_eq]
  have hw := (w_pos φ).ne'
  field_simp
  ring

theorem axis_deriv_height (φ h : ℝ) : HasDerivAt (fun h => axisDistance φ h) (cos φ) h := by
  have := ((hasDerivAt_id h).const_add (primeVertical φ)).mul_const (cos φ)
  unfold axisDistance
  simpa using this

theorem plane_deriv_height (φ h : ℝ) : HasDerivAt (fun h => planeHeight φ h) (sin φ) h := by
  have := ((hasDerivAt_id h).const_add (primeVertical φ * (1 - ecc2))).mul_const (sin φ)
  unfold planeHeight
  simpa using this

/-- Polar coordinates along a curve in the half plane `p > 0`. -/
theorem polar_deriv {p z : ℝ → ℝ} {p' z' t : ℝ} (hp : HasDerivAt p p' t) (hz : HasDerivAt z z' t) (h0 : 0 < p t) :
    HasDerivAt (fun t => √(p t ^ 2 + z t ^ 2)) ((p t * p' + z t * z') / √(p t ^ 2 + z t ^ 2)) t ∧
    HasDerivAt (fun t => arcsin (z t / √(p t ^ 2 + z t ^ 2))) ((p t * z' - z t * p') / (p t ^ 2 + z t ^ 2)) t := by
  have hq : 0 < p t ^ 2 + z t ^ 2 := by positivity
  have h1 : HasDerivAt (fun t => p t ^ 2 + z t ^ 2) (2 * p t * p' + 2 * z t * z') t := by
    have := (hp.fun_pow 2).fun_add (hz.fun_pow 2)
    simpa using this
  have hs := h1.sqrt hq.ne'
  have hr0 := Real.sqrt_pos.mpr hq
  have hr2 := Real.sq_sqrt hq.le
  have hs' : HasDerivAt (fun t => √(p t ^ 2 + z t ^ 2)) ((p t * p' + z t * z') / √(p t ^ 2 + z t ^ 2)) t := by
    refine hs.congr_deriv ?_
    field_simp
  refine ⟨hs', ?_⟩
  have hd := hz.div hs' hr0.ne'
  have hlt : (z t / √(p t ^ 2 + z t ^ 2)) ^ 2 < 1 := by
    rw [div_pow, hr2, div_lt_one hq]
    nlinarith
  have hne1 : z t / √(p t ^ 2 + z t ^ 2) ≠ -1 := by intro h; rw [h] at hlt; norm_num at hlt
  have hne2 : z t / √(p t ^ 2 + z t ^ 2) ≠ 1 := by intro h; rw [h] at hlt; norm_num at hlt
  have ha := (Real.hasDerivAt_arcsin hne1 hne2).comp t hd
  refine ha.congr_deriv ?_
  have e : √(1 - (z t / √(p t ^ 2 + z t ^ 2)) ^ 2) = p t / √(p t ^ 2 + z t ^ 2) := by
    rw [show 1 - (z t / √(p t ^ 2 + z t ^ 2)) ^ 2 = (p t / √(p t ^ 2 + z t ^ 2)) ^ 2 by
      rw [div_pow, div_pow, hr2]; field_simp; ring]
    exact Real.sqrt_sq (by positivity)
  rw [e]
  generalize √(p t ^ 2 + z t ^ 2) = u at *
  rw [← hr2]
  field_simp
  linear_combination z' * hr2

end Verif.Wmm
