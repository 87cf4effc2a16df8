import Verif.Stats.Model
import Mathlib.Probability.Distributions.Gaussian.Real
import Mathlib.Analysis.SpecialFunctions.PolarCoord
import Mathlib.MeasureTheory.Function.JacobianOneDim

/-!
# C143: normal draws are normally distributed

Mathlib's `gaussianReal μ v` is the normal distribution with mean `μ` and variance `v`; `volume` on `ℝ × ℝ`, restricted to the square
`[0, 1) × [0, 1)`, is the distribution of two independent uniform draws.
-/

namespace Verif.Stats

open MeasureTheory ProbabilityTheory Set Real
open scoped ENNReal NNReal

/-- Substituting `θ = 2πu - π`. -/
theorem subst_angle (g : ℝ → ℝ≥0∞) : ∫⁻ θ in Ioo (-π) π, g θ = ∫⁻ u in Ioo (0 : ℝ) 1, ENNReal.ofReal (2 * π) * g (2 * π * u - π) := by
  have hpi := Real.pi_pos
  have him : (fun u : ℝ => 2 * π * u - π) '' Ioo 0 1 = Ioo (-π) π := by
    ext θ
    constructor
    · rintro ⟨u, ⟨h0, h1⟩, rfl⟩
      constructor <;> simp only <;> nlinarith
    · rintro ⟨h0, h1⟩
      refine ⟨(θ + π) / (2 * π), ⟨?_, ?_⟩, ?_⟩
      · apply div_pos <;> linarith
      · rw [div_lt_one (by linarith)]; linarith
      · simp only; field_simp; ring
  rw [← him, lintegral_image_eq_lintegral_abs_deriv_mul measurableSet_Ioo (f' := fun _ => 2 * π)]
  · rw [abs_of_pos (by linarith)]
  · intro x _
    have := ((hasDerivAt_id x).const_mul (2 * π)).sub_const π
    rw [mul_one] at this
    exact this.hasDerivWithinAt
  · intro a _ b _ h
    simp only at h
    have : 2 * π * a = 2 * π * b := by linarith
    exact mul_left_cancel₀ (by linarith) this

/-- Substituting `u = exp (-r² / 2)`. -/
theorem subst_radius (g : ℝ → ℝ≥0∞) :
    ∫⁻ u in Ioo (0 : ℝ) 1, g √(-(2 * log u)) = ∫⁻ r in Ioi (0 : ℝ), ENNReal.ofReal (r * exp (-r ^ 2 / 2)) * g r := by
  have him : (fun r : ℝ => exp (-r ^ 2 / 2)) '' Ioi 0 = Ioo 0 1 := by
    ext u
    constructor
    · rintro ⟨r, hr, rfl⟩
      have hr : 0 < r := hr
      exact ⟨exp_pos _, Real.exp_lt_one_iff.2 (by have := sq_pos_of_pos hr; linarith)⟩
    · rintro ⟨h0, h1⟩
      have hl := log_neg h0 h1
      refine ⟨√(-(2 * log u)), Real.sqrt_pos.2 (by linarith), ?_⟩
      simp only
      rw [Real.sq_sqrt (by linarith), show -(-(2 * log u)) / 2 = log u by ring, exp_log h0]
  rw [← him, lintegral_image_eq_lintegral_abs_deriv_mul measurableSet_Ioi (f' := fun r => exp (-r ^ 2 / 2) * -r)]
  · refine setLIntegral_congr_fun measurableSet_Ioi fun r hr => ?_
    have hr : 0 < r := hr
    rw [log_exp, show -(2 * (-r ^ 2 / 2)) = r ^ 2 by ring, Real.sqrt_sq hr.le, abs_mul, abs_of_pos (exp_pos _), abs_neg, abs_of_pos hr, mul_comm r]
  · intro r _
    have h1 : HasDerivAt (fun r : ℝ => -r ^ 2 / 2) (-r) r := by
      have := ((hasDerivAt_pow 2 r).neg).div_const 2
      convert! this using 1
      norm_num
      ring
    exact h1.exp.hasDerivWithinAt
  · intro a ha b hb h
    have ha : 0 < a := ha
    have hb : 0 < b := hb
    have := exp_injective h
    have : a ^ 2 = b ^ 2 := by linarith
    exact (pow_left_inj₀ ha.le hb.le two_ne_zero).1 this

theorem gaussianPDF_std (x : ℝ) : gaussianPDF 0 1 x = ENNReal.ofReal ((√(2 * π))⁻¹ * exp (-x ^ 2 / 2)) := by
  unfold gaussianPDF gaussianPDFReal
  simp

/-- The law of `√(-2 ln u₁) cos (2π u₂)`. -/
theorem law_std {A : Set ℝ} (hA : MeasurableSet A) :
    ∫⁻ u in Ioo (0 : ℝ) 1, ∫⁻ w in Ioo (0 : ℝ) 1, A.indicator 1 (√(-(2 * log u)) * cos (2 * π * w)) = gaussianReal 0 1 A := by
  have hpi := Real.pi_pos
  have hind : Measurable (A.indicator (1 : ℝ → ℝ≥0∞)) := measurable_one.indicator hA
  -- the plane
  have hplane : ∫⁻ p : ℝ × ℝ, A.indicator 1 (-p.1) * (gaussianPDF 0 1 p.1 * gaussianPDF 0 1 p.2) = gaussianReal 0 1 A := by
    rw [Measure.volume_eq_prod, lintegral_prod _ (by fun_prop)]
    have h1 : ∀ x : ℝ, ∫⁻ y : ℝ, A.indicator 1 (-x) * (gaussianPDF 0 1 x * gaussianPDF 0 1 y) = A.indicator 1 (-x) * gaussianPDF 0 1 x := by
      intro x
      rw [lintegral_const_mul _ (by fun_prop), lintegral_const_mul _ (by fun_prop), lintegral_gaussianPDF_eq_one 0 one_ne_zero, mul_one]
    simp only [h1]
    have h2 : ∀ x : ℝ, gaussianPDF 0 1 x = gaussianPDF 0 1 (-x) := by
      intro x; rw [gaussianPDF_std, gaussianPDF_std, neg_sq]
    have h3 : ∫⁻ x : ℝ, A.indicator 1 (-x) * gaussianPDF 0 1 x = ∫⁻ x : ℝ, A.indicator 1 x * gaussianPDF 0 1 x := by
      rw [← lintegral_neg_eq_self (fun x => A.indicator 1 x * gaussianPDF 0 1 x)]
      exact lintegral_congr fun x => by rw [← h2]
    rw [h3, gaussianReal_apply 0 one_ne_zero, ← lintegral_indicator hA]
    refine lintegral_congr fun x => ?_
    by_cases hx : x ∈ A <;> simp [hx]
  rw [← hplane, ← lintegral_comp_polarCoord_symm]
  change _ = ∫⁻ p in Ioi (0 : ℝ) ×ˢ Ioo (-π) π, _
  rw [Measure.volume_eq_prod, setLIntegral_prod _ (by
    apply Measurable.aemeasurable
    have : Measurable fun p : ℝ × ℝ => polarCoord.symm p := continuous_polarCoord_symm.measurable
    fun_prop)]
  rw [subst_radius fun r => ∫⁻ w in Ioo (0 : ℝ) 1, A.indicator 1 (r * cos (2 * π * w))]
  refine setLIntegral_congr_fun measurableSet_Ioi fun r hr => ?_
  have hr : 0 < r := hr
  simp only
  rw [subst_angle, ← lintegral_const_mul _ (by fun_prop)]
  refine lintegral_congr fun w => ?_
  have hc : -(polarCoord.symm (r, 2 * π * w - π)).1 = r * cos (2 * π * w) := by
    rw [polarCoord_symm_apply]
    simp only
    rw [cos_sub_pi]; ring
  have hden : gaussianPDF 0 1 (polarCoord.symm (r, 2 * π * w - π)).1 * gaussianPDF 0 1 (polarCoord.symm (r, 2 * π * w - π)).2 =
      ENNReal.ofReal ((2 * π)⁻¹ * exp (-r ^ 2 / 2)) := by
    rw [gaussianPDF_std, gaussianPDF_std, ← ENNReal.ofReal_mul (by positivity), polarCoord_symm_apply]
    congr 1
    simp only
    rw [show (√(2 * π))⁻¹ * exp (-(r * cos (2 * π * w - π)) ^ 2 / 2) * ((√(2 * π))⁻¹ * exp (-(r * sin (2 * π * w - π)) ^ 2 / 2)) =
      (√(2 * π) * √(2 * π))⁻¹ * (exp (-(r * cos (2 * π * w - π)) ^ 2 / 2) * exp (-(r * sin (2 * π * w - π)) ^ 2 / 2)) by
        rw [mul_inv]; ring, ← exp_add, Real.mul_self_sqrt (by positivity)]
    congr 2
    have := sin_sq_add_cos_sq (2 * π * w - π)
    have e : sin (2 * π * w - π) ^ 2 = 1 - cos (2 * π * w - π) ^ 2 := by linarith
    rw [mul_pow, mul_pow, e]; ring
  rw [hc, hden, smul_eq_mul]
  have hk : ENNReal.ofReal (r * exp (-r ^ 2 / 2)) = ENNReal.ofReal (2 * π) * (ENNReal.ofReal r * ENNReal.ofReal ((2 * π)⁻¹ * exp (-r ^ 2 / 2))) := by
    rw [← ENNReal.ofReal_mul hr.le, ← ENNReal.ofReal_mul (by positivity)]
    congr 1
    field_simp
  rw [hk]
  ring

theorem draw_inside (d : Gauss) {u1 u2 : ℝ} (h0 : 0 < u1) (h1 : u1 < 1) :
    d.draw u1 u2 = some (d.sigma * (√(-(2 * log u1)) * cos (2 * π * u2)) + d.mu) := by
  have hl := log_neg h0 h1
  unfold Gauss.draw boxMuller
  simp only
  rw [if_neg (not_le.2 h0), if_neg (not_le.2 h0), if_neg (by linarith)]
  rfl

/-- C143. From two independent uniform draws `sample` gives a number with the normal distribution of the given mean and standard deviation: for
every event `A` the draws for which the sample falls in `A` have the probability of `A` under that distribution. -/
theorem C143_sample (d : Gauss) {A : Set ℝ} (hA : MeasurableSet A) :
    volume {u : ℝ × ℝ | u ∈ Ico (0 : ℝ) 1 ×ˢ Ico (0 : ℝ) 1 ∧ ∃ x ∈ A, d.draw u.1 u.2 = some x} = gaussianReal d.mu (.mk (d.sigma ^ 2) (sq_nonneg _)) A := by
  have hIco : MeasurableSet (Ico (0 : ℝ) 1 ×ˢ Ico (0 : ℝ) 1) := measurableSet_Ico.prod measurableSet_Ico
  have hIoo : MeasurableSet (Ioo (0 : ℝ) 1 ×ˢ Ioo (0 : ℝ) 1) := measurableSet_Ioo.prod measurableSet_Ioo
  have hae : (Ico (0 : ℝ) 1 ×ˢ Ico (0 : ℝ) 1 : Set (ℝ × ℝ)) =ᵐ[volume] Ioo (0 : ℝ) 1 ×ˢ Ioo (0 : ℝ) 1 :=
    Measure.set_prod_ae_eq Ioo_ae_eq_Ico.symm Ioo_ae_eq_Ico.symm
  have hf : Measurable fun z : ℝ => d.sigma * z + d.mu := by fun_prop
  set B := (fun z : ℝ => d.sigma * z + d.mu) ⁻¹' A with hBdef
  have hB : MeasurableSet B := hf hA
  have hind : Measurable (B.indicator (1 : ℝ → ℝ≥0∞)) := measurable_one.indicator hB
  have hlaw : gaussianReal d.mu (.mk (d.sigma ^ 2) (sq_nonneg _)) A = gaussianReal 0 1 B := by
    have h1 := gaussianReal_map_const_mul (μ := 0) (v := 1) d.sigma
    rw [mul_zero, mul_one] at h1
    have h2 := gaussianReal_map_add_const (μ := 0) (v := .mk (d.sigma ^ 2) (sq_nonneg _)) d.mu
    rw [zero_add] at h2
    rw [← h2, ← h1, Measure.map_map (by fun_prop) (by fun_prop), Measure.map_apply (by fun_prop) hA]
    rfl
  have hset : {u : ℝ × ℝ | u ∈ Ico (0 : ℝ) 1 ×ˢ Ico (0 : ℝ) 1 ∧ ∃ x ∈ A, d.draw u.1 u.2 = some x} =
      {u : ℝ × ℝ | ∃ x ∈ A, d.draw u.1 u.2 = some x} ∩ Ico (0 : ℝ) 1 ×ˢ Ico (0 : ℝ) 1 := by
    ext u; exact and_comm
  have hφ : Measurable fun u : ℝ × ℝ => √(-(2 * log u.1)) * cos (2 * π * u.2) := by fun_prop
  have hset2 : {u : ℝ × ℝ | ∃ x ∈ A, d.draw u.1 u.2 = some x} ∩ Ioo (0 : ℝ) 1 ×ˢ Ioo (0 : ℝ) 1 =
      ((fun u : ℝ × ℝ => √(-(2 * log u.1)) * cos (2 * π * u.2)) ⁻¹' B) ∩ Ioo (0 : ℝ) 1 ×ˢ Ioo (0 : ℝ) 1 := by
    ext u
    constructor
    · rintro ⟨⟨x, hx, e⟩, hu⟩
      refine ⟨?_, hu⟩
      rw [draw_inside d hu.1.1 hu.1.2] at e
      have e := Option.some.inj e
      rw [← e] at hx
      exact hx
    · rintro ⟨hx, hu⟩
      exact ⟨⟨_, hx, draw_inside d hu.1.1 hu.1.2⟩, hu⟩
  rw [hset, ← Measure.restrict_apply' hIco, Measure.restrict_congr_set hae, Measure.restrict_apply' hIoo, hset2, hlaw, ← law_std hB,
    ← Measure.restrict_apply' hIoo, ← lintegral_indicator_one (hφ hB), Measure.volume_eq_prod,
    setLIntegral_prod _ ((measurable_one.indicator (hφ hB)).aemeasurable)]
  rfl

/-- C143. `sample` and `pdf` describe the same distribution: the probability that a sample falls in `A` is the integral of `pdf` over `A`. -/
theorem C143_pdf (d : Gauss) (hs : 0 < d.sigma) {A : Set ℝ} (hA : MeasurableSet A) :
    volume {u : ℝ × ℝ | u ∈ Ico (0 : ℝ) 1 ×ˢ Ico (0 : ℝ) 1 ∧ ∃ x ∈ A, d.draw u.1 u.2 = some x} = ∫⁻ x in A, ENNReal.ofReal (d.pdf x) := by
  have hv : (NNReal.mk (d.sigma ^ 2) (sq_nonneg _) : ℝ≥0) ≠ 0 := by
    intro h
    have : d.sigma ^ 2 = 0 := congrArg NNReal.toReal h
    exact (pow_pos hs 2).ne' this
  rw [C143_sample d hA, gaussianReal_apply _ hv]
  refine lintegral_congr fun x => ?_
  unfold gaussianPDF gaussianPDFReal Gauss.pdf
  simp only
  rw [max_eq_left (mul_self_nonneg _), one_div]
  congr 2
  · congr 2
    change 2 * π * d.sigma ^ 2 = _
    ring
  · congr 1
    change -(x - d.mu) ^ 2 / (2 * d.sigma ^ 2) = _
    field_simp
    ring

/-- C143. Every pair of draws in `[0, 1)` gives a number. -/
theorem C143_defined (d : Gauss) {u1 u2 : ℝ} (h0 : 0 ≤ u1) (h1 : u1 < 1) : ∃ x, d.draw u1 u2 = some x := by
  rcases h0.eq_or_lt with h | h
  · subst h
    unfold Gauss.draw boxMuller
    have hl : log ((2 : ℝ)⁻¹ ^ 52) < 0 := log_neg (by positivity) (by norm_num)
    simp only [le_refl, if_true]
    rw [if_neg (by norm_num), if_neg (by linarith)]
    exact ⟨_, rfl⟩
  · exact ⟨_, draw_inside d h h1⟩

-- The standard normal distribution and the event of exceeding one meet the hypotheses.
example : volume {u : ℝ × ℝ | u ∈ Ico (0 : ℝ) 1 ×ˢ Ico (0 : ℝ) 1 ∧ ∃ x ∈ Ioi (1 : ℝ), (⟨0, 1⟩ : Gauss).draw u.1 u.2 = some x} =
    ∫⁻ x in Ioi (1 : ℝ), ENNReal.ofReal ((⟨0, 1⟩ : Gauss).pdf x) :=
  C143_pdf _ one_pos measurableSet_Ioi

end Verif.Stats
