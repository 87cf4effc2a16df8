import Verif.Atmo.Ussa

/-!
# The US standard atmosphere (C60)
-/

namespace Verif.Atmo

open USSA

/-- C60 fails: from 1000 km up every query panics. -/
theorem C60_top_fails (h : ℝ) (hh : 1000000 ≤ h) : USSA.temperature h = .error .panic ∧ USSA.pressure h = .error .panic ∧
    USSA.density h = .error .panic ∧ USSA.speedOfSound h = .error .panic ∧ USSA.viscosity h = .error .panic := by
  have hb := USSA.baseIndex_above hh
  have ht : USSA.temperature h = .error .panic := by unfold USSA.temperature; rw [hb]; rfl
  refine ⟨ht, ?_, ?_, ?_, ?_⟩
  · unfold USSA.pressure; rw [hb]; rfl
  · unfold USSA.density; rw [ht]; rfl
  · unfold USSA.speedOfSound; rw [ht]; rfl
  · unfold USSA.viscosity; rw [ht]; rfl

theorem rowTemp_low {k : Fin 12} (hk : k < 8) (h : ℝ) : rowTemp k h = (row k).temp + (row k).lapse * (h - (row k).base) := if_pos hk

/-- The value of a result, zero for an error. -/
noncomputable def result : Except Fault ℝ → ℝ
  | .ok v => v
  | .error _ => 0

/-- C60 fails: at 91 km the temperature drops by more than 120 K: it is 186.87 K below and under 60 K at 91 km. It also jumps at 11019 m, where
the lapse rate per geopotential metre is applied to geometric heights. -/
theorem C60_continuity_fails :
    (∀ h, 86000 ≤ h → h < 91000 → USSA.temperature h = .ok 186.87) ∧
    (∃ T, USSA.temperature 91000 = .ok T ∧ T < 60) ∧
    ¬ ContinuousAt (fun h => result (USSA.temperature h)) 91000 ∧
    ¬ ContinuousAt (fun h => result (USSA.temperature h)) 11019 := by
  have low : ∀ h, 86000 ≤ h → h < 91000 → USSA.temperature h = .ok 186.87 := by
    intro h h1 h2
    rw [temperature_row (k := 7) ⟨h1, h2⟩, rowTemp_low (by decide)]
    simp [row]
  have at91 : ∃ T, USSA.temperature 91000 = .ok T ∧ T < 60 := by
    refine ⟨_, temperature_row (k := 8) (by norm_num [inRow]), ?_⟩
    unfold rowTemp
    rw [if_neg (by decide), if_pos rfl]
    have h2 := Real.exp_one_gt_d9
    norm_num at h2 ⊢
    linarith
  -- a function that is affine on the left of a point and continuous there has the limit of the affine function
  have jump : ∀ (f : ℝ → ℝ) (x c d : ℝ), (∀ᶠ h in nhdsWithin x (Set.Iio x), f h = c + d * h) → ContinuousAt f x → f x = c + d * x := by
    intro f x c d hl hc
    have h1 : Filter.Tendsto f (nhdsWithin x (Set.Iio x)) (nhds (f x)) := hc.tendsto.mono_left nhdsWithin_le_nhds
    have h2 : Filter.Tendsto (fun h => c + d * h) (nhdsWithin x (Set.Iio x)) (nhds (c + d * x)) :=
      ((continuous_const.add (continuous_const.mul continuous_id)).tendsto x).mono_left nhdsWithin_le_nhds
    exact tendsto_nhds_unique (h1.congr' hl) h2
  refine ⟨low, at91, fun hc => ?_, fun hc => ?_⟩
  · obtain ⟨T, hT, hlt⟩ := at91
    have := jump _ 91000 186.87 0 ?_ hc
    · simp only [hT, result] at this
      norm_num at this
      linarith
    · filter_upwards [Ioo_mem_nhdsLT (show (86000 : ℝ) < 91000 by norm_num)] with h hh
      rw [low h hh.1.le hh.2]
      simp [result]
  · have := jump _ 11019 288.15 (-6.5e-3) ?_ hc
    · rw [temperature_row (k := 1) (by norm_num [inRow]), rowTemp_low (by decide)] at this
      norm_num [result, row] at this
    · filter_upwards [self_mem_nhdsWithin] with h hh
      rw [temperature_row (k := 0) hh, rowTemp_low (by decide)]
      simp [result, row]

/-- C60 fails: the "speed of sound" is the square of the speed of sound `√(γ R T)`. -/
theorem C60_sound_fails :
    (∀ h T, USSA.temperature h = .ok T → ∃ c, USSA.speedOfSound h = .ok c ∧ c = Real.sqrt (1.4 * (8314.32 / 28.9644) * T) ^ 2) ∧
    (∃ c, USSA.speedOfSound 0 = .ok c ∧ 100000 < c ∧ Real.sqrt (1.4 * (8314.32 / 28.9644) * 288.15) < 400) := by
  constructor
  · intro h T hT
    have hT0 : 0 ≤ T := by
      by_cases hh : h < 1000000
      · obtain ⟨k, hk⟩ := inRow_exists hh
        have := temperature_row hk
        rw [hT] at this
        rw [Except.ok.inj this]
        exact (rowTemp_pos hk).le
      · rw [(C60_top_fails h (not_lt.mp hh)).1] at hT
        cases hT
    refine ⟨1.4 * rStar / molarMass * T, by unfold USSA.speedOfSound; rw [hT]; rfl, ?_⟩
    rw [Real.sq_sqrt (by norm_num; positivity)]
    norm_num [rStar, molarMass]
  · refine ⟨1.4 * rStar / molarMass * 288.15, ?_, by norm_num [rStar, molarMass], ?_⟩
    · unfold USSA.speedOfSound
      rw [temperature_row (k := 0) (by norm_num [inRow])]
      have : rowTemp 0 0 = 288.15 := by rw [rowTemp_low (by decide)]; norm_num [row]
      rw [this]
      rfl
    · rw [Real.sqrt_lt' (by norm_num)]
      norm_num

/-- C60 fails: the pressure drops by more than half within a metre at 120 km (the lapse rate above 110 km is in kelvin per kilometre). -/
theorem C60_pressure_fails : ∃ p q, USSA.pressure 119999 = .ok p ∧ USSA.pressure 120000 = .ok q ∧ 2 * q < p := by
  refine ⟨_, _, pressure_row (k := 9) (by norm_num [inRow]), pressure_row (k := 10) (by norm_num [inRow]), ?_⟩
  have l9 : (row 9).lapse = 12 := rfl
  have l10 : (row 10).lapse = 12 := rfl
  have t9 : (row 9).temp = 240 := rfl
  have t10 : (row 10).temp = 360 := rfl
  have p9 : (row 9).pres = 710.42e-5 := rfl
  have p10 : (row 10).pres = 253.82e-5 := rfl
  have bound : ∀ k : Fin 12, 8 < k → ∀ h : ℝ, 110000 ≤ h → rowTemp k h < 1000 ∧ 240 ≤ rowTemp k h := by
    intro k hk h hh
    have e : rowTemp k h = 1000 - 760 * Real.exp (-0.01875 * ((h - 110000) * (6356766 + 110000) / (6356766 + h) / 1000)) := by
      unfold rowTemp
      rw [if_neg (by omega), if_neg (by omega)]
    rw [e]
    have hp := Real.exp_pos (-0.01875 * ((h - 110000) * (6356766 + 110000) / (6356766 + h) / 1000))
    have h1 : Real.exp (-0.01875 * ((h - 110000) * (6356766 + 110000) / (6356766 + h) / 1000)) ≤ 1 := by
      rw [Real.exp_le_one_iff]
      have : 0 ≤ (h - 110000) * (6356766 + 110000) / (6356766 + h) / 1000 :=
        div_nonneg (div_nonneg (mul_nonneg (by linarith) (by norm_num)) (by linarith)) (by norm_num)
      norm_num at this ⊢
      linarith
    constructor <;> linarith
  have hb9 := bound 9 (by decide) 119999 (by norm_num)
  have hb10 := bound 10 (by decide) 120000 (by norm_num)
  set e : ℝ := g0 * molarMass / (rStar * 12) with he
  have e0 : 0 < e := by rw [he]; norm_num [g0, molarMass, rStar]
  have e1 : e ≤ 1 / 100 := by rw [he]; norm_num [g0, molarMass, rStar]
  have q9 : rowPressure 9 119999 = 710.42e-5 * (240 / rowTemp 9 119999) ^ e := by
    unfold rowPressure; rw [if_pos (by rw [l9]; norm_num), l9, t9, p9]
  have q10 : rowPressure 10 120000 = 253.82e-5 * (360 / rowTemp 10 120000) ^ e := by
    unfold rowPressure; rw [if_pos (by rw [l10]; norm_num), l10, t10, p10]
  have lowr : (0.98 : ℝ) ≤ (240 / rowTemp 9 119999) ^ e := by
    have h1 : (0.24 : ℝ) ≤ 240 / rowTemp 9 119999 := by
      rw [le_div_iff₀ (by linarith)]; norm_num; linarith [hb9.1]
    have h2 : (0.24 : ℝ) ^ e ≤ (240 / rowTemp 9 119999) ^ e := Real.rpow_le_rpow (by norm_num) h1 e0.le
    have h3 : (0.24 : ℝ) ^ (1 / 100 : ℝ) ≤ (0.24 : ℝ) ^ e := Real.rpow_le_rpow_of_exponent_ge (by norm_num) (by norm_num) e1
    have h4 : (0.98 : ℝ) ≤ (0.24 : ℝ) ^ (1 / 100 : ℝ) := by
      have h5 : ((0.98 : ℝ) ^ (100 : ℕ)) ^ ((100 : ℕ) : ℝ)⁻¹ ≤ (0.24 : ℝ) ^ ((100 : ℕ) : ℝ)⁻¹ :=
        Real.rpow_le_rpow (by norm_num) (by norm_num) (by norm_num)
      rw [Real.pow_rpow_inv_natCast (by norm_num) (by norm_num)] at h5
      rw [one_div]
      exact_mod_cast h5
    linarith
  have high : (360 / rowTemp 10 120000) ^ e ≤ 1.02 := by
    have h1 : 360 / rowTemp 10 120000 ≤ 1.5 := by
      rw [div_le_iff₀ (by linarith [hb10.2])]; norm_num; linarith [hb10.2]
    have h2 : (360 / rowTemp 10 120000) ^ e ≤ (1.5 : ℝ) ^ e := Real.rpow_le_rpow (div_nonneg (by norm_num) (by linarith [hb10.2])) h1 e0.le
    have h3 : (1.5 : ℝ) ^ e ≤ (1.5 : ℝ) ^ (1 / 100 : ℝ) := Real.rpow_le_rpow_of_exponent_le (by norm_num) e1
    have h4 : (1.5 : ℝ) ^ (1 / 100 : ℝ) ≤ 1.02 := by
      have h5 : (1.5 : ℝ) ^ ((100 : ℕ) : ℝ)⁻¹ ≤ ((1.02 : ℝ) ^ (100 : ℕ)) ^ ((100 : ℕ) : ℝ)⁻¹ :=
        Real.rpow_le_rpow (by norm_num) (by norm_num) (by norm_num)
      rw [Real.pow_rpow_inv_natCast (by norm_num) (by norm_num)] at h5
      rw [one_div]
      exact_mod_cast h5
    linarith
  rw [q9, q10]
  norm_num at lowr high ⊢
  linarith

/-- The ends of the layers below 91 km. -/
def lowEnds : List ℝ := [11019, 20063, 32162, 47350, 51413, 71802, 86000]

/-- C60, partial. What does hold: below 1000 km every query succeeds; temperature, pressure and density are positive and satisfy the gas
law; the temperature is the tabulated value at the foot of each layer below 91 km plus the layer's lapse rate times the height above it, and
from 110 km up it is the standard's exponential, which rises from 240 K towards 1000 K; the viscosity is Sutherland's formula; and inside the
layers below 91 km the pressure is hydrostatic, `dp/dh = -ρ g₀`. (Missing: an error above the table, continuity, the speed of sound, the
pressure above 91 km, see the `_fails` theorems.) -/
theorem C60_partial (h : ℝ) (hh : h < 1000000) : ∃ T p ρ, USSA.temperature h = .ok T ∧ USSA.pressure h = .ok p ∧ USSA.density h = .ok ρ ∧
    0 < T ∧ 0 < p ∧ 0 < ρ ∧ p * 28.9644 = ρ * 8314.32 * T ∧
    USSA.viscosity h = .ok (1.458e-6 * T ^ (1.5 : ℝ) / (T + 110.4)) ∧
    (∀ k, k < 8 → inRow k h → T = (row k).temp + (row k).lapse * (h - (row k).base)) ∧
    (110000 ≤ h → T = 1000 - 760 * Real.exp (-0.01875 * ((h - 110000) * (6356766 + 110000) / (6356766 + h) / 1000)) ∧ 240 ≤ T ∧ T < 1000) ∧
    (h < 91000 → h ∉ lowEnds → HasDerivAt (fun h => result (USSA.pressure h)) (-ρ * 9.80655) h) := by
  obtain ⟨k, hk⟩ := inRow_exists hh
  have hT := temperature_row hk
  have hp := pressure_row hk
  have hT0 := rowTemp_pos hk
  have hp0 := rowPressure_pos hk
  have hM : (0 : ℝ) < molarMass := by norm_num [molarMass]
  have hR : (0 : ℝ) < rStar := by norm_num [rStar]
  refine ⟨rowTemp k h, rowPressure k h, rowPressure k h * molarMass / (rStar * rowTemp k h), hT, hp, ?_, hT0, hp0, by positivity, ?_, ?_, ?_, ?_, ?_⟩
  · unfold USSA.density; rw [hT, hp]; rfl
  · have e1 : (28.9644 : ℝ) = molarMass := rfl
    have e2 : (8314.32 : ℝ) = rStar := by norm_num [rStar]
    rw [e1, e2]
    field_simp
  · unfold USSA.viscosity
    rw [hT]
    simp only [USSA.expect, bind, Except.bind, pure, Except.pure]
    congr 1
    norm_num
    ring
  · intro j hj hin
    have := temperature_row hin
    rw [hT, rowTemp_low hj] at this
    exact Except.ok.inj this
  · intro h110
    have e : rowTemp k h = 1000 - 760 * Real.exp (-0.01875 * ((h - 110000) * (6356766 + 110000) / (6356766 + h) / 1000)) := by
      unfold rowTemp
      fin_cases k <;> first
        | (simp only [inRow] at hk; exfalso; linarith)
        | (rw [if_neg (by decide), if_neg (by decide)])
    have hp := Real.exp_pos (-0.01875 * ((h - 110000) * (6356766 + 110000) / (6356766 + h) / 1000))
    have h1 : Real.exp (-0.01875 * ((h - 110000) * (6356766 + 110000) / (6356766 + h) / 1000)) ≤ 1 := by
      rw [Real.exp_le_one_iff]
      have : 0 ≤ (h - 110000) * (6356766 + 110000) / (6356766 + h) / 1000 :=
        div_nonneg (div_nonneg (mul_nonneg (by linarith) (by norm_num)) (by linarith)) (by norm_num)
      norm_num at this ⊢
      linarith
    exact ⟨e, by rw [e]; linarith, by rw [e]; linarith⟩
  · intro h91 hne
    have hk8 : k < 8 := by
      fin_cases k <;> first
        | decide
        | (simp only [inRow] at hk; exfalso; linarith [hk.1])
    have hev : ∀ᶠ x in nhds h, inRow k x := by
      simp only [lowEnds, List.mem_cons, List.not_mem_nil, or_false, not_or] at hne
      obtain ⟨n1, n2, n3, n4, n5, n6, n7⟩ := hne
      have lt : ∀ {a : ℝ}, h < a → ∀ᶠ x in nhds h, x < a := fun h1 => eventually_lt_nhds h1
      have gt : ∀ {a : ℝ}, a ≤ h → h ≠ a → ∀ᶠ x in nhds h, a ≤ x := fun h1 h2 =>
        (eventually_gt_nhds (lt_of_le_of_ne h1 (Ne.symm h2))).mono fun x hx => hx.le
      fin_cases k <;> simp only [inRow] at hk ⊢
      · exact lt hk
      · exact (gt hk.1 n1).and (lt hk.2)
      · exact (gt hk.1 n2).and (lt hk.2)
      · exact (gt hk.1 n3).and (lt hk.2)
      · exact (gt hk.1 n4).and (lt hk.2)
      · exact (gt hk.1 n5).and (lt hk.2)
      · exact (gt hk.1 n6).and (lt hk.2)
      · exact (gt hk.1 n7).and (lt hk.2)
      all_goals (exfalso; linarith [hk.1])
    have hd : HasDerivAt (rowPressure k) (-(rowPressure k h * molarMass / (rStar * rowTemp k h)) * 9.80655) h := by
      have hTr : 0 < (row k).temp := by fin_cases k <;> norm_num [row]
      have hTe := rowTemp_low hk8 h
      by_cases hl : (row k).lapse ≠ 0
      · have e : rowPressure k = fun h => (row k).pres * ((row k).temp / ((row k).temp + (row k).lapse * (h - (row k).base))) ^ (g0 * molarMass / (rStar * (row k).lapse)) := by
          funext x; unfold rowPressure; rw [if_pos hl, rowTemp_low hk8]
        have hden : (row k).temp + (row k).lapse * (h - (row k).base) ≠ 0 := by rw [← hTe]; exact hT0.ne'
        have hin : HasDerivAt (fun h : ℝ => (row k).temp + (row k).lapse * (h - (row k).base)) (row k).lapse h := by
          have := (((hasDerivAt_id h).sub_const (row k).base).const_mul (row k).lapse).const_add (row k).temp
          simpa using this
        have hq := (hasDerivAt_const h (row k).temp).div hin hden
        have hx0 : 0 < (row k).temp / ((row k).temp + (row k).lapse * (h - (row k).base)) := by rw [← hTe]; positivity
        have hr := (hq.rpow_const (p := g0 * molarMass / (rStar * (row k).lapse)) (Or.inl hx0.ne')).const_mul (row k).pres
        rw [e]
        refine hr.congr_deriv ?_
        simp only
        rw [← hTe]
        rw [Pi.div_apply, ← hTe, Real.rpow_sub_one (by positivity)]
        have e0 : (9.80655 : ℝ) = g0 := rfl
        rw [e0]
        field_simp
        ring
      · have hl0 : (row k).lapse = 0 := not_not.mp hl
        have hTc : ∀ x, rowTemp k x = (row k).temp := fun x => by rw [rowTemp_low hk8, hl0, zero_mul, add_zero]
        have e : rowPressure k = fun h => (row k).pres * Real.exp (-g0 * molarMass * (h - (row k).base) / (rStar * (row k).temp)) := by
          funext x; unfold rowPressure; rw [if_neg hl, hTc]
        have hin : HasDerivAt (fun h : ℝ => -g0 * molarMass * (h - (row k).base) / (rStar * (row k).temp)) (-g0 * molarMass / (rStar * (row k).temp)) h := by
          have := (((hasDerivAt_id h).sub_const (row k).base).const_mul (-g0 * molarMass)).div_const (rStar * (row k).temp)
          simpa using this
        have hr := hin.exp.const_mul (row k).pres
        rw [hTc, e]
        refine hr.congr_deriv ?_
        have e0 : (9.80655 : ℝ) = g0 := rfl
        rw [e0]
        ring
    exact hd.congr_of_eventuallyEq (hev.mono fun x hx => by simp only [pressure_row hx]; rfl)

/-- Heights of 5 km, 200 km meet the hypotheses. -/
example : (5000 : ℝ) < 91000 ∧ (5000 : ℝ) ∉ lowEnds ∧ inRow 0 5000 ∧ (110000 : ℝ) ≤ 200000 ∧ (200000 : ℝ) < 1000000 := by
  refine ⟨by norm_num, ?_, by norm_num [inRow], by norm_num, by norm_num⟩
  simp only [lowEnds, List.mem_cons, List.not_mem_nil, or_false, not_or]
  norm_num

/-- C60 fails: the pressure gradient is nowhere that of standard gravity, 9.80665 m/s²: the code's constant is 9.80655. -/
theorem C60_gravity_fails (h : ℝ) (hh : h < 91000) (hne : h ∉ lowEnds) (ρ : ℝ) (hρ : USSA.density h = .ok ρ) :
    ¬ HasDerivAt (fun h => result (USSA.pressure h)) (-ρ * 9.80665) h := by
  obtain ⟨T, p, ρ', -, -, h1, -, -, h2, -, -, -, -, h3⟩ := C60_partial h (by linarith)
  rw [hρ] at h1
  obtain rfl := Except.ok.inj h1
  intro hd
  have := hd.unique (h3 hh hne)
  norm_num at this
  linarith

/-- C60, partial. At the foot of each layer below 91 km temperature and pressure are the tabulated ones. (Missing: the layers above.) -/
theorem C60_boundary_partial (k : Fin 12) (hk : k < 8) :
    USSA.temperature (row k).base = .ok (row k).temp ∧ USSA.pressure (row k).base = .ok (row k).pres := by
  have hin : inRow k (row k).base := by fin_cases k <;> norm_num [inRow, row]
  have hT : rowTemp k (row k).base = (row k).temp := by rw [rowTemp_low hk, sub_self, mul_zero, add_zero]
  refine ⟨by rw [temperature_row hin, hT], ?_⟩
  have hTr : (row k).temp ≠ 0 := by fin_cases k <;> norm_num [row]
  rw [pressure_row hin]
  congr 1
  unfold rowPressure
  rw [hT]
  by_cases hl : (row k).lapse ≠ 0
  · rw [if_pos hl, div_self hTr, Real.one_rpow, mul_one]
  · rw [if_neg hl, sub_self, mul_zero, zero_div, Real.exp_zero, mul_one]

example : USSA.pressure 20063 = .ok 5474.8 := by
  have := (C60_boundary_partial 2 (by decide)).2
  simp only [row] at this
  norm_num at this ⊢
  exact this

end Verif.Atmo
