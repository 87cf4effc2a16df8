import Verif.Atmo.Isa
import Mathlib.Analysis.SpecialFunctions.Integrals.Basic
import Mathlib.Analysis.Calculus.Deriv.MeanValue
import Mathlib.Analysis.Complex.Exponential

/-!
# The ICAO standard atmosphere (C59, C90)
-/

namespace Verif.Atmo

open ISA

/-- Temperature of the standard: 288.15 K at sea level, and from there the lapse rates of the layers accumulated up to the altitude: −6.5
K/km up to 11 km, 0 up to 20 km, +1 K/km up to 32 km, +2.8 K/km up to 47 km, 0 up to 51 km, −2.8 K/km up to 71 km, −2 K/km above. -/
noncomputable def standardTemperature (h : ℝ) : ℝ :=
  288.15 - 0.0065 * min h 11000 + 0.001 * max 0 (min h 32000 - 20000) + 0.0028 * max 0 (min h 47000 - 32000)
    - 0.0028 * max 0 (min h 71000 - 51000) - 0.002 * max 0 (h - 71000)

/-- The value of a result, zero for an error. -/
noncomputable def value : Except Fault ℝ → ℝ
  | .ok v => v
  | .error _ => 0

theorem temperature_standard {h : ℝ} (hh : h ≤ 80000) : ISA.temperature h = .ok (standardTemperature h) := by
  obtain ⟨k, hk⟩ := inLayer_exists hh
  rw [temperature_layer hk]
  congr 1
  unfold standardTemperature
  fin_cases k <;> simp only [layer, inLayer] at hk ⊢
  · rw [min_eq_left (by linarith), min_eq_left (by linarith), min_eq_left (by linarith), min_eq_left (by linarith), max_eq_left (by linarith),
      max_eq_left (by linarith), max_eq_left (by linarith), max_eq_left (by linarith)]
    norm_num; linarith
  · obtain ⟨a, b⟩ := hk
    rw [min_eq_left (by linarith), min_eq_left (by linarith), min_eq_left (by linarith), min_eq_left (by linarith), max_eq_left (by linarith),
      max_eq_left (by linarith), max_eq_left (by linarith), max_eq_left (by linarith)]
    norm_num; linarith
  · obtain ⟨a, b⟩ := hk
    rw [min_eq_left (by linarith), min_eq_left (by linarith), min_eq_left (by linarith), min_eq_left (by linarith), max_eq_left (by linarith),
      max_eq_left (by linarith), max_eq_left (by linarith), max_eq_left (by linarith)]
    norm_num; linarith
  · obtain ⟨a, b⟩ := hk
    rw [min_eq_right (by linarith), min_eq_left (by linarith), min_eq_left (by linarith), min_eq_left (by linarith), max_eq_left (by linarith),
      max_eq_left (by linarith), max_eq_left (by linarith), max_eq_left (by linarith)]
    norm_num
  · obtain ⟨a, b⟩ := hk
    rw [min_eq_right (by linarith), min_eq_left (by linarith), min_eq_left (by linarith), min_eq_left (by linarith), max_eq_right (by linarith),
      max_eq_left (by linarith), max_eq_left (by linarith), max_eq_left (by linarith)]
    norm_num; linarith
  · obtain ⟨a, b⟩ := hk
    rw [min_eq_right (by linarith), min_eq_right (by linarith), min_eq_left (by linarith), min_eq_left (by linarith), max_eq_right (by linarith),
      max_eq_right (by linarith), max_eq_left (by linarith), max_eq_left (by linarith)]
    norm_num; linarith
  · obtain ⟨a, b⟩ := hk
    rw [min_eq_right (by linarith), min_eq_right (by linarith), min_eq_right (by linarith), min_eq_left (by linarith), max_eq_right (by linarith),
      max_eq_right (by linarith), max_eq_left (by linarith), max_eq_left (by linarith)]
    norm_num
  · obtain ⟨a, b⟩ := hk
    rw [min_eq_right (by linarith), min_eq_right (by linarith), min_eq_right (by linarith), min_eq_left (by linarith), max_eq_right (by linarith),
      max_eq_right (by linarith), max_eq_right (by linarith), max_eq_left (by linarith)]
    norm_num; linarith
  · obtain ⟨a, b⟩ := hk
    rw [min_eq_right (by linarith), min_eq_right (by linarith), min_eq_right (by linarith), min_eq_right (by linarith), max_eq_right (by linarith),
      max_eq_right (by linarith), max_eq_right (by linarith), max_eq_right (by linarith)]
    norm_num; linarith

/-- C59. Temperature, pressure and density are defined exactly up to 80 km (geopotential), and an error, not a panic, is returned above. The
temperature is the standard's, which is continuous, and never below 196.65 K there. -/
theorem C59_temperature :
    (∀ h, h ≤ 80000 → ISA.temperature h = .ok (standardTemperature h) ∧ 196.65 ≤ standardTemperature h) ∧
    (∀ h, 80000 < h → ISA.temperature h = .error .yikes ∧ ISA.pressure h = .error .yikes ∧ ISA.density h = .error .yikes) ∧
    Continuous standardTemperature := by
  refine ⟨fun h hh => ⟨temperature_standard hh, ?_⟩, fun h hh => ?_, ?_⟩
  · obtain ⟨k, hk⟩ := inLayer_exists hh
    have h1 := temperature_standard hh
    rw [temperature_layer hk] at h1
    rw [← Except.ok.inj h1]
    exact layer_temp_pos hk
  · have hb := baseIndex_above hh
    have ht : ISA.temperature h = .error .yikes := by unfold ISA.temperature; rw [hb]; rfl
    have hp : ISA.pressure h = .error .yikes := by unfold ISA.pressure; rw [hb]; rfl
    refine ⟨ht, hp, ?_⟩
    unfold ISA.density
    rw [ht]; rfl
  · unfold standardTemperature
    fun_prop

/-- C59. Up to 80 km pressure and density are positive and satisfy the gas law with the molar mass of air. -/
theorem C59_gas_law (h : ℝ) (hh : h ≤ 80000) : ∃ p ρ, ISA.pressure h = .ok p ∧ ISA.density h = .ok ρ ∧ 0 < p ∧ 0 < ρ ∧
    p = ρ * (8314.32 / 28.96442) * standardTemperature h := by
  obtain ⟨k, hk⟩ := inLayer_exists hh
  have hT := C59_temperature.1 h hh
  have hpos : 0 < standardTemperature h := by have := hT.2; norm_num at this; linarith
  have hp := pressure_layer hk
  have hp0 : 0 < layerPressure k h := layerPressure_pos k h (by have := layer_temp_pos hk; norm_num at this ⊢; linarith)
  have hR : (0 : ℝ) < rStar / molarMass := by norm_num [rStar, molarMass]
  refine ⟨_, layerPressure k h / (rStar / molarMass * standardTemperature h), hp, ?_, hp0, ?_, ?_⟩
  · unfold ISA.density; rw [hT.1, hp]; rfl
  · positivity
  · have : (8314.32 / 28.96442 : ℝ) = rStar / molarMass := by norm_num [rStar, molarMass]
    rw [this, mul_assoc, div_mul_cancel₀ _ (by positivity)]

/-- The ends of the layers. -/
def ends : List ℝ := [-5000, 0, 11000, 20000, 32000, 47000, 51000, 71000]

/-- C59. Inside every layer the pressure solves the hydrostatic equation `dp/dh = -g₀ p / (R T)` with the standard's temperature, gravity
9.80665 and gas constant 287.05287. -/
theorem C59_hydrostatic (h : ℝ) (hh : h < 80000) (hne : h ∉ ends) :
    HasDerivAt (fun h => value (ISA.pressure h)) (-9.80665 / (287.05287 * standardTemperature h) * value (ISA.pressure h)) h := by
  obtain ⟨k, hk⟩ := inLayer_exists hh.le
  have hT := C59_temperature.1 h hh.le
  have hev : ∀ᶠ x in nhds h, inLayer k x := by
    simp only [ends, List.mem_cons, List.not_mem_nil, or_false, not_or] at hne
    obtain ⟨n0, n1, n2, n3, n4, n5, n6, n7⟩ := hne
    have lt : ∀ {a : ℝ}, h ≤ a → h ≠ a → ∀ᶠ x in nhds h, x ≤ a := fun h1 h2 =>
      (eventually_lt_nhds (lt_of_le_of_ne h1 h2)).mono fun x hx => hx.le
    have gt : ∀ {a : ℝ}, a < h → ∀ᶠ x in nhds h, a < x := fun h1 => eventually_gt_nhds h1
    fin_cases k <;> simp only [inLayer] at hk ⊢
    · exact lt hk n0
    · exact (gt hk.1).and (lt hk.2 n1)
    · exact (gt hk.1).and (lt hk.2 n2)
    · exact (gt hk.1).and (lt hk.2 n3)
    · exact (gt hk.1).and (lt hk.2 n4)
    · exact (gt hk.1).and (lt hk.2 n5)
    · exact (gt hk.1).and (lt hk.2 n6)
    · exact (gt hk.1).and (lt hk.2 n7)
    · exact (gt hk.1).and (lt hk.2 hh.ne)
  have hpos : 0 < (layer k).temp + (layer k).grad * (h - (layer k).base) := by have := layer_temp_pos hk; norm_num at this; linarith
  have hd := layer_hydrostatic k h hpos
  have e1 : (layer k).temp + (layer k).grad * (h - (layer k).base) = standardTemperature h := by
    have := temperature_layer hk
    rw [hT.1] at this
    exact (Except.ok.inj this).symm
  have e2 : value (ISA.pressure h) = layerPressure k h := by rw [pressure_layer hk]; rfl
  rw [e2, ← e1]
  refine (hd.congr_of_eventuallyEq ?_).congr_deriv ?_
  · exact hev.mono fun x hx => by simp only [pressure_layer hx]; rfl
  · norm_num [g0, gasR]

/-- C59. At the layer ends the density is the tabulated one of the standard. -/
theorem C59_reference :
    ISA.density 0 = .ok 1.225 ∧ ISA.density (-5000) = .ok 1.93047 ∧ ISA.density 11000 = .ok 0.363918 ∧ ISA.density 20000 = .ok 0.0880345 ∧
    ISA.density 32000 = .ok 0.0132249 ∧ ISA.density 47000 = .ok 0.00142752 ∧ ISA.density 51000 = .ok 0.0008616 ∧
    ISA.density 71000 = .ok 0.0000642105 ∧ ISA.density 80000 = .ok 0.0000157004 := by
  have key : ∀ k : Fin 9, inLayer k (layer k).base → ISA.density (layer k).base = .ok (layer k).dens := by
    intro k hk
    have hT : 0 < (layer k).temp := by fin_cases k <;> norm_num [layer]
    have hR : (0 : ℝ) < rStar := by norm_num [rStar]
    have hM : (0 : ℝ) < molarMass := by norm_num [molarMass]
    unfold ISA.density
    rw [temperature_layer hk, pressure_layer hk, layerPressure_base]
    simp only [bind, Except.bind, pure, Except.pure, sub_self, mul_zero, add_zero]
    congr 1
    field_simp
  refine ⟨?_, ?_, ?_, ?_, ?_, ?_, ?_, ?_, ?_⟩
  · exact key 1 (by norm_num [inLayer, layer])
  · exact key 0 (by norm_num [inLayer, layer])
  · refine (key 2 (by norm_num [inLayer, layer])).trans ?_; norm_num [layer]
  · refine (key 3 (by norm_num [inLayer, layer])).trans ?_; norm_num [layer]
  · refine (key 4 (by norm_num [inLayer, layer])).trans ?_; norm_num [layer]
  · refine (key 5 (by norm_num [inLayer, layer])).trans ?_; norm_num [layer]
  · refine (key 6 (by norm_num [inLayer, layer])).trans ?_; norm_num [layer]
  · refine (key 7 (by norm_num [inLayer, layer])).trans ?_; norm_num [layer]
  · refine (key 8 (by norm_num [inLayer, layer])).trans ?_; norm_num [layer]

/-- C59. The altitude conversions are inverse to each other; gravity falls with the inverse square of the distance from the centre; and the
geopotential altitude is the work against gravity divided by sea-level gravity. -/
theorem C59_geopotential :
    (∀ z : ℝ, z ≠ -6356766 → ISA.geometric (ISA.geopotential z) = z) ∧
    (∀ h : ℝ, h ≠ 6356766 → ISA.geopotential (ISA.geometric h) = h) ∧
    (∀ z : ℝ, ISA.gravity z * (6356766 + z) ^ 2 = 9.80665 * 6356766 ^ 2 ∨ z = -6356766) ∧
    (∀ z : ℝ, -6356766 < z → 9.80665 * ISA.geopotential z = ∫ s in (0 : ℝ)..z, ISA.gravity s) := by
  refine ⟨fun z hz => ?_, fun h hh => ?_, fun z => ?_, fun z hz => ?_⟩
  · have h1 : (6356766 : ℝ) + z ≠ 0 := fun e => hz (by linarith)
    unfold ISA.geometric ISA.geopotential earthRadius
    have h2 : (6356766 : ℝ) - 6356766 * z / (6356766 + z) ≠ 0 := by
      have : (6356766 : ℝ) - 6356766 * z / (6356766 + z) = 6356766 ^ 2 / (6356766 + z) := by field_simp; ring
      rw [this]; positivity
    field_simp
    ring
  · have h1 : (6356766 : ℝ) - h ≠ 0 := fun e => hh (by linarith)
    unfold ISA.geometric ISA.geopotential earthRadius
    have h2 : (6356766 : ℝ) + 6356766 * h / (6356766 - h) ≠ 0 := by
      have : (6356766 : ℝ) + 6356766 * h / (6356766 - h) = 6356766 ^ 2 / (6356766 - h) := by field_simp; ring
      rw [this]; positivity
    field_simp
    ring
  · by_cases hz : z = -6356766
    · exact Or.inr hz
    · left
      have h1 : (6356766 : ℝ) + z ≠ 0 := fun e => hz (by linarith)
      unfold ISA.gravity earthRadius g0
      rw [Real.rpow_two]
      field_simp
  · have hd : ∀ s ∈ Set.uIcc 0 z, HasDerivAt (fun s => 9.80665 * ISA.geopotential s) (ISA.gravity s) s := by
      intro s hs
      have hs0 : -6356766 < s := by
        rcases le_total 0 z with h | h
        · rw [Set.uIcc_of_le h] at hs; linarith [hs.1]
        · rw [Set.uIcc_of_ge h] at hs; linarith [hs.1]
      have h1 : (6356766 : ℝ) + s ≠ 0 := by intro e; linarith
      unfold ISA.geopotential earthRadius
      have hn : HasDerivAt (fun s : ℝ => 6356766 * s) 6356766 s := by simpa using (hasDerivAt_id s).const_mul (6356766 : ℝ)
      have hdn : HasDerivAt (fun s : ℝ => 6356766 + s) 1 s := (hasDerivAt_id s).const_add _
      refine ((hn.div hdn h1).const_mul (9.80665 : ℝ)).congr_deriv ?_
      unfold ISA.gravity earthRadius g0
      rw [Real.rpow_two]
      field_simp
      ring
    have hc : ContinuousOn ISA.gravity (Set.uIcc 0 z) := by
      unfold ISA.gravity
      have : ∀ s ∈ Set.uIcc 0 z, earthRadius + s ≠ 0 := by
        intro s hs
        unfold earthRadius
        rcases le_total 0 z with h | h
        · rw [Set.uIcc_of_le h] at hs; intro e; linarith [hs.1]
        · rw [Set.uIcc_of_ge h] at hs; intro e; linarith [hs.1]
      simp only [Real.rpow_two]
      exact continuousOn_const.mul ((continuousOn_const.div (continuousOn_const.add continuousOn_id) this).pow 2)
    rw [intervalIntegral.integral_eq_sub_of_hasDerivAt hd hc.intervalIntegrable]
    simp [ISA.geopotential]

/-- Sea level and 30 km meet the hypotheses; so does a point inside the troposphere. -/
example : (0 : ℝ) ≤ 80000 ∧ (30000 : ℝ) ≤ 80000 ∧ (5000 : ℝ) < 80000 ∧ (5000 : ℝ) ∉ ends := by
  refine ⟨by norm_num, by norm_num, by norm_num, ?_⟩
  simp only [ends, List.mem_cons, List.not_mem_nil, or_false, not_or]
  norm_num

example : standardTemperature 5000 = 255.65 := by
  unfold standardTemperature
  norm_num

/-! ## Does the pressure fall with altitude? -/

theorem rpow_le_of {x e y : ℝ} {p q : ℕ} (hx : 1 ≤ x) (hy : 0 ≤ y) (hq : 0 < q) (he : e * q ≤ p) (h : x ^ p ≤ y ^ q) : x ^ e ≤ y := by
  have hq' : (0 : ℝ) < q := by exact_mod_cast hq
  have h1 : x ^ e ≤ x ^ ((p : ℝ) / q) := Real.rpow_le_rpow_of_exponent_le hx (by rwa [le_div_iff₀ hq'])
  have h2 : (x ^ ((p : ℝ) / q)) ^ q = x ^ p := by
    rw [← Real.rpow_natCast, ← Real.rpow_mul (by linarith), div_mul_cancel₀ _ hq'.ne', Real.rpow_natCast]
  exact le_trans h1 (le_of_pow_le_pow_left₀ hq.ne' hy (by rw [h2]; exact h))

theorem lt_rpow_of {x e y : ℝ} {p q : ℕ} (hx : 1 ≤ x) (hq : 0 < q) (he : p ≤ e * q) (h : y ^ q < x ^ p) : y < x ^ e := by
  have hq' : (0 : ℝ) < q := by exact_mod_cast hq
  have h1 : x ^ ((p : ℝ) / q) ≤ x ^ e := Real.rpow_le_rpow_of_exponent_le hx (by rwa [div_le_iff₀ hq'])
  have h2 : (x ^ ((p : ℝ) / q)) ^ q = x ^ p := by
    rw [← Real.rpow_natCast, ← Real.rpow_mul (by linarith), div_mul_cancel₀ _ hq'.ne', Real.rpow_natCast]
  refine lt_of_lt_of_le (lt_of_pow_lt_pow_left₀ q (by positivity) ?_) h1
  rw [h2]; exact h

theorem nat_pow_le {a b c d : ℕ} {p q : ℕ} (hb : 0 < b) (hd : 0 < d) (h : a ^ p * d ^ q ≤ c ^ q * b ^ p) :
    ((a : ℝ) / b) ^ p ≤ ((c : ℝ) / d) ^ q := by
  rw [div_pow, div_pow, div_le_div_iff₀ (by positivity) (by positivity)]
  exact_mod_cast h

theorem nat_pow_lt {a b c d : ℕ} {p q : ℕ} (hb : 0 < b) (hd : 0 < d) (h : a ^ p * d ^ q < c ^ q * b ^ p) :
    ((a : ℝ) / b) ^ p < ((c : ℝ) / d) ^ q := by
  rw [div_pow, div_pow, div_lt_div_iff₀ (by positivity) (by positivity)]
  exact_mod_cast h

/-- A layer's pressure falls. -/
theorem layer_anti {k : Fin 9} {a b : ℝ} (hab : a < b) (ha : 0 < (layer k).temp + (layer k).grad * (a - (layer k).base))
    (hb : 0 < (layer k).temp + (layer k).grad * (b - (layer k).base)) : layerPressure k b < layerPressure k a := by
  have hpos : ∀ x ∈ Set.Icc a b, 0 < (layer k).temp + (layer k).grad * (x - (layer k).base) := by
    intro x hx
    rcases le_total 0 (layer k).grad with h | h
    · nlinarith [mul_le_mul_of_nonneg_left hx.1 h]
    · nlinarith [mul_le_mul_of_nonpos_left hx.2 h]
  have hd := fun x hx => layer_hydrostatic k x (hpos x hx)
  have hanti : StrictAntiOn (layerPressure k) (Set.Icc a b) := by
    refine strictAntiOn_of_deriv_neg (convex_Icc a b) (fun x hx => (hd x hx).continuousAt.continuousWithinAt) fun x hx => ?_
    rw [interior_Icc] at hx
    have hx' := Set.Ioo_subset_Icc_self hx
    rw [(hd x hx').deriv]
    refine mul_neg_of_neg_of_pos ?_ (layerPressure_pos k x (hpos x hx'))
    have h1 : (0 : ℝ) < gasR := by norm_num [gasR]
    have h2 : (0 : ℝ) < g0 := by norm_num [g0]
    have := hpos x hx'
    exact div_neg_of_neg_of_pos (by linarith) (by positivity)
  exact hanti ⟨le_rfl, hab.le⟩ ⟨hab.le, le_rfl⟩ hab

/-- The reference pressure of a layer, without the gas constant. -/
noncomputable def ref (k : Fin 9) : ℝ := (layer k).dens * (layer k).temp

theorem exp_le_of {x : ℝ} (h0 : 0 ≤ x) (h1 : x ≤ 1) :
    Real.exp x ≤ 1 + x + x ^ 2 / 2 + x ^ 3 / 6 + x ^ 4 / 24 + x ^ 5 / 120 + x ^ 6 / 720 + x ^ 7 / 5040 + x ^ 8 / 40320 + x ^ 9 / 362880 + x ^ 10 * 11 / 36288000 := by
  have := Real.exp_bound' h0 h1 (n := 10) (by norm_num)
  simp only [Finset.sum_range_succ, Finset.sum_range_zero, Nat.factorial] at this
  norm_num at this
  linarith

set_option exponentiation.threshold 100000 in
/-- Going up through a layer end the reference pressure rises by less than 5 parts in a million. -/
theorem jump (k : Fin 8) : layerPressure k.succ (layer k.castSucc).base ≤ (1 + 5e-6) * layerPressure k.castSucc (layer k.castSucc).base := by
  have hR : (0 : ℝ) < rStar / molarMass := by norm_num [rStar, molarMass]
  have scale : ∀ {a b t u y : ℝ}, 0 < a * t → y * (a * t) = (1 + 5e-6) * (b * u) → ∀ {v : ℝ}, v ≤ y →
      a * (rStar / molarMass) * t * v ≤ (1 + 5e-6) * (b * (rStar / molarMass) * u) := by
    intro a b t u y h0 hy v hv
    have h1 : a * (rStar / molarMass) * t * v = (rStar / molarMass) * ((a * t) * v) := by ring
    have h2 : (1 + 5e-6) * (b * (rStar / molarMass) * u) = (rStar / molarMass) * (y * (a * t)) := by rw [hy]; ring
    rw [h1, h2]
    refine mul_le_mul_of_nonneg_left ?_ hR.le
    rw [mul_comm y]
    exact mul_le_mul_of_nonneg_left hv h0.le
  fin_cases k
  · show layerPressure 1 (layer 0).base ≤ (1 + 5e-6) * layerPressure 0 (layer 0).base
    rw [layerPressure_base]
    unfold layerPressure
    rw [if_pos (show (layer 1).grad ≠ 0 by norm_num [layer])]
    simp only [layer]
    refine scale (y := ((82534440070137 : ℕ) : ℝ) / (47064500000000 : ℕ)) (by norm_num) (by norm_num) ?_
    have e : (1 + -6.5e-3 / 288.15 * (-5000 - 0) : ℝ) = ((6413 : ℕ) : ℝ) / (5763 : ℕ) := by norm_num
    rw [e]
    exact rpow_le_of (p := 1109) (q := 211) (by norm_num) (by positivity) (by norm_num) (by norm_num [g0, gasR])
      (nat_pow_le (by norm_num) (by norm_num) (by decide +kernel))
  · show layerPressure 2 (layer 1).base ≤ (1 + 5e-6) * layerPressure 1 (layer 1).base
    rw [layerPressure_base]
    unfold layerPressure
    rw [if_pos (show (layer 2).grad ≠ 0 by norm_num [layer])]
    simp only [layer]
    refine scale (y := ((2689413447 : ℕ) : ℝ) / (600707312 : ℕ)) (by norm_num) (by norm_num) ?_
    have e : (1 + -6.5e-3 / 216.65 * (0 - 11000) : ℝ) = ((5763 : ℕ) : ℝ) / (4333 : ℕ) := by norm_num
    rw [e]
    exact rpow_le_of (p := 1561) (q := 297) (by norm_num) (by positivity) (by norm_num) (by norm_num [g0, gasR])
      (nat_pow_le (by norm_num) (by norm_num) (by decide +kernel))
  · show layerPressure 3 (layer 2).base ≤ (1 + 5e-6) * layerPressure 2 (layer 2).base
    rw [layerPressure_base]
    unfold layerPressure
    rw [if_neg (show ¬ (layer 3).grad ≠ 0 by norm_num [layer])]
    simp only [layer]
    refine scale (y := 36391981959 / 8803450000) (by norm_num) (by norm_num) ?_
    have e : (-g0 / (gasR * (216.65 + 0 * (11000 - 20000))) * (11000 - 20000) : ℝ) = 4202850000 / 5922857551 + 4202850000 / 5922857551 := by
      norm_num [g0, gasR]
    rw [e, Real.exp_add]
    have hb := exp_le_of (x := 4202850000 / 5922857551) (by norm_num) (by norm_num)
    have hp := Real.exp_pos (4202850000 / 5922857551)
    refine le_trans (mul_le_mul hb hb hp.le (le_trans hp.le hb)) ?_
    norm_num
  · show layerPressure 4 (layer 3).base ≤ (1 + 5e-6) * layerPressure 3 (layer 3).base
    rw [layerPressure_base]
    unfold layerPressure
    rw [if_pos (show (layer 4).grad ≠ 0 by norm_num [layer])]
    simp only [layer]
    refine scale (y := ((2991807025627 : ℕ) : ℝ) / (474333080000 : ℕ)) (by norm_num) (by norm_num) ?_
    have e : (1 + 1.0e-3 / 228.65 * (20000 - 32000) : ℝ) = (((4573 : ℕ) : ℝ) / (4333 : ℕ))⁻¹ := by norm_num
    rw [e, Real.inv_rpow (by positivity), ← Real.rpow_neg (by positivity)]
    exact rpow_le_of (p := 1674) (q := 49) (by norm_num) (by positivity) (by norm_num) (by norm_num [g0, gasR])
      (nat_pow_le (by norm_num) (by norm_num) (by decide +kernel))
  · show layerPressure 5 (layer 4).base ≤ (1 + 5e-6) * layerPressure 4 (layer 4).base
    rw [layerPressure_base]
    unfold layerPressure
    rw [if_pos (show (layer 5).grad ≠ 0 by norm_num [layer])]
    simp only [layer]
    refine scale (y := ((40318513391559 : ℕ) : ℝ) / (5151443840000 : ℕ)) (by norm_num) (by norm_num) ?_
    have e : (1 + 2.8e-3 / 270.65 * (32000 - 47000) : ℝ) = (((5413 : ℕ) : ℝ) / (4573 : ℕ))⁻¹ := by norm_num
    rw [e, Real.inv_rpow (by positivity), ← Real.rpow_neg (by positivity)]
    exact rpow_le_of (p := 4185) (q := 343) (by norm_num) (by positivity) (by norm_num) (by norm_num [g0, gasR])
      (nat_pow_le (by norm_num) (by norm_num) (by decide +kernel))
  · show layerPressure 6 (layer 5).base ≤ (1 + 5e-6) * layerPressure 5 (layer 5).base
    rw [layerPressure_base]
    unfold layerPressure
    rw [if_neg (show ¬ (layer 6).grad ≠ 0 by norm_num [layer])]
    simp only [layer]
    refine scale (y := 297401487 / 179500000) (by norm_num) (by norm_num) ?_
    have e : (-g0 / (gasR * (270.65 + 0 * (47000 - 51000))) * (47000 - 51000) : ℝ) = 78453200000 / 155381718531 := by
      norm_num [g0, gasR]
    rw [e]
    refine le_trans (exp_le_of (by norm_num) (by norm_num)) ?_
    norm_num
  · show layerPressure 7 (layer 6).base ≤ (1 + 5e-6) * layerPressure 6 (layer 6).base
    rw [layerPressure_base]
    unfold layerPressure
    rw [if_pos (show (layer 7).grad ≠ 0 by norm_num [layer])]
    simp only [layer]
    refine scale (y := ((129551781089 : ℕ) : ℝ) / (7657102125 : ℕ)) (by norm_num) (by norm_num) ?_
    have e : (1 + -2.8e-3 / 214.650 * (51000 - 71000) : ℝ) = ((5413 : ℕ) : ℝ) / (4293 : ℕ) := by norm_num
    rw [e]
    exact rpow_le_of (p := 4185) (q := 343) (by norm_num) (by positivity) (by norm_num) (by norm_num [g0, gasR])
      (nat_pow_le (by norm_num) (by norm_num) (by decide +kernel))
  · show layerPressure 8 (layer 7).base ≤ (1 + 5e-6) * layerPressure 7 (layer 7).base
    rw [layerPressure_base]
    unfold layerPressure
    rw [if_pos (show (layer 8).grad ≠ 0 by norm_num [layer])]
    simp only [layer]
    refine scale (y := ((644811824043 : ℕ) : ℝ) / (144443680000 : ℕ)) (by norm_num) (by norm_num) ?_
    have e : (1 + -2.0e-3 / 196.65 * (71000 - 80000) : ℝ) = ((477 : ℕ) : ℝ) / (437 : ℕ) := by norm_num
    rw [e]
    exact rpow_le_of (p := 837) (q := 49) (by norm_num) (by positivity) (by norm_num) (by norm_num [g0, gasR])
      (nat_pow_le (by norm_num) (by norm_num) (by decide +kernel))

theorem ref_anti {i j : Fin 9} (h : i ≤ j) : layerPressure j (layer j).base ≤ layerPressure i (layer i).base := by
  have hR : (0 : ℝ) < rStar / molarMass := by norm_num [rStar, molarMass]
  have step : ∀ k : Fin 8, ref k.succ ≤ ref k.castSucc := by
    intro k
    fin_cases k <;> norm_num [ref, layer]
  have hm : Antitone ref := Fin.antitone_iff_succ_le.mpr step
  rw [layerPressure_base, layerPressure_base]
  have e : ∀ k : Fin 9, (layer k).dens * (rStar / molarMass) * (layer k).temp = ref k * (rStar / molarMass) := fun k => by unfold ref; ring
  rw [e, e]
  exact mul_le_mul_of_nonneg_right (hm h) hR.le

/-- C90, partial. Between any two altitudes the pressure at the higher one is below the pressure at the lower one, up to 5 parts in a million.
(What is missing: `C90_fails`, it is not always lower.) -/
theorem C90_partial (a b p q : ℝ) (hab : a < b) (hp : ISA.pressure a = .ok p) (hq : ISA.pressure b = .ok q) : q < p * (1 + 5e-6) := by
  have hb80 : b ≤ 80000 := by
    by_contra h
    rw [(C59_temperature.2.1 b (not_le.mp h)).2.1] at hq
    cases hq
  obtain ⟨i, hi⟩ := inLayer_exists (hab.le.trans hb80)
  obtain ⟨j, hj⟩ := inLayer_exists hb80
  have e1 : p = layerPressure i a := by rw [pressure_layer hi] at hp; exact (Except.ok.inj hp).symm
  have e2 : q = layerPressure j b := by rw [pressure_layer hj] at hq; exact (Except.ok.inj hq).symm
  have ta : 0 < (layer i).temp + (layer i).grad * (a - (layer i).base) := by have := layer_temp_pos hi; norm_num at this; linarith
  have tb : 0 < (layer j).temp + (layer j).grad * (b - (layer j).base) := by have := layer_temp_pos hj; norm_num at this; linarith
  have hp0 : 0 < layerPressure i a := layerPressure_pos i a ta
  have hij : i ≤ j := by
    by_contra h
    have hji : j < i := not_le.mp h
    have h1 := inLayer_le hj
    have h2 : (layer j).base < a := by
      fin_cases i <;> fin_cases j <;> first
        | (exfalso; revert hji; decide)
        | (simp only [inLayer, layer] at hi ⊢; linarith [hi.1])
    linarith
  rw [e1, e2]
  rcases eq_or_lt_of_le hij with rfl | hlt
  · have := layer_anti hab ta tb
    nlinarith
  · obtain ⟨m, rfl⟩ : ∃ m : Fin 8, j = m.succ := Fin.exists_succ_eq.mpr (by rintro rfl; exact absurd hlt (Fin.not_lt_zero _)) |>.imp fun _ h => h.symm
    have him : i ≤ m.castSucc := Fin.le_castSucc_iff.mpr hlt
    have hlow : (layer m.castSucc).base < b := by
      fin_cases m <;> simp only [Fin.succ, Fin.castSucc, inLayer, layer] at hj ⊢ <;> exact hj.1
    have tlow : 0 < (layer m.succ).temp + (layer m.succ).grad * ((layer m.castSucc).base - (layer m.succ).base) := by
      fin_cases m
      · show 0 < (layer 1).temp + (layer 1).grad * ((layer 0).base - (layer 1).base)
        norm_num [layer]
      · show 0 < (layer 2).temp + (layer 2).grad * ((layer 1).base - (layer 2).base)
        norm_num [layer]
      · show 0 < (layer 3).temp + (layer 3).grad * ((layer 2).base - (layer 3).base)
        norm_num [layer]
      · show 0 < (layer 4).temp + (layer 4).grad * ((layer 3).base - (layer 4).base)
        norm_num [layer]
      · show 0 < (layer 5).temp + (layer 5).grad * ((layer 4).base - (layer 5).base)
        norm_num [layer]
      · show 0 < (layer 6).temp + (layer 6).grad * ((layer 5).base - (layer 6).base)
        norm_num [layer]
      · show 0 < (layer 7).temp + (layer 7).grad * ((layer 6).base - (layer 7).base)
        norm_num [layer]
      · show 0 < (layer 8).temp + (layer 8).grad * ((layer 7).base - (layer 8).base)
        norm_num [layer]
    have s1 := layer_anti hlow tlow tb
    have s2 := jump m
    have s3 := ref_anti him
    have s4 : layerPressure i (layer i).base ≤ layerPressure i a := by
      rcases eq_or_lt_of_le (inLayer_le hi) with h | h
      · rw [h]
      · refine (layer_anti h ta ?_).le
        rw [sub_self, mul_zero, add_zero]
        fin_cases i <;> norm_num [layer]
    nlinarith

set_option exponentiation.threshold 100000 in
/-- C90 fails: one millimetre above sea level the pressure is higher than at sea level. -/
theorem C90_fails : ∃ a b p q : ℝ, a < b ∧ ISA.pressure a = .ok p ∧ ISA.pressure b = .ok q ∧ p < q := by
  refine ⟨0, 1 / 1000, _, _, by norm_num, pressure_layer (k := 1) (by norm_num [inLayer]), pressure_layer (k := 2) (by norm_num [inLayer]), ?_⟩
  have hb : layerPressure 1 0 = _ := layerPressure_base 1
  rw [hb]
  unfold layerPressure
  rw [if_pos (show (layer 2).grad ≠ 0 by norm_num [layer])]
  simp only [layer]
  have hR : (0 : ℝ) < rStar / molarMass := by norm_num [rStar, molarMass]
  have e : (1 + -6.5e-3 / 216.65 * (1 / 1000 - 11000) : ℝ) = ((576299987 : ℕ) : ℝ) / (433300000 : ℕ) := by norm_num
  rw [e]
  have key : ((168087500 : ℕ) : ℝ) / (37544207 : ℕ) < (((576299987 : ℕ) : ℝ) / (433300000 : ℕ)) ^ (-g0 / (gasR * -6.5e-3)) :=
    lt_rpow_of (p := 3800) (q := 723) (by norm_num) (by norm_num) (by norm_num [g0, gasR])
      (nat_pow_lt (by norm_num) (by norm_num) (by decide +kernel))
  have e2 : (1.225 * (rStar / molarMass) * 288.15 : ℝ) = 3.63918e-1 * (rStar / molarMass) * 216.65 * (((168087500 : ℕ) : ℝ) / (37544207 : ℕ)) := by
    norm_num
    ring
  rw [e2]
  exact mul_lt_mul_of_pos_left key (by positivity)

end Verif.Atmo
