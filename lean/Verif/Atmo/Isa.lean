import Verif.Atmo.Model
import Mathlib.Analysis.SpecialFunctions.Pow.Deriv
import Mathlib.Tactic.LinearCombination

/-!
# Layer by layer evaluation of the ICAO atmosphere
-/

namespace Verif.Atmo.ISA

open Verif.Atmo

/-- A layer of the code: index, lower and upper end, reference altitude, temperature and density there, and gradient. -/
structure Layer where
  base : ℝ
  temp : ℝ
  dens : ℝ
  grad : ℝ

/-- The layer used for an altitude (the reference point is the upper end). -/
noncomputable def layer : Fin 9 → Layer
  | 0 => ⟨-5000, 320.65, 1.93047, -6.5e-3⟩
  | 1 => ⟨0, 288.15, 1.225, -6.5e-3⟩
  | 2 => ⟨11000, 216.65, 3.63918e-1, -6.5e-3⟩
  | 3 => ⟨20000, 216.65, 8.80345e-2, 0⟩
  | 4 => ⟨32000, 228.65, 1.32249e-2, 1.0e-3⟩
  | 5 => ⟨47000, 270.65, 1.42752e-3, 2.8e-3⟩
  | 6 => ⟨51000, 270.65, 8.616e-4, 0⟩
  | 7 => ⟨71000, 214.650, 6.42105e-5, -2.8e-3⟩
  | 8 => ⟨80000, 196.65, 1.57004e-5, -2.0e-3⟩

/-- The altitudes of layer `k`. -/
def inLayer : Fin 9 → ℝ → Prop
  | 0, h => h ≤ -5000
  | 1, h => -5000 < h ∧ h ≤ 0
  | 2, h => 0 < h ∧ h ≤ 11000
  | 3, h => 11000 < h ∧ h ≤ 20000
  | 4, h => 20000 < h ∧ h ≤ 32000
  | 5, h => 32000 < h ∧ h ≤ 47000
  | 6, h => 47000 < h ∧ h ≤ 51000
  | 7, h => 51000 < h ∧ h ≤ 71000
  | 8, h => 71000 < h ∧ h ≤ 80000

theorem inLayer_exists {h : ℝ} (hh : h ≤ 80000) : ∃ k, inLayer k h := by
  by_cases h0 : h ≤ -5000
  · exact ⟨0, h0⟩
  by_cases h1 : h ≤ 0
  · exact ⟨1, not_le.mp h0, h1⟩
  by_cases h2 : h ≤ 11000
  · exact ⟨2, not_le.mp h1, h2⟩
  by_cases h3 : h ≤ 20000
  · exact ⟨3, not_le.mp h2, h3⟩
  by_cases h4 : h ≤ 32000
  · exact ⟨4, not_le.mp h3, h4⟩
  by_cases h5 : h ≤ 47000
  · exact ⟨5, not_le.mp h4, h5⟩
  by_cases h6 : h ≤ 51000
  · exact ⟨6, not_le.mp h5, h6⟩
  by_cases h7 : h ≤ 71000
  · exact ⟨7, not_le.mp h6, h7⟩
  exact ⟨8, not_le.mp h7, hh⟩

theorem inLayer_le {k : Fin 9} {h : ℝ} (hk : inLayer k h) : h ≤ (layer k).base := by
  fin_cases k
  · exact hk
  all_goals exact hk.2

theorem baseIndex_layer {k : Fin 9} {h : ℝ} (hk : inLayer k h) : baseIndex h = .ok k := by
  unfold baseIndex altitudes
  fin_cases k
  · simp only [baseLoop]; exact if_pos hk
  · obtain ⟨a, b⟩ := hk; simp only [baseLoop]
    rw [if_neg (by linarith), if_pos b]
  · obtain ⟨a, b⟩ := hk; simp only [baseLoop]
    rw [if_neg (by linarith), if_neg (by linarith), if_pos b]
  · obtain ⟨a, b⟩ := hk; simp only [baseLoop]
    rw [if_neg (by linarith), if_neg (by linarith), if_neg (by linarith), if_pos b]
  · obtain ⟨a, b⟩ := hk; simp only [baseLoop]
    rw [if_neg (by linarith), if_neg (by linarith), if_neg (by linarith), if_neg (by linarith), if_pos b]
  · obtain ⟨a, b⟩ := hk; simp only [baseLoop]
    rw [if_neg (by linarith), if_neg (by linarith), if_neg (by linarith), if_neg (by linarith), if_neg (by linarith), if_pos b]
  · obtain ⟨a, b⟩ := hk; simp only [baseLoop]
    rw [if_neg (by linarith), if_neg (by linarith), if_neg (by linarith), if_neg (by linarith), if_neg (by linarith), if_neg (by linarith),
      if_pos b]
  · obtain ⟨a, b⟩ := hk; simp only [baseLoop]
    rw [if_neg (by linarith), if_neg (by linarith), if_neg (by linarith), if_neg (by linarith), if_neg (by linarith), if_neg (by linarith),
      if_neg (by linarith), if_pos b]
  · obtain ⟨a, b⟩ := hk; simp only [baseLoop]
    rw [if_neg (by linarith), if_neg (by linarith), if_neg (by linarith), if_neg (by linarith), if_neg (by linarith), if_neg (by linarith),
      if_neg (by linarith), if_neg (by linarith), if_pos b]

theorem baseIndex_above {h : ℝ} (hh : 80000 < h) : baseIndex h = .error .yikes := by
  unfold baseIndex altitudes
  simp only [baseLoop]
  rw [if_neg (by linarith), if_neg (by linarith), if_neg (by linarith), if_neg (by linarith), if_neg (by linarith), if_neg (by linarith),
      if_neg (by linarith), if_neg (by linarith), if_neg (by linarith)]

theorem temperature_layer {k : Fin 9} {h : ℝ} (hk : inLayer k h) :
    temperature h = .ok ((layer k).temp + (layer k).grad * (h - (layer k).base)) := by
  unfold temperature
  rw [baseIndex_layer hk]
  fin_cases k <;> rfl

theorem basePressure_layer {k : Fin 9} {h : ℝ} (hk : inLayer k h) :
    basePressure h = .ok ((layer k).dens * (rStar / molarMass) * (layer k).temp) := by
  unfold basePressure baseDensity baseTemperature
  rw [baseIndex_layer hk]
  fin_cases k <;> rfl

/-- The pressure formula of a layer. -/
noncomputable def layerPressure (k : Fin 9) (h : ℝ) : ℝ :=
  if (layer k).grad ≠ 0 then
    (layer k).dens * (rStar / molarMass) * (layer k).temp
      * (1 + (layer k).grad / (layer k).temp * (h - (layer k).base)) ^ (-g0 / (gasR * (layer k).grad))
  else (layer k).dens * (rStar / molarMass) * (layer k).temp * Real.exp (-g0 / (gasR * ((layer k).temp + (layer k).grad * (h - (layer k).base))) * (h - (layer k).base))

theorem pressure_layer {k : Fin 9} {h : ℝ} (hk : inLayer k h) : pressure h = .ok (layerPressure k h) := by
  have hgi : gradientIndex k = .ok (k - 1) := by
    fin_cases k <;> rfl
  have h1 : get temperatures k = .ok (layer k).temp := by fin_cases k <;> rfl
  have h2 : get gradients (k - 1) = .ok (layer k).grad := by fin_cases k <;> rfl
  have h3 : get altitudes k = .ok (layer k).base := by fin_cases k <;> rfl
  unfold pressure
  rw [baseIndex_layer hk, basePressure_layer hk, temperature_layer hk]
  simp only [bind, Except.bind, hgi, h1, h2, h3, layerPressure]
  by_cases hg : (layer k).grad ≠ 0
  · rw [if_pos hg, if_pos hg]; rfl
  · rw [if_neg hg, if_neg hg]; rfl

/-- The temperature is positive wherever a layer's formula is used. -/
theorem layer_temp_pos {k : Fin 9} {h : ℝ} (hk : inLayer k h) : 196.65 ≤ (layer k).temp + (layer k).grad * (h - (layer k).base) := by
  fin_cases k <;> simp only [layer, inLayer] at hk ⊢
  · norm_num; linarith
  all_goals
    obtain ⟨a, b⟩ := hk
    norm_num
    try linarith

/-- Each layer's pressure formula solves the hydrostatic equation. -/
theorem layer_hydrostatic (k : Fin 9) (h : ℝ) (hpos : 0 < (layer k).temp + (layer k).grad * (h - (layer k).base)) :
    HasDerivAt (layerPressure k) (-g0 / (gasR * ((layer k).temp + (layer k).grad * (h - (layer k).base))) * layerPressure k h) h := by
  have hT : 0 < (layer k).temp := by fin_cases k <;> norm_num [layer]
  have hR : (0 : ℝ) < gasR := by norm_num [gasR]
  set L := layer k with hL
  by_cases hg : L.grad ≠ 0
  · have e : layerPressure k = fun h => L.dens * (rStar / molarMass) * L.temp * (1 + L.grad / L.temp * (h - L.base)) ^ (-g0 / (gasR * L.grad)) := by
      funext x; unfold layerPressure; rw [← hL, if_pos hg]
    rw [e]
    have hb : (1 + L.grad / L.temp * (h - L.base)) = (L.temp + L.grad * (h - L.base)) / L.temp := by field_simp
    have hb0 : 0 < 1 + L.grad / L.temp * (h - L.base) := by rw [hb]; positivity
    have hin : HasDerivAt (fun h : ℝ => 1 + L.grad / L.temp * (h - L.base)) (L.grad / L.temp) h := by
      have := (((hasDerivAt_id h).sub_const L.base).const_mul (L.grad / L.temp)).const_add 1
      simpa using this
    have hp := (hin.rpow_const (p := -g0 / (gasR * L.grad)) (Or.inl hb0.ne')).const_mul (L.dens * (rStar / molarMass) * L.temp)
    refine hp.congr_deriv ?_
    simp only
    rw [Real.rpow_sub_one hb0.ne', hb]
    field_simp
  · have hg0 : L.grad = 0 := not_not.mp hg
    have e : layerPressure k = fun h => L.dens * (rStar / molarMass) * L.temp * Real.exp (-g0 / (gasR * L.temp) * (h - L.base)) := by
      funext x; unfold layerPressure; rw [← hL, if_neg hg, hg0, zero_mul, add_zero]
    rw [e, hg0, zero_mul, add_zero]
    have hin : HasDerivAt (fun h : ℝ => -g0 / (gasR * L.temp) * (h - L.base)) (-g0 / (gasR * L.temp)) h := by
      have := ((hasDerivAt_id h).sub_const L.base).const_mul (-g0 / (gasR * L.temp))
      simpa using this
    have hp := hin.exp.const_mul (L.dens * (rStar / molarMass) * L.temp)
    refine hp.congr_deriv ?_
    ring

theorem layerPressure_pos (k : Fin 9) (h : ℝ) (hpos : 0 < (layer k).temp + (layer k).grad * (h - (layer k).base)) :
    0 < layerPressure k h := by
  have hT : 0 < (layer k).temp := by fin_cases k <;> norm_num [layer]
  have hd : 0 < (layer k).dens := by fin_cases k <;> norm_num [layer]
  have hR : (0 : ℝ) < rStar / molarMass := by norm_num [rStar, molarMass]
  unfold layerPressure
  have hb : (1 + (layer k).grad / (layer k).temp * (h - (layer k).base)) = ((layer k).temp + (layer k).grad * (h - (layer k).base)) / (layer k).temp := by field_simp
  by_cases hg : (layer k).grad ≠ 0
  · rw [if_pos hg, hb]; positivity
  · rw [if_neg hg]; positivity

/-- At its reference altitude a layer's pressure is the reference pressure. -/
theorem layerPressure_base (k : Fin 9) : layerPressure k (layer k).base = (layer k).dens * (rStar / molarMass) * (layer k).temp := by
  unfold layerPressure
  by_cases hg : (layer k).grad ≠ 0
  · rw [if_pos hg]; simp
  · rw [if_neg hg]; simp

end Verif.Atmo.ISA
