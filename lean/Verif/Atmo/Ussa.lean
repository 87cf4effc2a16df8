import Verif.Atmo.Model
import Mathlib.Analysis.SpecialFunctions.Pow.Deriv
import Mathlib.Tactic.LinearCombination
import Mathlib.Analysis.Complex.ExponentialBounds

/-!
# Layer by layer evaluation of the US standard atmosphere
-/

namespace Verif.Atmo.USSA

open Verif.Atmo

/-- A row of the tables. -/
structure Row where
  base : ℝ
  temp : ℝ
  pres : ℝ
  lapse : ℝ

/-- The tables of the code. -/
noncomputable def row : Fin 12 → Row
  | 0 => ⟨0, 288.15, 101.325e3, -6.5e-3⟩
  | 1 => ⟨11019, 216.65, 226.32e2, 0⟩
  | 2 => ⟨20063, 216.65, 547.48e1, 1.0e-3⟩
  | 3 => ⟨32162, 228.650, 868.01, 2.8e-3⟩
  | 4 => ⟨47350, 270.65, 110.90, 0⟩
  | 5 => ⟨51413, 270.65, 669.38e-1, -2.8e-3⟩
  | 6 => ⟨71802, 214.650, 395.64e-2, -2.0e-3⟩
  | 7 => ⟨86000, 186.87, 373.38e-3, 0⟩
  | 8 => ⟨91000, 186.87, 153.81e-3, 0⟩
  | 9 => ⟨110000, 240, 710.42e-5, 12⟩
  | 10 => ⟨120000, 360, 253.82e-5, 12⟩
  | 11 => ⟨500000, 999.24, 302.36e-6, 0⟩

/-- The heights for which a row is used. -/
def inRow : Fin 12 → ℝ → Prop
  | 0, h => h < 11019
  | 1, h => 11019 ≤ h ∧ h < 20063
  | 2, h => 20063 ≤ h ∧ h < 32162
  | 3, h => 32162 ≤ h ∧ h < 47350
  | 4, h => 47350 ≤ h ∧ h < 51413
  | 5, h => 51413 ≤ h ∧ h < 71802
  | 6, h => 71802 ≤ h ∧ h < 86000
  | 7, h => 86000 ≤ h ∧ h < 91000
  | 8, h => 91000 ≤ h ∧ h < 110000
  | 9, h => 110000 ≤ h ∧ h < 120000
  | 10, h => 120000 ≤ h ∧ h < 500000
  | 11, h => 500000 ≤ h ∧ h < 1000000

theorem inRow_exists {h : ℝ} (hh : h < 1000000) : ∃ k, inRow k h := by
  by_cases h0 : h < 11019
  · exact ⟨0, h0⟩
  by_cases h1 : h < 20063
  · exact ⟨1, not_lt.mp h0, h1⟩
  by_cases h2 : h < 32162
  · exact ⟨2, not_lt.mp h1, h2⟩
  by_cases h3 : h < 47350
  · exact ⟨3, not_lt.mp h2, h3⟩
  by_cases h4 : h < 51413
  · exact ⟨4, not_lt.mp h3, h4⟩
  by_cases h5 : h < 71802
  · exact ⟨5, not_lt.mp h4, h5⟩
  by_cases h6 : h < 86000
  · exact ⟨6, not_lt.mp h5, h6⟩
  by_cases h7 : h < 91000
  · exact ⟨7, not_lt.mp h6, h7⟩
  by_cases h8 : h < 110000
  · exact ⟨8, not_lt.mp h7, h8⟩
  by_cases h9 : h < 120000
  · exact ⟨9, not_lt.mp h8, h9⟩
  by_cases h10 : h < 500000
  · exact ⟨10, not_lt.mp h9, h10⟩
  exact ⟨11, not_lt.mp h10, hh⟩

theorem loop_stop {h v : ℝ} {n i : ℕ} (hv : get heights (i + 1) = .ok v) (h1 : h < v) : baseLoop h (n + 1) i = .ok i := by
  simp only [baseLoop, hv, bind, Except.bind]
  rw [if_pos h1]

theorem loop_next {h v : ℝ} {n i : ℕ} (hv : get heights (i + 1) = .ok v) (h1 : v ≤ h) : baseLoop h (n + 1) i = baseLoop h n (i + 1) := by
  simp only [baseLoop, hv, bind, Except.bind]
  rw [if_neg (not_lt.mpr h1)]

theorem baseIndex_row {k : Fin 12} {h : ℝ} (hk : inRow k h) : baseIndex h = .ok k := by
  change baseLoop h 13 0 = _
  fin_cases k
  · simp only [inRow] at hk
    rw [loop_stop (v := 11019) rfl (by linarith)]
  · obtain ⟨a, b⟩ := hk
    rw [loop_next (v := 11019) rfl (by linarith), loop_stop (v := 20063) rfl (by linarith)]
  · obtain ⟨a, b⟩ := hk
    rw [loop_next (v := 11019) rfl (by linarith), loop_next (v := 20063) rfl (by linarith), loop_stop (v := 32162) rfl (by linarith)]
  · obtain ⟨a, b⟩ := hk
    rw [loop_next (v := 11019) rfl (by linarith), loop_next (v := 20063) rfl (by linarith), loop_next (v := 32162) rfl (by linarith), loop_stop (v := 47350) rfl (by linarith)]
  · obtain ⟨a, b⟩ := hk
    rw [loop_next (v := 11019) rfl (by linarith), loop_next (v := 20063) rfl (by linarith), loop_next (v := 32162) rfl (by linarith), loop_next (v := 47350) rfl (by linarith), loop_stop (v := 51413) rfl (by linarith)]
  · obtain ⟨a, b⟩ := hk
    rw [loop_next (v := 11019) rfl (by linarith), loop_next (v := 20063) rfl (by linarith), loop_next (v := 32162) rfl (by linarith), loop_next (v := 47350) rfl (by linarith), loop_next (v := 51413) rfl (by linarith), loop_stop (v := 71802) rfl (by linarith)]
  · obtain ⟨a, b⟩ := hk
    rw [loop_next (v := 11019) rfl (by linarith), loop_next (v := 20063) rfl (by linarith), loop_next (v := 32162) rfl (by linarith), loop_next (v := 47350) rfl (by linarith), loop_next (v := 51413) rfl (by linarith), loop_next (v := 71802) rfl (by linarith), loop_stop (v := 86000) rfl (by linarith)]
  · obtain ⟨a, b⟩ := hk
    rw [loop_next (v := 11019) rfl (by linarith), loop_next (v := 20063) rfl (by linarith), loop_next (v := 32162) rfl (by linarith), loop_next (v := 47350) rfl (by linarith), loop_next (v := 51413) rfl (by linarith), loop_next (v := 71802) rfl (by linarith), loop_next (v := 86000) rfl (by linarith), loop_stop (v := 91000) rfl (by linarith)]
  · obtain ⟨a, b⟩ := hk
    rw [loop_next (v := 11019) rfl (by linarith), loop_next (v := 20063) rfl (by linarith), loop_next (v := 32162) rfl (by linarith), loop_next (v := 47350) rfl (by linarith), loop_next (v := 51413) rfl (by linarith), loop_next (v := 71802) rfl (by linarith), loop_next (v := 86000) rfl (by linarith), loop_next (v := 91000) rfl (by linarith), loop_stop (v := 110000) rfl (by linarith)]
  · obtain ⟨a, b⟩ := hk
    rw [loop_next (v := 11019) rfl (by linarith), loop_next (v := 20063) rfl (by linarith), loop_next (v := 32162) rfl (by linarith), loop_next (v := 47350) rfl (by linarith), loop_next (v := 51413) rfl (by linarith), loop_next (v := 71802) rfl (by linarith), loop_next (v := 86000) rfl (by linarith), loop_next (v := 91000) rfl (by linarith), loop_next (v := 110000) rfl (by linarith), loop_stop (v := 120000) rfl (by linarith)]
  · obtain ⟨a, b⟩ := hk
    rw [loop_next (v := 11019) rfl (by linarith), loop_next (v := 20063) rfl (by linarith), loop_next (v := 32162) rfl (by linarith), loop_next (v := 47350) rfl (by linarith), loop_next (v := 51413) rfl (by linarith), loop_next (v := 71802) rfl (by linarith), loop_next (v := 86000) rfl (by linarith), loop_next (v := 91000) rfl (by linarith), loop_next (v := 110000) rfl (by linarith), loop_next (v := 120000) rfl (by linarith), loop_stop (v := 500000) rfl (by linarith)]
  · obtain ⟨a, b⟩ := hk
    rw [loop_next (v := 11019) rfl (by linarith), loop_next (v := 20063) rfl (by linarith), loop_next (v := 32162) rfl (by linarith), loop_next (v := 47350) rfl (by linarith), loop_next (v := 51413) rfl (by linarith), loop_next (v := 71802) rfl (by linarith), loop_next (v := 86000) rfl (by linarith), loop_next (v := 91000) rfl (by linarith), loop_next (v := 110000) rfl (by linarith), loop_next (v := 120000) rfl (by linarith), loop_next (v := 500000) rfl (by linarith), loop_stop (v := 1000000) rfl (by linarith)]

theorem baseIndex_above {h : ℝ} (hh : 1000000 ≤ h) : baseIndex h = .error .panic := by
  change baseLoop h 13 0 = _
  rw [loop_next (v := 11019) rfl (by linarith), loop_next (v := 20063) rfl (by linarith), loop_next (v := 32162) rfl (by linarith), loop_next (v := 47350) rfl (by linarith), loop_next (v := 51413) rfl (by linarith), loop_next (v := 71802) rfl (by linarith), loop_next (v := 86000) rfl (by linarith), loop_next (v := 91000) rfl (by linarith), loop_next (v := 110000) rfl (by linarith), loop_next (v := 120000) rfl (by linarith), loop_next (v := 500000) rfl (by linarith), loop_next (v := 1000000) rfl (by linarith)]
  rfl

/-- The temperature formula of a row. -/
noncomputable def rowTemp (k : Fin 12) (h : ℝ) : ℝ :=
  if k < 8 then (row k).temp + (row k).lapse * (h - (row k).base)
  else if k = 8 then 263.1905 - 76.3232 * Real.exp (1 - ((h - 91000) / 19942.9) ^ 2)
  else 1000 - 760 * Real.exp (-0.01875 * ((h - 110000) * (6356766 + 110000) / (6356766 + h) / 1000))

theorem get_temp (k : Fin 12) : get temperatures k = .ok (row k).temp := by fin_cases k <;> rfl
theorem get_pres (k : Fin 12) : get pressures k = .ok (row k).pres := by fin_cases k <;> rfl
theorem get_lapse (k : Fin 12) : get lapseRates k = .ok (row k).lapse := by fin_cases k <;> rfl
theorem get_base (k : Fin 12) : get heights k = .ok (row k).base := by fin_cases k <;> rfl
theorem get_gradient (k : Fin 12) : gradientIndex k = .ok k := by fin_cases k <;> rfl

theorem temperature_row {k : Fin 12} {h : ℝ} (hk : inRow k h) : temperature h = .ok (rowTemp k h) := by
  unfold temperature
  simp only [baseIndex_row hk, expect, bind, Except.bind, get_gradient, get_temp, get_lapse, get_base]
  unfold rowTemp
  by_cases h7 : k < 7
  · have h86 : h < 86000 := by
      fin_cases k <;> first | (exfalso; revert h7; decide) | (simp only [inRow] at hk; linarith)
    rw [if_pos h86, if_pos (lt_trans h7 (by decide))]; rfl
  by_cases h8 : k < 8
  · have e : k = 7 := by fin_cases k <;> first | rfl | (exfalso; revert h7 h8; decide)
    subst e
    obtain ⟨a, b⟩ := hk
    rw [if_neg (by linarith), if_pos b, if_pos h8]
    simp [row]
  by_cases h9 : k = 8
  · subst h9
    obtain ⟨a, b⟩ := hk
    rw [if_neg (by linarith), if_neg (by linarith), if_pos b, if_neg h8, if_pos rfl]
    simp only [pure, Except.pure, row, Real.rpow_two]
    congr 1
    rw [div_neg, neg_sq]
    ring
  · have h110 : 110000 ≤ h ∧ h < 1000000 := by
      fin_cases k <;> first | (exfalso; revert h8 h9; decide) | (simp only [inRow] at hk; constructor <;> linarith [hk.1, hk.2])
    rw [if_neg (by linarith), if_neg (by linarith), if_neg (by linarith), if_pos h110.2, if_neg h8, if_neg h9]
    have e1 : get heights 9 = .ok 110000 := rfl
    have e2 : get temperatures 9 = .ok 240 := rfl
    simp only [e1, e2, pure, Except.pure, r0]
    congr 1
    norm_num
    congr 2
    ring

theorem rowTemp_pos {k : Fin 12} {h : ℝ} (hk : inRow k h) : 0 < rowTemp k h := by
  unfold rowTemp
  by_cases h8 : k < 8
  · rw [if_pos h8]
    fin_cases k <;> first
      | (exfalso; revert h8; decide)
      | (simp only [inRow, row] at hk ⊢; norm_num; linarith)
      | (simp only [inRow, row] at hk ⊢; obtain ⟨a, b⟩ := hk; norm_num; try linarith)
  by_cases h9 : k = 8
  · rw [if_neg h8, if_pos h9]
    have h1 : Real.exp (1 - ((h - 91000) / 19942.9) ^ 2) ≤ Real.exp 1 := Real.exp_le_exp.mpr (by nlinarith [sq_nonneg ((h - 91000) / 19942.9)])
    have h2 := Real.exp_one_lt_d9
    generalize Real.exp (1 - ((h - 91000) / 19942.9) ^ 2) = e at h1 ⊢
    norm_num at h2 ⊢
    linarith
  · rw [if_neg h8, if_neg h9]
    have h110 : 110000 ≤ h := by
      fin_cases k <;> first | (exfalso; revert h8 h9; decide) | (simp only [inRow] at hk; linarith [hk.1, hk.2])
    have h1 : Real.exp (-0.01875 * ((h - 110000) * (6356766 + 110000) / (6356766 + h) / 1000)) ≤ 1 := by
      rw [Real.exp_le_one_iff]
      have : 0 ≤ (h - 110000) * (6356766 + 110000) / (6356766 + h) / 1000 :=
        div_nonneg (div_nonneg (mul_nonneg (by linarith) (by norm_num)) (by linarith)) (by norm_num)
      norm_num at this ⊢
      linarith
    linarith

/-- The pressure formula of a row. -/
noncomputable def rowPressure (k : Fin 12) (h : ℝ) : ℝ :=
  if (row k).lapse ≠ 0 then (row k).pres * ((row k).temp / rowTemp k h) ^ (g0 * molarMass / (rStar * (row k).lapse))
  else (row k).pres * Real.exp (-g0 * molarMass * (h - (row k).base) / (rStar * rowTemp k h))

theorem pressure_row {k : Fin 12} {h : ℝ} (hk : inRow k h) : pressure h = .ok (rowPressure k h) := by
  unfold pressure
  simp only [baseIndex_row hk, temperature_row hk, expect, bind, Except.bind, get_gradient, get_temp, get_pres, get_lapse, get_base]
  unfold rowPressure
  by_cases hl : (row k).lapse ≠ 0
  · rw [if_pos hl, if_pos hl]; rfl
  · rw [if_neg hl, if_neg hl]; rfl

theorem rowPressure_pos {k : Fin 12} {h : ℝ} (hk : inRow k h) : 0 < rowPressure k h := by
  have hT := rowTemp_pos hk
  have h1 : 0 < (row k).temp := by fin_cases k <;> norm_num [row]
  have h2 : 0 < (row k).pres := by fin_cases k <;> norm_num [row]
  unfold rowPressure
  by_cases hl : (row k).lapse ≠ 0
  · rw [if_pos hl]; positivity
  · rw [if_neg hl]; positivity

end Verif.Atmo.USSA
