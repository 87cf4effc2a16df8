import Verif.Time.PropsTimer

/-! # Helper lemmas: the civil calendar -/

namespace Verif.Time
open Verif.Rust

/-- decomposition of a day-of-era -/
theorem doe_decomp (doe : Int) (h0 : 0 ≤ doe) (h1 : doe < 146097) :
   ∃ c q y t : Int, doe = 36524*c + 1461*q + 365*y + t ∧ 0 ≤ c ∧ c ≤ 3 ∧ 0 ≤ q ∧ q ≤ 24 ∧ 0 ≤ y ∧ y ≤ 3 ∧ 0 ≤ t ∧ t ≤ 365 ∧
     (t = 365 → y = 3 ∧ (q = 24 → c = 3)) := by
  by_cases hl : doe = 146096
  · exact ⟨3, 24, 3, 365, by omega⟩
  have hc : 0 ≤ doe / 36524 ∧ doe / 36524 ≤ 3 := by omega
  generalize hC : doe / 36524 = c at hc
  have hr : 0 ≤ doe - 36524*c ∧ doe - 36524*c < 36524 := by omega
  generalize hR : doe - 36524*c = r at hr
  have hq : 0 ≤ r/1461 ∧ r/1461 ≤ 24 := by omega
  generalize hQ : r/1461 = q at hq
  have hs : 0 ≤ r - 1461*q ∧ r - 1461*q < 1461 := by omega
  generalize hS : r - 1461*q = s at hs
  by_cases h3 : s = 1460
  · exact ⟨c, q, 3, 365, by omega⟩
  · exact ⟨c, q, s/365, s%365, by omega⟩

theorem yoe_eq (doe c q y t : Int) (h : doe = 36524*c + 1461*q + 365*y + t) (c0 : 0 ≤ c) (c1 : c ≤ 3)
   (q0 : 0 ≤ q) (q1 : q ≤ 24) (y0 : 0 ≤ y) (y1 : y ≤ 3) (t0 : 0 ≤ t) (t1 : t ≤ 365)
   (ht : t = 365 → y = 3 ∧ (q = 24 → c = 3)) :
   (doe - doe / 1460 + doe / 36524 - doe / 146096) / 365 = 100*c+4*q+y := by
  have he : doe / 1460 = if 24*c + q + 365*y + t < 1460 then 25*c+q else 25*c+q+1 := by
    split <;> omega
  have hlast : doe = 146096 ↔ (c = 3 ∧ q = 24 ∧ y = 3 ∧ t = 365) := by omega
  have hf : doe / 146096 = if doe = 146096 then 1 else 0 := by split <;> omega
  have hg : doe / 36524 = if doe = 146096 then 4 else c := by split <;> omega
  rw [he, hf, hg]
  by_cases h1 : doe = 146096
  · rw [if_pos h1, if_pos h1]
    obtain ⟨rfl, rfl, rfl, rfl⟩ := hlast.1 h1
    subst h; decide
  · rw [if_neg h1, if_neg h1]
    split <;> omega

/-- A day number `z` (days since 0000-03-01) split into eras, centuries, 4-year cycles, years and day. -/
structure Dec where
  era : Int
  c : Int
  q : Int
  y : Int
  t : Int

def Dec.Ok (x : Dec) : Prop :=
  0 ≤ x.era ∧ 0 ≤ x.c ∧ x.c ≤ 3 ∧ 0 ≤ x.q ∧ x.q ≤ 24 ∧ 0 ≤ x.y ∧ x.y ≤ 3 ∧ 0 ≤ x.t ∧ x.t ≤ 365 ∧
    (x.t = 365 → x.y = 3 ∧ (x.q = 24 → x.c = 3))

def Dec.day (x : Dec) : Int := 146097 * x.era + 36524 * x.c + 1461 * x.q + 365 * x.y + x.t

/-- The year that starts on 1 March. -/
def Dec.yr (x : Dec) : Int := 400 * x.era + 100 * x.c + 4 * x.q + x.y

/-- The civil date of day `t` of the March-based year `Y`. -/
def civil (Y t : Int) : Date :=
  let mp := (5 * t + 2) / 153
  { year := Y + (if mp < 10 then 0 else 1)
    month := mp + (if mp < 10 then 3 else -9)
    day := t - (153 * mp + 2) / 5 + 1 }

theorem dec_exists (z : Int) (h : 0 ≤ z) : ∃ x : Dec, x.Ok ∧ x.day = z := by
  obtain ⟨c, q, y, t, h1, h2, h3, h4, h5, h6, h7, h8, h9, h10⟩ :=
    doe_decomp (z % 146097) (by omega) (by omega)
  refine ⟨⟨z / 146097, c, q, y, t⟩, ⟨by simp only; omega, h2, h3, h4, h5, h6, h7, h8, h9, h10⟩, ?_⟩
  simp only [Dec.day]; omega

theorem mp_cases (t : Int) (h0 : 0 ≤ t) (h1 : t ≤ 365) :
    ∃ mp : Int, (5 * t + 2) / 153 = mp ∧ 0 ≤ mp ∧ mp ≤ 11 ∧
      (153 * mp + 2) / 5 ≤ t ∧ t < (153 * (mp + 1) + 2) / 5 ∧ t - (153 * mp + 2) / 5 ≤ 30 := by
  refine ⟨_, rfl, by omega, by omega, by omega, by omega, by omega⟩

theorem dec_day_bound (x : Dec) (h : x.Ok) :
    0 ≤ 36524 * x.c + 1461 * x.q + 365 * x.y + x.t ∧
    36524 * x.c + 1461 * x.q + 365 * x.y + x.t < 146097 := by
  obtain ⟨_, _, _, _, _, _, _, _, _, h⟩ := h
  constructor
  · omega
  · by_cases c : x.t = 365
    · have := h c; omega
    · omega

theorem doe_num_nonneg (D : Int) (h : 0 ≤ D) (h' : D < 146097) :
    0 ≤ D - D / 1460 + D / 36524 - D / 146096 := by omega

theorem month_day_casts (mp t : Int) (m0 : 0 ≤ mp) (m1 : mp ≤ 11) (m2 : (153 * mp + 2) / 5 ≤ t)
    (m4 : t - (153 * mp + 2) / 5 ≤ 30) :
    asU8 (mp + (if mp < 10 then 3 else -9)) = mp + (if mp < 10 then 3 else -9) ∧
    asU8 (t - (153 * mp + 2) / 5 + 1) = t - (153 * mp + 2) / 5 + 1 := by
  unfold asU8
  constructor
  · split <;> omega
  · omega

theorem daysToYmd_eq (days hh mm ss : Int) (x : Dec) (h : x.Ok) (hz : days + 719468 = x.day) :
    daysToYmd days hh mm ss =
      { year := asI32 (civil x.yr x.t).year, month := (civil x.yr x.t).month,
        day := (civil x.yr x.t).day, hour := hh, minute := mm, second := ss, nanos := 0 } := by
  obtain ⟨b0, b1⟩ := dec_day_bound x h
  obtain ⟨era, c, q, y, t⟩ := x
  obtain ⟨e0, c0, c1, q0, q1, y0, y1, t0, t1, ht⟩ := h
  simp only [Dec.day, Dec.yr] at *
  have f1 : (100 * c + 4 * q + y) / 4 = 25 * c + q := by omega
  have f2 : (100 * c + 4 * q + y) / 100 = c := by omega
  have f0 : 0 ≤ 100 * c + 4 * q + y := by omega
  have f3 : 36524 * c + 1461 * q + 365 * y + t -
      (365 * (100 * c + 4 * q + y) + (25 * c + q) - c) = t := by omega
  have fy : 100 * c + 4 * q + y + era * 400 = 400 * era + 100 * c + 4 * q + y := by omega
  have hz' : days + 719468 = era * 146097 + (36524 * c + 1461 * q + 365 * y + t) := by
    rw [hz]; omega
  have hera : (days + 719468).tdiv 146097 = era := by
    rw [hz', Int.tdiv_eq_ediv_of_nonneg (by omega)]; omega
  have hdoe : days + 719468 - era * 146097 = 36524 * c + 1461 * q + 365 * y + t := by omega
  have hzn : days + 719468 ≥ 0 := by omega
  have g1 : 0 ≤ 5 * t + 2 := by omega
  obtain ⟨mp, hmp, m0, m1, m2, m3, m4⟩ := mp_cases t t0 t1
  obtain ⟨u1, u2⟩ := month_day_casts mp t m0 m1 m2 m4
  have g2 : 0 ≤ 153 * mp + 2 := by omega
  have g3 : mp < 10 → ¬ mp + 3 ≤ 2 := by omega
  have g4 : ¬ mp < 10 → mp + -9 ≤ 2 := by omega
  have hnum := doe_num_nonneg _ b0 b1
  have hyoe := yoe_eq _ c q y t rfl c0 c1 q0 q1 y0 y1 t0 t1 ht
  simp only [daysToYmd, civil]
  rw [if_pos hzn]
  simp only [hera, hdoe, Int.tdiv_eq_ediv_of_nonneg b0, Int.tdiv_eq_ediv_of_nonneg hnum, hyoe,
    Int.tdiv_eq_ediv_of_nonneg f0, f1, f2, f3, Int.tdiv_eq_ediv_of_nonneg g1, hmp,
    Int.tdiv_eq_ediv_of_nonneg g2, u1, u2, fy]
  by_cases c : mp < 10
  · simp only [if_pos c]; rw [if_neg (g3 c)]
  · simp only [if_neg c]; rw [if_pos (g4 c)]

theorem isLeap_iff (y : Int) : isLeap y = true ↔ y % 4 = 0 ∧ (y % 100 ≠ 0 ∨ y % 400 = 0) := by
  simp [isLeap]

theorem isLeap_dec (x : Dec) (h : x.Ok) :
    isLeap (x.yr + 1) = true ↔ x.y = 3 ∧ (x.q = 24 → x.c = 3) := by
  obtain ⟨e0, c0, c1, q0, q1, y0, y1, t0, t1, ht⟩ := h
  rw [isLeap_iff, Dec.yr]
  have : 400 * x.era + 100 * x.c + 4 * x.q + x.y + 1 = 400 * x.era + (100 * x.c + 4 * x.q + x.y + 1) := by
    omega
  rw [this]
  by_cases hy : x.y = 3
  · by_cases hq : x.q = 24
    · have hc : x.c = 0 ∨ x.c = 1 ∨ x.c = 2 ∨ x.c = 3 := by omega
      rw [hy, hq]
      rcases hc with hc | hc | hc | hc <;> rw [hc] <;> omega
    · omega
  · omega

theorem civil_of (Y t mp : Int) (h : (5 * t + 2) / 153 = mp) :
    civil Y t = { year := Y + (if mp < 10 then 0 else 1), month := mp + (if mp < 10 then 3 else -9),
                  day := t - (153 * mp + 2) / 5 + 1 } := by
  simp only [civil, h]

/-- The day after, in March-based terms. -/
theorem civil_next (Y t : Int) (t0 : 0 ≤ t) (t1 : t ≤ 365) (h : t = 365 → isLeap (Y + 1) = true) :
    (civil Y t).next =
      if t = 365 ∨ (t = 364 ∧ isLeap (Y + 1) = false) then civil (Y + 1) 0 else civil Y (t + 1) := by
  obtain ⟨mp, hmp, m0, m1, m2, m3, m4⟩ := mp_cases t t0 t1
  by_cases hm : mp = 11
  · subst hm
    have lo : 337 ≤ t := by omega
    clear m2 m3 m4 m0 m1
    rw [civil_of Y t 11 hmp]
    cases hb : isLeap (Y + 1)
    · have ht : t ≤ 364 := by
        by_cases c : t = 365
        · have := h c; simp [hb] at this
        · omega
      by_cases c : t = 364
      · subst c
        simp [Date.next, daysInMonth, hb, civil]
      · have e : (5 * (t + 1) + 2) / 153 = 11 := by omega
        rw [if_neg (by omega), civil_of Y (t + 1) 11 e]
        have h1 : t - 337 + 1 < 28 := by omega
        have h2 : t - 337 + 1 + 1 = t + 1 - 337 + 1 := by omega
        simp [Date.next, daysInMonth, h1, h2, hb]
        intro hc; omega
    · by_cases c : t = 365
      · subst c
        simp [Date.next, daysInMonth, hb, civil]
      · have e : (5 * (t + 1) + 2) / 153 = 11 := by omega
        rw [if_neg (by simp), civil_of Y (t + 1) 11 e]
        have h1 : t - 337 + 1 < 29 := by omega
        have h2 : t - 337 + 1 + 1 = t + 1 - 337 + 1 := by omega
        simp [Date.next, daysInMonth, h1, h2, hb, c]
  · rw [if_neg (by omega), civil_of Y t mp hmp]
    clear h
    have cases : mp = 0 ∨ mp = 1 ∨ mp = 2 ∨ mp = 3 ∨ mp = 4 ∨ mp = 5 ∨ mp = 6 ∨ mp = 7 ∨ mp = 8 ∨
      mp = 9 ∨ mp = 10 := by omega
    rcases cases with rfl | rfl | rfl | rfl | rfl | rfl | rfl | rfl | rfl | rfl | rfl
    · by_cases c : t + 1 < 31
      · have e : (5 * (t + 1) + 2) / 153 = 0 := by omega
        have h1 : t - 0 + 1 < 31 := by omega
        have h2 : t - 0 + 1 + 1 = t + 1 - 0 + 1 := by omega
        rw [civil_of Y (t + 1) 0 e]
        simp [Date.next, daysInMonth,  show t + 1 < 31 by omega]
      · have e : t = 30 := by omega
        subst e
        simp [Date.next, daysInMonth, civil]
    · by_cases c : t + 1 < 61
      · have e : (5 * (t + 1) + 2) / 153 = 1 := by omega
        have h1 : t - 31 + 1 < 30 := by omega
        have h2 : t - 31 + 1 + 1 = t + 1 - 31 + 1 := by omega
        rw [civil_of Y (t + 1) 1 e]
        simp [Date.next, daysInMonth, h1, h2]
      · have e : t = 60 := by omega
        subst e
        simp [Date.next, daysInMonth, civil]
    · by_cases c : t + 1 < 92
      · have e : (5 * (t + 1) + 2) / 153 = 2 := by omega
        have h1 : t - 61 + 1 < 31 := by omega
        have h2 : t - 61 + 1 + 1 = t + 1 - 61 + 1 := by omega
        rw [civil_of Y (t + 1) 2 e]
        simp [Date.next, daysInMonth, h1, h2]
      · have e : t = 91 := by omega
        subst e
        simp [Date.next, daysInMonth, civil]
    · by_cases c : t + 1 < 122
      · have e : (5 * (t + 1) + 2) / 153 = 3 := by omega
        have h1 : t - 92 + 1 < 30 := by omega
        have h2 : t - 92 + 1 + 1 = t + 1 - 92 + 1 := by omega
        rw [civil_of Y (t + 1) 3 e]
        simp [Date.next, daysInMonth, h1, h2]
      · have e : t = 121 := by omega
        subst e
        simp [Date.next, daysInMonth, civil]
    · by_cases c : t + 1 < 153
      · have e : (5 * (t + 1) + 2) / 153 = 4 := by omega
        have h1 : t - 122 + 1 < 31 := by omega
        have h2 : t - 122 + 1 + 1 = t + 1 - 122 + 1 := by omega
        rw [civil_of Y (t + 1) 4 e]
        simp [Date.next, daysInMonth, h1, h2]
      · have e : t = 152 := by omega
        subst e
        simp [Date.next, daysInMonth, civil]
    · by_cases c : t + 1 < 184
      · have e : (5 * (t + 1) + 2) / 153 = 5 := by omega
        have h1 : t - 153 + 1 < 31 := by omega
        have h2 : t - 153 + 1 + 1 = t + 1 - 153 + 1 := by omega
        rw [civil_of Y (t + 1) 5 e]
        simp [Date.next, daysInMonth, h1, h2]
      · have e : t = 183 := by omega
        subst e
        simp [Date.next, daysInMonth, civil]
    · by_cases c : t + 1 < 214
      · have e : (5 * (t + 1) + 2) / 153 = 6 := by omega
        have h1 : t - 184 + 1 < 30 := by omega
        have h2 : t - 184 + 1 + 1 = t + 1 - 184 + 1 := by omega
        rw [civil_of Y (t + 1) 6 e]
        simp [Date.next, daysInMonth, h1, h2]
      · have e : t = 213 := by omega
        subst e
        simp [Date.next, daysInMonth, civil]
    · by_cases c : t + 1 < 245
      · have e : (5 * (t + 1) + 2) / 153 = 7 := by omega
        have h1 : t - 214 + 1 < 31 := by omega
        have h2 : t - 214 + 1 + 1 = t + 1 - 214 + 1 := by omega
        rw [civil_of Y (t + 1) 7 e]
        simp [Date.next, daysInMonth, h1, h2]
      · have e : t = 244 := by omega
        subst e
        simp [Date.next, daysInMonth, civil]
    · by_cases c : t + 1 < 275
      · have e : (5 * (t + 1) + 2) / 153 = 8 := by omega
        have h1 : t - 245 + 1 < 30 := by omega
        have h2 : t - 245 + 1 + 1 = t + 1 - 245 + 1 := by omega
        rw [civil_of Y (t + 1) 8 e]
        simp [Date.next, daysInMonth, h1, h2]
      · have e : t = 274 := by omega
        subst e
        simp [Date.next, daysInMonth, civil]
    · by_cases c : t + 1 < 306
      · have e : (5 * (t + 1) + 2) / 153 = 9 := by omega
        have h1 : t - 275 + 1 < 31 := by omega
        have h2 : t - 275 + 1 + 1 = t + 1 - 275 + 1 := by omega
        rw [civil_of Y (t + 1) 9 e]
        simp [Date.next, daysInMonth, h1, h2]
      · have e : t = 305 := by omega
        subst e
        simp [Date.next, daysInMonth, civil]
    · by_cases c : t + 1 < 337
      · have e : (5 * (t + 1) + 2) / 153 = 10 := by omega
        have h1 : t - 306 + 1 < 31 := by omega
        have h2 : t - 306 + 1 + 1 = t + 1 - 306 + 1 := by omega
        rw [civil_of Y (t + 1) 10 e]
        simp [Date.next, daysInMonth, h1, h2]
      · have e : t = 336 := by omega
        subst e
        simp [Date.next, daysInMonth, civil]

end Verif.Time
