import Verif.Time.LemmasCal

/-! # Helper lemmas: stepping through the civil calendar, date to day number -/

namespace Verif.Time
open Verif.Rust

theorem dec_next (x : Dec) (h : x.Ok) :
    ∃ x' : Dec, x'.Ok ∧ x'.day = x.day + 1 ∧ civil x'.yr x'.t = (civil x.yr x.t).next := by
  have hl := isLeap_dec x h
  obtain ⟨e0, c0, c1, q0, q1, y0, y1, t0, t1, ht⟩ := h
  have hn := civil_next x.yr x.t t0 t1 (fun e => hl.2 (ht e))
  rw [hn]
  clear hn
  obtain ⟨era, c, q, y, t⟩ := x
  simp only at *
  by_cases a : t = 365
  · rw [if_pos (Or.inl a)]
    obtain ⟨rfl, hq⟩ := ht a
    subst a
    by_cases b : q = 24
    · obtain rfl := hq b
      subst b
      refine ⟨⟨era + 1, 0, 0, 0, 0⟩, ?_, ?_, ?_⟩
      · simp only [Dec.Ok]; omega
      · simp only [Dec.day]; omega
      · have : Dec.yr ⟨era + 1, 0, 0, 0, 0⟩ = Dec.yr ⟨era, 3, 24, 3, 365⟩ + 1 := by
          simp only [Dec.yr]; omega
        simp only [this]
    · refine ⟨⟨era, c, q + 1, 0, 0⟩, ?_, ?_, ?_⟩
      · simp only [Dec.Ok]; omega
      · simp only [Dec.day]; omega
      · have : Dec.yr ⟨era, c, q + 1, 0, 0⟩ = Dec.yr ⟨era, c, q, 3, 365⟩ + 1 := by
          simp only [Dec.yr]; omega
        simp only [this]
  · by_cases b : t = 364 ∧ isLeap (Dec.yr ⟨era, c, q, y, t⟩ + 1) = false
    · rw [if_pos (Or.inr b)]
      obtain ⟨rfl, b⟩ := b
      rw [b] at hl
      simp only [Bool.false_eq_true, false_iff] at hl
      by_cases d : y = 3
      · have d2 : q = 24 ∧ c < 3 := by omega
        obtain ⟨rfl, d3⟩ := d2
        subst d
        refine ⟨⟨era, c + 1, 0, 0, 0⟩, ?_, ?_, ?_⟩
        · simp only [Dec.Ok]; omega
        · simp only [Dec.day]; omega
        · have : Dec.yr ⟨era, c + 1, 0, 0, 0⟩ = Dec.yr ⟨era, c, 24, 3, 364⟩ + 1 := by
            simp only [Dec.yr]; omega
          simp only [this]
      · refine ⟨⟨era, c, q, y + 1, 0⟩, ?_, ?_, ?_⟩
        · simp only [Dec.Ok]; omega
        · simp only [Dec.day]; omega
        · have : Dec.yr ⟨era, c, q, y + 1, 0⟩ = Dec.yr ⟨era, c, q, y, 364⟩ + 1 := by
            simp only [Dec.yr]; omega
          simp only [this]
    · rw [if_neg (fun h => h.elim a b)]
      refine ⟨⟨era, c, q, y, t + 1⟩, ?_, ?_, ?_⟩
      · simp only [Dec.Ok]
        refine ⟨e0, c0, c1, q0, q1, y0, y1, by omega, by omega, fun e => ?_⟩
        apply hl.1
        cases hb : isLeap (Dec.yr ⟨era, c, q, y, t⟩ + 1)
        · exact absurd ⟨by omega, hb⟩ b
        · rfl
      · simp only [Dec.day]; omega
      · simp only [Dec.yr]

theorem dateAfterEpoch_dec (n : Nat) :
    ∃ x : Dec, x.Ok ∧ x.day = n + 719468 ∧ civil x.yr x.t = dateAfterEpoch n := by
  induction n with
  | zero => exact ⟨⟨4, 3, 17, 1, 306⟩, by simp only [Dec.Ok]; omega, by decide, by decide⟩
  | succ n ih =>
    obtain ⟨x, h1, h2, h3⟩ := ih
    obtain ⟨x', k1, k2, k3⟩ := dec_next x h1
    exact ⟨x', k1, by omega, by rw [k3, h3]; rfl⟩

/-- Day number (since 0000-03-01) of day `t` of March-year `Y`. -/
def marchDay (Y t : Int) : Int := 365 * Y + Y / 4 - Y / 100 + Y / 400 + t

theorem Dec.day_eq (x : Dec) (h : x.Ok) : x.day = marchDay x.yr x.t := by
  obtain ⟨era, c, q, y, t⟩ := x
  obtain ⟨e0, c0, c1, q0, q1, y0, y1, t0, t1, ht⟩ := h
  simp only [Dec.day, Dec.yr, marchDay] at *
  have h1 : (400 * era + 100 * c + 4 * q + y) / 4 = 100 * era + 25 * c + q := by omega
  have h2 : (400 * era + 100 * c + 4 * q + y) / 100 = 4 * era + c := by omega
  have h3 : (400 * era + 100 * c + 4 * q + y) / 400 = era := by omega
  rw [h1, h2, h3]; omega

/-- March-year and day-of-March-year of a civil date. -/
def Date.Y (d : Date) : Int := if d.month ≤ 2 then d.year - 1 else d.year
def Date.t (d : Date) : Int := (153 * (if d.month ≤ 2 then d.month + 9 else d.month - 3) + 2) / 5 + d.day - 1

/-- Days since 1970-01-01. -/
def Date.num (d : Date) : Int := marchDay d.Y d.t - 719468

theorem from_eq (d : Date) (hy : 0 ≤ d.Y) (hm : 1 ≤ d.month) (hh mm ss ns : Int) :
    Time.fromUtcDatetime ⟨d.year, d.month, d.day, hh, mm, ss, ns⟩ =
      ⟨d.num * 86400 + hh * 3600 + mm * 60 + ss, ns⟩ := by
  have key : ∀ Y m : Int, 0 ≤ Y → 0 ≤ m - 3 →
      Int.tdiv Y 400 * 146097 + ((Y - Int.tdiv Y 400 * 400) * 365 + (Y - Int.tdiv Y 400 * 400).tdiv 4 -
        (Y - Int.tdiv Y 400 * 400).tdiv 100 + ((153 * (m - 3) + 2).tdiv 5 + d.day - 1)) =
      marchDay Y ((153 * (m - 3) + 2) / 5 + d.day - 1) := by
    intro Y m h1 h2
    rw [Int.tdiv_eq_ediv_of_nonneg h1, Int.tdiv_eq_ediv_of_nonneg (by omega),
      Int.tdiv_eq_ediv_of_nonneg (by omega), Int.tdiv_eq_ediv_of_nonneg (by omega), marchDay]
    omega
  unfold Date.Y at hy
  simp only [Time.fromUtcDatetime, Date.num, Date.Y, Date.t]
  by_cases c : d.month ≤ 2
  · simp only [if_pos c] at *
    have := key (d.year - 1) (d.month + 12) hy (by omega)
    rw [this]
    have e : d.month + 12 - 3 = d.month + 9 := by omega
    rw [e]; congr 1; omega
  · simp only [if_neg c] at *
    rw [key d.year d.month hy (by omega)]; congr 1; omega

theorem mp_of_t (mp day : Int) (h0 : 0 ≤ mp) (h1 : mp ≤ 11) (d1 : 1 ≤ day)
    (d2 : day ≤ (153 * (mp + 1) + 2) / 5 - (153 * mp + 2) / 5 ∧ (mp = 11 → day ≤ 29)) :
    (5 * ((153 * mp + 2) / 5 + day - 1) + 2) / 153 = mp ∧
      0 ≤ (153 * mp + 2) / 5 + day - 1 ∧ (153 * mp + 2) / 5 + day - 1 ≤ 365 := by
  omega

theorem valid_mp (d : Date) (h : d.Valid) :
    ∃ mp, 0 ≤ mp ∧ mp ≤ 11 ∧ (if d.month ≤ 2 then d.month + 9 else d.month - 3) = mp ∧
      1 ≤ d.day ∧ d.day ≤ (153 * (mp + 1) + 2) / 5 - (153 * mp + 2) / 5 ∧ (mp = 11 → d.day ≤ 29) ∧
      d.month = mp + (if mp < 10 then 3 else -9) ∧
      (mp = 11 → d.day = 29 → isLeap d.year = true) := by
  obtain ⟨yy, m, day⟩ := d
  obtain ⟨h1, h2, h3, h4⟩ := h
  simp only [daysInMonth] at *
  have : m = 1 ∨ m = 2 ∨ m = 3 ∨ m = 4 ∨ m = 5 ∨ m = 6 ∨ m = 7 ∨ m = 8 ∨ m = 9 ∨ m = 10 ∨
    m = 11 ∨ m = 12 := by omega
  cases hb : isLeap yy <;> rw [hb] at h4 <;>
  rcases this with rfl | rfl | rfl | rfl | rfl | rfl | rfl | rfl | rfl | rfl | rfl | rfl <;>
    refine ⟨_, ?_, ?_, rfl, ?_⟩ <;> simp at h4 ⊢ <;> omega

theorem civil_date (d : Date) (h : d.Valid) : civil d.Y d.t = d ∧ 0 ≤ d.t ∧ d.t ≤ 365 ∧
    (d.t = 365 → isLeap (d.Y + 1) = true) := by
  obtain ⟨mp, h0, h1, e, d1, d2, d3, hm, hl⟩ := valid_mp d h
  obtain ⟨k1, k2, k3⟩ := mp_of_t mp d.day h0 h1 d1 ⟨d2, d3⟩
  have et : d.t = (153 * mp + 2) / 5 + d.day - 1 := by simp only [Date.t, e]
  have ey : d.Y = d.year - (if mp < 10 then 0 else 1) := by
    unfold Date.Y
    by_cases c : mp < 10
    · rw [if_pos c] at *; rw [if_neg (by omega)]; omega
    · rw [if_neg c] at *; rw [if_pos (by omega)]
  rw [et]
  refine ⟨?_, k2, k3, ?_⟩
  · rw [civil_of _ _ _ k1]
    cases d
    simp only [Date.mk.injEq] at *
    omega
  · intro h365
    have : mp = 11 ∧ d.day = 29 := by omega
    rw [ey, this.1]
    simp only [show ¬ (11 : Int) < 10 by decide, if_false]
    rw [show d.year - 1 + 1 = d.year by omega]
    exact hl this.1 this.2

theorem dec_of_yr (Y t : Int) (h : 0 ≤ Y) (t0 : 0 ≤ t) (t1 : t ≤ 365)
    (hl : t = 365 → isLeap (Y + 1) = true) : ∃ x : Dec, x.Ok ∧ x.yr = Y ∧ x.t = t := by
  have hy : Dec.yr ⟨Y / 400, Y % 400 / 100, Y % 100 / 4, Y % 4, t⟩ = Y := by
    simp only [Dec.yr]; omega
  refine ⟨⟨Y / 400, Y % 400 / 100, Y % 100 / 4, Y % 4, t⟩, ?_, hy, rfl⟩
  have h0 : Dec.Ok ⟨Y / 400, Y % 400 / 100, Y % 100 / 4, Y % 4, 0⟩ := by
    simp only [Dec.Ok]; omega
  have := isLeap_dec _ h0
  simp only [Dec.yr] at this hy
  rw [hy] at this
  simp only [Dec.Ok]
  refine ⟨by omega, by omega, by omega, by omega, by omega, by omega, by omega, t0, t1,
    fun e => this.1 (hl e)⟩

theorem date_dec (d : Date) (h : d.Valid) (hy : 0 ≤ d.Y) :
    ∃ x : Dec, x.Ok ∧ civil x.yr x.t = d ∧ x.day = d.num + 719468 := by
  obtain ⟨a, b, c, e⟩ := civil_date d h
  obtain ⟨x, ok, e1, e2⟩ := dec_of_yr _ _ hy b c e
  refine ⟨x, ok, by rw [e1, e2, a], ?_⟩
  rw [x.day_eq ok, e1, e2, Date.num]; omega

theorem valid_civil (x : Dec) (h : x.Ok) :
    (civil x.yr x.t).Valid ∧ (civil x.yr x.t).Y = x.yr ∧ (civil x.yr x.t).t = x.t := by
  have hl := isLeap_dec x h
  obtain ⟨e0, c0, c1, q0, q1, y0, y1, t0, t1, ht⟩ := h
  have hl' : x.t = 365 → isLeap (x.yr + 1) = true := fun e => hl.2 (ht e)
  clear hl
  generalize x.yr = Y at *
  generalize x.t = t at *
  obtain ⟨mp, hmp, m0, m1, m2, m3, m4⟩ := mp_cases t t0 t1
  rw [civil_of _ _ _ hmp]
  clear e0 c0 c1 q0 q1 y0 y1 ht hmp
  have cases : mp = 0 ∨ mp = 1 ∨ mp = 2 ∨ mp = 3 ∨ mp = 4 ∨ mp = 5 ∨ mp = 6 ∨ mp = 7 ∨ mp = 8 ∨
      mp = 9 ∨ mp = 10 ∨ mp = 11 := by omega
  rcases cases with rfl | rfl | rfl | rfl | rfl | rfl | rfl | rfl | rfl | rfl | rfl | rfl
  case inr.inr.inr.inr.inr.inr.inr.inr.inr.inr.inr =>
    refine ⟨?_, ?_, ?_⟩
    · simp only [Date.Valid, daysInMonth]
      by_cases b : isLeap (Y + 1) = true
      · simp [b]; omega
      · have : t ≠ 365 := fun e => b (hl' e)
        simp [b]; omega
    · simp [Date.Y] <;> omega
    · simp [Date.t] <;> omega
  all_goals
    refine ⟨?_, ?_, ?_⟩
    · simp [Date.Valid, daysInMonth]; omega
    · simp [Date.Y] <;> omega
    · simp [Date.t] <;> omega

theorem num_civil (x : Dec) (h : x.Ok) : (civil x.yr x.t).num + 719468 = x.day := by
  obtain ⟨_, a, b⟩ := valid_civil x h
  rw [x.day_eq h, Date.num, a, b]; omega

theorem dateAfterEpoch_spec (n : Nat) :
    (dateAfterEpoch n).Valid ∧ (dateAfterEpoch n).num = n ∧ 0 ≤ (dateAfterEpoch n).Y := by
  obtain ⟨x, h1, h2, h3⟩ := dateAfterEpoch_dec n
  rw [← h3]
  refine ⟨(valid_civil x h1).1, ?_, ?_⟩
  · have := num_civil x h1; omega
  · rw [(valid_civil x h1).2.1]
    obtain ⟨e0, c0, c1, q0, q1, y0, y1, t0, t1, ht⟩ := h1
    unfold Dec.yr; omega

/-- Dates with the same day number are equal. -/
theorem num_inj (a b : Date) (ha : a.Valid) (hb : b.Valid) (ya : 0 ≤ a.Y) (yb : 0 ≤ b.Y)
    (h : a.num = b.num) : a = b := by
  obtain ⟨x, ox, ex, dx⟩ := date_dec a ha ya
  obtain ⟨y, oy, ey, dy⟩ := date_dec b hb yb
  have hd : x.day = y.day := by omega
  have e1 := daysToYmd_eq a.num 0 0 0 x ox (by omega)
  rw [← ex, ← ey]
  have hyr : x.yr = y.yr ∧ x.t = y.t := by
    clear e1
    obtain ⟨era, c, q, yy, t⟩ := x
    obtain ⟨era', c', q', yy', t'⟩ := y
    have bx := dec_day_bound _ ox
    have by' := dec_day_bound _ oy
    obtain ⟨_, hc, hc', hq, hq', hy, hy', ht, ht', hx⟩ := ox
    obtain ⟨_, hc2, hc2', hq2, hq2', hy2, hy2', ht2, ht2', hx2⟩ := oy
    simp only [Dec.day, Dec.yr] at *
    clear ex ey dx dy ya yb h
    have h1 : era = era' := by omega
    subst h1
    have h2 : c = c' := by
      by_cases d1 : t = 365 <;> by_cases d2 : t' = 365 <;> omega
    subst h2
    have h3 : q = q' := by
      by_cases d1 : t = 365 <;> by_cases d2 : t' = 365 <;> omega
    subst h3
    by_cases d1 : t = 365 <;> by_cases d2 : t' = 365 <;> omega
  rw [hyr.1, hyr.2]

theorem num_next (d : Date) (h : d.Valid) (hy : 0 ≤ d.Y) :
    d.next.Valid ∧ 0 ≤ d.next.Y ∧ d.next.num = d.num + 1 := by
  obtain ⟨x, ox, ex, dx⟩ := date_dec d h hy
  obtain ⟨x', o', d', e'⟩ := dec_next x ox
  rw [← ex, ← e']
  refine ⟨(valid_civil x' o').1, ?_, ?_⟩
  · rw [(valid_civil x' o').2.1]
    obtain ⟨e0, c0, c1, q0, q1, y0, y1, t0, t1, ht⟩ := o'
    unfold Dec.yr; omega
  · have := num_civil x' o'
    have := num_civil x ox
    omega

theorem marchDay_lt (Y Y' t t' : Int) (h : Y < Y') (a : t ≤ 365) (b : 0 ≤ t')
    (h' : t = 365 → isLeap (Y + 1) = true) : marchDay Y t < marchDay Y' t' := by
  unfold marchDay
  by_cases c : t = 365
  · have := (isLeap_iff _).1 (h' c)
    subst c
    clear h'
    by_cases e : Y' = Y + 1
    · subst e
      obtain ⟨p, q⟩ := this
      have k1 : (Y + 1) / 4 = Y / 4 + 1 := by omega
      have k2 : (Y + 1) / 100 = Y / 100 + (if (Y + 1) % 100 = 0 then 1 else 0) := by split <;> omega
      have k3 : (Y + 1) / 400 = Y / 400 + (if (Y + 1) % 400 = 0 then 1 else 0) := by split <;> omega
      rw [k1, k2, k3]
      split <;> split <;> omega
    · have k1 : Y' / 4 - Y' / 100 ≥ Y / 4 - Y / 100 := by omega
      have k2 : Y' / 400 ≥ Y / 400 := by omega
      omega
  · have k1 : Y' / 4 - Y' / 100 ≥ Y / 4 - Y / 100 := by omega
    have k2 : Y' / 400 ≥ Y / 400 := by omega
    omega

/-- An earlier civil year means an earlier day. -/
theorem num_lt_of_year (a b : Date) (ha : a.Valid) (hb : b.Valid) (h : a.year < b.year) :
    a.num < b.num := by
  obtain ⟨_, a0, a1, a2⟩ := civil_date a ha
  obtain ⟨_, b0, b1, b2⟩ := civil_date b hb
  by_cases c : a.Y < b.Y
  · have := marchDay_lt _ _ _ _ c a1 b0 a2
    unfold Date.num; omega
  · have ma : 2 < a.month := by
      unfold Date.Y at c; split at c <;> split at c <;> omega
    have mb : b.month ≤ 2 := by
      unfold Date.Y at c; split at c <;> split at c <;> omega
    have e : a.Y = b.Y := by
      unfold Date.Y at c ⊢; rw [if_neg (by omega), if_pos mb] at *; omega
    unfold Date.num
    rw [e]
    have ta : a.t ≤ 305 := by
      obtain ⟨mp, h0, h1, e, d1, d2, d3, hm, hl⟩ := valid_mp a ha
      unfold Date.t; rw [e]
      rw [if_neg (by omega)] at e
      have := ha.2.1
      omega
    have tb : 306 ≤ b.t := by
      obtain ⟨mp, h0, h1, e, d1, d2, d3, hm, hl⟩ := valid_mp b hb
      unfold Date.t; rw [e]
      rw [if_pos mb] at e
      have := hb.1
      omega
    unfold marchDay; omega

theorem month_order (y m m' : Int) (h : m < m') (h1 : 1 ≤ m) (h2 : m' ≤ 12) :
    (if m ≤ 2 then y - 1 else y) < (if m' ≤ 2 then y - 1 else y) ∨
    ((if m ≤ 2 then y - 1 else y) = (if m' ≤ 2 then y - 1 else y) ∧
      (if m ≤ 2 then m + 9 else m - 3) < (if m' ≤ 2 then m' + 9 else m' - 3)) := by
  by_cases a : m ≤ 2 <;> by_cases b : m' ≤ 2 <;> simp only [a, b, if_true, if_false] <;>
    first | (left; omega) | (right; exact ⟨trivial, by omega⟩) | omega

theorem mp_order (mp mp' d d' : Int) (h : mp < mp')
    (h2 : d ≤ (153 * (mp + 1) + 2) / 5 - (153 * mp + 2) / 5) (h3 : 1 ≤ d') :
    (153 * mp + 2) / 5 + d - 1 < (153 * mp' + 2) / 5 + d' - 1 := by omega

/-- Within a year a later month, or a later day of the same month, is a later day. -/
theorem num_lt_of_md (a b : Date) (va : a.Valid) (vb : b.Valid) (e : a.year = b.year)
    (h : a.month < b.month ∨ (a.month = b.month ∧ a.day < b.day)) : a.num < b.num := by
  obtain ⟨_, a0, a1, a2⟩ := civil_date _ va
  obtain ⟨_, b0, b1, b2⟩ := civil_date _ vb
  rcases h with h | ⟨h, hd⟩
  · obtain ⟨mp, k0, k1, em, d1, d2, d3, hm, hl⟩ := valid_mp _ va
    obtain ⟨mp', k0', k1', em', d1', d2', d3', hm', hl'⟩ := valid_mp _ vb
    rcases month_order a.year a.month b.month h va.1 vb.2.1 with k | ⟨k, k'⟩
    · have : a.Y < b.Y := by unfold Date.Y; rw [← e]; exact k
      have := marchDay_lt _ _ _ _ this a1 b0 a2
      unfold Date.num; omega
    · have eY : a.Y = b.Y := by unfold Date.Y; rw [← e]; exact k
      rw [em, em'] at k'
      have : a.t < b.t := by
        unfold Date.t; rw [em, em']
        exact mp_order _ _ _ _ k' d2 d1'
      unfold Date.num marchDay; rw [eY]; omega
  · unfold Date.num Date.Y Date.t marchDay
    rw [e, h]; omega

end Verif.Time
