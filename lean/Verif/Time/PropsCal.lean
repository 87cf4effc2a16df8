import Verif.Time.LemmasCal2

/-!
# C14–C16: civil dates and yearly schedules

The reference calendar is `dateAfterEpoch` (Spec.lean): it starts at 1970-01-01 and steps one day at
a time with the Gregorian month lengths and leap rule.
-/

namespace Verif.Time
open Verif.Rust

/-! ## C14 -/

/-- C14 (part). From 1970 on, as long as the true year fits an `i32`, `to_utc_datetime` returns the
true civil date and time of day. Missing: times before 1970 (false, see `C14_negative_fails`). -/
theorem C14_to_datetime_partial (t : Time .utc) (h0 : 0 ≤ t.sec)
    (hy : (dateAfterEpoch (t.sec / 86400).toNat).year ≤ i32Max) :
    t.toUtcDatetime =
      { year := (dateAfterEpoch (t.sec / 86400).toNat).year
        month := (dateAfterEpoch (t.sec / 86400).toNat).month
        day := (dateAfterEpoch (t.sec / 86400).toNat).day
        hour := t.sec % 86400 / 3600
        minute := t.sec % 3600 / 60
        second := t.sec % 60
        nanos := t.nano } := by
  obtain ⟨x, h1, h2, h3⟩ := dateAfterEpoch_dec (t.sec / 86400).toNat
  obtain ⟨_, _, ny⟩ := dateAfterEpoch_spec (t.sec / 86400).toNat
  have ny' : 0 ≤ (dateAfterEpoch (t.sec / 86400).toNat).year := by
    unfold Date.Y at ny; split at ny <;> omega
  have e1 : ((t.sec.tdiv 60).tdiv 60).tdiv 24 = t.sec / 86400 := by
    have p : 0 ≤ t.sec / 60 := by omega
    have p' : 0 ≤ t.sec / 60 / 60 := by omega
    rw [Int.tdiv_eq_ediv_of_nonneg h0, Int.tdiv_eq_ediv_of_nonneg p,
      Int.tdiv_eq_ediv_of_nonneg p']; omega
  have key := daysToYmd_eq (t.sec / 86400) (asU8 (((t.sec.tdiv 60).tdiv 60).tmod 24))
    (asU8 ((t.sec.tdiv 60).tmod 60)) (asU8 (t.sec.tmod 60)) x h1 (by omega)
  simp only [Time.toUtcDatetime, e1, key, h3]
  have i1 : asI32 (dateAfterEpoch (t.sec / 86400).toNat).year =
      (dateAfterEpoch (t.sec / 86400).toNat).year := by unfold asI32; omega
  rw [i1]
  clear i1 key h2 h3 ny ny' hy
  simp only [UtcDateTime.mk.injEq, true_and, and_true]
  rw [Int.tdiv_eq_ediv_of_nonneg h0, Int.tmod_eq_emod_of_nonneg h0]
  have p : 0 ≤ t.sec / 60 := by omega
  rw [Int.tdiv_eq_ediv_of_nonneg p, Int.tmod_eq_emod_of_nonneg p]
  have p' : 0 ≤ t.sec / 60 / 60 := by omega
  rw [Int.tmod_eq_emod_of_nonneg p']
  unfold asU8
  refine ⟨?_, ?_, ?_⟩ <;> omega

/-- The year bound of C14 holds at least up to 6.7·10^16 s (over two billion years). -/
theorem C14_year_bound (s : Int) (h0 : 0 ≤ s) (h1 : s ≤ 67000000000000000) :
    (dateAfterEpoch (s / 86400).toNat).year + 1 ≤ i32Max := by
  obtain ⟨v, n, y⟩ := dateAfterEpoch_spec (s / 86400).toNat
  obtain ⟨_, a, b, _⟩ := civil_date _ v
  generalize dateAfterEpoch (s / 86400).toNat = d at *
  have hy : d.year ≤ d.Y + 1 := by unfold Date.Y; split <;> omega
  have hn : ((s / 86400).toNat : Int) = s / 86400 := by omega
  rw [hn] at n
  have : s / 86400 ≤ 775462962962 := by omega
  unfold Date.num marchDay at n
  have : 0 ≤ d.Y / 4 - d.Y / 100 := by omega
  omega

example : (Time.mk 951782399 7 : Time .utc).toUtcDatetime = ⟨2000, 2, 28, 23, 59, 59, 7⟩ ∧
    (Time.mk 951782400 7 : Time .utc).toUtcDatetime = ⟨2000, 2, 29, 0, 0, 0, 7⟩ ∧
    (Time.mk 951868800 7 : Time .utc).toUtcDatetime = ⟨2000, 3, 1, 0, 0, 0, 7⟩ := by decide

/-- The dates `to_utc_datetime` returns are valid civil date-times. -/
theorem C14_valid (t : Time .utc) (hc : t.Canon) (h0 : 0 ≤ t.sec)
    (h1 : t.sec ≤ 67000000000000000) : t.toUtcDatetime.Valid := by
  have hb := C14_year_bound t.sec h0 h1
  rw [C14_to_datetime_partial t h0 (by omega)]
  refine ⟨(dateAfterEpoch_spec _).1, ?_⟩
  have := hc.2
  simp only
  omega

/-- C14 fails before 1970: one second before the epoch the seconds field is 255. -/
theorem C14_negative_fails :
    (Time.mk (-1) 0 : Time .utc).toUtcDatetime = ⟨1970, 1, 1, 0, 0, 255, 0⟩ ∧
    ¬ (Time.mk (-1) 0 : Time .utc).toUtcDatetime.Valid := by
  refine ⟨by decide, fun h => ?_⟩
  have e : (Time.mk (-1) 0 : Time .utc).toUtcDatetime = ⟨1970, 1, 1, 0, 0, 255, 0⟩ := by decide
  rw [e] at h
  exact absurd h.2.2.2.2.2.2.1 (by decide)

/-! ## C15 -/

/-- C15. Every instant from 1970 on (year fitting an `i32`) survives the round trip through a date. -/
theorem C15_from_to_partial (t : Time .utc) (h0 : 0 ≤ t.sec)
    (hy : (dateAfterEpoch (t.sec / 86400).toNat).year ≤ i32Max) :
    Time.fromUtcDatetime t.toUtcDatetime = t := by
  rw [C14_to_datetime_partial t h0 hy]
  obtain ⟨v, n, y⟩ := dateAfterEpoch_spec (t.sec / 86400).toNat
  rw [from_eq _ y v.1, n]
  show _ = Time.mk t.sec t.nano
  simp only [Time.mk.injEq, and_true]
  omega

example : Time.fromUtcDatetime (Time.mk 1709210096 5 : Time .utc).toUtcDatetime = ⟨1709210096, 5⟩ := by
  decide

/-- C15. `from_utc_datetime` counts correctly: the `n`-th day after the epoch maps to `n·86400` seconds
plus the time of day. -/
theorem C15_from_counts (n : Nat) (hh mm ss ns : Int) :
    Time.fromUtcDatetime ⟨(dateAfterEpoch n).year, (dateAfterEpoch n).month, (dateAfterEpoch n).day,
      hh, mm, ss, ns⟩ = ⟨n * 86400 + hh * 3600 + mm * 60 + ss, ns⟩ := by
  obtain ⟨v, e, y⟩ := dateAfterEpoch_spec n
  rw [from_eq _ y v.1, e]

/-- Every valid civil date from 1970 on is reached by counting days from the epoch. -/
theorem C15_dates_exhaustive (d : Date) (h : d.Valid) (hy : 1970 ≤ d.year) :
    ∃ n, dateAfterEpoch n = d := by
  have hY : 0 ≤ d.Y := by unfold Date.Y; split <;> omega
  have h0 : 0 ≤ d.num := by
    by_cases c : d.year = 1970
    · obtain ⟨_, a, b, _⟩ := civil_date d h
      have h1 := h.1
      have h2 := h.2.2.1
      by_cases m : d.month ≤ 2
      · have : d.t ≥ 306 := by unfold Date.t; rw [if_pos m]; omega
        unfold Date.num Date.Y marchDay
        rw [if_pos m, c]; omega
      · unfold Date.num Date.Y marchDay
        rw [if_neg m, c]; omega
    · have := num_lt_of_year ⟨1970, 1, 1⟩ d (by decide +kernel) h (by simp only; omega)
      have e : Date.num ⟨1970, 1, 1⟩ = 0 := by decide
      omega
  refine ⟨d.num.toNat, ?_⟩
  obtain ⟨v, e, y⟩ := dateAfterEpoch_spec d.num.toNat
  exact num_inj _ _ v h y hY (by omega)

/-- C15 (part). Every valid date-time from 1970 on survives the round trip through an instant.
Missing: dates before 1970 (false, see `C15_before_epoch_fails`). -/
theorem C15_to_from_partial (d : UtcDateTime) (h : d.Valid) (h0 : 1970 ≤ d.year)
    (h1 : d.year ≤ i32Max) : (Time.fromUtcDatetime d).toUtcDatetime = d := by
  obtain ⟨v, r⟩ := h
  obtain ⟨n, hn⟩ := C15_dates_exhaustive ⟨d.year, d.month, d.day⟩ v h0
  have e : Time.fromUtcDatetime d = ⟨n * 86400 + d.hour * 3600 + d.minute * 60 + d.second, d.nanos⟩ := by
    have := C15_from_counts n d.hour d.minute d.second d.nanos
    rw [hn] at this; exact this
  have e2 : ((n * 86400 + d.hour * 3600 + d.minute * 60 + d.second) / 86400 : Int).toNat = n := by omega
  rw [e, C14_to_datetime_partial _ (by simp only; omega) (by simp only [e2, hn]; exact h1)]
  simp only [e2, hn]
  cases d
  simp only [UtcDateTime.mk.injEq, true_and, and_true] at *
  clear hn
  refine ⟨?_, ?_, ?_⟩ <;> omega

example : UtcDateTime.Valid ⟨2024, 2, 29, 12, 34, 56, 5⟩ ∧
    Time.fromUtcDatetime ⟨2024, 2, 29, 12, 34, 56, 5⟩ = ⟨1709210096, 5⟩ := by
  refine ⟨⟨by decide +kernel, by decide⟩, by decide⟩

/-- C15. The next civil day at the same time of day is exactly 86400 s later, for every valid date
from 0000-03-01 on (so also before 1970). -/
theorem C15_next_day_partial (d : Date) (h : d.Valid) (hy : 1 ≤ d.year ∨ (d.year = 0 ∧ 3 ≤ d.month))
    (hh mm ss ns : Int) :
    (Time.fromUtcDatetime ⟨d.next.year, d.next.month, d.next.day, hh, mm, ss, ns⟩).sec =
      (Time.fromUtcDatetime ⟨d.year, d.month, d.day, hh, mm, ss, ns⟩).sec + 86400 := by
  have hY : 0 ≤ d.Y := by unfold Date.Y; split <;> omega
  obtain ⟨a, b, c⟩ := num_next d h hY
  rw [from_eq _ b a.1, from_eq _ hY h.1, c]
  simp only; omega

example : Date.Valid ⟨1900, 2, 28⟩ ∧ Date.next ⟨1900, 2, 28⟩ = ⟨1900, 3, 1⟩ := by decide +kernel

/-- C15. The epoch anchor: 1970-01-01 00:00:00 is second 0. -/
theorem C15_anchor : Time.fromUtcDatetime ⟨1970, 1, 1, 0, 0, 0, 0⟩ = ⟨0, 0⟩ := by decide

/-- C15. `from_utc_datetime` is strictly monotone: a later valid date-time (later day, or the same
day and a later second of the day) gives a later second, from 0000-03-01 on. -/
theorem C15_monotone_partial (a b : UtcDateTime) (ha : a.Valid) (hb : b.Valid)
    (ya : 1 ≤ a.year) (yb : 1 ≤ b.year)
    (hlt : a.year < b.year ∨ (a.year = b.year ∧ (a.month < b.month ∨ (a.month = b.month ∧
      (a.day < b.day ∨ (a.day = b.day ∧
        a.hour * 3600 + a.minute * 60 + a.second < b.hour * 3600 + b.minute * 60 + b.second)))))) :
    (Time.fromUtcDatetime a).sec < (Time.fromUtcDatetime b).sec := by
  have ea := from_eq ⟨a.year, a.month, a.day⟩ (by unfold Date.Y; split <;> simp only <;> omega)
    ha.1.1 a.hour a.minute a.second a.nanos
  have eb := from_eq ⟨b.year, b.month, b.day⟩ (by unfold Date.Y; split <;> simp only <;> omega)
    hb.1.1 b.hour b.minute b.second b.nanos
  simp only at ea eb
  rw [ea, eb]
  obtain ⟨va, ra⟩ := ha
  obtain ⟨vb, rb⟩ := hb
  simp only
  rcases hlt with h | ⟨e1, h⟩
  · have := num_lt_of_year _ _ va vb h
    omega
  · have key : a.month < b.month ∨ (a.month = b.month ∧ a.day < b.day) →
        Date.num ⟨a.year, a.month, a.day⟩ < Date.num ⟨b.year, b.month, b.day⟩ := fun h => num_lt_of_md _ _ va vb e1 h
    by_cases c : a.month = b.month ∧ a.day = b.day
    · have : Date.num ⟨a.year, a.month, a.day⟩ = Date.num ⟨b.year, b.month, b.day⟩ := by
        rw [e1, c.1, c.2]
      omega
    · have := key (by omega)
      omega

example : UtcDateTime.Valid ⟨1999, 12, 31, 23, 59, 59, 0⟩ ∧ UtcDateTime.Valid ⟨2000, 1, 1, 0, 0, 0, 0⟩ := by
  refine ⟨⟨by decide +kernel, by decide⟩, ⟨by decide +kernel, by decide⟩⟩

/-- C15 fails before 1970: 1969-12-31 23:59:59 maps to second −1 correctly, but that instant does not
map back to a valid date-time. -/
theorem C15_before_epoch_fails :
    Time.fromUtcDatetime ⟨1969, 12, 31, 23, 59, 59, 0⟩ = ⟨-1, 0⟩ ∧
    (Time.mk (-1) 0 : Time .utc).toUtcDatetime ≠ ⟨1969, 12, 31, 23, 59, 59, 0⟩ := by decide

/-- C15 fails in the far past: two different valid dates, 0000-02-29 and 0000-03-01, map to the same
second. -/
theorem C15_year_zero_fails :
    Date.Valid ⟨0, 2, 29⟩ ∧ Date.Valid ⟨0, 3, 1⟩ ∧
    Time.fromUtcDatetime ⟨0, 2, 29, 0, 0, 0, 0⟩ = Time.fromUtcDatetime ⟨0, 3, 1, 0, 0, 0, 0⟩ := by
  decide +kernel

/-! ## C16 -/

/-- `t` is a whole second whose civil date and time have the given month, day and time of day. -/
def MatchesYearly (month day hour minute second : Int) (t : Time .utc) : Prop :=
  0 ≤ t.sec ∧ t.nano = 0 ∧
  ∃ y, (dateAfterEpoch (t.sec / 86400).toNat) = ⟨y, month, day⟩ ∧
    t.sec % 86400 = hour * 3600 + minute * 60 + second

/-- C16 (part). For a month/day that exists in every year, `next_yearly` (from 1970 on) returns the
earliest instant strictly after now with the given month, day and time of day.
Missing: Feb 29 (false, see `C16_feb29_fails`) and times before 1970. -/
theorem C16_yearly_partial (now : Time .utc) (month day hour minute second : Int) (hc : now.Canon)
    (h0 : 0 ≤ now.sec) (h1 : now.sec ≤ 67000000000000000)
    (hd : ∀ y, Date.Valid ⟨y, month, day⟩) (hh : 0 ≤ hour ∧ hour < 24)
    (hm : 0 ≤ minute ∧ minute < 60) (hs : 0 ≤ second ∧ second < 60) :
    ∃ t, nextYearly now month day hour minute second = some t ∧ t.Canon ∧ now.total < t.total ∧
      MatchesYearly month day hour minute second t ∧
      ∀ u, MatchesYearly month day hour minute second u → now.total < u.total → t.total ≤ u.total := by
  have hb := C14_year_bound now.sec h0 h1
  obtain ⟨v, n, yy⟩ := dateAfterEpoch_spec (now.sec / 86400).toNat
  have eN : ((now.sec / 86400).toNat : Int) = now.sec / 86400 := by omega
  rw [eN] at n
  have hY0 : 1970 ≤ (dateAfterEpoch (now.sec / 86400).toNat).year := by
    by_cases c : 1970 ≤ (dateAfterEpoch (now.sec / 86400).toNat).year
    · exact c
    · have := num_lt_of_year _ ⟨1970, 1, 1⟩ v (by decide +kernel) (by simp only; omega)
      have e : Date.num ⟨1970, 1, 1⟩ = 0 := by decide
      omega
  have hYu : ∀ u, MatchesYearly month day hour minute second u →
      ∃ y, u.total = (Date.num ⟨y, month, day⟩ * 86400 + hour * 3600 + minute * 60 + second) * NS ∧
        Date.num ⟨y, month, day⟩ = u.sec / 86400 := by
    rintro u ⟨u0, u1, y, u2, u3⟩
    obtain ⟨v', n', yy'⟩ := dateAfterEpoch_spec (u.sec / 86400).toNat
    rw [u2] at n'
    refine ⟨y, ?_, by omega⟩
    simp only [Time.total, u1]; omega
  have hmono : ∀ y y', y < y' → Date.num ⟨y, month, day⟩ < Date.num ⟨y', month, day⟩ :=
    fun y y' h => num_lt_of_year _ _ (hd y) (hd y') h
  have hbig : ∀ y, 0 ≤ y → Date.num ⟨y, month, day⟩ ≤ 366 * y + 366 := by
    intro y hy
    obtain ⟨_, a, b, _⟩ := civil_date _ (hd y)
    have : Date.Y ⟨y, month, day⟩ ≤ y := by unfold Date.Y; split <;> simp only <;> omega
    have : -1 ≤ Date.Y ⟨y, month, day⟩ := by unfold Date.Y; split <;> simp only <;> omega
    unfold Date.num marchDay
    omega
  have hYf : ∀ y, 1970 ≤ y → Time.fromUtcDatetime ⟨y, month, day, hour, minute, second, 0⟩ =
      ⟨Date.num ⟨y, month, day⟩ * 86400 + hour * 3600 + minute * 60 + second, 0⟩ := by
    intro y hy
    exact from_eq ⟨y, month, day⟩ (by unfold Date.Y; split <;> simp only <;> omega) (hd y).1 _ _ _ _
  have hmatch : ∀ y, 0 ≤ Date.num ⟨y, month, day⟩ → 1 ≤ y →
      MatchesYearly month day hour minute second
        ⟨Date.num ⟨y, month, day⟩ * 86400 + hour * 3600 + minute * 60 + second, 0⟩ := by
    intro y hn hy
    have e : (Date.num ⟨y, month, day⟩ * 86400 + hour * 3600 + minute * 60 + second) / 86400 =
        Date.num ⟨y, month, day⟩ := by omega
    refine ⟨by simp only; omega, rfl, y, ?_, by simp only; omega⟩
    simp only [e]
    obtain ⟨v', n', yy'⟩ := dateAfterEpoch_spec (Date.num ⟨y, month, day⟩).toNat
    exact num_inj _ _ v' (hd y) yy' (by unfold Date.Y; split <;> simp only <;> omega) (by omega)
  have hdt := C14_to_datetime_partial now h0 (by omega)
  simp only [nextYearly, hdt, Option.bind_eq_bind]
  generalize hyr : (dateAfterEpoch (now.sec / 86400).toNat).year = Y at *
  rw [hYf Y hY0]
  have bY := hbig Y (by omega)
  have bY1 := hbig (Y + 1) (by omega)
  have hafter : ∀ y, Y < y → now.sec < Date.num ⟨y, month, day⟩ * 86400 := by
    intro y hy
    have := num_lt_of_year _ _ v (hd y) (by rw [hyr]; exact hy)
    omega
  have hbefore : ∀ y, y < Y → Date.num ⟨y, month, day⟩ * 86400 + 86400 ≤ now.sec := by
    intro y hy
    have := num_lt_of_year _ _ (hd y) v (by rw [hyr]; exact hy)
    omega
  obtain ⟨⟨cs1, cs2⟩, cn1, cn2⟩ := id hc
  have hdec : 0 ≤ Date.num ⟨Y, month, day⟩ := by
    obtain ⟨k, hk⟩ := C15_dates_exhaustive _ (hd Y) hY0
    have := (dateAfterEpoch_spec k).2.1
    rw [hk] at this; omega
  have cc : Time.Canon (ts := .utc)
      ⟨Date.num ⟨Y, month, day⟩ * 86400 + hour * 3600 + minute * 60 + second, 0⟩ :=
    ⟨by constructor <;> simp only <;> omega, by simp, by simp⟩
  rw [Time.le_eq cc hc]
  by_cases c : (Time.mk (Date.num ⟨Y, month, day⟩ * 86400 + hour * 3600 + minute * 60 + second) 0 :
      Time .utc).total ≤ now.total
  · rw [if_pos (by simpa using c)]
    have : chk32 (Y + 1) = some (Y + 1) := by unfold chk32; rw [if_pos (by omega)]
    rw [this, Option.bind_some, hYf _ (by omega)]
    have lt := hafter (Y + 1) (by omega)
    refine ⟨_, rfl, ⟨by constructor <;> simp only <;> omega, by simp, by simp⟩, ?_,
      hmatch _ (by omega) (by omega), ?_⟩
    · simp only [Time.total]; omega
    · intro u hu hnu
      obtain ⟨y, e1, e2⟩ := hYu u hu
      simp only [Time.total] at *
      have : Y < y := by
        by_cases c1 : Y < y
        · exact c1
        · by_cases c2 : y = Y
          · rw [c2] at e1; omega
          · have := hbefore y (by omega); omega
      have : y = Y + 1 ∨ Y + 1 < y := by omega
      rcases this with rfl | h
      · omega
      · have := hmono _ _ h; omega
  · rw [if_neg (by simpa using c)]
    refine ⟨_, rfl, cc, by omega, hmatch _ hdec (by omega), ?_⟩
    intro u hu hnu
    obtain ⟨y, e1, e2⟩ := hYu u hu
    simp only [Time.total] at *
    have : Y ≤ y := by
      by_cases c1 : Y ≤ y
      · exact c1
      · have := hbefore y (by omega); omega
    have : y = Y ∨ Y < y := by omega
    rcases this with rfl | h
    · omega
    · have := hmono _ _ h; omega

/-- The hypotheses of C16 are met, e.g. by 25 December. -/
example : (∀ y, Date.Valid ⟨y, 12, 25⟩) ∧
    nextYearly ⟨1709210096, 5⟩ 12 25 8 30 0 = some ⟨1735115400, 0⟩ := by
  refine ⟨fun y => ?_, by decide⟩
  simp [Date.Valid, daysInMonth]

/-- C16 fails for 29 February: asked on 1 January 2023, the schedule fires on 2023-03-01, which
is not a 29 February. -/
theorem C16_feb29_fails :
    nextYearly ⟨1672531200, 0⟩ 2 29 0 0 0 = some ⟨1677628800, 0⟩ ∧
    (Time.mk 1677628800 0 : Time .utc).toUtcDatetime = ⟨2023, 3, 1, 0, 0, 0, 0⟩ := by decide

/-- C16 over histories. A yearly schedule (month/day existing in every year) created at `start` and
polled at any times from 1970 on, in any order: a poll fires exactly when some matching instant after
`start` is due at it and is later than all earlier polls; the pending firing time matches and is
later than all polls. -/
theorem C16_yearly_history_partial (start : Time .utc) (month day hour minute second : Int)
    (s₀ : UtcSchedule)
    (hs₀ : start.Canon ∧ 0 ≤ start.sec ∧ start.sec ≤ 67000000000000000)
    (hd : ∀ y, Date.Valid ⟨y, month, day⟩) (hh : 0 ≤ hour ∧ hour < 24)
    (hm : 0 ≤ minute ∧ minute < 60) (hs : 0 ≤ second ∧ second < 60)
    (hnew : UtcSchedule.new start (.yearly month day hour minute second) = some s₀)
    (polls : List (Time .utc))
    (hpolls : ∀ t ∈ polls, t.Canon ∧ 0 ≤ t.sec ∧ t.sec ≤ 67000000000000000) :
    ∃ (s : UtcSchedule) (flags : List Bool),
      Returns (fun n => s₀.checks n polls) (s, flags) ∧ flags.length = polls.length ∧
      (∀ i (h : i < polls.length), flags[i]? = some true ↔
        ∃ u, MatchesYearly month day hour minute second u ∧ start.total < u.total ∧
          u.total ≤ polls[i].total ∧ ∀ t ∈ polls.take i, t.total < u.total) ∧
      (∃ u, MatchesYearly month day hour minute second u ∧ s.nextFire.total = u.total) ∧
      ∀ t ∈ polls, t.total < s.nextFire.total := by
  let M : Int → Prop := fun m => ∃ u, MatchesYearly month day hour minute second u ∧ m = u.total
  obtain ⟨t₀, ht₀, c₀, l₀, m₀, least₀⟩ :=
    C16_yearly_partial start month day hour minute second hs₀.1 hs₀.2.1 hs₀.2.2 hd hh hm hs
  simp only [UtcSchedule.new, ht₀, Option.bind_eq_bind, Option.bind_some, pure,
    Option.some.injEq] at hnew
  subst hnew
  have inv : SchedInv M start.total (.yearly month day hour minute second) []
      ⟨t₀, .yearly month day hour minute second⟩ := by
    refine ⟨rfl, c₀, ⟨t₀, m₀, rfl⟩, l₀, by simp, ?_⟩
    rintro m ⟨x, hx, rfl⟩ h _
    exact least₀ x hx h
  have H := fun adv => sched_history M start.total
    (.yearly month day hour minute second)
    (fun t => t.Canon ∧ 0 ≤ t.sec ∧ t.sec ≤ 67000000000000000)
    (fun _ h => h.1) adv polls hpolls [] _ inv
  obtain ⟨s, flags, N, h1, h2, h3, h4⟩ := H (by
    rintro sch now hpat cnf _ _ ⟨cnow, hn0, hfit⟩ hdue
    obtain ⟨t, ht, ct, lt, mt, least⟩ :=
      C16_yearly_partial now month day hour minute second cnow hn0 hfit hd hh hm hs
    refine ⟨t, 0, fun n _ => ?_, ct, ⟨t, mt, rfl⟩, lt, ?_⟩
    · simp only [UtcSchedule.check, Time.lt_eq cnow cnf, hpat]
      rw [if_neg (by simp; omega), ht]
      simp [Run.ofOption, Run.bind, hpat]
    · rintro m ⟨x, hx, rfl⟩ h
      exact least x hx h)
  · refine ⟨s, flags, ⟨N, h1 N (Nat.le_refl _)⟩, h3, fun i hi => ?_, ?_, by simpa using
      h2.2.2.2.2.1⟩
    · rw [h4 i hi]
      constructor
      · rintro ⟨m, ⟨x, hx, rfl⟩, a, b, c⟩; exact ⟨x, hx, a, b, by simpa using c⟩
      · rintro ⟨x, hx, a, b, c⟩; exact ⟨_, ⟨x, hx, rfl⟩, a, b, by simpa using c⟩
    · obtain ⟨x, hx, e⟩ := h2.2.2.1
      exact ⟨x, hx, e⟩

end Verif.Time
