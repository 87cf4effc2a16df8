import Verif.Time.PropsArith

/-! # Properties C05–C08: time scales, GPS weeks, mission clock -/

namespace Verif.Time
open Verif.Rust

theorem chk64_eq_some {x y : Int} : chk64 x = some y ↔ FitsI64 x ∧ y = x := by
  by_cases h : FitsI64 x
  · rw [chk64_of h]; simp [h, eq_comm]
  · rw [chk64_not h]; simp [h]

theorem chk32_eq_some {x y : Int} : chk32 x = some y ↔ (i32Min ≤ x ∧ x ≤ i32Max) ∧ y = x := by
  by_cases h : i32Min ≤ x ∧ x ≤ i32Max
  · rw [chk32_of h.1 h.2]; simp [h, eq_comm]
  · simp only [chk32]; rw [if_neg h]; simp [h]

/-- What a successful scale conversion did: it added a number of seconds. -/
theorem utcToTai_some {l : Int} {t : Time .utc} {u : Time .tai} :
    t.utcToTai l = some u ↔
      (i32Min ≤ 10 + l ∧ 10 + l ≤ i32Max) ∧ FitsI64 (t.sec + (10 + l)) ∧
      u = ⟨t.sec + (10 + l), t.nano⟩ := by
  simp only [Time.utcToTai, Time.taiMinusUtc, Option.bind_eq_bind, Option.bind_eq_some_iff,
    chk64_eq_some, chk32_eq_some, pure, Option.some.injEq]
  constructor
  · rintro ⟨a, ⟨h, rfl⟩, b, ⟨h', rfl⟩, rfl⟩; exact ⟨h, h', rfl⟩
  · rintro ⟨h, h', rfl⟩; exact ⟨_, ⟨h, rfl⟩, _, ⟨h', rfl⟩, rfl⟩

theorem taiToUtc_some {l : Int} {t : Time .tai} {u : Time .utc} :
    t.taiToUtc l = some u ↔
      (i32Min ≤ 10 + l ∧ 10 + l ≤ i32Max) ∧ FitsI64 (t.sec - (10 + l)) ∧
      u = ⟨t.sec - (10 + l), t.nano⟩ := by
  simp only [Time.taiToUtc, Time.taiMinusUtc, Option.bind_eq_bind, Option.bind_eq_some_iff,
    chk64_eq_some, chk32_eq_some, pure, Option.some.injEq]
  constructor
  · rintro ⟨a, ⟨h, rfl⟩, b, ⟨h', rfl⟩, rfl⟩; exact ⟨h, h', rfl⟩
  · rintro ⟨h, h', rfl⟩; exact ⟨_, ⟨h, rfl⟩, _, ⟨h', rfl⟩, rfl⟩

theorem utcToGps_some {l : Int} {t : Time .utc} {u : Time .gps} :
    t.utcToGps l = some u ↔
      (i32Min ≤ 10 + l ∧ 10 + l ≤ i32Max) ∧ FitsI64 (t.sec - 315964800) ∧
      FitsI64 (t.sec - 315964800 + (10 + l - 19)) ∧
      u = ⟨t.sec - 315964800 + (10 + l - 19), t.nano⟩ := by
  simp only [Time.utcToGps, Time.taiMinusUtc, Time.unixGpsEpoch, Option.bind_eq_bind,
    Option.bind_eq_some_iff, chk64_eq_some, chk32_eq_some, pure, Option.some.injEq]
  constructor
  · rintro ⟨a, ⟨h, rfl⟩, b, ⟨h', rfl⟩, c, ⟨h2, rfl⟩, d, ⟨h3, rfl⟩, rfl⟩
    exact ⟨h, h2, h3, rfl⟩
  · rintro ⟨h, h', h2, rfl⟩
    exact ⟨_, ⟨h, rfl⟩, _, ⟨by constructor <;> omega, rfl⟩, _, ⟨h', rfl⟩, _, ⟨h2, rfl⟩, rfl⟩

theorem gpsToUtc_some {l : Int} {t : Time .gps} {u : Time .utc} :
    t.gpsToUtc l = some u ↔
      (i32Min ≤ 10 + l ∧ 10 + l ≤ i32Max) ∧ FitsI64 (t.sec + 315964800) ∧
      FitsI64 (t.sec + 315964800 - (10 + l - 19)) ∧
      u = ⟨t.sec + 315964800 - (10 + l - 19), t.nano⟩ := by
  simp only [Time.gpsToUtc, Time.taiMinusUtc, Time.unixGpsEpoch, Option.bind_eq_bind,
    Option.bind_eq_some_iff, chk64_eq_some, chk32_eq_some, pure, Option.some.injEq]
  constructor
  · rintro ⟨a, ⟨h, rfl⟩, b, ⟨h', rfl⟩, c, ⟨h2, rfl⟩, d, ⟨h3, rfl⟩, rfl⟩
    exact ⟨h, h2, h3, rfl⟩
  · rintro ⟨h, h', h2, rfl⟩
    exact ⟨_, ⟨h, rfl⟩, _, ⟨by constructor <;> omega, rfl⟩, _, ⟨h', rfl⟩, _, ⟨h2, rfl⟩, rfl⟩

/-! ## C05 -/

/-- C05. Unix and UTC times convert into each other without loss. -/
theorem C05_unix_round_trip (t : Time .utc) (u : Time .unix) :
    t.utcToUnix.unixToUtc = t ∧ u.unixToUtc.utcToUnix = u ∧ t.utcToUnix.total = t.total :=
  ⟨rfl, rfl, rfl⟩

/-- C05. UTC → TAI → UTC: with leap count `a` on the way out and `b` on the way back the result is
the original shifted by exactly `a - b` seconds; in particular it is the original if the setting
did not change. -/
theorem C05_tai_round_trip (a b : Int) (t v : Time .utc) (u : Time .tai)
    (h : t.utcToTai a = some u) (h' : u.taiToUtc b = some v) :
    v.total = t.total + (a - b) * NS ∧ (a = b → v = t) := by
  obtain ⟨-, -, rfl⟩ := utcToTai_some.1 h
  obtain ⟨-, -, rfl⟩ := taiToUtc_some.1 h'
  refine ⟨by simp only [Time.total]; omega, ?_⟩
  rintro rfl
  obtain ⟨s, n⟩ := t
  simp only [Time.mk.injEq]
  exact ⟨by omega, trivial⟩

/-- C05. With an unchanged setting the way back through TAI cannot panic. -/
theorem C05_tai_round_trip_total (a : Int) (t : Time .utc) (u : Time .tai) (hs : FitsI64 t.sec)
    (h : t.utcToTai a = some u) : u.taiToUtc a = some t := by
  obtain ⟨h1, h2, rfl⟩ := utcToTai_some.1 h
  obtain ⟨s, n⟩ := t
  rw [taiToUtc_some]
  simp only [Time.mk.injEq]
  refine ⟨h1, ?_, by omega, trivial⟩
  simp only at h2 hs ⊢
  rwa [show s + (10 + a) - (10 + a) = s by omega]

example : (Time.mk 1700000000 5 : Time .utc).utcToTai 27 = some ⟨1700000037, 5⟩ ∧
    (Time.mk 1700000037 5 : Time .tai).taiToUtc 28 = some ⟨1699999999, 5⟩ := by decide

/-- C05. UTC → GPS → UTC, the same way. -/
theorem C05_gps_round_trip (a b : Int) (t v : Time .utc) (u : Time .gps)
    (h : t.utcToGps a = some u) (h' : u.gpsToUtc b = some v) :
    v.total = t.total + (a - b) * NS ∧ (a = b → v = t) := by
  obtain ⟨-, -, -, rfl⟩ := utcToGps_some.1 h
  obtain ⟨-, -, -, rfl⟩ := gpsToUtc_some.1 h'
  refine ⟨by simp only [Time.total]; omega, ?_⟩
  rintro rfl
  obtain ⟨s, n⟩ := t
  simp only [Time.mk.injEq]
  exact ⟨by omega, trivial⟩

/-- C05. GPS → UTC → GPS. -/
theorem C05_gps_round_trip' (a b : Int) (t v : Time .gps) (u : Time .utc)
    (h : t.gpsToUtc a = some u) (h' : u.utcToGps b = some v) :
    v.total = t.total + (b - a) * NS ∧ (a = b → v = t) := by
  obtain ⟨-, -, -, rfl⟩ := gpsToUtc_some.1 h
  obtain ⟨-, -, -, rfl⟩ := utcToGps_some.1 h'
  refine ⟨by simp only [Time.total]; omega, ?_⟩
  rintro rfl
  obtain ⟨s, n⟩ := t
  simp only [Time.mk.injEq]
  exact ⟨by omega, trivial⟩

/-- C05. TAI → UTC → TAI. -/
theorem C05_tai_round_trip' (a b : Int) (t v : Time .tai) (u : Time .utc)
    (h : t.taiToUtc a = some u) (h' : u.utcToTai b = some v) :
    v.total = t.total + (b - a) * NS ∧ (a = b → v = t) := by
  obtain ⟨-, -, rfl⟩ := taiToUtc_some.1 h
  obtain ⟨-, -, rfl⟩ := utcToTai_some.1 h'
  refine ⟨by simp only [Time.total]; omega, ?_⟩
  rintro rfl
  obtain ⟨s, n⟩ := t
  simp only [Time.mk.injEq]
  exact ⟨by omega, trivial⟩

/-- C05. For any leap setting an `i32` sum allows and any instant within 2^62 s of the epoch, all
conversions succeed and round-trip. -/
theorem C05_round_trip_no_panic (l : Int) (t : Time .utc) (hl : i32Min ≤ l) (hl' : l + 10 ≤ i32Max)
    (h1 : -4611686018427387904 ≤ t.sec) (h2 : t.sec ≤ 4611686018427387904) :
    ∃ u g, t.utcToTai l = some u ∧ u.taiToUtc l = some t ∧
      t.utcToGps l = some g ∧ g.gpsToUtc l = some t ∧
      u.taiToGps l l = some g ∧ g.gpsToTai l l = some u := by
  refine ⟨⟨t.sec + (10 + l), t.nano⟩, ⟨t.sec - 315964800 + (10 + l - 19), t.nano⟩, ?_⟩
  have e1 : t.sec + (10 + l) - (10 + l) = t.sec := by omega
  have e2 : t.sec - 315964800 + (10 + l - 19) + 315964800 - (10 + l - 19) = t.sec := by omega
  have A : t.utcToTai l = some ⟨t.sec + (10 + l), t.nano⟩ :=
    utcToTai_some.2 ⟨by omega, by constructor <;> omega, rfl⟩
  have B : (Time.mk (t.sec + (10 + l)) t.nano : Time .tai).taiToUtc l = some t := by
    refine taiToUtc_some.2 ⟨by omega, by constructor <;> simp only [] <;> omega, ?_⟩
    simp only [e1]
  have C : t.utcToGps l = some ⟨t.sec - 315964800 + (10 + l - 19), t.nano⟩ :=
    utcToGps_some.2 ⟨by omega, by constructor <;> omega, by constructor <;> omega, rfl⟩
  have D : (Time.mk (t.sec - 315964800 + (10 + l - 19)) t.nano : Time .gps).gpsToUtc l = some t := by
    refine gpsToUtc_some.2 ⟨by omega, by constructor <;> simp only [] <;> omega,
      by constructor <;> simp only [] <;> omega, ?_⟩
    simp only [e2]
  refine ⟨A, B, C, D, ?_, ?_⟩
  · rw [Time.taiToGps, B]; exact C
  · rw [Time.gpsToTai, D]; exact A

example : i32Min ≤ (27 : Int) ∧ (27 : Int) + 10 ≤ i32Max ∧
    -4611686018427387904 ≤ (Time.mk 1700000000 0 : Time .utc).sec := by decide

/-- C05. TAI minus GPS is 19 s plus the epoch difference for every leap-second setting, as long as
the setting does not change between the two reads the conversion makes; if it does, the result is
off by exactly the change. -/
theorem C05_gps_tai_offset (l₁ l₂ : Int) (t : Time .gps) (u : Time .tai)
    (h : t.gpsToTai l₁ l₂ = some u) :
    u.total = t.total + (315964800 + 19 + (l₂ - l₁)) * NS := by
  simp only [Time.gpsToTai, Option.bind_eq_bind, Option.bind_eq_some_iff] at h
  obtain ⟨v, h1, h2⟩ := h
  obtain ⟨-, -, -, rfl⟩ := gpsToUtc_some.1 h1
  obtain ⟨-, -, rfl⟩ := utcToTai_some.1 h2
  simp only [Time.total]; omega

example : (Time.mk 1000000000 7 : Time .gps).gpsToTai 27 27 = some ⟨1315964819, 7⟩ := by decide

/-- C05. The opposite direction. -/
theorem C05_tai_gps_offset (l₁ l₂ : Int) (t : Time .tai) (u : Time .gps)
    (h : t.taiToGps l₁ l₂ = some u) :
    u.total = t.total - (315964800 + 19 + (l₁ - l₂)) * NS := by
  simp only [Time.taiToGps, Option.bind_eq_bind, Option.bind_eq_some_iff] at h
  obtain ⟨v, h1, h2⟩ := h
  obtain ⟨-, -, rfl⟩ := taiToUtc_some.1 h1
  obtain ⟨-, -, -, rfl⟩ := utcToGps_some.1 h2
  simp only [Time.total]; omega

example : (Time.mk 1315964819 7 : Time .tai).taiToGps 27 27 = some ⟨1000000000, 7⟩ := by decide

/-- C05. Conversions (with one leap setting) preserve elapsed time and order of canonical times. -/
theorem C05_elapsed_preserved (l : Int) (t₁ t₂ : Time .utc) (u₁ u₂ : Time .tai) (g₁ g₂ : Time .gps)
    (c₁ : t₁.Canon) (c₂ : t₂.Canon)
    (h₁ : t₁.utcToTai l = some u₁) (h₂ : t₂.utcToTai l = some u₂)
    (k₁ : t₁.utcToGps l = some g₁) (k₂ : t₂.utcToGps l = some g₂) :
    u₂.total - u₁.total = t₂.total - t₁.total ∧ g₂.total - g₁.total = t₂.total - t₁.total ∧
    u₁.cmp u₂ = t₁.cmp t₂ ∧ g₁.cmp g₂ = t₁.cmp t₂ := by
  obtain ⟨-, f₁, rfl⟩ := utcToTai_some.1 h₁
  obtain ⟨-, f₂, rfl⟩ := utcToTai_some.1 h₂
  obtain ⟨-, -, f₃, rfl⟩ := utcToGps_some.1 k₁
  obtain ⟨-, -, f₄, rfl⟩ := utcToGps_some.1 k₂
  refine ⟨by simp only [Time.total]; omega, by simp only [Time.total]; omega, ?_, ?_⟩
  · rw [Time.cmp_eq c₁ c₂,
      Time.cmp_eq (a := (⟨t₁.sec + (10 + l), t₁.nano⟩ : Time .tai)) (b := ⟨t₂.sec + (10 + l), t₂.nano⟩) ⟨f₁, c₁.2⟩ ⟨f₂, c₂.2⟩]
    simp only [Time.total, compare, compareOfLessAndEq]
    congr 1
    · exact propext (by omega)
    · congr 1; exact propext (by omega)
  · rw [Time.cmp_eq c₁ c₂,
      Time.cmp_eq (a := (⟨t₁.sec - 315964800 + (10 + l - 19), t₁.nano⟩ : Time .gps))
        (b := ⟨t₂.sec - 315964800 + (10 + l - 19), t₂.nano⟩) ⟨f₃, c₁.2⟩ ⟨f₄, c₂.2⟩]
    simp only [Time.total, compare, compareOfLessAndEq]
    congr 1
    · exact propext (by omega)
    · congr 1; exact propext (by omega)

/-! ## C06 -/

/-- C06 (part). For a GPS time at or after the GPS epoch and a hint week not within 512 of either
end of the `u32` range: seconds-of-week and raw week are right, and the full week is congruent to
the true week modulo 1024, at most 512 from the hint, and no congruent week is nearer to the hint.
Missing: hints near the ends of the range and times before the epoch (false there,
see `C06_wraps_fails` and `C06_negative_fails`). -/
theorem C06_nearest_week_partial (t : Time .gps) (hint : Int) (ht : 0 ≤ t.sec)
    (h1 : 512 ≤ hint) (h2 : hint ≤ u32Max - 512) :
    let r := toGpsWeek t hint
    0 ≤ r.sow ∧ r.sow < 604800 ∧ r.sow = t.sec % 604800 ∧
    r.rawWeek = (t.sec / 604800) % 1024 ∧
    r.fullWeek % 1024 = (t.sec / 604800) % 1024 ∧
    (r.fullWeek - hint).natAbs ≤ 512 ∧
    ∀ w : Int, w % 1024 = (t.sec / 604800) % 1024 →
      (r.fullWeek - hint).natAbs ≤ (w - hint).natAbs := by
  have q : t.sec.tdiv 604800 = t.sec / 604800 := Int.tdiv_eq_ediv_of_nonneg ht
  have hq : 0 ≤ t.sec / 604800 := by omega
  have m : (t.sec / 604800).tmod 1024 = (t.sec / 604800) % 1024 := Int.tmod_eq_emod_of_nonneg hq
  have s : t.sec.tmod 604800 = t.sec % 604800 := Int.tmod_eq_emod_of_nonneg ht
  have b : hint.tdiv 1024 = hint / 1024 := Int.tdiv_eq_ediv_of_nonneg (by omega)
  have w : asU16 ((t.sec / 604800) % 1024) = (t.sec / 604800) % 1024 := by unfold asU16; omega
  simp only [toGpsWeek, q, m, s, b, w]
  generalize t.sec / 604800 = W at *
  refine ⟨by omega, by omega, trivial, trivial, ?_, ?_, ?_⟩
  · unfold asU32; split
    · omega
    · split <;> omega
  · unfold asU32; split
    · omega
    · split <;> omega
  · intro v hv
    unfold asU32; split
    · omega
    · split <;> omega

example : 0 ≤ (Time.mk 1400000000 0 : Time .gps).sec ∧ (512 : Int) ≤ 2300 ∧
    toGpsWeek ⟨1400000000, 0⟩ 2300 = ⟨266, 492800, 2314⟩ := by decide

/-- C06. If the true week is less than 512 weeks from the hint (any `u32` hint), it is returned, and
the reported week and seconds of week reconstruct the time. -/
theorem C06_true_week (t : Time .gps) (hint : Int) (ht : 0 ≤ t.sec) (h1 : 0 ≤ hint)
    (h2 : hint ≤ u32Max) (hw : t.sec / 604800 ≤ u32Max)
    (hn : (t.sec / 604800 - hint).natAbs < 512) :
    (toGpsWeek t hint).fullWeek = t.sec / 604800 ∧
    (toGpsWeek t hint).fullWeek * 604800 + (toGpsWeek t hint).sow = t.sec := by
  have q : t.sec.tdiv 604800 = t.sec / 604800 := Int.tdiv_eq_ediv_of_nonneg ht
  have hq : 0 ≤ t.sec / 604800 := by omega
  have m : (t.sec / 604800).tmod 1024 = (t.sec / 604800) % 1024 := Int.tmod_eq_emod_of_nonneg hq
  have s : t.sec.tmod 604800 = t.sec % 604800 := Int.tmod_eq_emod_of_nonneg ht
  have b : hint.tdiv 1024 = hint / 1024 := Int.tdiv_eq_ediv_of_nonneg (by omega)
  have w : asU16 ((t.sec / 604800) % 1024) = (t.sec / 604800) % 1024 := by unfold asU16; omega
  have key : (toGpsWeek t hint).fullWeek = t.sec / 604800 := by
    simp only [toGpsWeek, q, m, b, w]
    generalize t.sec / 604800 = W at *
    unfold asU32; split
    · omega
    · split <;> omega
  refine ⟨key, ?_⟩
  rw [key]; simp only [toGpsWeek, s]; omega

example : (Time.mk 1400000000 0 : Time .gps).sec / 604800 ≤ u32Max ∧
    ((Time.mk 1400000000 0 : Time .gps).sec / 604800 - 2300).natAbs < 512 := by decide

/-- C06 (ties). When the hint lies exactly half way between two congruent weeks, the one in the 1024-week block of the hint is
returned (any `u32` hint). -/
theorem C06_tie (t : Time .gps) (hint : Int) (ht : 0 ≤ t.sec) (h1 : 0 ≤ hint) (h2 : hint ≤ u32Max) (w : Int)
    (hw : w % 1024 = (t.sec / 604800) % 1024) (hb : w / 1024 = hint / 1024) (hn : (w - hint).natAbs ≤ 512) :
    (toGpsWeek t hint).fullWeek = w := by
  have q : t.sec.tdiv 604800 = t.sec / 604800 := Int.tdiv_eq_ediv_of_nonneg ht
  have hq : 0 ≤ t.sec / 604800 := by omega
  have m : (t.sec / 604800).tmod 1024 = (t.sec / 604800) % 1024 := Int.tmod_eq_emod_of_nonneg hq
  have b : hint.tdiv 1024 = hint / 1024 := Int.tdiv_eq_ediv_of_nonneg h1
  have e : asU16 ((t.sec / 604800) % 1024) = (t.sec / 604800) % 1024 := by unfold asU16; omega
  simp only [toGpsWeek, q, m, b, e]
  generalize t.sec / 604800 = W at *
  have hu : u32Max = 4294967295 := rfl
  unfold asU32; split
  · omega
  · split <;> omega

example : (toGpsWeek ⟨2560 * 604800, 0⟩ 2048).fullWeek = 2560 ∧ (2560 - 2048 : Int).natAbs ≤ 512 := by decide

/-- C06 fails near the start of the range: for true week 1000 and hint week 100 the returned week
is 4294967272, more than four billion weeks away from every plausible answer. -/
theorem C06_wraps_fails :
    toGpsWeek ⟨1000 * 604800, 0⟩ 100 = ⟨1000, 0, 4294967272⟩ := by decide

/-- C06 fails before the GPS epoch: the seconds-of-week are negative and the raw week is not below
1024. -/
theorem C06_negative_fails :
    (toGpsWeek ⟨-1, 0⟩ 100).sow = -1 ∧ (toGpsWeek ⟨-604800, 0⟩ 2300).rawWeek = 65535 := by decide

/-! ## C07 -/

/-- Whole ticks to nanoseconds: quotient and remainder parts add up to the rounded-down quotient. -/
theorem split_ticks (E tps : Int) (ht : 0 < tps) :
    (E / tps) * NS + (E % tps * NS) / tps = E * NS / tps := by
  have h : E * NS = (E % tps * NS) + (E / tps * NS) * tps := by
    have := Int.mul_ediv_add_emod E tps
    calc E * NS = (tps * (E / tps) + E % tps) * NS := by rw [this]
      _ = _ := by rw [Int.add_mul, Int.mul_comm tps, Int.mul_right_comm, Int.add_comm]
  rw [h, Int.add_mul_ediv_right _ _ (by omega)]; omega

theorem ticksToDuration_eq (E tps : Int) (hE : 0 ≤ E) (ht : 0 < tps) (hs : E / tps ≤ i64Max) :
    ticksToDuration E tps = some (durOf (E * NS / tps)) := by
  have h0 : 0 ≤ E / tps := Int.ediv_nonneg hE (by omega)
  have r0 := Int.emod_nonneg E (show tps ≠ 0 by omega)
  have r1 := Int.emod_lt_of_pos E ht
  have n0 : 0 ≤ (E % tps * NS) / tps := Int.ediv_nonneg (by omega) (by omega)
  have n1 : (E % tps * NS) / tps < NS := by
    apply Int.ediv_lt_of_lt_mul ht
    have := Int.mul_lt_mul_of_pos_right r1 (show (0:Int) < NS by decide)
    omega
  have e := split_ticks E tps ht
  simp only [ticksToDuration]
  rw [if_neg (by omega)]
  have w1 : asI64 (E / tps) = E / tps := by unfold asI64; omega
  have w2 : asI32 ((E % tps * NS) / tps) = (E % tps * NS) / tps := by unfold asI32; omega
  rw [w1, w2, ← e]
  simp only [durOf, Option.some.injEq, Duration.mk.injEq]
  omega

/-- C07. Let `E < 2^64` ticks have elapsed since the start tick, so the hardware counter now shows
`(ticks0 + E) mod 2^64` (it may have wrapped). The mission-elapsed time is the canonical duration
of `⌊E·10^9 / rate⌋` nanoseconds. (`E / rate` must fit an `i64`; any rate of at least 2 Hz does.) -/
theorem C07_elapsed (e : Epoch) (E : Int) (hE : 0 ≤ E) (hE' : E < 2 ^ 64)
    (ht : 0 < e.ticksPerSec) (hs : E / e.ticksPerSec ≤ i64Max) :
    ∃ d, e.durationFromTicks ((e.ticks0 + E) % 2 ^ 64) = some d ∧ d.Canon ∧
      d.total = E * NS / e.ticksPerSec := by
  have hw : wrappingSubU64 ((e.ticks0 + E) % 2 ^ 64) e.ticks0 = E := by
    unfold wrappingSubU64; omega
  refine ⟨_, by rw [Epoch.durationFromTicks, hw, ticksToDuration_eq E _ hE ht hs], ?_, durOf_total _⟩
  apply durOf_canon
  have h0 : 0 ≤ E / e.ticksPerSec := Int.ediv_nonneg hE (by omega)
  have : E * NS / e.ticksPerSec / NS = E / e.ticksPerSec := by
    rw [Int.ediv_ediv_of_nonneg (by omega), Int.mul_ediv_mul_of_pos_left _ _ (by decide)]
  rw [this]; constructor <;> omega

example : let e : Epoch := ⟨⟨0, 0⟩, 18446744073709551615, 3⟩
    0 < e.ticksPerSec ∧ (10 : Int) / e.ticksPerSec ≤ i64Max ∧
    e.durationFromTicks ((e.ticks0 + 10) % 2 ^ 64) = some ⟨3, 333333333⟩ := by decide

/-- C07. `now_tai` is the mission start plus the elapsed time; `t_plus` is the elapsed time. -/
theorem C07_now (e : Epoch) (E : Int) (t : Time .tai) (p : Time .utc) (hE : 0 ≤ E) (hE' : E < 2 ^ 64)
    (ht : 0 < e.ticksPerSec) (hs : E / e.ticksPerSec ≤ i64Max) (hc : e.startTai.Canon)
    (h : e.nowTai ((e.ticks0 + E) % 2 ^ 64) = some t)
    (h' : e.tPlus ((e.ticks0 + E) % 2 ^ 64) = some p) :
    t.Canon ∧ t.total = e.startTai.total + E * NS / e.ticksPerSec ∧
    p.total = E * NS / e.ticksPerSec := by
  obtain ⟨d, hd, c, tot⟩ := C07_elapsed e E hE hE' ht hs
  simp only [Epoch.nowTai, Epoch.tPlus, hd, Option.bind_eq_bind, Option.bind_some, pure,
    Option.some.injEq] at h h'
  obtain ⟨c', e'⟩ := (C03_add_exact _ _ hc c).1 _ h
  subst h'
  exact ⟨c', by rw [e', tot], tot⟩

example : let e : Epoch := ⟨⟨100, 900000000⟩, 5, 1000⟩
    e.startTai.Canon ∧ e.nowTai ((e.ticks0 + 1500) % 2 ^ 64) = some ⟨102, 400000000⟩ ∧
    e.tPlus (ts := .utc) ((e.ticks0 + 1500) % 2 ^ 64) = some ⟨1, 500000000⟩ := by decide

/-- C07. A tick rate of zero panics. -/
theorem C07_zero_rate (e : Epoch) (now : Int) (h : e.ticksPerSec = 0) :
    e.durationFromTicks now = none ∧ e.nowTai now = none := by
  simp [Epoch.durationFromTicks, Epoch.nowTai, ticksToDuration, h]

/-- C07 limit: at 1 Hz a tick difference of 2^63 or more is reported as negative time. -/
theorem C07_one_hertz_fails :
    Epoch.durationFromTicks ⟨⟨0, 0⟩, 0, 1⟩ 9223372036854775808 = some ⟨-9223372036854775808, 0⟩ := by
  decide

/-! ## C08 -/

/-- The caller's loop around `dt_from_ticks` (the doc comment of mission.rs:86-91): poll at the
given counter values, threading `last_ticks`; returns the durations and the final `last_ticks`. -/
def Epoch.polls (e : Epoch) : Int → List Int → Option (List Duration × Int)
  | last, [] => some ([], last)
  | last, now :: rest => do
    let (d, last') ← e.dtFromTicks last now
    let (ds, l) ← e.polls last' rest
    pure (d :: ds, l)

/-- The counter values seen when the polls are `es` ticks apart, starting after counter value `c`. -/
def counterReadings : Int → List Int → List Int
  | _, [] => []
  | c, e :: es => (c + e) % 2 ^ 64 :: counterReadings ((c + e) % 2 ^ 64) es

/-- C08. Poll the counter after gaps of `es` ticks (each below 2^64, wraps allowed). The loop does
not panic, ends holding the last counter value, returns one canonical duration per poll, and the sum
of the returned durations (in ns, times the rate) never exceeds the true elapsed ticks times 10^9
and falls short by less than `rate` (i.e. by less than one nanosecond) per poll. -/
theorem C08_polls (e : Epoch) (ht : 2 ≤ e.ticksPerSec) (es : List Int)
    (hes : ∀ x ∈ es, 0 ≤ x ∧ x < 2 ^ 64) (c : Int) (hc : 0 ≤ c) (hc' : c < 2 ^ 64) :
    ∃ ds l, e.polls c (counterReadings c es) = some (ds, l) ∧ ds.length = es.length ∧
      l = (c + es.sum) % 2 ^ 64 ∧ (∀ d ∈ ds, d.Canon) ∧
      (ds.map Duration.total).sum * e.ticksPerSec ≤ es.sum * NS ∧
      es.sum * NS ≤
        (ds.map Duration.total).sum * e.ticksPerSec + es.length * (e.ticksPerSec - 1) := by
  induction es generalizing c with
  | nil => exact ⟨[], c, rfl, rfl, by simp; omega, by simp, by simp, by simp⟩
  | cons x xs ih =>
    obtain ⟨x0, x1⟩ := hes x (List.mem_cons_self ..)
    have hw : wrappingSubU64 ((c + x) % 2 ^ 64) c = x := by unfold wrappingSubU64; omega
    have hs : x / e.ticksPerSec ≤ i64Max := by
      have : x / e.ticksPerSec < 9223372036854775808 := by
        apply Int.ediv_lt_of_lt_mul (by omega)
        have := Int.mul_le_mul_of_nonneg_left ht (show (0:Int) ≤ 9223372036854775808 by decide)
        omega
      omega
    obtain ⟨ds, l, h, hl, hlast, hcan, hlo, hhi⟩ :=
      ih (fun y hy => hes y (List.mem_cons_of_mem _ hy)) ((c + x) % 2 ^ 64) (by omega) (by omega)
    have hd := ticksToDuration_eq x e.ticksPerSec x0 (by omega) hs
    have h0 : 0 ≤ x / e.ticksPerSec := Int.ediv_nonneg x0 (by omega)
    have hfit : FitsI64 (x * NS / e.ticksPerSec / NS) := by
      have : x * NS / e.ticksPerSec / NS = x / e.ticksPerSec := by
        rw [Int.ediv_ediv_of_nonneg (by omega), Int.mul_ediv_mul_of_pos_left _ _ (by decide)]
      rw [this]; constructor <;> omega
    refine ⟨durOf (x * NS / e.ticksPerSec) :: ds, l, ?_, by simp [hl], ?_, ?_, ?_, ?_⟩
    · simp only [counterReadings, Epoch.polls, Epoch.dtFromTicks, hw, hd, Option.bind_eq_bind,
        Option.bind_some, h, pure]
    · rw [hlast, List.sum_cons]; omega
    · intro d hd'
      rcases List.mem_cons.1 hd' with rfl | h'
      · exact durOf_canon hfit
      · exact hcan d h'
    · have := Int.ediv_mul_le (x * NS) (show e.ticksPerSec ≠ 0 by omega)
      simp only [List.map_cons, List.sum_cons, durOf_total, Int.add_mul]
      omega
    · have h1 := Int.mul_ediv_add_emod (x * NS) e.ticksPerSec
      have h2 := Int.emod_lt_of_pos (x * NS) (show 0 < e.ticksPerSec by omega)
      have h3 := Int.mul_comm e.ticksPerSec (x * NS / e.ticksPerSec)
      simp only [List.map_cons, List.sum_cons, durOf_total, Int.add_mul, List.length_cons,
        Int.natCast_succ]
      omega

example : let e : Epoch := ⟨⟨0, 0⟩, 0, 3⟩
    2 ≤ e.ticksPerSec ∧ e.polls 18446744073709551614 (counterReadings 18446744073709551614 [4, 1]) =
      some ([⟨1, 333333333⟩, ⟨0, 333333333⟩], 3) := by decide

end Verif.Time
