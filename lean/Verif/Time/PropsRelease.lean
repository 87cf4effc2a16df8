import Verif.Time.Release
import Verif.Time.Lemmas

/-! # C174, C175: release builds -/

namespace Verif.Time
open Verif.Rust

theorem asI64_of {x : Int} (h : FitsI64 x) : asI64 x = x := by
  unfold FitsI64 at h; unfold asI64; omega

theorem asI64_fits (x : Int) : FitsI64 (asI64 x) := by
  unfold FitsI64 asI64; omega

theorem asI32_of {x : Int} (h : i32Min ≤ x) (h' : x ≤ i32Max) : asI32 x = x := by
  unfold asI32; omega

theorem chk64_eq {x y : Int} (h : chk64 x = some y) : y = x ∧ asI64 x = x := by
  unfold chk64 at h
  split at h
  · rename_i c; exact ⟨(Option.some.inj h).symm, asI64_of c⟩
  · simp at h

theorem chk32_eq {x y : Int} (h : chk32 x = some y) : y = x ∧ asI32 x = x := by
  unfold chk32 at h
  split at h
  · rename_i c; exact ⟨(Option.some.inj h).symm, asI32_of c.1 c.2⟩
  · simp at h

theorem normalize_agree {d r : Duration} (h : d.normalize = some r) : Release.normalize d = r := by
  unfold Duration.normalize at h
  unfold Release.normalize
  split at h
  · rw [Option.bind_eq_bind, Option.bind_eq_some_iff] at h
    obtain ⟨s, h1, h2⟩ := h
    obtain ⟨rfl, e⟩ := chk64_eq h1
    rename_i c
    rw [if_pos c, e]; exact Option.some.inj h2
  · rename_i c
    rw [if_neg c]
    split at h
    · rename_i c2
      rw [if_pos c2]
      rw [Option.bind_eq_bind, Option.bind_eq_some_iff] at h
      obtain ⟨s, h1, h2⟩ := h
      rw [Option.bind_eq_some_iff] at h2
      obtain ⟨n, h3, h4⟩ := h2
      obtain ⟨rfl, e⟩ := chk64_eq h1
      obtain ⟨rfl, e'⟩ := chk32_eq h3
      rw [e, e']; exact Option.some.inj h4
    · rename_i c2
      rw [if_neg c2]; exact Option.some.inj h

/-- C174. Durations: wherever a debug build gives an answer, a release build gives the same. -/
theorem C174_durations (a b r : Duration) (x : Int) :
    (a.add b = some r → Release.dadd a b = r) ∧ (a.sub b = some r → Release.dsub a b = r) ∧
    (a.normalize = some r → Release.normalize a = r) ∧
    (Duration.fromMillis x = some r → Release.fromMillis x = r) ∧
    (Duration.fromMicros x = some r → Release.fromMicros x = r) := by
  refine ⟨fun h => ?_, fun h => ?_, normalize_agree, fun h => ?_, fun h => ?_⟩
  · simp only [Duration.add, Option.bind_eq_bind, Option.bind_eq_some_iff] at h
    obtain ⟨s, h1, n, h2, h3⟩ := h
    obtain ⟨rfl, e⟩ := chk64_eq h1
    obtain ⟨rfl, e'⟩ := chk32_eq h2
    rw [Release.dadd, e, e']; exact normalize_agree h3
  · simp only [Duration.sub, Option.bind_eq_bind, Option.bind_eq_some_iff] at h
    obtain ⟨s, h1, n, h2, h3⟩ := h
    obtain ⟨rfl, e⟩ := chk64_eq h1
    obtain ⟨rfl, e'⟩ := chk32_eq h2
    rw [Release.dsub, e, e']; exact normalize_agree h3
  · simp only [Duration.fromMillis, Option.bind_eq_bind, Option.bind_eq_some_iff] at h
    obtain ⟨s, h1, h2⟩ := h
    obtain ⟨rfl, e⟩ := chk64_eq h1
    rw [Release.fromMillis, e]; exact normalize_agree h2
  · simp only [Duration.fromMicros, Option.bind_eq_bind, Option.bind_eq_some_iff] at h
    obtain ⟨s, h1, h2⟩ := h
    obtain ⟨rfl, e⟩ := chk64_eq h1
    rw [Release.fromMicros, e]; exact normalize_agree h2

variable {ts : Scale}

theorem add_agree {t r : Time ts} {d : Duration} (h : t.add d = some r) : Release.add t d = r := by
  simp only [Time.add, Option.bind_eq_bind, Option.bind_eq_some_iff] at h
  obtain ⟨s, h1, n, h2, h3⟩ := h
  obtain ⟨rfl, e⟩ := chk64_eq h1
  obtain ⟨rfl, e'⟩ := chk32_eq h2
  simp only [Release.add, e, e']
  split at h3
  · rename_i c
    simp only [Option.bind_eq_some_iff] at h3
    obtain ⟨s', h4, n', h5, h6⟩ := h3
    obtain ⟨rfl, f⟩ := chk64_eq h4
    obtain ⟨rfl, f'⟩ := chk32_eq h5
    rw [if_pos c, f, f']; exact Option.some.inj h6
  · rename_i c
    rw [if_neg c]
    split at h3
    · rename_i c2
      simp only [Option.bind_eq_some_iff] at h3
      obtain ⟨s', h4, n', h5, h6⟩ := h3
      obtain ⟨rfl, f⟩ := chk64_eq h4
      obtain ⟨rfl, f'⟩ := chk32_eq h5
      rw [if_pos c2, f, f']; exact Option.some.inj h6
    · rename_i c2
      rw [if_neg c2]; exact Option.some.inj h3

theorem sub_agree {a b : Time ts} {r : Duration} (h : a.sub b = some r) : Release.sub a b = r := by
  simp only [Time.sub, Option.bind_eq_bind, Option.bind_eq_some_iff] at h
  obtain ⟨s, h1, n, h2, h3⟩ := h
  obtain ⟨rfl, e⟩ := chk64_eq h1
  obtain ⟨rfl, e'⟩ := chk32_eq h2
  simp only [Release.sub, e, e']
  split at h3
  · rename_i c
    simp only [Option.bind_eq_some_iff] at h3
    obtain ⟨s', h4, n', h5, h6⟩ := h3
    obtain ⟨rfl, f⟩ := chk64_eq h4
    obtain ⟨rfl, f'⟩ := chk32_eq h5
    rw [if_pos c, f, f']; exact Option.some.inj h6
  · rename_i c
    rw [if_neg c]; exact Option.some.inj h3

theorem taiToUtc_agree {leap : Int} {t : Time .tai} {r : Time .utc} (h : t.taiToUtc leap = some r) : Release.taiToUtc leap t = r := by
  simp only [Time.taiToUtc, Time.taiMinusUtc, Option.bind_eq_bind, Option.bind_eq_some_iff] at h
  obtain ⟨o, h1, s, h2, h3⟩ := h
  obtain ⟨rfl, e⟩ := chk32_eq h1
  obtain ⟨rfl, e'⟩ := chk64_eq h2
  simp only [Release.taiToUtc, Release.taiMinusUtc, e, e']; exact Option.some.inj h3

theorem utcToTai_agree {leap : Int} {t : Time .utc} {r : Time .tai} (h : t.utcToTai leap = some r) : Release.utcToTai leap t = r := by
  simp only [Time.utcToTai, Time.taiMinusUtc, Option.bind_eq_bind, Option.bind_eq_some_iff] at h
  obtain ⟨o, h1, s, h2, h3⟩ := h
  obtain ⟨rfl, e⟩ := chk32_eq h1
  obtain ⟨rfl, e'⟩ := chk64_eq h2
  simp only [Release.utcToTai, Release.taiMinusUtc, e, e']; exact Option.some.inj h3

theorem utcToGps_agree {leap : Int} {t : Time .utc} {r : Time .gps} (h : t.utcToGps leap = some r) : Release.utcToGps leap t = r := by
  simp only [Time.utcToGps, Time.taiMinusUtc, Option.bind_eq_bind, Option.bind_eq_some_iff] at h
  obtain ⟨o, h1, g, h2, s, h3, s', h4, h5⟩ := h
  obtain ⟨rfl, e1⟩ := chk32_eq h1
  obtain ⟨rfl, e2⟩ := chk64_eq h2
  obtain ⟨rfl, e3⟩ := chk64_eq h3
  obtain ⟨rfl, e4⟩ := chk64_eq h4
  simp only [Release.utcToGps, Release.taiMinusUtc, e1, e2, e3, e4]; exact Option.some.inj h5

theorem gpsToUtc_agree {leap : Int} {t : Time .gps} {r : Time .utc} (h : t.gpsToUtc leap = some r) : Release.gpsToUtc leap t = r := by
  simp only [Time.gpsToUtc, Time.taiMinusUtc, Option.bind_eq_bind, Option.bind_eq_some_iff] at h
  obtain ⟨o, h1, g, h2, s, h3, s', h4, h5⟩ := h
  obtain ⟨rfl, e1⟩ := chk32_eq h1
  obtain ⟨rfl, e2⟩ := chk64_eq h2
  obtain ⟨rfl, e3⟩ := chk64_eq h3
  obtain ⟨rfl, e4⟩ := chk64_eq h4
  simp only [Release.gpsToUtc, Release.taiMinusUtc, e1, e2, e3, e4]; exact Option.some.inj h5

/-- C174. Instants and their scales: wherever a debug build gives an answer, a release build gives the same. -/
theorem C174_instants :
    (∀ {ts : Scale} (t r : Time ts) (d : Duration), t.add d = some r ∨ t.addRef d = some r → Release.add t d = r) ∧
    (∀ {ts : Scale} (a b : Time ts) (r : Duration), a.sub b = some r ∨ a.subRef b = some r → Release.sub a b = r) ∧
    (∀ leap t r, Time.utcToTai leap t = some r → Release.utcToTai leap t = r) ∧
    (∀ leap t r, Time.taiToUtc leap t = some r → Release.taiToUtc leap t = r) ∧
    (∀ leap t r, Time.utcToGps leap t = some r → Release.utcToGps leap t = r) ∧
    (∀ leap t r, Time.gpsToUtc leap t = some r → Release.gpsToUtc leap t = r) ∧
    (∀ leap leap' t r, Time.gpsToTai leap leap' t = some r → Release.gpsToTai leap leap' t = r) ∧
    (∀ leap leap' t r, Time.taiToGps leap leap' t = some r → Release.taiToGps leap leap' t = r) := by
  refine ⟨fun t r d h => ?_, fun a b r h => ?_, fun _ _ _ => utcToTai_agree, fun _ _ _ => taiToUtc_agree,
    fun _ _ _ => utcToGps_agree, fun _ _ _ => gpsToUtc_agree, fun _ _ _ _ h => ?_, fun _ _ _ _ h => ?_⟩
  · exact h.elim add_agree add_agree
  · exact h.elim sub_agree sub_agree
  · simp only [Time.gpsToTai, Option.bind_eq_bind, Option.bind_eq_some_iff] at h
    obtain ⟨u, h1, h2⟩ := h
    rw [Release.gpsToTai, gpsToUtc_agree h1, utcToTai_agree h2]
  · simp only [Time.taiToGps, Option.bind_eq_bind, Option.bind_eq_some_iff] at h
    obtain ⟨u, h1, h2⟩ := h
    rw [Release.taiToGps, taiToUtc_agree h1, utcToGps_agree h2]

/-- C174. The mission clock. -/
theorem C174_clock (e : Epoch) (leap leap' ticks : Int) :
    (∀ r, e.nowTai ticks = some r → Release.nowTai e ticks = some r) ∧
    (∀ r, e.nowUtc leap ticks = some r → Release.nowUtc e leap ticks = some r) ∧
    (∀ r, e.nowGps leap leap' ticks = some r → Release.nowGps e leap leap' ticks = some r) := by
  have k : ∀ r, e.nowTai ticks = some r → Release.nowTai e ticks = some r := by
    intro r h
    simp only [Epoch.nowTai, Option.bind_eq_bind, Option.bind_eq_some_iff] at h
    obtain ⟨d, h1, h2⟩ := h
    rw [Release.nowTai, h1, Option.map_some, add_agree h2]
  refine ⟨k, fun r h => ?_, fun r h => ?_⟩
  · simp only [Epoch.nowUtc, Option.bind_eq_bind, Option.bind_eq_some_iff] at h
    obtain ⟨t, h1, h2⟩ := h
    rw [Release.nowUtc, k t h1, Option.map_some, taiToUtc_agree h2]
  · simp only [Epoch.nowGps, Option.bind_eq_bind, Option.bind_eq_some_iff] at h
    obtain ⟨t, h1, h2⟩ := h
    rw [Release.nowGps, k t h1, Option.map_some, C174_instants.2.2.2.2.2.2.2 _ _ _ _ h2]

theorem ofOption_ok {α : Type} {o : Option α} {a : α} (h : Run.ofOption o = .ok a) : o = some a := by
  cases o <;> simp_all [Run.ofOption]

theorem bind_ok {α β : Type} {r : Run α} {k : α → Run β} {b : β} (h : r.bind k = .ok b) : ∃ a, r = .ok a ∧ k a = .ok b := by
  cases r <;> simp_all [Run.bind]

theorem drain_agree {period : Duration} (n : Nat) (acc r : Duration) (h : drain period n acc = .ok r) :
    Release.drain period n acc = some r := by
  induction n generalizing acc with
  | zero =>
    simp only [drain] at h
    split at h
    · simp at h
    · rename_i c; rw [Release.drain, if_neg c]; simpa using h
  | succ n ih =>
    simp only [drain] at h
    split at h
    · rename_i c
      obtain ⟨a, h1, h2⟩ := bind_ok h
      rw [Release.drain, if_pos c, (C174_durations acc period a 0).2.1 (ofOption_ok h1)]
      exact ih a h2
    · rename_i c; rw [Release.drain, if_neg c]; simpa using h

/-- C174. Timers: wherever a step returns in a debug build, it returns the same after the same number of loop iterations in a release
build. -/
theorem C174_timers (e : TimerEvent) (dt : Duration) (n : Nat) (r : TimerEvent × Bool) (h : e.step dt n = .ok r) :
    Release.step e dt n = some r := by
  unfold TimerEvent.step at h
  obtain ⟨acc, h1, h2⟩ := bind_ok h
  have e1 := (C174_durations e.acc dt acc 0).1 (ofOption_ok h1)
  simp only [Release.step, e1]
  split at h2
  · rename_i c
    obtain ⟨a, h3, h4⟩ := bind_ok h2
    rw [if_pos c, drain_agree n acc a h3]
    simpa using h4
  · rename_i c
    rw [if_neg c]
    simpa using h2

example : (TimerEvent.new ⟨1, 0⟩).step ⟨2, 500000000⟩ 5 = .ok (⟨⟨0, 500000000⟩, ⟨1, 0⟩⟩, true) ∧
    Release.step (TimerEvent.new ⟨1, 0⟩) ⟨2, 500000000⟩ 5 = some (⟨⟨0, 500000000⟩, ⟨1, 0⟩⟩, true) := by decide +kernel

theorem nextHourly_agree {t r : Time .utc} {m s : Int} (h : nextHourly t m s = some r) : Release.nextHourly t m s = r := by
  simp only [nextHourly, Option.bind_eq_bind, Option.bind_eq_some_iff] at h
  obtain ⟨a, h1, b, h2, h3⟩ := h
  obtain ⟨rfl, e1⟩ := chk64_eq h1
  obtain ⟨rfl, e2⟩ := chk64_eq h2
  simp only [Release.nextHourly, e1, e2]
  split at h3
  · rename_i p
    rw [Option.bind_eq_some_iff] at h3
    obtain ⟨c, h3, h4⟩ := h3
    obtain ⟨rfl, e3⟩ := chk64_eq h3
    rw [if_pos p, e3]; exact Option.some.inj h4
  · rename_i p
    rw [if_neg p]; exact Option.some.inj h3

theorem nextDaily_agree {t r : Time .utc} {k m s : Int} (h : nextDaily t k m s = some r) : Release.nextDaily t k m s = r := by
  simp only [nextDaily, Option.bind_eq_bind, Option.bind_eq_some_iff] at h
  obtain ⟨a, h1, b, h2, b', h2', h3⟩ := h
  obtain ⟨rfl, e1⟩ := chk64_eq h1
  obtain ⟨rfl, e2⟩ := chk64_eq h2
  obtain ⟨rfl, e2'⟩ := chk64_eq h2'
  simp only [Release.nextDaily, e1, e2, e2']
  split at h3
  · rename_i p
    rw [Option.bind_eq_some_iff] at h3
    obtain ⟨c, h3, h4⟩ := h3
    obtain ⟨rfl, e3⟩ := chk64_eq h3
    rw [if_pos p, e3]; exact Option.some.inj h4
  · rename_i p
    rw [if_neg p]; exact Option.some.inj h3

theorem nextYearly_agree {t r : Time .utc} {mo d k m s : Int} (h : nextYearly t mo d k m s = some r) :
    Release.nextYearly t mo d k m s = r := by
  simp only [nextYearly] at h
  simp only [Release.nextYearly]
  split at h
  · rename_i p
    simp only [Option.bind_eq_bind, Option.bind_eq_some_iff] at h
    obtain ⟨y, h1, h2⟩ := h
    obtain ⟨rfl, e⟩ := chk32_eq h1
    rw [if_pos p, e]; exact Option.some.inj h2
  · rename_i p
    rw [if_neg p]; exact Option.some.inj h

theorem catchUp_agree {period : Duration} {now : Time .utc} (n : Nat) (t r : Time .utc) (h : catchUp period now n t = .ok r) :
    Release.catchUp period now n t = some r := by
  induction n generalizing t with
  | zero =>
    simp only [catchUp] at h
    split at h
    · simp at h
    · rename_i c; rw [Release.catchUp, if_neg c]; simpa using h
  | succ n ih =>
    simp only [catchUp] at h
    split at h
    · rename_i c
      obtain ⟨a, h1, h2⟩ := bind_ok h
      rw [Release.catchUp, if_pos c, add_agree (ofOption_ok h1)]
      exact ih a h2
    · rename_i c; rw [Release.catchUp, if_neg c]; simpa using h

/-- C174. Schedules, of every kind. -/
theorem C174_schedules :
    (∀ start pattern s, UtcSchedule.new start pattern = some s → Release.scheduleNew start pattern = s) ∧
    (∀ s now n r, UtcSchedule.check s now n = .ok r → Release.check s now n = some r) := by
  refine ⟨fun start pattern s h => ?_, fun s now n r h => ?_⟩
  · simp only [UtcSchedule.new, Option.bind_eq_bind] at h
    cases pattern with
    | once => exact Option.some.inj h
    | interval p =>
      simp only [Option.bind_eq_some_iff] at h
      obtain ⟨t, h1, h2⟩ := h
      rw [← Option.some.inj h2, Release.scheduleNew]
      simp only [UtcSchedule.mk.injEq, and_true]
      exact add_agree h1
    | hourly m s =>
      simp only [Option.bind_eq_some_iff] at h
      obtain ⟨t, h1, h2⟩ := h
      rw [← Option.some.inj h2, Release.scheduleNew]
      simp only [UtcSchedule.mk.injEq, and_true]
      exact nextHourly_agree h1
    | daily k m s =>
      simp only [Option.bind_eq_some_iff] at h
      obtain ⟨t, h1, h2⟩ := h
      rw [← Option.some.inj h2, Release.scheduleNew]
      simp only [UtcSchedule.mk.injEq, and_true]
      exact nextDaily_agree h1
    | yearly mo d k m s =>
      simp only [Option.bind_eq_some_iff] at h
      obtain ⟨t, h1, h2⟩ := h
      rw [← Option.some.inj h2, Release.scheduleNew]
      simp only [UtcSchedule.mk.injEq, and_true]
      exact nextYearly_agree h1
  · unfold UtcSchedule.check at h
    unfold Release.check
    split at h
    · rename_i c; rw [if_pos c]; simpa using h
    · rename_i c
      rw [if_neg c]
      obtain ⟨t, h1, h2⟩ := bind_ok h
      obtain ⟨nf, p⟩ := s
      cases p with
      | once => simp only [Run.ok.injEq] at h1 h2 ⊢; simp [h1, h2]
      | interval p =>
        simp only [Run.ok.injEq] at h2
        simp [catchUp_agree n nf t h1, h2]
      | hourly m s =>
        simp only [Run.ok.injEq] at h2
        simp [nextHourly_agree (ofOption_ok h1), h2]
      | daily k m s =>
        simp only [Run.ok.injEq] at h2
        simp [nextDaily_agree (ofOption_ok h1), h2]
      | yearly mo d k m s =>
        simp only [Run.ok.injEq] at h2
        simp [nextYearly_agree (ofOption_ok h1), h2]

example : UtcSchedule.check ⟨⟨100, 0⟩, .interval ⟨60, 0⟩⟩ ⟨250, 0⟩ 5 = .ok (⟨⟨280, 0⟩, .interval ⟨60, 0⟩⟩, true) ∧
    Release.check ⟨⟨100, 0⟩, .interval ⟨60, 0⟩⟩ ⟨250, 0⟩ 5 = some (⟨⟨280, 0⟩, .interval ⟨60, 0⟩⟩, true) := by decide +kernel

/-! ## Exact answers -/

/-- C174. A release build adds and subtracts exactly whenever the true answer can be represented; also where a debug build panics because of
an overflow on the way. -/
theorem C174_exact :
    (∀ {ts : Scale} (t : Time ts) (d : Duration), t.Canon → d.Canon → (Release.add t d).Canon ∧
      (FitsI64 ((t.total + d.total) / NS) → (Release.add t d).total = t.total + d.total)) ∧
    (∀ {ts : Scale} (a b : Time ts), a.Canon → b.Canon → (Release.sub a b).Canon ∧
      (FitsI64 ((a.total - b.total) / NS) → (Release.sub a b).total = a.total - b.total)) ∧
    (∀ a b : Duration, a.Canon → b.Canon → (Release.dadd a b).Canon ∧
      (FitsI64 ((a.total + b.total) / NS) → (Release.dadd a b).total = a.total + b.total)) ∧
    (∀ a b : Duration, a.Canon → b.Canon → (Release.dsub a b).Canon ∧
      (FitsI64 ((a.total - b.total) / NS) → (Release.dsub a b).total = a.total - b.total)) := by
  refine ⟨?_, ?_, ?_, ?_⟩
  · rintro ts ⟨s, n⟩ ⟨s', n'⟩ ⟨h1, h2, h3⟩ ⟨h4, h5, h6⟩
    simp only [FitsI64, Time.Canon, Time.total, Duration.total, Release.add] at *
    have e : asI32 (n + n') = n + n' := asI32_of (by omega) (by omega)
    rw [e]
    split
    · rename_i c
      have e2 : asI32 (n + n' - 1000000000) = n + n' - 1000000000 := asI32_of (by omega) (by omega)
      simp only [e2, asI64] at *
      omega
    · rw [if_neg (by omega)]
      simp only [asI64] at *
      omega
  · rintro ts ⟨s, n⟩ ⟨s', n'⟩ ⟨h1, h2, h3⟩ ⟨h4, h5, h6⟩
    simp only [FitsI64, Duration.Canon, Time.total, Duration.total, Release.sub] at *
    have e : asI32 (n - n') = n - n' := asI32_of (by omega) (by omega)
    rw [e]
    split
    · rename_i c
      have e2 : asI32 (n - n' + 1000000000) = n - n' + 1000000000 := asI32_of (by omega) (by omega)
      simp only [e2, asI64] at *
      omega
    · simp only [asI64] at *
      omega
  · rintro ⟨s, n⟩ ⟨s', n'⟩ ⟨h1, h2, h3⟩ ⟨h4, h5, h6⟩
    simp only [FitsI64, Duration.Canon, Duration.total, Release.dadd, Release.normalize] at *
    have e : asI32 (n + n') = n + n' := asI32_of (by omega) (by omega)
    rw [e]
    split
    · rename_i c
      have a : (n + n').tdiv 1000000000 = 1 := by rw [Int.tdiv_eq_ediv_of_nonneg (by omega)]; omega
      have b : (n + n').tmod 1000000000 = n + n' - NS := by rw [Int.tmod_eq_emod_of_nonneg (by omega)]; omega
      rw [a, b]
      simp only [asI64] at *
      omega
    · rw [if_neg (by omega)]
      simp only [asI64] at *
      omega
  · rintro ⟨s, n⟩ ⟨s', n'⟩ ⟨h1, h2, h3⟩ ⟨h4, h5, h6⟩
    simp only [FitsI64, Duration.Canon, Duration.total, Release.dsub, Release.normalize] at *
    have e : asI32 (n - n') = n - n' := asI32_of (by omega) (by omega)
    rw [e, if_neg (by omega)]
    split
    · have e2 : asI32 (n - n' + 1000000000) = n - n' + 1000000000 := asI32_of (by omega) (by omega)
      simp only [e2, asI64] at *
      omega
    · simp only [asI64] at *
      omega

/-- A sum that a debug build refuses although it can be represented. -/
example : (⟨i64Min, 600000000⟩ : Time .utc).Canon ∧ (⟨-1, 600000000⟩ : Duration).Canon ∧
    (⟨i64Min, 600000000⟩ : Time .utc).add ⟨-1, 600000000⟩ = none ∧
    Release.add (⟨i64Min, 600000000⟩ : Time .utc) ⟨-1, 600000000⟩ = ⟨i64Min, 200000000⟩ := by decide +kernel

/-- C174. Conversions between time scales in a release build are exact whenever the answer can be represented, for every leap count up to
`i32::MAX - 10`. -/
theorem C174_scales (leap s n : Int) (h0 : i32Min ≤ leap) (h1 : leap ≤ i32Max - 10) :
    (FitsI64 (s + (10 + leap)) → Release.utcToTai leap ⟨s, n⟩ = ⟨s + (10 + leap), n⟩) ∧
    (FitsI64 (s - (10 + leap)) → Release.taiToUtc leap ⟨s, n⟩ = ⟨s - (10 + leap), n⟩) ∧
    (FitsI64 (s - 315964800 + (leap - 9)) → Release.utcToGps leap ⟨s, n⟩ = ⟨s - 315964800 + (leap - 9), n⟩) ∧
    (FitsI64 (s + 315964800 - (leap - 9)) → Release.gpsToUtc leap ⟨s, n⟩ = ⟨s + 315964800 - (leap - 9), n⟩) := by
  have e : asI32 (10 + leap) = 10 + leap := asI32_of (by omega) (by omega)
  refine ⟨fun h => ?_, fun h => ?_, fun h => ?_, fun h => ?_⟩ <;>
    simp only [Release.utcToTai, Release.taiToUtc, Release.utcToGps, Release.gpsToUtc, Release.taiMinusUtc, Time.unixGpsEpoch, e,
      Time.mk.injEq, and_true] <;> simp only [FitsI64, asI64] at * <;> omega

/-- C174. In a release build the conversions between scales undo each other for all instants and all leap counts, without exception. -/
theorem C174_round_trip (leap : Int) :
    (∀ t : Time .utc, FitsI64 t.sec → Release.taiToUtc leap (Release.utcToTai leap t) = t ∧ Release.gpsToUtc leap (Release.utcToGps leap t) = t) ∧
    (∀ t : Time .tai, FitsI64 t.sec → Release.utcToTai leap (Release.taiToUtc leap t) = t ∧
      Release.gpsToTai leap leap (Release.taiToGps leap leap t) = t) ∧
    (∀ t : Time .gps, FitsI64 t.sec → Release.utcToGps leap (Release.gpsToUtc leap t) = t ∧
      Release.taiToGps leap leap (Release.gpsToTai leap leap t) = t) := by
  refine ⟨?_, ?_, ?_⟩ <;> rintro ⟨s, n⟩ h <;> constructor <;>
    simp only [Release.utcToTai, Release.taiToUtc, Release.utcToGps, Release.gpsToUtc, Release.gpsToTai, Release.taiToGps, Time.unixGpsEpoch,
      Time.mk.injEq, and_true] <;> generalize Release.taiMinusUtc leap = o <;> simp only [FitsI64, asI64] at * <;> omega

/-- An instant for which a debug build panics. -/
example : (⟨i64Max, 0⟩ : Time .utc).utcToTai 27 = none ∧ FitsI64 (⟨i64Max, 0⟩ : Time .utc).sec ∧
    Release.utcToTai 27 ⟨i64Max, 0⟩ = ⟨-9223372036854775772, 0⟩ ∧ Release.taiToUtc 27 ⟨-9223372036854775772, 0⟩ = ⟨i64Max, 0⟩ := by decide +kernel

/-! ## Overflow that passes unnoticed -/

/-- C175, for debug builds: an alarm set a duration ahead, and polled at an instant before the alarm time, stays silent, or the addition panics; in
release builds as long as the sum can be represented. -/
theorem C175_partial (t now : Time .utc) (d : Duration) (ht : t.Canon) (hd : d.Canon) (hn : now.Canon) (h : now.total < t.total + d.total) :
    (∀ r, t.add d = some r → (UtcAlarm.new r).check now = (UtcAlarm.new r, false)) ∧
    (FitsI64 ((t.total + d.total) / NS) → (UtcAlarm.new (Release.add t d)).check now = (UtcAlarm.new (Release.add t d), false)) := by
  have key : FitsI64 ((t.total + d.total) / NS) → (UtcAlarm.new (Release.add t d)).check now = (UtcAlarm.new (Release.add t d), false) := by
    intro hf
    obtain ⟨h1, h2⟩ := C174_exact.1 t d ht hd
    have h3 := h2 hf
    have : now.ge (Release.add t d) = false := by
      rw [Time.ge_eq hn h1, h3]; simp; omega
    simp [UtcAlarm.new, UtcAlarm.check, this]
  refine ⟨fun r hr => ?_, key⟩
  have hf : FitsI64 ((t.total + d.total) / NS) := by
    obtain ⟨ts, tn⟩ := t
    obtain ⟨s, n⟩ := d
    obtain ⟨f1, f2, f3⟩ := ht
    obtain ⟨f4, f5, f6⟩ := hd
    rw [Time.add_eq ⟨f1, f2, f3⟩ ⟨f4, f5, f6⟩] at hr
    split at hr
    · rename_i c; exact c.2
    · simp at hr
  rw [← add_agree hr]
  exact key hf

/-- C175 is not met by release builds: whenever the sum cannot be represented, the alarm time wraps into the past, and the alarm goes off at
the first poll, at the very instant it is set. -/
theorem C175_fails (t : Time .utc) (d : Duration) (ht : t.Canon) (hd : d.Canon) (h : i64Max < (t.total + d.total) / NS) :
    Release.add t d = timeOf .utc (t.total + d.total - 18446744073709551616 * NS) ∧ (Release.add t d).lt t = true ∧
      ((UtcAlarm.new (Release.add t d)).check t).2 = true := by
  have e : Release.add t d = timeOf .utc (t.total + d.total - 18446744073709551616 * NS) := by
    obtain ⟨s, n⟩ := t
    obtain ⟨s', n'⟩ := d
    obtain ⟨h1, h2, h3⟩ := ht
    obtain ⟨h4, h5, h6⟩ := hd
    simp only [FitsI64, Time.total, Duration.total, Release.add, timeOf] at *
    have e : asI32 (n + n') = n + n' := asI32_of (by omega) (by omega)
    rw [e]
    split
    · rename_i c
      have e2 : asI32 (n + n' - 1000000000) = n + n' - 1000000000 := asI32_of (by omega) (by omega)
      simp only [e2, asI64, Time.mk.injEq] at *
      omega
    · rw [if_neg (by omega)]
      simp only [asI64, Time.mk.injEq] at *
      omega
  have hc := (C174_exact.1 t d ht hd).1
  have hl : (Release.add t d).total < t.total := by
    rw [e, timeOf_total]
    obtain ⟨s', n'⟩ := d
    obtain ⟨h4, h5, h6⟩ := hd
    simp only [Duration.total, FitsI64] at *
    omega
  refine ⟨e, ?_, ?_⟩
  · rw [Time.lt_eq hc ht]; simpa using hl
  · have : t.ge (Release.add t d) = true := by rw [Time.ge_eq ht hc]; simp; omega
    simp [UtcAlarm.new, UtcAlarm.check, this]

/-- C175: an "endless" timeout. -/
example : (⟨1700000000, 0⟩ : Time .utc).Canon ∧ (⟨i64Max, 0⟩ : Duration).Canon ∧
    i64Max < ((⟨1700000000, 0⟩ : Time .utc).total + (⟨i64Max, 0⟩ : Duration).total) / NS := by decide +kernel

/-- C175 is not met by release builds: a repeating schedule polled at the last instant never returns from the poll, whatever its period; a debug
build panics. -/
theorem C175_hangs_fails (t : Time .utc) (period : Duration) (ht : t.Canon) (hp : period.Canon) (n : Nat) :
    Release.check ⟨t, .interval period⟩ ⟨i64Max, 999999999⟩ n = none := by
  have hm : (⟨i64Max, 999999999⟩ : Time .utc).Canon := by decide
  have last : ∀ u : Time .utc, u.Canon → u.le ⟨i64Max, 999999999⟩ = true := by
    intro u hu
    rw [Time.le_eq hu hm, decide_eq_true_eq]
    obtain ⟨s, k⟩ := u
    obtain ⟨⟨_, h1⟩, h2, h3⟩ := hu
    simp only [Time.total] at *
    omega
  have key : ∀ n (u : Time .utc), u.Canon → Release.catchUp period ⟨i64Max, 999999999⟩ n u = none := by
    intro n
    induction n with
    | zero => intro u hu; rw [Release.catchUp, if_pos (last u hu)]
    | succ n ih => intro u hu; rw [Release.catchUp, if_pos (last u hu)]; exact ih _ (C174_exact.1 u period hu hp).1
  unfold Release.check
  have hl : (⟨i64Max, 999999999⟩ : Time .utc).lt t = false := by
    have := last t ht
    rw [Time.le_eq ht hm] at this
    rw [Time.lt_eq hm ht]
    simp at this ⊢; omega
  simp [hl, key n t ht]

example : (⟨0, 0⟩ : Time .utc).Canon ∧ (⟨60, 0⟩ : Duration).Canon := by decide

end Verif.Time
