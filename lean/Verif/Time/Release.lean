import Verif.Time.Model

/-!
# `crates/aether_time` in a release build

The profile `release` of `Cargo.toml` leaves overflow checks off: an integer operation that overflows wraps instead of
panicking. The functions of `Verif/Time/Model.lean` that can overflow are written again here with `asI64`, `asI32` (wrap) where the model of
the debug build has `chk64`, `chk32` (panic).
-/

namespace Verif.Time.Release
open Verif.Rust

/-! ## Durations (duration.rs) -/

/-- duration.rs:23-32 `normalize`. -/
def normalize (d : Duration) : Duration :=
  if d.nano ≥ 1000000000 then
    { sec := asI64 (d.sec + d.nano.tdiv 1000000000), nano := d.nano.tmod 1000000000 }
  else if d.nano < 0 then
    { sec := asI64 (d.sec - 1), nano := asI32 (d.nano + 1000000000) }
  else d

/-- duration.rs:42-47 `from_millis`. -/
def fromMillis (ms : Int) : Duration :=
  normalize { sec := ms.tdiv 1000, nano := asI32 (asI64 (ms.tmod 1000 * 1000000)) }

/-- duration.rs:49-54 `from_micros`. -/
def fromMicros (us : Int) : Duration :=
  normalize { sec := us.tdiv 1000000, nano := asI32 (asI64 (us.tmod 1000000 * 1000)) }

/-- duration.rs:128-137 `impl Add for Duration`. -/
def dadd (a b : Duration) : Duration := normalize { sec := asI64 (a.sec + b.sec), nano := asI32 (a.nano + b.nano) }

/-- duration.rs:139-148 `impl Sub for Duration`. -/
def dsub (a b : Duration) : Duration := normalize { sec := asI64 (a.sec - b.sec), nano := asI32 (a.nano - b.nano) }

/-! ## Instants (duration.rs:65-126) -/

variable {ts : Scale}

/-- duration.rs:65-80 and 111-126 `Time + Duration`. -/
def add (t : Time ts) (d : Duration) : Time ts :=
  let s := asI64 (t.sec + d.sec)
  let n := asI32 (t.nano + d.nano)
  if n ≥ 1000000000 then { sec := asI64 (s + 1), nano := asI32 (n - 1000000000) }
  else if n < 0 then { sec := asI64 (s - 1), nano := asI32 (n + 1000000000) }
  else { sec := s, nano := n }

/-- duration.rs:82-109 `Time - Time`. -/
def sub (a b : Time ts) : Duration :=
  let s := asI64 (a.sec - b.sec)
  let n := asI32 (a.nano - b.nano)
  if n < 0 then { sec := asI64 (s - 1), nano := asI32 (n + 1000000000) } else { sec := s, nano := n }

/-! ## Scales (time.rs:29-163); `leap` is the value of the atomic when the call reads it -/

/-- time.rs:37-40 `tai_minus_utc`. -/
def taiMinusUtc (leap : Int) : Int := asI32 (10 + leap)

/-- time.rs:116-120 `Time<UTC>::to_tai`. -/
def utcToTai (leap : Int) (t : Time .utc) : Time .tai := { sec := asI64 (t.sec + taiMinusUtc leap), nano := t.nano }

/-- time.rs:122-126 `Time<TAI>::to_utc`. -/
def taiToUtc (leap : Int) (t : Time .tai) : Time .utc := { sec := asI64 (t.sec - taiMinusUtc leap), nano := t.nano }

/-- time.rs:132-138 `Time<UTC>::to_gps`. -/
def utcToGps (leap : Int) (t : Time .utc) : Time .gps :=
  { sec := asI64 (asI64 (t.sec - Time.unixGpsEpoch) + asI64 (taiMinusUtc leap - 19)), nano := t.nano }

/-- time.rs:140-146 `Time<GPS>::to_utc`. -/
def gpsToUtc (leap : Int) (t : Time .gps) : Time .utc :=
  { sec := asI64 (asI64 (t.sec + Time.unixGpsEpoch) - asI64 (taiMinusUtc leap - 19)), nano := t.nano }

/-- time.rs:153-157 `Time<GPS>::to_tai`; the leap cell is read twice. -/
def gpsToTai (leap₁ leap₂ : Int) (t : Time .gps) : Time .tai := utcToTai leap₂ (gpsToUtc leap₁ t)

/-- time.rs:159-163 `Time<TAI>::to_gps`; the leap cell is read twice. -/
def taiToGps (leap₁ leap₂ : Int) (t : Time .tai) : Time .gps := utcToGps leap₂ (taiToUtc leap₁ t)

/-! ## Mission clock (mission.rs:76-115): a tick rate of zero panics in every build -/

/-- mission.rs:81-84 `TimeKeeper::now_tai`. -/
def nowTai (e : Epoch) (ticks : Int) : Option (Time .tai) := (e.durationFromTicks ticks).map (add e.startTai)

/-- mission.rs:105-109 `TimeKeeper<UTC>::now_utc`. -/
def nowUtc (e : Epoch) (leap ticks : Int) : Option (Time .utc) := (nowTai e ticks).map (taiToUtc leap)

/-- mission.rs:111-115 `TimeKeeper<GPS>::now_gps`. -/
def nowGps (e : Epoch) (leap₁ leap₂ ticks : Int) : Option (Time .gps) := (nowTai e ticks).map (taiToGps leap₁ leap₂)

/-! ## Timers (mission.rs:118-149); `none`: still in the loop after `n` iterations -/

/-- mission.rs:142-144: the loop `while acc >= period { acc = acc - period }`. -/
def drain (period : Duration) : Nat → Duration → Option Duration
  | 0, acc => if acc.ge period then none else some acc
  | n + 1, acc => if acc.ge period then drain period n (dsub acc period) else some acc

/-- mission.rs:137-149 `TimerEvent::step`. -/
def step (e : TimerEvent) (dt : Duration) (n : Nat) : Option (TimerEvent × Bool) :=
  let acc := dadd e.acc dt
  if acc.ge e.period then (drain e.period n acc).map fun acc' => ({ e with acc := acc' }, true)
  else some ({ e with acc := acc }, false)

/-! ## Schedules (schedule.rs:110-237) -/

/-- schedule.rs:118-129 `next_hourly`. -/
def nextHourly (after : Time .utc) (minute second : Int) : Time .utc :=
  let target := asI64 (asI64 (after.sec.tdiv 3600 * 3600 + minute * 60) + second)
  { sec := if target ≤ after.sec then asI64 (target + 3600) else target, nano := 0 }

/-- schedule.rs:131-144 `next_daily`. -/
def nextDaily (after : Time .utc) (hour minute second : Int) : Time .utc :=
  let target := asI64 (asI64 (asI64 (after.sec.tdiv 86400 * 86400 + hour * 3600) + minute * 60) + second)
  { sec := if target ≤ after.sec then asI64 (target + 86400) else target, nano := 0 }

/-- schedule.rs:146-168 `next_yearly`. -/
def nextYearly (after : Time .utc) (month day hour minute second : Int) : Time .utc :=
  let dt := after.toUtcDatetime
  let candidate := Time.fromUtcDatetime ⟨dt.year, month, day, hour, minute, second, 0⟩
  if candidate.le after then Time.fromUtcDatetime ⟨asI32 (dt.year + 1), month, day, hour, minute, second, 0⟩
  else candidate

/-- schedule.rs:190-203 `UtcSchedule::new`. -/
def scheduleNew (start : Time .utc) (pattern : Recurrence) : UtcSchedule :=
  { nextFire := match pattern with
      | .once => start
      | .interval period => add start period
      | .hourly m s => nextHourly start m s
      | .daily h m s => nextDaily start h m s
      | .yearly mo d h m s => nextYearly start mo d h m s
    pattern := pattern }

/-- schedule.rs:221-223: `while next_fire <= now { next_fire = next_fire + period }`. -/
def catchUp (period : Duration) (now : Time .utc) : Nat → Time .utc → Option (Time .utc)
  | 0, t => if t.le now then none else some t
  | n + 1, t => if t.le now then catchUp period now n (add t period) else some t

/-- schedule.rs:207-237 `UtcSchedule::check`. -/
def check (s : UtcSchedule) (now : Time .utc) (n : Nat) : Option (UtcSchedule × Bool) :=
  if now.lt s.nextFire then some (s, false)
  else
    let next : Option (Time .utc) := match s.pattern with
      | .once => some s.nextFire
      | .interval period => catchUp period now n s.nextFire
      | .hourly m sec => some (nextHourly now m sec)
      | .daily h m sec => some (nextDaily now h m sec)
      | .yearly mo d h m sec => some (nextYearly now mo d h m sec)
    next.map fun t => ({ s with nextFire := t }, true)

end Verif.Time.Release
