import Verif.Rust

/-!
# Model of `crates/aether_time`

`sec`/`nano` are the public fields `sec: i64`, `nano_sec: i32`; their ranges are carried by
the predicates in `Verif/Time/Spec.lean`. `Option.none` = panic (debug overflow check).
-/

namespace Verif.Time
open Verif.Rust

/-- duration.rs:6-10 `struct Duration`. -/
structure Duration where
  sec : Int
  nano : Int
  deriving DecidableEq, Repr

/-- time.rs:16-23: the four time-scale marker types. -/
inductive Scale where
  | unix | utc | tai | gps
  deriving DecidableEq, Repr

/-- time.rs:59-64 `struct Time<TS>`; the phantom scale is a Lean index.
`DecidableEq` is time.rs:73-78 (equality of the two numeric fields). -/
structure Time (ts : Scale) where
  sec : Int
  nano : Int
  deriving DecidableEq, Repr

/-! ## Duration (duration.rs) -/

namespace Duration

/-- duration.rs:17-21 `from_nanos` (no normalisation in the code). -/
def fromNanos (total : Int) : Duration :=
  { sec := total.tdiv 1000000000, nano := asI32 (total.tmod 1000000000) }

/-- duration.rs:23-32 `normalize`. -/
def normalize (d : Duration) : Option Duration := do
  if d.nano ≥ 1000000000 then
    let s ← chk64 (d.sec + d.nano.tdiv 1000000000)
    pure { sec := s, nano := d.nano.tmod 1000000000 }
  else if d.nano < 0 then
    let s ← chk64 (d.sec - 1)
    let n ← chk32 (d.nano + 1000000000)
    pure { sec := s, nano := n }
  else
    pure d

/-- duration.rs:34-36 `zero`. -/
def zero : Duration := { sec := 0, nano := 0 }

/-- duration.rs:38-40 `from_secs`. -/
def fromSecs (s : Int) : Duration := { sec := s, nano := 0 }

/-- duration.rs:42-47 `from_millis`. -/
def fromMillis (ms : Int) : Option Duration := do
  let p ← chk64 (ms.tmod 1000 * 1000000)
  normalize { sec := ms.tdiv 1000, nano := asI32 p }

/-- duration.rs:49-54 `from_micros`. -/
def fromMicros (us : Int) : Option Duration := do
  let p ← chk64 (us.tmod 1000000 * 1000)
  normalize { sec := us.tdiv 1000000, nano := asI32 p }

/-- duration.rs:56-58 `from_nanos_i64`. -/
def fromNanosI64 (ns : Int) : Duration := fromNanos ns

/-- duration.rs:128-137 `impl Add for Duration`. -/
def add (a b : Duration) : Option Duration := do
  let s ← chk64 (a.sec + b.sec)
  let n ← chk32 (a.nano + b.nano)
  normalize { sec := s, nano := n }

/-- duration.rs:139-148 `impl Sub for Duration`. -/
def sub (a b : Duration) : Option Duration := do
  let s ← chk64 (a.sec - b.sec)
  let n ← chk32 (a.nano - b.nano)
  normalize { sec := s, nano := n }

/-- duration.rs:156-163 `impl Ord for Duration` (150-154 `partial_cmp` is the same). -/
def cmp (a b : Duration) : Ordering :=
  match compare a.sec b.sec with
  | .eq => compare a.nano b.nano
  | o => o

/-- Rust's `a >= b`, derived from `partial_cmp` (duration.rs:150-154). -/
def ge (a b : Duration) : Bool := (a.cmp b).isGE

end Duration

/-! ## Time arithmetic and order (duration.rs:65-126, time.rs:80-94) -/

namespace Time

variable {ts : Scale}

/-- duration.rs:65-80 `impl Add<Duration> for Time<TS>`. -/
def add (t : Time ts) (d : Duration) : Option (Time ts) := do
  let s ← chk64 (t.sec + d.sec)
  let n ← chk32 (t.nano + d.nano)
  if n ≥ 1000000000 then
    let s' ← chk64 (s + 1)
    let n' ← chk32 (n - 1000000000)
    pure { sec := s', nano := n' }
  else if n < 0 then
    let s' ← chk64 (s - 1)
    let n' ← chk32 (n + 1000000000)
    pure { sec := s', nano := n' }
  else
    pure { sec := s, nano := n }

/-- duration.rs:82-94 `impl Sub<Time<TS>> for Time<TS>`. -/
def sub (a b : Time ts) : Option Duration := do
  let s ← chk64 (a.sec - b.sec)
  let n ← chk32 (a.nano - b.nano)
  if n < 0 then
    let s' ← chk64 (s - 1)
    let n' ← chk32 (n + 1000000000)
    pure { sec := s', nano := n' }
  else
    pure { sec := s, nano := n }

/-- duration.rs:97-109 `impl Sub<&Time<TS>> for &Time<TS>` (written out again, as in the code). -/
def subRef (a b : Time ts) : Option Duration := do
  let s ← chk64 (a.sec - b.sec)
  let n ← chk32 (a.nano - b.nano)
  if n < 0 then
    let s' ← chk64 (s - 1)
    let n' ← chk32 (n + 1000000000)
    pure { sec := s', nano := n' }
  else
    pure { sec := s, nano := n }

/-- duration.rs:111-126 `impl Add<Duration> for &Time<TS>` (written out again, as in the code). -/
def addRef (t : Time ts) (d : Duration) : Option (Time ts) := do
  let s ← chk64 (t.sec + d.sec)
  let n ← chk32 (t.nano + d.nano)
  if n ≥ 1000000000 then
    let s' ← chk64 (s + 1)
    let n' ← chk32 (n - 1000000000)
    pure { sec := s', nano := n' }
  else if n < 0 then
    let s' ← chk64 (s - 1)
    let n' ← chk32 (n + 1000000000)
    pure { sec := s', nano := n' }
  else
    pure { sec := s, nano := n }

/-- time.rs:87-94 `impl Ord for Time<TS>`. -/
def cmp (a b : Time ts) : Ordering :=
  match compare a.sec b.sec with
  | .eq => compare a.nano b.nano
  | o => o

/-- Rust's `a >= b`, `a < b`, `a <= b`, derived from `partial_cmp` (time.rs:81-85). -/
def ge (a b : Time ts) : Bool := (a.cmp b).isGE
def lt (a b : Time ts) : Bool := (a.cmp b).isLT
def le (a b : Time ts) : Bool := (a.cmp b).isLE

/-! ## Scale conversions (time.rs:29-163)

`leap` is the value the atomic `LEAP_SECONDS` (time.rs:34) holds when the call reads it. -/

/-- time.rs:37-40 `tai_minus_utc` with time.rs:31 `TAI_UTC_BASE_OFFSET = 10`. -/
def taiMinusUtc (leap : Int) : Option Int := chk32 (10 + leap)

/-- time.rs:53 `UNIX_GPS_EPOCH`. -/
def unixGpsEpoch : Int := 315964800

/-- time.rs:100-104 `Time<Unix>::to_utc`. -/
def unixToUtc (t : Time .unix) : Time .utc := { sec := t.sec, nano := t.nano }

/-- time.rs:106-110 `Time<UTC>::to_unix`. -/
def utcToUnix (t : Time .utc) : Time .unix := { sec := t.sec, nano := t.nano }

/-- time.rs:116-120 `Time<UTC>::to_tai`. -/
def utcToTai (leap : Int) (t : Time .utc) : Option (Time .tai) := do
  let o ← taiMinusUtc leap
  let s ← chk64 (t.sec + o)
  pure { sec := s, nano := t.nano }

/-- time.rs:122-126 `Time<TAI>::to_utc`. -/
def taiToUtc (leap : Int) (t : Time .tai) : Option (Time .utc) := do
  let o ← taiMinusUtc leap
  let s ← chk64 (t.sec - o)
  pure { sec := s, nano := t.nano }

/-- time.rs:132-138 `Time<UTC>::to_gps`. -/
def utcToGps (leap : Int) (t : Time .utc) : Option (Time .gps) := do
  let o ← taiMinusUtc leap
  let g ← chk64 (o - 19)
  let s ← chk64 (t.sec - unixGpsEpoch)
  let s' ← chk64 (s + g)
  pure { sec := s', nano := t.nano }

/-- time.rs:140-146 `Time<GPS>::to_utc`. -/
def gpsToUtc (leap : Int) (t : Time .gps) : Option (Time .utc) := do
  let o ← taiMinusUtc leap
  let g ← chk64 (o - 19)
  let s ← chk64 (t.sec + unixGpsEpoch)
  let s' ← chk64 (s - g)
  pure { sec := s', nano := t.nano }

/-- time.rs:153-157 `Time<GPS>::to_tai`; the leap cell is read twice (once per conversion). -/
def gpsToTai (leap₁ leap₂ : Int) (t : Time .gps) : Option (Time .tai) := do
  let u ← gpsToUtc leap₁ t
  utcToTai leap₂ u

/-- time.rs:159-163 `Time<TAI>::to_gps`; the leap cell is read twice. -/
def taiToGps (leap₁ leap₂ : Int) (t : Time .tai) : Option (Time .gps) := do
  let u ← taiToUtc leap₁ t
  utcToGps leap₂ u

end Time

/-! ## GPS week (gps.rs) -/

/-- gps.rs:8-13 `struct GpsWeekTime`. -/
structure GpsWeekTime where
  rawWeek : Int
  sow : Int
  fullWeek : Int
  deriving DecidableEq, Repr

/-- gps.rs:16-39 `Time<GPS>::to_gps_week`. The i64 sums in lines 24-31 cannot overflow
(`hint` is a `u32`, `raw < 65536`), so they are plain sums here. -/
def toGpsWeek (t : Time .gps) (hint : Int) : GpsWeekTime :=
  let total := t.sec
  let rawWeek := asU16 ((total.tdiv 604800).tmod 1024)
  let sow := total.tmod 604800
  let base := (hint.tdiv 1024) * 1024
  let full := base + rawWeek
  let full :=
    if (full - hint).natAbs > (full + 1024 - hint).natAbs then full + 1024
    else if (full - 1024 - hint).natAbs < (full - hint).natAbs then full - 1024
    else full
  { rawWeek := rawWeek, sow := sow, fullWeek := asU32 full }

/-! ## Mission clock (mission.rs:9-115) -/

/-- mission.rs:32-38 `struct Epoch<TS>` with mission.rs:9-12 `MissionEpoch` inlined;
mission.rs:63-66 `TimeKeeper` is a wrapper around it. -/
structure Epoch where
  startTai : Time .tai
  ticks0 : Int
  ticksPerSec : Int
  deriving DecidableEq, Repr

/-- mission.rs:14-21 `MissionEpoch::new_utc` (`new_tai` is the identity). -/
def missionNewUtc (leap : Int) (t : Time .utc) : Option (Time .tai) := t.utcToTai leap

/-- mission.rs:46-50 = 93-100: a wrapping tick difference turned into a Duration.
`u128` products cannot overflow here (`frac < 2^64`). `none`: division by zero. -/
def ticksToDuration (dt tps : Int) : Option Duration :=
  if tps = 0 then none
  else some {
    sec := asI64 (dt / tps)
    nano := asI32 ((dt % tps * 1000000000) / tps) }

/-- mission.rs:45-51 `Epoch::duration_from_ticks`. -/
def Epoch.durationFromTicks (e : Epoch) (now : Int) : Option Duration :=
  ticksToDuration (wrappingSubU64 now e.ticks0) e.ticksPerSec

/-- mission.rs:53-56 / 76-78 `t_plus` (scale phantom erased to `ts`). -/
def Epoch.tPlus {ts : Scale} (e : Epoch) (now : Int) : Option (Time ts) := do
  let dt ← e.durationFromTicks now
  pure { sec := dt.sec, nano := dt.nano }

/-- mission.rs:81-84 `TimeKeeper::now_tai`. -/
def Epoch.nowTai (e : Epoch) (ticks : Int) : Option (Time .tai) := do
  let dt ← e.durationFromTicks ticks
  e.startTai.add dt

/-- mission.rs:92-101 `TimeKeeper::dt_from_ticks`: returns the duration and the new `last_ticks`. -/
def Epoch.dtFromTicks (e : Epoch) (last now : Int) : Option (Duration × Int) := do
  let d ← ticksToDuration (wrappingSubU64 now last) e.ticksPerSec
  pure (d, now)

/-- mission.rs:105-109 `TimeKeeper<UTC>::now_utc`. -/
def Epoch.nowUtc (e : Epoch) (leap ticks : Int) : Option (Time .utc) := do
  let t ← e.nowTai ticks
  t.taiToUtc leap

/-- mission.rs:111-115 `TimeKeeper<GPS>::now_gps`. -/
def Epoch.nowGps (e : Epoch) (leap₁ leap₂ ticks : Int) : Option (Time .gps) := do
  let t ← e.nowTai ticks
  t.taiToGps leap₁ leap₂

/-! ## Periodic timers (mission.rs:118-188) -/

/-- mission.rs:118-122 `struct TimerEvent`. -/
structure TimerEvent where
  acc : Duration
  period : Duration
  deriving DecidableEq, Repr

/-- mission.rs:126-131 `TimerEvent::new`. -/
def TimerEvent.new (period : Duration) : TimerEvent := { acc := .zero, period := period }

/-- mission.rs:142-144: the loop `while acc >= period { acc = acc - period }`, run for at
most `n` iterations. -/
def drain (period : Duration) : Nat → Duration → Run Duration
  | 0, acc => if acc.ge period then .running else .ok acc
  | n + 1, acc =>
    if acc.ge period then
      (Run.ofOption (acc.sub period)).bind (drain period n)
    else .ok acc

/-- mission.rs:137-149 `TimerEvent::step`, loop limited to `n` iterations. -/
def TimerEvent.step (e : TimerEvent) (dt : Duration) (n : Nat) : Run (TimerEvent × Bool) :=
  (Run.ofOption (e.acc.add dt)).bind fun acc =>
    if acc.ge e.period then
      (drain e.period n acc).bind fun acc' => .ok ({ e with acc := acc' }, true)
    else
      .ok ({ e with acc := acc }, false)

/-- A sequence of `step` calls, each with at most `n` loop iterations, collecting the flags. -/
def TimerEvent.steps (n : Nat) : TimerEvent → List Duration → Run (TimerEvent × List Bool)
  | e, [] => .ok (e, [])
  | e, d :: ds =>
    (e.step d n).bind fun (e', b) =>
      (TimerEvent.steps n e' ds).bind fun (e'', bs) => .ok (e'', b :: bs)

/-- mission.rs:153-169 `TimerSet::new`; the array `[TimerEvent; N]` is a list of length N. -/
def timerSetNew (periods : List Duration) : List TimerEvent := periods.map TimerEvent.new

/-- mission.rs:172-182 `TimerSet::step`: steps the events in index order and collects flags. -/
def timerSetStep (n : Nat) (dt : Duration) : List TimerEvent → Run (List TimerEvent × List Bool)
  | [] => .ok ([], [])
  | e :: es =>
    (e.step dt n).bind fun (e', b) =>
      (timerSetStep n dt es).bind fun (es', bs) => .ok (e' :: es', b :: bs)

/-- A sequence of `TimerSet::step` calls. -/
def timerSetSteps (n : Nat) : List TimerEvent → List Duration →
    Run (List TimerEvent × List (List Bool))
  | es, [] => .ok (es, [])
  | es, d :: ds =>
    (timerSetStep n d es).bind fun (es', bs) =>
      (timerSetSteps n es' ds).bind fun (es'', bss) => .ok (es'', bs :: bss)

/-! ## Alarms (schedule.rs:63-87) -/

/-- schedule.rs:63-67 `struct UtcAlarm`. -/
structure UtcAlarm where
  target : Time .utc
  fired : Bool
  deriving DecidableEq, Repr

/-- schedule.rs:70-72 `UtcAlarm::new`. -/
def UtcAlarm.new (target : Time .utc) : UtcAlarm := { target := target, fired := false }

/-- schedule.rs:75-82 `UtcAlarm::check`. -/
def UtcAlarm.check (a : UtcAlarm) (now : Time .utc) : UtcAlarm × Bool :=
  if !a.fired && now.ge a.target then ({ a with fired := true }, true) else (a, false)

/-- A sequence of `check` calls and their results. -/
def UtcAlarm.checks : UtcAlarm → List (Time .utc) → UtcAlarm × List Bool
  | a, [] => (a, [])
  | a, t :: ts =>
    let (a', b) := a.check t
    let (a'', bs) := UtcAlarm.checks a' ts
    (a'', b :: bs)

/-! ## Calendar (schedule.rs:8-61, 244-291) -/

/-- schedule.rs:8-17 `struct UtcDateTime`. -/
structure UtcDateTime where
  year : Int
  month : Int
  day : Int
  hour : Int
  minute : Int
  second : Int
  nanos : Int
  deriving DecidableEq, Repr

/-- schedule.rs:35-61 `days_to_ymd`. Its only caller passes `|days| ≤ 2^63/86400`, so the i64
operations cannot overflow and are plain here; the final `as` casts are kept. -/
def daysToYmd (days hour minute second : Int) : UtcDateTime :=
  let z := days + 719468
  let era := if z ≥ 0 then z.tdiv 146097 else (z - 146096).tdiv 146097
  let doe := z - era * 146097
  let yoe := (doe - doe.tdiv 1460 + doe.tdiv 36524 - doe.tdiv 146096).tdiv 365
  let y := yoe + era * 400
  let doy := doe - (365 * yoe + yoe.tdiv 4 - yoe.tdiv 100)
  let mp := (5 * doy + 2).tdiv 153
  let d := doy - (153 * mp + 2).tdiv 5 + 1
  let m := mp + (if mp < 10 then 3 else -9)
  let y := y + (if m ≤ 2 then 1 else 0)
  { year := asI32 y, month := asU8 m, day := asU8 d,
    hour := hour, minute := minute, second := second, nanos := 0 }

/-- schedule.rs:245-258 `Time<UTC>::to_utc_datetime`. -/
def Time.toUtcDatetime (t : Time .utc) : UtcDateTime :=
  let secs := t.sec
  let second := asU8 (secs.tmod 60)
  let secs := secs.tdiv 60
  let minute := asU8 (secs.tmod 60)
  let secs := secs.tdiv 60
  let hour := asU8 (secs.tmod 24)
  let days := secs.tdiv 24
  { daysToYmd days hour minute second with nanos := t.nano }

/-- schedule.rs:260-291 `Time<UTC>::from_utc_datetime`. `year` is an `i32` and the other fields
are `u8`, so no i64 operation overflows. -/
def Time.fromUtcDatetime (dt : UtcDateTime) : Time .utc :=
  let y := if dt.month ≤ 2 then dt.year - 1 else dt.year
  let m := if dt.month ≤ 2 then dt.month + 12 else dt.month
  let era := y.tdiv 400
  let yoe := y - era * 400
  let doy := (153 * (m - 3) + 2).tdiv 5 + dt.day - 1
  let doe := yoe * 365 + yoe.tdiv 4 - yoe.tdiv 100 + doy
  let days := era * 146097 + doe - 719468
  { sec := days * 24 * 3600 + dt.hour * 3600 + dt.minute * 60 + dt.second
    nano := dt.nanos }

/-! ## Schedules (schedule.rs:90-242) -/

/-- schedule.rs:91-97 `enum Recurrence`. -/
inductive Recurrence where
  | once
  | interval (period : Duration)
  | hourly (minute second : Int)
  | daily (hour minute second : Int)
  | yearly (month day hour minute second : Int)
  deriving DecidableEq, Repr

/-- schedule.rs:100-103 `struct UtcSchedule`. -/
structure UtcSchedule where
  nextFire : Time .utc
  pattern : Recurrence
  deriving DecidableEq, Repr

/-- schedule.rs:110-116 `next_interval`. -/
def nextInterval (after : Time .utc) (period : Duration) : Option (Time .utc) := after.add period

/-- schedule.rs:118-129 `next_hourly`. The product in line 120 cannot overflow. -/
def nextHourly (after : Time .utc) (minute second : Int) : Option (Time .utc) := do
  let hourStart := after.sec.tdiv 3600 * 3600
  let a ← chk64 (hourStart + minute * 60)
  let target ← chk64 (a + second)
  let next ← if target ≤ after.sec then chk64 (target + 3600) else some target
  pure { sec := next, nano := 0 }

/-- schedule.rs:131-144 `next_daily`. The product in line 133 cannot overflow. -/
def nextDaily (after : Time .utc) (hour minute second : Int) : Option (Time .utc) := do
  let dayStart := after.sec.tdiv 86400 * 86400
  let a ← chk64 (dayStart + hour * 3600)
  let b ← chk64 (a + minute * 60)
  let target ← chk64 (b + second)
  let next ← if target ≤ after.sec then chk64 (target + 86400) else some target
  pure { sec := next, nano := 0 }

/-- schedule.rs:146-168 `next_yearly`; line 160 `year += 1` is an i32 addition. -/
def nextYearly (after : Time .utc) (month day hour minute second : Int) :
    Option (Time .utc) := do
  let dt := after.toUtcDatetime
  let candidate := Time.fromUtcDatetime ⟨dt.year, month, day, hour, minute, second, 0⟩
  if candidate.le after then
    let year ← chk32 (dt.year + 1)
    pure (Time.fromUtcDatetime ⟨year, month, day, hour, minute, second, 0⟩)
  else
    pure candidate

/-- schedule.rs:190-203 `UtcSchedule::new`. -/
def UtcSchedule.new (start : Time .utc) (pattern : Recurrence) : Option UtcSchedule := do
  let next ← match pattern with
    | .once => some start
    | .interval period => nextInterval start period
    | .hourly m s => nextHourly start m s
    | .daily h m s => nextDaily start h m s
    | .yearly mo d h m s => nextYearly start mo d h m s
  pure { nextFire := next, pattern := pattern }

/-- schedule.rs:221-223: `while next_fire <= now { next_fire = next_fire + period }`, run for
at most `n` iterations. -/
def catchUp (period : Duration) (now : Time .utc) : Nat → Time .utc → Run (Time .utc)
  | 0, t => if t.le now then .running else .ok t
  | n + 1, t =>
    if t.le now then (Run.ofOption (t.add period)).bind (catchUp period now n)
    else .ok t

/-- schedule.rs:207-237 `UtcSchedule::check`, catch-up loop limited to `n` iterations. -/
def UtcSchedule.check (s : UtcSchedule) (now : Time .utc) (n : Nat) : Run (UtcSchedule × Bool) :=
  if now.lt s.nextFire then .ok (s, false)
  else
    let next : Run (Time .utc) := match s.pattern with
      | .once => .ok s.nextFire
      | .interval period => catchUp period now n s.nextFire
      | .hourly m sec => Run.ofOption (nextHourly now m sec)
      | .daily h m sec => Run.ofOption (nextDaily now h m sec)
      | .yearly mo d h m sec => Run.ofOption (nextYearly now mo d h m sec)
    next.bind fun t => .ok ({ s with nextFire := t }, true)

/-- A sequence of `check` calls and their results. -/
def UtcSchedule.checks (n : Nat) : UtcSchedule → List (Time .utc) → Run (UtcSchedule × List Bool)
  | s, [] => .ok (s, [])
  | s, t :: ts =>
    (s.check t n).bind fun (s', b) =>
      (UtcSchedule.checks n s' ts).bind fun (s'', bs) => .ok (s'', b :: bs)

end Verif.Time
