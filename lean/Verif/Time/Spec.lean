import Verif.Time.Model

/-!
# Specification vocabulary for `aether_time`

Independent of the model's functions: it only looks at the public fields.
-/

namespace Verif.Time
open Verif.Rust

/-! One second in nanoseconds. -/
scoped notation "NS" => (1000000000 : Int)

/-- The length of a duration in nanoseconds. -/
def Duration.total (d : Duration) : Int := d.sec * NS + d.nano

/-- The instant in nanoseconds since the scale's origin. -/
def Time.total {ts : Scale} (t : Time ts) : Int := t.sec * NS + t.nano

/-- `x` is representable in an `i64`. -/
def FitsI64 (x : Int) : Prop := i64Min ≤ x ∧ x ≤ i64Max

instance (x : Int) : Decidable (FitsI64 x) := inferInstanceAs (Decidable (_ ∧ _))

/-- Canonical representation: seconds fit an `i64`, nanoseconds are in `[0, 10^9)`. -/
def Duration.Canon (d : Duration) : Prop := FitsI64 d.sec ∧ 0 ≤ d.nano ∧ d.nano < NS

/-- Canonical representation of an instant. -/
def Time.Canon {ts : Scale} (t : Time ts) : Prop := FitsI64 t.sec ∧ 0 ≤ t.nano ∧ t.nano < NS

instance (d : Duration) : Decidable d.Canon := inferInstanceAs (Decidable (_ ∧ _ ∧ _))
instance {ts : Scale} (t : Time ts) : Decidable t.Canon := inferInstanceAs (Decidable (_ ∧ _ ∧ _))

/-! ## Calendar: the proleptic Gregorian calendar by counting days -/

/-- The Gregorian leap-year rule. -/
def isLeap (y : Int) : Bool := y % 4 == 0 && (y % 100 != 0 || y % 400 == 0)

/-- Length of month `m` of year `y`. -/
def daysInMonth (y m : Int) : Int :=
  if m = 2 then (if isLeap y then 29 else 28)
  else if m = 4 ∨ m = 6 ∨ m = 9 ∨ m = 11 then 30
  else 31

/-- A civil date. -/
structure Date where
  year : Int
  month : Int
  day : Int
  deriving DecidableEq, Repr

/-- The day after a date. -/
def Date.next (d : Date) : Date :=
  if d.day < daysInMonth d.year d.month then { d with day := d.day + 1 }
  else if d.month < 12 then { d with month := d.month + 1, day := 1 }
  else { year := d.year + 1, month := 1, day := 1 }

/-- The date `n` days after 1970-01-01. -/
def dateAfterEpoch : Nat → Date
  | 0 => ⟨1970, 1, 1⟩
  | n + 1 => (dateAfterEpoch n).next

/-- A real calendar date. -/
def Date.Valid (d : Date) : Prop :=
  1 ≤ d.month ∧ d.month ≤ 12 ∧ 1 ≤ d.day ∧ d.day ≤ daysInMonth d.year d.month

instance (d : Date) : Decidable d.Valid := inferInstanceAs (Decidable (_ ∧ _ ∧ _ ∧ _))

/-- A date-time whose fields denote a real civil date and time of day. -/
def UtcDateTime.Valid (d : UtcDateTime) : Prop :=
  Date.Valid ⟨d.year, d.month, d.day⟩ ∧
  0 ≤ d.hour ∧ d.hour < 24 ∧ 0 ≤ d.minute ∧ d.minute < 60 ∧ 0 ≤ d.second ∧ d.second < 60 ∧
  0 ≤ d.nanos ∧ d.nanos < NS

end Verif.Time
