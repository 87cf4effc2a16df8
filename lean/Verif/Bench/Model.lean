import Mathlib.Logic.Function.Basic

/-!
# Model of the timing and power logs of `aether_benchmark`, shared by threads

`TimingCsv::timing_ms` (performance.rs:14-23) is `self.0.lock().unwrap().write_fmt(format_args!(…, unix_nanos_now(), …))`: the lock is taken first,
then the clock is read, then the pieces of the line are written to the unbuffered file, then the guard is dropped. `PowerCsv::sample`
(performance.rs:35-49) is the same with other columns. The threads run in any order, and
a write can take any part of what is left (`write_all`). The clock is any clock that does not go back. Texts are lists of characters; the text of a
number (`{}` of an `f64`) is given. Writes that fail are added in `Verif/Bench/Errors.lean`.
-/

namespace Verif.Bench

/-- The cells of a row after the time. -/
abbrev Entry := List (List Char)

/-- performance.rs:11 the line of column names. -/
def timingHeader : List Char := ['u', 'n', 'i', 'x', '_', 'n', 's', ',', 's', 't', 'a', 'g', 'e', ',', 'e', 'l', 'a', 'p', 's', 'e', 'd', '_', 'm', 's', '\n']

/-- performance.rs:31 the line of column names. -/
def powerHeader : List Char := ['u', 'n', 'i', 'x', '_', 'n', 's', ',', 's', 'o', 'u', 'r', 'c', 'e', ',', 'p', 'o', 'w', 'e', 'r', '_', 'W', ',',
  'e', 'n', 'e', 'r', 'g', 'y', '_', 'J', '_', 't', 'o', 't', 'a', 'l', '\n']

/-- performance.rs:15-23 `timing_ms`: the cells. -/
def timing (stage ms : List Char) : Entry := [stage, ms]

/-- performance.rs:36-40 `sample`: the cells; a missing value is an empty cell. -/
def power (source : List Char) (w j : Option (List Char)) : Entry := [source, w.getD [], j.getD []]

/-- performance.rs:16-22, 41-48 the text of one row. -/
def line (ts : Nat) (e : Entry) : List Char := List.intercalate [','] (Nat.toDigits 10 ts :: e) ++ ['\n']

/-- Where a thread is in `timing_ms` or `sample`: outside, holding the lock before reading the clock, or writing with a rest of the line left. -/
inductive Pc where
  | idle
  | locked
  | writing (rest : List Char)
  deriving DecidableEq, Repr

/-- The state: clock, lock, file, and for each thread its place and its entries that are not yet logged. -/
structure St (ι : Type) where
  clock : Nat
  lock : Bool
  file : List Char
  pc : ι → Pc
  todo : ι → List Entry

variable {ι : Type} [DecidableEq ι]

/-- performance.rs:9-13, 29-33 `TimingCsv::new` and `PowerCsv::new`, with threads that are going to log the given entries. -/
def start (header : List Char) (clock : Nat) (prog : ι → List Entry) : St ι := ⟨clock, false, header, fun _ => .idle, prog⟩

/-- performance.rs:14-23, 35-49 the steps of the threads and the clock. -/
inductive Step : St ι → St ι → Prop
  | tick (s : St ι) (c : Nat) : s.clock ≤ c → Step s { s with clock := c }
  | acquire (s : St ι) (i : ι) : s.pc i = .idle → s.todo i ≠ [] → s.lock = false →
      Step s { s with lock := true, pc := Function.update s.pc i .locked }
  | read (s : St ι) (i : ι) (e : Entry) (es : List Entry) : s.pc i = .locked → s.todo i = e :: es →
      Step s { s with pc := Function.update s.pc i (.writing (line s.clock e)) }
  | write (s : St ι) (i : ι) (p rest : List Char) : s.pc i = .writing (p ++ rest) →
      Step s { s with file := s.file ++ p, pc := Function.update s.pc i (.writing rest) }
  | release (s : St ι) (i : ι) : s.pc i = .writing [] →
      Step s { s with lock := false, pc := Function.update s.pc i .idle, todo := Function.update s.todo i (s.todo i).tail }

/-- The states of all runs. -/
inductive Reach (header : List Char) (clock : Nat) (prog : ι → List Entry) : St ι → Prop
  | start : Reach header clock prog (start header clock prog)
  | step {s s'} : Reach header clock prog s → Step s s' → Reach header clock prog s'

end Verif.Bench
