import Verif.Bench.Model

/-!
# The logs when writes to the file fail

`let _ = writeln!(…)` (performance.rs:11, 16, 31, 41) ignores the error of a failed write. A write may fail with any part of
the line written: the rest of the line is then not written, the guard is dropped and the call returns as if it had succeeded. No code runs that
could panic while the lock is held, so the lock is not poisoned.
-/

namespace Verif.Bench

variable {ι : Type} [DecidableEq ι]

/-- performance.rs:14-23, 35-49 the steps of the threads and the clock, with failing writes. -/
inductive FStep : St ι → St ι → Prop
  | ok {s s' : St ι} : Step s s' → FStep s s'
  | fail (s : St ι) (i : ι) (c : Char) (rest : List Char) : s.pc i = .writing (c :: rest) →
      FStep s { s with lock := false, pc := Function.update s.pc i .idle, todo := Function.update s.todo i (s.todo i).tail }

/-- The states of all runs. The line of column names may have been written in part (performance.rs:11, 31). -/
inductive FReach (header : List Char) (clock : Nat) (prog : ι → List Entry) : St ι → Prop
  | start (h : List Char) : h <+: header → FReach header clock prog (start h clock prog)
  | step {s s'} : FReach header clock prog s → FStep s s' → FReach header clock prog s'

end Verif.Bench
