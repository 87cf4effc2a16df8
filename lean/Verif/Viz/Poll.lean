import Verif.Ieee.Cast

/-!
# Model of the polling intervals, `crates/aether_viz/src/realtime.rs` and `crates/aether_viz/src/bin/csv_tail_egui.rs`

All numbers are `f64`.  Simplification: an interval is the number of seconds given; its rounding to nanoseconds is not modelled.
-/

namespace Verif.Viz.Poll

open Verif.Ieee

variable {fl : ℝ → ℝ}

/-- `std::time::Duration::from_secs_f64`: it panics (`none`) if the number of seconds is negative, infinite, NaN or does not fit in 64 bits. -/
noncomputable def fromSecs (a : IE binary64 fl) : Option ℝ := match a.val with
  | .num x => open Classical in if 0 ≤ x ∧ x < 2 ^ 64 then some x else none
  | _ => none

/-- `realtime.rs:112` `run_forever`: the rate in use. -/
noncomputable def runHz (hz : IE binary64 fl) : IE binary64 fl :=
  if 0 < hz then hz else IE.ofReal 5

/-- `realtime.rs:113` `run_forever`: the interval between two polls. -/
noncomputable def runInterval (hz : IE binary64 fl) : Option ℝ := fromSecs (1 / runHz hz)

/-- `csv_tail_egui.rs:45` `main`: the rate in use. -/
noncomputable def viewHz (hz : IE binary64 fl) : IE binary64 fl := IE.fmax hz (IE.ofReal (1 / 10))

/-- `csv_tail_egui.rs:93`: the interval between two polls. -/
noncomputable def viewInterval (hz : IE binary64 fl) : Option ℝ := fromSecs (1 / viewHz hz)

/-- `csv_tail_egui.rs:94`: the interval between two searches for new files. -/
noncomputable def viewRefresh (hz : IE binary64 fl) : Option ℝ := fromSecs (IE.fmax (1 / viewHz hz) 1)

end Verif.Viz.Poll
