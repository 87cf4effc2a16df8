import Verif.Viz.Model

/-!
# Specification of the CSV tail

What a user expects the plotted series to be, computed from the whole text at once.
-/

namespace Verif.Viz

variable {F : Type} (env : Env F) (cfg : Config)

/-- The lines of the text that are terminated by `\n` or `\r\n`. -/
def completeLines (t : List Char) : List (List Char) := ((splitChar '\n' t).dropLast).map stripCR

/-- The trimmed, non-blank complete lines. -/
def usefulLines (t : List Char) : List (List Char) :=
  ((completeLines t).map (trim env)).filter (· ≠ [])

/-- The row of numbers of a data line, if all selected columns are present and are finite numbers. -/
def rowOf (xi : Nat) (yis : List Nat) (line : List Char) : Option (F × List F) := do
  let x ← (splitCsvLine env line)[xi]?.bind env.parseF
  let ys ← yis.mapM fun yi => (splitCsvLine env line)[yi]?.bind env.parseF
  pure (x, ys)

/-- Positions of the selected columns in a header row. -/
def headerCols (h : List Char) : Option (Nat × List Nat) := do
  let xi ← (splitCsvLine env h).findIdx? (· == cfg.xColumn)
  let yis ← cfg.yColumns.mapM fun y => (splitCsvLine env h).findIdx? (· == y)
  pure (xi, yis)

/-- Positions given directly as numbers. -/
def numericCols : Option (Nat × List Nat) := do
  let xi ← env.parseUsize cfg.xColumn
  let yis ← cfg.yColumns.mapM env.parseUsize
  pure (xi, yis)

/-- All rows of the text; `none` if a selected column does not exist. -/
def rows (t : List Char) : Option (List (F × List F)) :=
  match usefulLines env t with
  | [] => some []
  | h :: rest =>
    if cfg.hasHeader then
      (headerCols env cfg h).map fun (xi, yis) => rest.filterMap (rowOf env xi yis)
    else
      (numericCols env cfg).map fun (xi, yis) => (h :: rest).filterMap (rowOf env xi yis)

/-- The last `m` elements (all if there is no limit). -/
def lastN {α : Type} (m : Option Nat) (l : List α) : List α :=
  match m with
  | none => l
  | some m => l.drop (l.length - m)

/-- The series of the most recent rows: x values and one list per y column. -/
def series (rs : List (F × List F)) : List F × List (List F) :=
  let kept := lastN cfg.maxPoints rs
  (kept.map (·.1), (List.range cfg.yColumns.length).map fun j => kept.filterMap fun r => r.2[j]?)

/-- The selected columns exist in every beginning of the file that is valid UTF-8. -/
def GoodObs (o : Obs) : Prop :=
  ∀ c s, c <+: o.content → utf8Decode c = some s → rows env cfg s ≠ none

/-- Histories of polls of a log file. `History p last`: the plotter is in state `p` and `last` is what the
last poll saw. Between two polls the file may grow, also between the metadata call and the read
(`o.len ≤ o.content.length`); it may be replaced by another file (other identity) or truncated below the
position already read. (Truncation that is not below that position is invisible to the code and excluded.)
Polls that see no file, and polls that return `Err`, are part of the history. -/
inductive History : Plotter F → Option Obs → Prop
  | new : History (Plotter.new cfg) none
  | init (o : Obs) : GoodObs env cfg o →
      History (Plotter.initialize env cfg (Plotter.new cfg) (some o)).1 (some o)
  | missing {p last} : History p last → History (Plotter.updateOnce env cfg p none).1 last
  | poll {p last} (o : Obs) : History p last → o.len ≤ o.content.length → GoodObs env cfg o →
      (∀ l, last = some l →
        (o.id = l.id ∧ l.content <+: o.content ∧ l.content.length ≤ o.len) ∨
        o.id ≠ l.id ∨ o.len < p.pos) →
      History (Plotter.updateOnce env cfg p (some o)).1 (some o)

end Verif.Viz
