import Mathlib.Data.Real.Basic

/-!
# Model of the preparation of plots, `crates/aether_viz/src/lib.rs`

Finite values are real numbers, `none` is a value that is not finite (infinity or NaN). `fl` rounds the result of each operation; it does not
overflow. What is drawn from the prepared data (colours, text, pixels; the `plotters` crate) is not modelled.
-/

namespace Verif.Viz.Plot

/-- lib.rs:3-8 `PlotStyle`. -/
inductive Style where
  | line
  | points
  deriving DecidableEq

/-- lib.rs:14-20 `XYSeries`. -/
structure XYSeries where
  xs : List (Option ℝ)
  ys : List (Option ℝ)
  label : Option (List Char)
  style : Style

/-- lib.rs:163-167 `PreparedSeries`. -/
structure Prepared where
  points : List (ℝ × ℝ)
  label : Option (List Char)
  style : Style

/-- What the function can end with instead of a picture: a panic or an `Err`. -/
inductive Fault where
  | panic
  | err
  deriving DecidableEq

/-- The chart handed to the drawing library: the axis ranges and the series. -/
structure Chart where
  xRange : ℝ × ℝ
  yRange : ℝ × ℝ
  drawn : List Prepared

variable (fl : ℝ → ℝ)

/-- lib.rs:171-190: the closure of `map`; the assertion of line 172 is in `prepare`. -/
def prepareOne (s : XYSeries) : Prepared :=
  { points := (s.xs.zip s.ys).filterMap fun
      | (some x, some y) => some (x, y)
      | _ => none
    label := s.label, style := s.style }

/-- lib.rs:169-193: `map`, `filter`, `collect`; an iterator is lazy, so a mismatch anywhere panics before anything is drawn. -/
def prepare : List XYSeries → Except Fault (List Prepared)
  | [] => .ok []
  | s :: rest =>
    if s.xs.length ≠ s.ys.length then .error .panic
    else do
      let r ← prepare rest
      .ok (if (prepareOne s).points.isEmpty then r else prepareOne s :: r)

/-- `f64::min` and `f64::max` with a running bound; `none` is the infinity at the start (lib.rs:200-203). -/
noncomputable def minO (m : Option ℝ) (x : ℝ) : Option ℝ :=
  match m with
  | none => some x
  | some m => some (if m < x then m else x)

/-- See `minO`. -/
noncomputable def maxO (m : Option ℝ) (x : ℝ) : Option ℝ :=
  match m with
  | none => some x
  | some m => some (if x < m then m else x)

/-- lib.rs:200-211: the running bounds of all points. -/
noncomputable def bounds (ps : List (ℝ × ℝ)) : Option ℝ × Option ℝ × Option ℝ × Option ℝ :=
  ps.foldl (fun b p => (minO b.1 p.1, maxO b.2.1 p.1, minO b.2.2.1 p.2, maxO b.2.2.2 p.2)) (none, none, none, none)

/-- lib.rs:213-219: the range of one axis from its bounds. -/
noncomputable def range (lo hi : ℝ) : ℝ × ℝ :=
  let hi := if lo = hi then fl (lo + 1) else hi
  let pad := fl (|fl (hi - lo)| * fl (3 / 100))
  (fl (lo - pad), fl (hi + pad))

/-- lib.rs:154-219 `plot_series` up to drawing. -/
noncomputable def plotSeries (series : List XYSeries) : Except Fault Chart :=
  if series.isEmpty then .error .panic
  else do
    let prepared ← prepare series
    if prepared.isEmpty then .error .err
    else
      match bounds (prepared.flatMap (·.points)) with
      | (some xMin, some xMax, some yMin, some yMax) =>
        .ok { xRange := range fl xMin xMax, yRange := range fl yMin yMax, drawn := prepared }
      | _ => .error .err

/-- lib.rs:96-103: the point number `i` of the grid. -/
noncomputable def gridPoint (fApprox fTrue : ℝ → ℝ) (a b : ℝ) (samples i : ℕ) : ℝ × ℝ :=
  let t := fl ((i : ℝ) / (samples : ℝ))
  let x := fl (a + fl (fl (b - a) * t))
  (x, fl (fApprox x - fTrue x))

/-- lib.rs:79-105 `plot_error_on_grid` up to drawing: the range of the error axis and the points. The x axis is `a..b`. For `samples = 0` the code
divides zero by zero; this is not modelled. -/
noncomputable def plotError (fApprox fTrue : ℝ → ℝ) (a b : ℝ) (samples : ℕ) : (ℝ × ℝ) × List (ℝ × ℝ) :=
  let r := (List.range (samples + 1)).foldl (fun (r : (Option ℝ × Option ℝ) × List (ℝ × ℝ)) i =>
    let q := gridPoint fl fApprox fTrue a b samples i
    ((minO r.1.1 q.2, maxO r.1.2 q.2), r.2 ++ [q])) ((none, none), [])
  let lo := r.1.1.getD 0
  let hi := r.1.2.getD 0
  ((lo, if lo = hi then fl (lo + 1) else hi), r.2)

end Verif.Viz.Plot
