import Verif.Viz.Model

/-!
# Model of the drawing loop of the CSV tail, `crates/aether_viz/src/realtime.rs`

The picture on disk is what the last drawing wrote: for each drawn series its label and its points. Sleeping is not modelled, and drawing
itself is taken to succeed (the output path is valid UTF-8 and can be written). How `plot_series` lays out the points is in `Verif.Viz.Plot`.
-/

namespace Verif.Viz

/-- The picture: for each drawn series its label and its points. -/
abbrev Picture (F : Type) := List (Option (List Char) × List (F × F))

section
variable {F : Type} (env : Env F) (cfg : Config)

/-- realtime.rs:146-181 `render`: the picture on disk afterwards, given the picture before. -/
def render (st : St F) (old : Option (Picture F)) : Option (Picture F) :=
  if st.xs.isEmpty then old
  else
    let series := st.ys.zipIdx.filterMap fun (ys, idx) =>
      if ys.length ≠ st.xs.length then none else some (cfg.yColumns[idx]?, st.xs.zip ys)
    if series.isEmpty then old else some series

/-- realtime.rs:115-121: the loop of `run_forever`, one entry of the list for each poll; `none` = `Err`. -/
def runLoop (p : Plotter F) (pic : Option (Picture F)) : List (Option Obs) → Option (Plotter F × Option (Picture F))
  | [] => some (p, pic)
  | o :: os =>
    match Plotter.updateOnce env cfg p o with
    | (_, none) => none
    | (p', some changed) => runLoop p' (if changed then render cfg p'.st pic else pic) os

/-- realtime.rs:108-122 `run_forever` on a new plotter, up to the sleep after the last poll of the list. `pic` is the picture left on disk by an
earlier run. -/
def runForever (pic : Option (Picture F)) (first : Option Obs) (os : List (Option Obs)) : Option (Plotter F × Option (Picture F)) :=
  match Plotter.initialize env cfg (Plotter.new cfg) first with
  | (_, none) => none
  | (p, some ()) => runLoop env cfg p (render cfg p.st pic) os

end

end Verif.Viz
