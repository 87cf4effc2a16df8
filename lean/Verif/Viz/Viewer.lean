import Verif.Viz.Model
import Mathlib.Algebra.Order.Field.Basic

/-!
# Model of the live viewer, `crates/aether_viz/src/bin/csv_tail_egui.rs`

A path is its list of components; names are `List Char`. What the program sees of the file system is given by functions from paths to
`Option Obs` (`none`: no such file), one for every place where files are read. Error texts are reduced to what caused them. Timing,
the widgets and the drawing of lines are not modelled: an event is one firing of the poll timer or one pass over the toolbar, and
`draw` is the list of lines handed to the plot. Values are elements of an ordered field `K`; they are finite (`Env.parseF`), so the
`is_finite` tests of lines 302 and 512 are true.
-/

namespace Verif.Viz

/-- Column and file names. -/
abbrev Name := List Char

/-- csv_tail_egui.rs:120-124 `PlotSource`; the configuration is a field of the plotter in the code. -/
structure Source (F : Type) where
  path : List Name
  name : Name
  cfg : Config
  plotter : Plotter F

/-- The messages of `last_error`, by cause: a new file that cannot be loaded (396-400), or an error of a plotter (151, 423). -/
inductive Err
  | load (path : List Name)
  | plotter (path : List Name)

/-- csv_tail_egui.rs:126-139 `CsvTailApp` without the timers. A `BTreeMap` is its sorted list of entries. `pattern` is
`source_pattern.is_some()`. -/
structure Viewer (F : Type) where
  sources : List (Source F)
  xLabel : Name
  yLabels : List Name
  selX : List (Name × Bool)
  selY : List (Name × Bool)
  initialized : Bool
  lastError : Option Err
  pattern : Bool

/-! ## Names -/

/-- csv_tail_egui.rs:434-438 `ComponentKind`. -/
inductive Axis
  | X
  | Y
  deriving DecidableEq

/-- csv_tail_egui.rs:440-449 `classify_component`; `to_ascii_lowercase` changes only `A`–`Z`, as `Char.toLower` does. -/
def classify (name : Name) : Option Axis :=
  let lower := name.map Char.toLower
  if "_x[".toList <:+: lower ∨ "_x".toList <:+ lower ∨ "_x_".toList <:+: lower then some .X
  else if "_y[".toList <:+: lower ∨ "_y".toList <:+ lower ∨ "_y_".toList <:+: lower then some .Y
  else none

/-- `str::rfind` of a character, counting characters instead of bytes. -/
def rfind (c : Char) (l : List Char) : Option Nat :=
  (l.reverse.findIdx? (· == c)).map fun i => l.length - 1 - i

/-- csv_tail_egui.rs:451-458 `extract_unit`. Positions are those of characters; the comparison of line 454 has the same outcome
with byte positions because `[` is one byte long. -/
def extractUnit (ws : Char → Bool) (name : Name) : Option Name :=
  match rfind '[' name with
  | none => none
  | some start =>
    match rfind ']' name with
    | none => none
    | some stop =>
      if stop ≤ start + 1 then none
      else some (((((name.take stop).drop (start + 1)).dropWhile ws).reverse.dropWhile ws).reverse)

/-- csv_tail_egui.rs:461-471: the loop of `common_unit`; `none` is the early return, `some u` the value of `unit` after the loop. -/
def commonUnitLoop (ws : Char → Bool) : Option Name → List Name → Option (Option Name)
  | unit, [] => some unit
  | unit, col :: rest =>
    match unit, extractUnit ws col with
    | none, some v => commonUnitLoop ws (some v) rest
    | none, none => commonUnitLoop ws (some []) rest
    | some existing, some v => if existing = v then commonUnitLoop ws (some existing) rest else none
    | some existing, none => if existing = [] then commonUnitLoop ws (some existing) rest else none

/-- csv_tail_egui.rs:460-473 `common_unit`. -/
def commonUnit (ws : Char → Bool) (columns : List Name) : Option Name :=
  match commonUnitLoop ws none columns with
  | none => none
  | some unit => unit.filter fun u => u ≠ []

/-- `Path::file_stem` of the last component: up to the last dot, unless that is the first character or there is none. -/
def fileStem (file : Name) : Name :=
  match rfind '.' file with
  | none => file
  | some 0 => file
  | some i => file.take i

/-- csv_tail_egui.rs:556-572 `derive_run_label` (names are taken to be valid UTF-8). -/
def deriveRunLabel (path : List Name) : Name :=
  match path.reverse.find? fun s => "run_".toList.isPrefixOf s with
  | some s => s
  | none =>
    match path.getLast? with
    | some file => fileStem file
    | none => "source".toList

/-! ## Sorted maps and sets -/

/-- `BTreeMap::insert`. -/
def mapInsert (k : Name) (v : Bool) : List (Name × Bool) → List (Name × Bool)
  | [] => [(k, v)]
  | (k', v') :: r => if k < k' then (k, v) :: (k', v') :: r else if k = k' then (k, v) :: r else (k', v') :: mapInsert k v r

/-- `BTreeMap::get(..).copied().unwrap_or(false)`. -/
def mapOn (m : List (Name × Bool)) (k : Name) : Bool := ((m.find? fun e => e.1 == k).map (·.2)).getD false

/-- `entry(k).or_insert(v)`. -/
def mapOrInsert (k : Name) (v : Bool) (m : List (Name × Bool)) : List (Name × Bool) :=
  if (m.find? fun e => e.1 == k).isSome then m else mapInsert k v m

/-- `BTreeSet::insert`. -/
def setInsert (k : Name) : List Name → List Name
  | [] => [k]
  | k' :: r => if k < k' then k :: k' :: r else if k = k' then k' :: r else k' :: setInsert k r

/-- csv_tail_egui.rs:407-419: the names switched on in either map, in order. -/
def newCols (selX selY : List (Name × Bool)) : List Name :=
  let set := selX.foldl (fun set e => if e.2 then setInsert e.1 set else set) []
  selY.foldl (fun set e => if e.2 then setInsert e.1 set else set) set

section
variable {F : Type} (env : Env F)

/-! ## Sources -/

/-- csv_tail_egui.rs:55-67 and 350-362: the configuration of a source. -/
def viewCfg (xColumn : Name) (yColumns : List Name) : Config :=
  { xColumn, yColumns, hasHeader := true, maxPoints := none }

/-- csv_tail_egui.rs:343-372 `create_source`, and 69-73 of `main`; `none` is `Err`. -/
def createSource (path : List Name) (xColumn : Name) (yColumns : List Name) (seen : Option Obs) : Option (Source F) :=
  let cfg := viewCfg xColumn yColumns
  match Plotter.initialize env cfg (Plotter.new cfg) seen with
  | (_, none) => none
  | (plotter, some ()) => some { path, name := deriveRunLabel path, cfg, plotter }

/-- realtime.rs:402-410 `set_y_columns`; the Bool is `false` for `Err`. -/
def Source.setYColumns (s : Source F) (yColumns : List Name) (seen : Option Obs) : Source F × Bool :=
  let cfg := { s.cfg with yColumns }
  let p : Plotter F := { s.plotter with st := { s.plotter.st with ys := List.replicate yColumns.length [] } }
  let r := Plotter.initialize env cfg p.reset seen
  ({ s with cfg, plotter := r.1 }, r.2.isSome)

/-- csv_tail_egui.rs:53-74: the sources of `main`; `none` is `Err`. -/
def startSources (x : Name) (ys : List Name) (fs : List Name → Option Obs) : List (List Name) → Option (List (Source F))
  | [] => some []
  | path :: rest =>
    match createSource env path x ys (fs path) with
    | none => none
    | some s => (startSources x ys fs rest).map (s :: ·)

/-- csv_tail_egui.rs:47-99: `main` up to the creation of the window, after the arguments have been parsed; `none` is `Err`. -/
def start (paths : List (List Name)) (pattern : Bool) (x : Name) (ys : List Name) (fs : List Name → Option Obs) :
    Option (Viewer F) :=
  if paths = [] then none
  else
    (startSources env x ys fs paths).map fun sources =>
      { sources, xLabel := x, yLabels := ys
        selX := (ys.filter fun c => classify c = some .X).foldl (fun m c => mapInsert c true m) []
        selY := (ys.filter fun c => classify c = some .Y).foldl (fun m c => mapInsert c true m) []
        initialized := !ys.isEmpty, lastError := none, pattern }

/-! ## Polling -/

/-- csv_tail_egui.rs:383-403: the loop of `refresh_sources_from_pattern`. `fs₁` is what `create_source` sees, `fs₂` what
`set_y_columns` sees. -/
def refreshLoop (fs₁ fs₂ : List Name → Option Obs) (v : Viewer F) : List (List Name) → Viewer F
  | [] => v
  | path :: rest =>
    if v.sources.any fun s => s.path == path then refreshLoop fs₁ fs₂ v rest
    else
      match createSource env path v.xLabel v.yLabels (fs₁ path) with
      | some source =>
        let source := if v.yLabels = [] then source else (source.setYColumns env v.yLabels (fs₂ path)).1
        refreshLoop fs₁ fs₂ { v with sources := v.sources ++ [source] } rest
      | none => refreshLoop fs₁ fs₂ { v with lastError := some (.load path) } rest

/-- csv_tail_egui.rs:374-404 `refresh_sources_from_pattern`; `paths = none` when the pattern matches nothing. -/
def refresh (paths : Option (List (List Name))) (fs₁ fs₂ : List Name → Option Obs) (v : Viewer F) : Viewer F :=
  if v.pattern then
    match paths with
    | none => v
    | some paths => refreshLoop env fs₁ fs₂ v paths
  else v

/-- `source.plotter.update_once()` of csv_tail_egui.rs:150; the Bool is `false` for `Err`. -/
def Source.poll (s : Source F) (seen : Option Obs) : Source F × Bool :=
  let r := Plotter.updateOnce env s.cfg s.plotter seen
  ({ s with plotter := r.1 }, r.2.isSome)

/-- csv_tail_egui.rs:148-154: one poll of every source. -/
def pollAll (fs : List Name → Option Obs) (v : Viewer F) : Viewer F :=
  { v with
    sources := v.sources.map fun s => (s.poll env (fs s.path)).1
    lastError := v.sources.foldl (fun e s => if (s.poll env (fs s.path)).2 then e else some (.plotter s.path)) none }

/-- csv_tail_egui.rs:143-156: the poll timer fires; the flag says whether the refresh timer has expired too. -/
def tick (refreshDue : Bool) (paths : Option (List (List Name))) (fs₁ fs₂ fs : List Name → Option Obs) (v : Viewer F) : Viewer F :=
  pollAll env fs (if refreshDue then refresh env paths fs₁ fs₂ v else v)

/-! ## Selecting columns -/

/-- csv_tail_egui.rs:406-431 `apply_selection`. -/
def applySelection (fs : List Name → Option Obs) (v : Viewer F) : Viewer F :=
  let cols := newCols v.selX v.selY
  let err := v.sources.foldl
    (fun e s => if (s.setYColumns env cols (fs s.path)).2 then e else some (Err.plotter s.path)) none
  { v with
    sources := v.sources.map fun s => (s.setYColumns env cols (fs s.path)).1
    yLabels := if err.isNone then cols else v.yLabels
    lastError := err }

/-- csv_tail_egui.rs:180-184: the columns offered. -/
def columns (v : Viewer F) : List Name := (v.sources.head?.map fun s => s.plotter.st.headers).getD []

/-- csv_tail_egui.rs:198-207: the initial selection. -/
def autoSelect (fs : List Name → Option Obs) (v : Viewer F) : Viewer F :=
  if v.initialized then v
  else
    let v := match (columns v).find? fun c => classify c = some .X with
      | some c => { v with selX := mapOrInsert c true v.selX }
      | none => v
    let v := match (columns v).find? fun c => c ≠ v.xLabel with
      | some c => { v with selY := mapOrInsert c true v.selY }
      | none => v
    { applySelection env fs v with initialized := true }

/-- csv_tail_egui.rs:218-237: one click on a check box; only the columns offered (`x_candidates`, `y_candidates`) have one. -/
def toggle (v : Viewer F) (box : Axis × Name) : Viewer F :=
  if box.2 ∈ columns v ∧ box.2 ≠ v.xLabel then
    match box.1 with
    | .X => if classify box.2 = some .X then { v with selX := mapInsert box.2 (!mapOn v.selX box.2) v.selX } else v
    | .Y => { v with selY := mapInsert box.2 (!mapOn v.selY box.2) v.selY }
  else v

/-- csv_tail_egui.rs:180-244: the toolbar. `fs₁` is what the initial selection sees, `fs₂` what a changed selection sees. (Entries
with value `false` inserted for unticked boxes change nothing and are left out.) -/
def toolbar (boxes : List (Axis × Name)) (fs₁ fs₂ : List Name → Option Obs) (v : Viewer F) : Viewer F :=
  if columns v = [] then v
  else
    let v := autoSelect env fs₁ v
    if boxes = [] then v else applySelection env fs₂ (boxes.foldl toggle v)

end

/-! ## Drawing -/

section
variable {K : Type} [Field K] [LinearOrder K]

/-- csv_tail_egui.rs:475-491 `selected_component_columns`, one of the two lists. -/
def selectedCols (labels : List Name) (sel : List (Name × Bool)) : List Name := labels.filter (mapOn sel)

/-- csv_tail_egui.rs:501-518: the values that enter the range. -/
def rangeValues (sources : List (Source K)) (labels selected : List Name) : List K :=
  sources.flatMap fun s => s.plotter.st.ys.zipIdx.flatMap fun (ys, idx) =>
    match labels[idx]? with
    | none => []
    | some label => if ¬ selected.contains label ∨ ys.length ≠ s.plotter.st.xs.length then [] else ys

/-- csv_tail_egui.rs:493-527 `min_max_for_columns_multi`; `eps` is `f64::EPSILON`, `none` stands for the infinite start values. -/
def minMax (eps : K) (sources : List (Source K)) (labels selected : List Name) : K × K :=
  match (rangeValues sources labels selected).foldl
      (fun (r : Option (K × K)) y => match r with
        | none => some (y, y)
        | some (lo, hi) => some (min lo y, max hi y)) none with
  | none => (0, 1)
  | some (lo, hi) => if |hi - lo| < eps then (lo, lo + 1) else (lo, hi)

/-- csv_tail_egui.rs:529-535 `map_range`. -/
def mapRange (eps value srcMin srcMax dstMin dstMax : K) : K :=
  if |srcMax - srcMin| < eps then dstMin
  else
    let t := (value - srcMin) / (srcMax - srcMin)
    dstMin + t * (dstMax - dstMin)

/-- A line of the plot: the two parts of its legend text `{}::{}` (318) and its points. -/
structure PlotLine (K : Type) where
  source : Name
  column : Name
  points : List (K × K)

/-- csv_tail_egui.rs:259-263: whether the second group is scaled. -/
def useDualAxis (ws : Char → Bool) (v : Viewer K) : Bool :=
  let xs := selectedCols v.yLabels v.selX
  let ys := selectedCols v.yLabels v.selY
  !xs.isEmpty && !ys.isEmpty && commonUnit ws xs != commonUnit ws ys

/-- csv_tail_egui.rs:253-322: the lines drawn. -/
def draw (ws : Char → Bool) (eps : K) (v : Viewer K) : List (PlotLine K) :=
  let dual := useDualAxis ws v
  let xr := minMax eps v.sources v.yLabels (selectedCols v.yLabels v.selX)
  let yr := minMax eps v.sources v.yLabels (selectedCols v.yLabels v.selY)
  v.sources.flatMap fun s =>
    if s.plotter.st.xs = [] ∨ s.plotter.st.ys = [] then []
    else s.plotter.st.ys.zipIdx.filterMap fun (ys, idx) =>
      if ys.length ≠ s.plotter.st.xs.length then none
      else
        let col := (v.yLabels[idx]?).getD ("series_".toList ++ Nat.toDigits 10 idx)
        let points := s.plotter.st.xs.zip ys
        some { source := s.name, column := col
               points := if dual && mapOn v.selY col then points.map fun p => (p.1, mapRange eps p.2 yr.1 yr.2 xr.1 xr.2)
                         else points }

end

end Verif.Viz
