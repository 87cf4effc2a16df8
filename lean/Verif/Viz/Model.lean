/-!
# Model of the realtime CSV tail, `crates/aether_viz/src/realtime.rs`

Text is `List Char`, a file is a `List UInt8`. What the code takes from the standard library is a
parameter (`Env`): which characters are white space, number parsing. UTF-8 decoding is the strict decoder
of Lean's core library. Rendering and sleeping are not modelled; the plotter's observable state is `x_values()`, `y_values()`,
`available_columns()`.
-/

namespace Verif.Viz

/-- Library functions the code calls. `F` stands for finite `f64` values. -/
structure Env (F : Type) where
  /-- `char::is_whitespace`, used by `str::trim` (realtime.rs:251, 414). -/
  ws : Char → Bool
  /-- `parse::<f64>()` followed by the `is_finite` guard (realtime.rs:274-277, 286-292):
  `none` when parsing fails or the value is not finite. -/
  parseF : List Char → Option F
  /-- `parse::<usize>()` (realtime.rs:339-345). -/
  parseUsize : List Char → Option Nat

/-- realtime.rs:10-22 `CsvRealtimeConfig`, the fields that matter for the series. -/
structure Config where
  xColumn : List Char
  yColumns : List (List Char)
  hasHeader : Bool
  maxPoints : Option Nat

/-- realtime.rs:76-86 `CsvRealtimePlotter` without the file bookkeeping (see `Plotter`). -/
structure St (F : Type) where
  headers : List (List Char)
  xIndex : Option Nat
  yIndices : List Nat
  xs : List F
  ys : List (List F)
  partialLine : List Char

/-- realtime.rs:89-102 `new`. -/
def St.new {F : Type} (cfg : Config) : St F :=
  { headers := [], xIndex := none, yIndices := [], xs := [],
    ys := List.replicate cfg.yColumns.length [], partialLine := [] }

section
variable {F : Type} (env : Env F) (cfg : Config)

/-- `str::trim`. -/
def trim (l : List Char) : List Char :=
  ((l.dropWhile env.ws).reverse.dropWhile env.ws).reverse

/-- `str::split(c)` for a single character. -/
def splitChar (c : Char) : List Char → List (List Char)
  | [] => [[]]
  | d :: t =>
    if d = c then [] :: splitChar c t
    else match splitChar c t with
      | [] => [[d]]
      | h :: r => (d :: h) :: r

/-- realtime.rs:413-415 `split_csv_line`. -/
def splitCsvLine (line : List Char) : List (List Char) := (splitChar ',' line).map (trim env)

/-- `strip_suffix('\r')` as done by `str::lines` on a terminated line. -/
def stripCR (l : List Char) : List Char := if l.getLast? = some '\r' then l.dropLast else l

/-- `str::lines`: pieces ending in `\n` lose the `\n` and then one `\r`; a non-empty unterminated rest
is the last line. `cur` is the current line, reversed. -/
def rustLinesAux : List Char → List Char → List (List Char)
  | cur, [] => if cur = [] then [] else [cur.reverse]
  | cur, c :: t =>
    if c = '\n' then stripCR cur.reverse :: rustLinesAux [] t else rustLinesAux (c :: cur) t

/-- `str::lines().collect()`. -/
def rustLines (t : List Char) : List (List Char) := rustLinesAux [] t

/-- realtime.rs:327-335: the loop over `y_columns`; the Bool is `false` for `Err`. -/
def pushY (st : St F) : List (List Char) → St F × Bool
  | [] => (st, true)
  | y :: rest =>
    match st.headers.findIdx? (· == y) with
    | none => (st, false)
    | some yi => pushY { st with yIndices := st.yIndices ++ [yi] } rest

/-- realtime.rs:313-347 `resolve_column_indices`; the Bool is `false` for `Err`. -/
def resolve (st : St F) : St F × Bool :=
  if cfg.hasHeader then
    if st.headers = [] then (st, true)
    else match st.headers.findIdx? (· == cfg.xColumn) with
      | none => (st, false)
      | some xi => pushY { st with xIndex := some xi, yIndices := [] } cfg.yColumns
  else
    match env.parseUsize cfg.xColumn with
    | none => (st, false)
    | some xi =>
      let st := { st with xIndex := some xi }
      match cfg.yColumns.mapM env.parseUsize with
      | none => (st, false)
      | some yis => ({ st with yIndices := yis }, true)

/-- realtime.rs:299-303: push each value of the row to its column, if the column exists. -/
def pushRow : List (List F) → List F → List (List F)
  | c :: cs, v :: vs => (c ++ [v]) :: pushRow cs vs
  | cs, [] => cs
  | [], _ => []

/-- realtime.rs:349-367 `trim_if_needed`. -/
def trimIfNeeded (st : St F) : St F :=
  match cfg.maxPoints with
  | none => st
  | some m =>
    if st.xs.length ≤ m then st
    else
      let n := st.xs.length - m
      { st with xs := st.xs.drop n, ys := st.ys.map fun c => if c.length ≥ n then c.drop n else [] }

/-- realtime.rs:269-307: use a data line once the columns are resolved; the Bool is `changed`.
The y loop (281-293) stops at the first missing or unparsable value: `mapM` in `Option`. -/
def dataLine (st : St F) (line : List Char) : St F × Bool :=
  let values := splitCsvLine env line
  match st.xIndex with
  | none => (st, false)
  | some xi =>
    match values[xi]?.bind env.parseF with
    | none => (st, false)
    | some x =>
      match st.yIndices.mapM (fun yi => values[yi]?.bind env.parseF) with
      | none => (st, false)
      | some row =>
        (trimIfNeeded cfg { st with xs := st.xs ++ [x], ys := pushRow st.ys row }, true)

/-- realtime.rs:250-308, loop body; `none` = the function returns `Err`, `some changed` = go on. -/
def lineStep (st : St F) (raw : List Char) : St F × Option Bool :=
  let line := trim env raw
  if line = [] then (st, some false)
  else if cfg.hasHeader && st.headers.isEmpty then
    let r := resolve env cfg { st with headers := splitCsvLine env line }
    (r.1, if r.2 then some false else none)
  else
    let r := if st.xIndex.isNone || st.yIndices.isEmpty then resolve env cfg st else (st, true)
    if r.2 then
      let d := dataLine env cfg r.1 line
      (d.1, some d.2)
    else (r.1, none)

/-- realtime.rs:250-310: the loop over lines; an error keeps the state reached so far. -/
def linesLoop (st : St F) (changed : Bool) : List (List Char) → St F × Option Bool
  | [] => (st, some changed)
  | l :: ls =>
    match lineStep env cfg st l with
    | (st', none) => (st', none)
    | (st', some c) => linesLoop st' (changed || c) ls

/-- realtime.rs:233-311 `parse_text_chunk`. -/
def parseTextChunk (st : St F) (text : List Char) : St F × Option Bool :=
  let buf := st.partialLine ++ text
  let st := { st with partialLine := [] }
  let lines := rustLines buf
  if buf.getLast? = some '\n' then linesLoop env cfg st false lines
  else
    match lines.getLast? with
    | none => linesLoop env cfg st false lines
    | some last => linesLoop env cfg { st with partialLine := last } false lines.dropLast

/-- A sequence of `parse_text_chunk` calls; stops at the first `Err` (result `false`). -/
def parseChunks (st : St F) : List (List Char) → St F × Bool
  | [] => (st, true)
  | t :: ts =>
    match parseTextChunk env cfg st t with
    | (st', none) => (st', false)
    | (st', some _) => parseChunks st' ts

/-! ## File polling -/

/-- UTF-8 decoding by `read_to_string` (realtime.rs:213, 225); `none` = `Err`. Lean's strict decoder. -/
def utf8Decode (b : List UInt8) : Option (List Char) := (b.toByteArray.utf8Decode?).map Array.toList

/-- realtime.rs:76-86 with the file bookkeeping. `lastId` is `last_identity` reduced to what
`should_reset_for_new_file` compares (device, inode, creation time), as one opaque number. -/
structure Plotter (F : Type) where
  st : St F
  pos : Nat
  lastId : Option Nat

/-- What one poll sees of the file system: the identity and length of the metadata call and the
content at the time of the later read (the file may have grown in between). -/
structure Obs where
  id : Nat
  len : Nat
  content : List UInt8

/-- realtime.rs:89-102 `new`. -/
def Plotter.new (cfg : Config) : Plotter F := { st := St.new cfg, pos := 0, lastId := none }

/-- realtime.rs:369-380 `reset_series`. -/
def Plotter.reset (p : Plotter F) : Plotter F :=
  { st := { headers := [], xIndex := none, yIndices := [], xs := [],
            ys := p.st.ys.map fun _ => [], partialLine := [] }
    pos := 0, lastId := none }

/-- realtime.rs:206-219 `reload_from_start` on an existing file; the metadata call of line 215 sees the
same file identity. Result `none` = `Err`. -/
def Plotter.reload (p : Plotter F) (o : Obs) : Plotter F × Option Unit :=
  match utf8Decode o.content with
  | none => (p, none)
  | some text =>
    let r := parseTextChunk env cfg p.st text
    ({ st := r.1, pos := o.content.length, lastId := some o.id }, r.2.map fun _ => ())

/-- realtime.rs:221-231 `read_new_bytes`. -/
def Plotter.readNew (p : Plotter F) (o : Obs) : Plotter F × Option Bool :=
  match utf8Decode (o.content.drop p.pos) with
  | none => (p, none)
  | some text =>
    let p := { p with pos := max p.pos o.content.length }
    if text = [] then (p, some false)
    else
      let r := parseTextChunk env cfg p.st text
      ({ p with st := r.1 }, r.2)

/-- realtime.rs:183-204 `should_reset_for_new_file`. -/
def Plotter.shouldReset (p : Plotter F) (o : Obs) : Bool :=
  match p.lastId with
  | none => false
  | some prev => decide (o.len < p.pos) || prev != o.id

/-- realtime.rs:124-144 `update_once`; `none` for the observation = the file does not exist.
Result `none` = `Err`. -/
def Plotter.updateOnce (p : Plotter F) : Option Obs → Plotter F × Option Bool
  | none => (p, some false)
  | some o =>
    if p.shouldReset o then
      let r := Plotter.reload env cfg p.reset o
      (r.1, r.2.map fun _ => true)
    else if o.len > p.pos then
      match Plotter.readNew env cfg p o with
      | (p', none) => (p', none)
      | (p', some c) => ({ p' with lastId := some o.id }, some c)
    else ({ p with lastId := some o.id }, some false)

/-- realtime.rs:104-106 `initialize`. -/
def Plotter.initialize (p : Plotter F) : Option Obs → Plotter F × Option Unit
  | none => (p, some ())
  | some o => Plotter.reload env cfg p o

end

end Verif.Viz
