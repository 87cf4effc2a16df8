import Verif.Wmm.Model

/-!
# Model of the generator of the embedded coefficients (`crates/aether_catalogs/build.rs`)

A file is its list of characters. The type of the floating-point numbers and their parser are parameters; a number is taken to
survive being printed with `{:?}` and compiled again, so the generated source text is represented by the values in it. `none`
is any panic. Locating, downloading and writing files is not modelled.
-/

namespace Verif.Wmm

/-- `char::is_whitespace` (the Unicode property White_Space). -/
def isWs (c : Char) : Bool :=
  let n := c.toNat
  (9 ≤ n && n ≤ 13) || n == 32 || n == 0x85 || n == 0xA0 || n == 0x1680 || (0x2000 ≤ n && n ≤ 0x200A) || n == 0x2028 ||
    n == 0x2029 || n == 0x202F || n == 0x205F || n == 0x3000

/-- `char::is_ascii_digit`. -/
def isDigit (c : Char) : Bool := 48 ≤ c.toNat && c.toNat ≤ 57

/-- `str::lines`; the second argument is the current line, reversed. A carriage return before a newline is dropped; an empty piece after
the last newline is not a line. -/
def linesAux : List Char → List Char → List (List Char)
  | [], acc => if acc.isEmpty then [] else [acc.reverse]
  | c :: r, acc =>
    if c = '\n' then
      (match acc with
        | '\r' :: acc' => acc'.reverse
        | _ => acc.reverse) :: linesAux r []
    else linesAux r (c :: acc)

/-- `str::lines`. -/
def lines (s : List Char) : List (List Char) := linesAux s []

/-- `str::trim`. -/
def trim (s : List Char) : List Char := ((s.dropWhile isWs).reverse.dropWhile isWs).reverse

/-- `str::split_whitespace`; the second argument is the current word, reversed. -/
def wordsAux : List Char → List Char → List (List Char)
  | [], acc => if acc.isEmpty then [] else [acc.reverse]
  | c :: r, acc =>
    if isWs c then (if acc.isEmpty then wordsAux r [] else acc.reverse :: wordsAux r [])
    else wordsAux r (c :: acc)

/-- `str::split_whitespace`. -/
def words (s : List Char) : List (List Char) := wordsAux s []

/-- The digits of `str::parse::<usize>`, with the overflow check. -/
def digits : List Char → ℕ → Option ℕ
  | [], n => some n
  | c :: r, n => if isDigit c && n * 10 + (c.toNat - 48) < 2 ^ 64 then digits r (n * 10 + (c.toNat - 48)) else none

/-- `str::parse::<usize>`. -/
def parseUsize (s : List Char) : Option ℕ :=
  match s with
  | '+' :: r => if r.isEmpty then none else digits r 0
  | r => if r.isEmpty then none else digits r 0

/-- A record tuple of `build.rs:150`. -/
structure GenRecord (α : Type) where
  degree : ℕ
  order : ℕ
  g : α
  h : α
  gDot : α
  hDot : α

/-- The mutable variables of the loop (`build.rs:105-110`). -/
structure GenState (α : Type) where
  records : List (GenRecord α)
  g : List α
  h : List α
  gDot : List α
  hDot : List α
  maxDegree : ℕ

/-- The values written by `build.rs:156-177`. -/
structure Generated (α : Type) where
  epoch : α
  modelName : List Char
  releaseDate : List Char
  records : List (GenRecord α)
  g : List α
  h : List α
  gDot : List α
  hDot : List α

/-- `build.rs:10` `WMM_TRIANGULAR_COUNT`. -/
def genCount : ℕ := (12 + 1) * (12 + 2) / 2

/-- `build.rs:180-182` `triangular_index`. -/
def genIndex (degree order : ℕ) : ℕ := degree * (degree + 1) / 2 + order

/-- `build.rs:113-121`: the tokens of a line that is not skipped. -/
def dataTokens (raw : List Char) : Option (List (List Char)) :=
  let line := trim raw
  if line.isEmpty || !isDigit (line.headD (Char.ofNat 0)) then none
  else
    let tokens := words line
    if tokens.length ≠ 6 then none else some tokens

/-- `build.rs:123-142`: the record of six tokens. -/
def parseTokens {α : Type} (parse : List Char → Option α) (tokens : List (List Char)) : Option (GenRecord α) := do
  let degree ← parseUsize (tokens.getD 0 [])
  let order ← parseUsize (tokens.getD 1 [])
  if order ≤ degree then
    let g ← parse (tokens.getD 2 [])
    let h ← parse (tokens.getD 3 [])
    let gDot ← parse (tokens.getD 4 [])
    let hDot ← parse (tokens.getD 5 [])
    return ⟨degree, order, g, h, gDot, hDot⟩
  else none

/-- `build.rs:113-150`: one pass of the loop. -/
def genStep {α : Type} (parse : List Char → Option α) (s : GenState α) (raw : List Char) : Option (GenState α) :=
  match dataTokens raw with
  | none => some s
  | some tokens => do
    let r ← parseTokens parse tokens
    let index := genIndex r.degree r.order
    if index < genCount then
      return ⟨s.records ++ [r], s.g.set index r.g, s.h.set index r.h, s.gDot.set index r.gDot, s.hDot.set index r.hDot,
        max s.maxDegree r.degree⟩
    else none

/-- `build.rs:91-178` `render_wmm_include`. -/
def render {α : Type} [Zero α] (parse : List Char → Option α) (contents : List Char) : Option (Generated α) := do
  let headerLine ← ((lines contents).filter fun line => !(trim line).isEmpty).head?
  let headerTokens := words headerLine
  if headerTokens.length < 3 then none
  else
    let epoch ← parse (headerTokens.getD 0 [])
    let zeros := List.replicate genCount (0 : α)
    let s ← ((lines contents).drop 1).foldlM (genStep parse) ⟨[], zeros, zeros, zeros, zeros, 0⟩
    if s.maxDegree ≠ 12 then none
    else if s.records.length ≠ 90 then none
    else return ⟨epoch, headerTokens.getD 1 [], headerTokens.getD 2 [], s.records, s.g, s.h, s.gDot, s.hDot⟩

/-- Parser of decimal numbers with one digit after the point, as tenths (for the concrete file; every number in it has this form). -/
def parseTenths (s : List Char) : Option ℤ :=
  let (neg, r) := match s with
    | '-' :: r => (true, r)
    | r => (false, r)
  match r.reverse with
  | d :: '.' :: w =>
    if w.isEmpty then none
    else match digits (w.reverse ++ [d]) 0 with
      | some n => some (if neg then -(n : ℤ) else n)
      | none => none
  | _ => none

end Verif.Wmm
