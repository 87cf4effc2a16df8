import Mathlib.Data.List.Basic

/-!
# Model of the checksum gate of `aether_catalogs::star_catalogs::GncCatalogReader`

The hash function (crate `sha2`) and the CSV parser (crates `csv`, `serde`) are parameters. The file system is represented by
what the two `File::open` calls of one run yield: for the first the results of the successive `read` calls, for the second the
bytes the CSV reader gets. `none` in a result is any error.
-/

namespace Verif.Stars

/-- A streaming hash function (`sha2::Sha256`). -/
structure Hasher where
  State : Type
  init : State
  update : State → List UInt8 → State
  finalize : State → List UInt8

/-- One `read` call: bytes (none at the end of the file) or an error. -/
inductive Read where
  | bytes (b : List UInt8)
  | error

/-- `crates/aether_catalogs/src/star_catalogs/mod.rs:98-104`: the loop; the list is what successive `read` calls return, after it the
file is at its end. -/
def drain (H : Hasher) : H.State → List Read → Option H.State
  | s, [] => some s
  | _, .error :: _ => none
  | s, .bytes b :: rest => if b.length = 0 then some s else drain H (H.update s b) rest

/-- A lower-case hexadecimal digit as an ASCII code. -/
def hexDigit (n : ℕ) : UInt8 := if n < 10 then UInt8.ofNat (48 + n) else UInt8.ofNat (87 + n)

/-- `mod.rs:106`: `format!("{:x}", digest)`. -/
def hex : List UInt8 → List UInt8
  | [] => []
  | b :: rest => hexDigit (b.toNat / 16) :: hexDigit (b.toNat % 16) :: hex rest

/-- `u8::to_ascii_lowercase`. -/
def asciiLower (c : UInt8) : UInt8 := if 65 ≤ c ∧ c ≤ 90 then c + 32 else c

/-- `str::eq_ignore_ascii_case`, on the bytes of the strings. -/
def eqIgnoreCase (a b : List UInt8) : Bool := a.map asciiLower == b.map asciiLower

/-- `mod.rs:90-121` `verify_catalog_checksum`. -/
def verifyChecksum (H : Hasher) (opened : Option (List Read)) (expected : List UInt8) : Option Unit := do
  let reads ← opened
  let s ← drain H H.init reads
  if eqIgnoreCase (hex (H.finalize s)) expected then some () else none

/-- `mod.rs:163-168`: the loop of `from_csv` over the deserialised rows, a row being `none` when malformed. -/
def keepRows {Row : Type} : List (Option Row) → List Row → List Row
  | [], acc => acc
  | some r :: rest, acc => keepRows rest (acc ++ [r])
  | none :: rest, acc => keepRows rest acc

/-- `mod.rs:153-178` `from_csv`. -/
def fromCsv {Row : Type} (parse : List UInt8 → List (Option Row)) (opened : Option (List UInt8)) : Option (List Row) := do
  let content ← opened
  return keepRows (parse content) []

/-- `mod.rs:82-88` `from_csv_with_expected_sha256`. -/
def fromCsvWithExpected {Row : Type} (H : Hasher) (parse : List UInt8 → List (Option Row)) (first : Option (List Read))
    (second : Option (List UInt8)) (expected : List UInt8) : Option (List Row) := do
  let _ ← verifyChecksum H first expected
  fromCsv parse second

/-- `mod.rs:62-63` `GNC_V1_1_MAR_2_2023_SHA256`. -/
def gncV11 : List UInt8 :=
  [100, 51, 49, 55, 50, 54, 56, 55, 50, 54, 102, 102, 53, 102, 100, 50, 56, 100, 56, 55, 100, 54, 101, 51, 100, 48, 97, 51, 97, 97,
   48, 102, 50, 54, 97, 98, 99, 48, 52, 48, 56, 97, 52, 51, 101, 55, 49, 49, 102, 52, 98, 56, 55, 53, 55, 57, 98, 98, 48, 48, 98,
   54, 52, 48]

end Verif.Stars
