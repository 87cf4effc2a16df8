import Mathlib.Data.List.Basic

/-!
# Model of the sensor search, `crates/aether_benchmark/src/performance/power.rs`

A path is the list of its components, the last one first. The file system is what the program sees of it: which paths are directories
(symbolic links are followed, so a link to an ancestor makes an endless chain of paths), which exist, and the names `read_dir` lists.
It does not change during the search. Entries that cannot be read (`flatten`, line 67) are not in the list.
-/

namespace Verif.Tools

abbrev Path := List String

/-- What the program sees of the file system. -/
structure Fs where
  /-- `fs::read_dir`: the names listed, or an error. -/
  readDir : Path → Option (List String)
  /-- `Path::is_dir`. -/
  isDir : Path → Bool
  /-- `Path::exists`. -/
  exists_ : Path → Bool
  /-- `fs::read_to_string(..).unwrap_or_default()`. -/
  readText : Path → String

/-- power.rs:67-74, the entries of one directory: the file found, or the stack with the subdirectories pushed. The top of the stack is
the head of the list. -/
def scanDir (fs : Fs) (filename : String) (dir : Path) : List String → List Path → Path ⊕ List Path
  | [], stack => .inr stack
  | name :: rest, stack =>
    let p := name :: dir
    if fs.isDir p then scanDir fs filename dir rest (p :: stack)
    else if name = filename then .inl p
    else scanDir fs filename dir rest stack

/-- power.rs:61-76, the loop of `find_first`; `left` is `4097 - seen`: the loop is left when `seen > max_nodes = 4096`, that is at
`left = 0`. Returns the directories read, in order, and the result. -/
def searchLoop (fs : Fs) (filename : String) : Nat → List Path → List Path × Option Path
  | _, [] => ([], none)
  | 0, _ :: _ => ([], none)
  | left + 1, dir :: stack =>
    match fs.readDir dir with
    | none =>
      let r := searchLoop fs filename left stack
      (dir :: r.1, r.2)
    | some names =>
      match scanDir fs filename dir names stack with
      | .inl p => ([dir], some p)
      | .inr stack =>
        let r := searchLoop fs filename left stack
        (dir :: r.1, r.2)

/-- power.rs:56-78 `find_first`. -/
def findFirst (fs : Fs) (root : Path) (filename : String) : List Path × Option Path :=
  searchLoop fs filename 4097 [root]

/-- power.rs:91-98: the names tried for one `n`, `key.replace('1', n)`. -/
def keys (n : Nat) : List String :=
  ["power" ++ toString n ++ "_average", "power" ++ toString n ++ "_input", "power2_average", "power2_input"]

/-- power.rs:80-106 `find_hwmon_cpu_power`. `isCpu` is the test of line 87 on the text of the `name` file. -/
def findHwmon (fs : Fs) (isCpu : String → Bool) (hw : Path) : Option Path :=
  match fs.readDir hw with
  | none => none
  | some names =>
    names.findSome? fun ent =>
      let base := ent :: hw
      if isCpu (fs.readText ("name" :: base)) then
        (List.range' 1 8).findSome? fun n => (keys n).findSome? fun key => if fs.exists_ (key :: base) then some (key :: base) else none
      else none

end Verif.Tools
