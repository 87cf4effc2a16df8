/-!
# Model of the build script of the catalogues, `crates/aether_catalogs/build.rs`

The script is modelled with the states of the files it passes through, so that it can be stopped at any point. A file is written byte by byte.
The parameters are the network (the body that the server sends and how many of its bytes arrive before the connection ends), `unzip` and the
generator of the embedded coefficients (`Verif.Wmm.Generator`). `curl` is called without `--fail`, so that it writes the body and succeeds whatever
the HTTP status is. Directories as such (`create_dir_all`) and messages are not modelled.
-/

namespace Verif.Build

/-- The content of a file. -/
abbrev Bytes := List UInt8

/-- The files of the script. `dir` is the directory of the extracted archive, as files in the order of extraction; `none` if it does not exist. -/
structure Fs where
  csv : Option Bytes
  zip : Option Bytes
  dir : Option (List (String × Bytes))
  gen : Option Bytes
  deriving DecidableEq, Repr

/-- No file yet. -/
def Fs.clean : Fs := ⟨none, none, none, none⟩

/-- What a run meets: the enabled features, the bodies sent by the servers and the number of bytes that arrive. -/
structure Env where
  gnc : Bool
  wmmDownload : Bool
  all : Bool
  wmm : Bool
  csvBody : Bytes
  csvArrive : Nat
  zipBody : Bytes
  zipArrive : Nat

/-- The external programs: the members of an archive in order (`none`: `unzip` fails), and the generated source text of a coefficient file
(`none`: panic). -/
structure Tools where
  unzip : Bytes → Option (List (String × Bytes))
  render : Bytes → Option Bytes

/-- A part of the script: the states of the files it passes through after the given one, and whether it ends without a panic. -/
abbrev Act := Fs → List Fs × Bool

/-- The state at the end. -/
def final (act : Act) (fs : Fs) : Fs := (act fs).1.getLastD fs

/-- One part after the other; a panic ends the script. -/
def Act.andThen (a b : Act) : Act := fun fs =>
  if (a fs).2 then ((a fs).1 ++ (b (final a fs)).1, (b (final a fs)).2) else a fs

/-- `if c { … }`. -/
def Act.when (c : Bool) (a : Act) : Act := fun fs => if c then a fs else ([], true)

/-- build.rs:224-267 `download_if_missing`: `get` and `put` select the file. The retries and the resumption of `curl` are part of how many bytes
arrive. -/
def download (get : Fs → Option Bytes) (put : Fs → Bytes → Fs) (body : Bytes) (arrive : Nat) : Act := fun fs =>
  if (get fs).isSome then ([], true)
  else ((List.range (min arrive body.length + 1)).map fun k => put fs (body.take k), decide (body.length ≤ arrive))

/-- The contents of the directory while `unzip` writes the members. -/
def extractStates : List (String × Bytes) → List (List (String × Bytes))
  | [] => []
  | (name, b) :: ms => (List.range (b.length + 1)).map (fun k => [(name, b.take k)]) ++ (extractStates ms).map ((name, b) :: ·)

/-- build.rs:194-222 `extract_zip_if_needed`. -/
def extract (t : Tools) : Act := fun fs =>
  if (fs.dir.getD []).isEmpty then
    match fs.zip.bind t.unzip with
    | none => ([{ fs with dir := some [] }], false)
    | some ms => ({ fs with dir := some [] } :: (extractStates ms).map fun d => { fs with dir := some d }, true)
  else ([], true)

/-- build.rs:80-89 `find_wmm_source_file`, relative to the directory of the archive. -/
def candidates : List String := ["WMM2025COF/WMM.COF", "WMM2025COF/WMM2025.COF", "WMM.COF", "WMM2025.COF"]

/-- build.rs:80-89 `find_wmm_source_file`: the content of the first candidate that exists. -/
def findSource (fs : Fs) : Option Bytes := candidates.findSome? fun c => (fs.dir.getD []).lookup c

/-- build.rs:58-78 `generate_embedded_wmm`. -/
def generate (t : Tools) : Act := fun fs =>
  if fs.gen.isSome then ([], true)
  else
    match (findSource fs).bind t.render with
    | none => ([], false)
    | some text => ((List.range (text.length + 1)).map fun k => { fs with gen := some (text.take k) }, true)

/-- build.rs:36-41 `usno_gnc_catalog`. -/
def usnoGncCatalog (e : Env) : Act := download (·.csv) (fun fs b => { fs with csv := some b }) e.csvBody e.csvArrive

/-- build.rs:43-52 `world_magnetic_model`. -/
def worldMagneticModel (t : Tools) (e : Env) : Act :=
  (download (·.zip) (fun fs b => { fs with zip := some b }) e.zipBody e.zipArrive).andThen (extract t)

/-- build.rs:13-34 `main`. -/
def main (t : Tools) (e : Env) : Act :=
  ((Act.when (e.gnc || e.all) (usnoGncCatalog e)).andThen (Act.when (e.wmmDownload || e.all) (worldMagneticModel t e))).andThen
    (Act.when (e.wmm || e.wmmDownload || e.all) (generate t))

end Verif.Build
