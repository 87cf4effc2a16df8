import Verif.Wmm.Data
import Verif.Frames.Model

/-!
# Model of `aether_catalogs::wmm` (World Magnetic Model)

Numbers are real; `sin`, `cos`, `asin`, `sqrt`, `atan2` are the real functions. A fixed-size array is a function of its
index (`ℕ → ℝ`, `ℕ → ℕ → ℝ`); an assignment replaces one value. `a..=b` is `upto a b`. The dimension `WMM_MAX_DEGREE` of
the Legendre and harmonic tables is a parameter `N` of those functions, 12 in `evaluate`.
-/

namespace Verif.Wmm

open Real

/-- The Rust range `a..=b`. -/
def upto (a b : ℕ) : List ℕ := List.range' a (b + 1 - a)

/-- Assignment `t[i] = v`. -/
def set1 (t : ℕ → ℝ) (i : ℕ) (v : ℝ) : ℕ → ℝ := fun k => if k = i then v else t k

/-- Assignment `t[i][j] = v`. -/
def set2 (t : ℕ → ℕ → ℝ) (i j : ℕ) (v : ℝ) : ℕ → ℕ → ℝ := fun k l => if k = i ∧ l = j then v else t k l

/-- `crates/aether_catalogs/src/wmm/mod.rs:12` `WMM_MAX_DEGREE`. -/
def maxDegree : ℕ := 12
/-- `wmm/mod.rs:14` `WMM_TRIANGULAR_COUNT`. -/
def triangularCount : ℕ := (maxDegree + 1) * (maxDegree + 2) / 2
/-- `wmm/mod.rs:16,19-21` `wmm_reference_radius_m`. -/
noncomputable def referenceRadius : ℝ := 6371.2 * 1000
/-- `wmm/mod.rs:17` `DEFAULT_POLE_EPSILON`. -/
noncomputable def poleEps : ℝ := 1e-12
/-- `crates/aether_models/src/terrestrial/wgs84/constants/mod.rs:16` `f`. -/
noncomputable def wgsF : ℝ := 3.3528106647475e-3

/-- `wmm/mod.rs:23-25` `wgs84_mean_radius_m`. -/
noncomputable def meanRadius : ℝ := Frames.wgsA * (1 - wgsF / 3)

/-- `wmm/mod.rs:117-120` `TriangularTable`: `data[k]` for `k < 91`. -/
structure Table where
  data : ℕ → ℝ

/-- `wmm/mod.rs:127-129` `TriangularTable::index`. -/
def Table.index (degree order : ℕ) : ℕ := degree * (degree + 1) / 2 + order

/-- `wmm/mod.rs:131-133` `TriangularTable::set`; writing past the end of the array panics (`none`). -/
noncomputable def Table.set? (t : Table) (degree order : ℕ) (value : ℝ) : Option Table :=
  if Table.index degree order < triangularCount then some ⟨set1 t.data (Table.index degree order) value⟩ else none

/-- `wmm/mod.rs:135-141` `TriangularTable::get`. -/
noncomputable def Table.get (t : Table) (degree order : ℕ) : ℝ :=
  if degree > maxDegree ∨ order > degree then 0 else t.data (Table.index degree order)

/-- `wmm/mod.rs:34-42` `WmmCoefficientRecord`. -/
structure Record where
  degree : ℕ
  order : ℕ
  g : ℝ
  h : ℝ
  gDot : ℝ
  hDot : ℝ

/-- `wmm/mod.rs:144-152` `TimeAdjustedCoefficients`. -/
structure Coefficients where
  decimalYear : ℝ
  maxDegree : ℕ
  g : Table
  h : Table
  gDot : Table
  hDot : Table

/-- `wmm/mod.rs:172-181` `WorldMagneticModel`; of the header only the epoch is kept. -/
structure MagneticModel where
  epoch : ℝ
  maxDegree : ℕ
  records : List Record
  g : Table
  h : Table
  gDot : Table
  hDot : Table

/-- A number of tenths as a real number. -/
noncomputable def tenths (k : ℤ) : ℝ := k / 10

/-- The array of a list of tenths. -/
noncomputable def tableOf (l : List ℤ) : Table := ⟨fun k => tenths (l.getD k 0)⟩

/-- A record of the generated file. -/
noncomputable def RawRecord.toRecord (r : RawRecord) : Record :=
  ⟨r.degree, r.order, tenths r.g, tenths r.h, tenths r.gDot, tenths r.hDot⟩

/-- `wmm/mod.rs:185-193` `WMM_2025`. The public fields `header.epoch` and `max_degree` are parameters (2025 and 12). -/
noncomputable def wmm (epoch : ℝ) (max : ℕ) : MagneticModel :=
  ⟨epoch, max, rawRecords.map RawRecord.toRecord, tableOf rawG, tableOf rawH, tableOf rawGDot, tableOf rawHDot⟩

/-- `wmm/mod.rs:202-204` `WorldMagneticModel::embedded`. -/
noncomputable def wmm2025 : MagneticModel := wmm 2025 maxDegree

/-- `wmm/mod.rs:215-226`: the body of the loop of `coefficients_at`. -/
noncomputable def adjust (deltaYears : ℝ) (s : Table × Table) (r : Record) : Option (Table × Table) := do
  let g ← s.1.set? r.degree r.order (r.g + deltaYears * r.gDot)
  let h ← s.2.set? r.degree r.order (r.h + deltaYears * r.hDot)
  return (g, h)

/-- `wmm/mod.rs:210-236` `coefficients_at`; `none` is the panic of an out-of-bounds write. -/
noncomputable def MagneticModel.coefficientsAt (M : MagneticModel) (decimalYear : ℝ) : Option Coefficients := do
  let deltaYears := decimalYear - M.epoch
  let s ← M.records.foldlM (adjust deltaYears) (M.g, M.h)
  return { decimalYear := decimalYear, maxDegree := M.maxDegree, g := s.1, h := s.2, gDot := M.gDot, hDot := M.hDot }

/-- `wmm/mod.rs:44-49` `GeodeticPoint`. -/
structure Geodetic where
  latitude : ℝ
  longitude : ℝ
  height : ℝ

/-- `wmm/mod.rs:65-70` `GeocentricPoint`. -/
structure Geocentric where
  radius : ℝ
  latitude : ℝ
  longitude : ℝ

/-- `wmm/mod.rs:365-381` `geodetic_to_geocentric`. -/
noncomputable def toGeocentric (p : Geodetic) : Geocentric :=
  let sinLat := sin p.latitude
  let cosLat := cos p.latitude
  let e2 := wgsF * (2 - wgsF)
  let n := Frames.wgsA / √(1 - e2 * sinLat * sinLat)
  let rho := (n + p.height) * cosLat
  let z := (n * (1 - e2) + p.height) * sinLat
  let radius := √(rho * rho + z * z)
  ⟨radius, arcsin (z / radius), p.longitude⟩

/-- `wmm/mod.rs:393-395`: the first loop of `schmidt_semi_normalized_legendre`, on the diagonal. -/
noncomputable def legendreDiag (N : ℕ) (c : ℝ) (p : ℕ → ℕ → ℝ) : ℕ → ℕ → ℝ :=
  (upto 1 N).foldl (fun p order => set2 p order order (((2 * order - 1 : ℕ) : ℝ) * c * p (order - 1) (order - 1))) p

/-- `wmm/mod.rs:397-399`: the second loop, below the diagonal. -/
noncomputable def legendreOff (N : ℕ) (s : ℝ) (p : ℕ → ℕ → ℝ) : ℕ → ℕ → ℝ :=
  (List.range N).foldl (fun p order => set2 p (order + 1) order (((2 * order + 1 : ℕ) : ℝ) * s * p order order)) p

/-- `wmm/mod.rs:402-406`: the inner part of the third loop, for one order. -/
noncomputable def legendreCol (N : ℕ) (s : ℝ) (p : ℕ → ℕ → ℝ) (order : ℕ) : ℕ → ℕ → ℝ :=
  (upto (order + 2) N).foldl (fun p degree => set2 p degree order
    ((((2 * degree - 1 : ℕ) : ℝ) * s * p (degree - 1) order - ((degree + order - 1 : ℕ) : ℝ) * p (degree - 2) order) /
      ((degree - order : ℕ) : ℝ))) p

/-- `wmm/mod.rs:390-407`: the table `p` after the three loops. -/
noncomputable def legendreTable (N : ℕ) (s c : ℝ) : ℕ → ℕ → ℝ :=
  let p := set2 (fun _ _ => 0) 0 0 1
  let p := legendreDiag N c p
  let p := legendreOff N s p
  (upto 0 N).foldl (legendreCol N s) p

/-- `wmm/mod.rs:438-448` `schmidt_factor`. -/
noncomputable def schmidtFactor (degree order : ℕ) : ℝ :=
  if order = 0 then 1
  else √((upto (degree - order + 1) (degree + order)).foldl (fun ratio value => ratio / ((value : ℕ) : ℝ)) 2)

/-- `wmm/mod.rs:413-433`: `p_bar[degree][order]` and `dp_bar_dphi[degree][order]` of one pass of the last loop. -/
noncomputable def schmidtEntry (p : ℕ → ℕ → ℝ) (s c : ℝ) (degree order : ℕ) : ℝ × ℝ :=
  let schmidt := schmidtFactor degree order
  let pBar := schmidt * p degree order
  let previous := if degree > 0 ∧ order < degree then p (degree - 1) order else 0
  let derivativeWrtX := if |c| ≤ poleEps then 0
    else ((degree : ℝ) * s * p degree order - ((degree + order : ℕ) : ℝ) * previous) / (s * s - 1)
  (pBar, schmidt * c * derivativeWrtX)

/-- `wmm/mod.rs:383-436` `schmidt_semi_normalized_legendre`. -/
noncomputable def schmidtLegendre (N : ℕ) (s c : ℝ) : (ℕ → ℕ → ℝ) × (ℕ → ℕ → ℝ) :=
  let p := legendreTable N s c
  (upto 0 N).foldl (fun t degree => (upto 0 degree).foldl (fun t order =>
      (set2 t.1 degree order (schmidtEntry p s c degree order).1, set2 t.2 degree order (schmidtEntry p s c degree order).2)) t)
    (fun _ _ => 0, fun _ _ => 0)

/-- `wmm/mod.rs:450-466` `longitude_harmonics`. The second assignment of a pass reads only entries of the previous order. -/
noncomputable def longitudeHarmonics (N : ℕ) (lon : ℝ) : (ℕ → ℝ) × (ℕ → ℝ) :=
  (upto 1 N).foldl (fun t order =>
      let ct := set1 t.1 order (t.1 (order - 1) * cos lon - t.2 (order - 1) * sin lon)
      let st := set1 t.2 order (t.2 (order - 1) * cos lon + ct (order - 1) * sin lon)
      (ct, st))
    (set1 (fun _ => 0) 0 1, fun _ => 0)

/-- The accumulators of the loop of `evaluate_with_coefficients` (`wmm/mod.rs:261-266`). -/
structure Acc where
  x : ℝ
  y : ℝ
  z : ℝ
  xDot : ℝ
  yDot : ℝ
  zDot : ℝ

/-- `wmm/mod.rs:271-290`: one pass of the inner loop. -/
noncomputable def accStep (C : Coefficients) (cm sm : ℕ → ℝ) (pBar dpBar : ℕ → ℕ → ℝ) (cosPhi radialScale : ℝ) (degree : ℕ)
    (a : Acc) (order : ℕ) : Acc :=
  let cosTerm := cm order
  let sinTerm := sm order
  let g := C.g.get degree order
  let h := C.h.get degree order
  let gDot := C.gDot.get degree order
  let hDot := C.hDot.get degree order
  let combined := g * cosTerm + h * sinTerm
  let combinedDot := gDot * cosTerm + hDot * sinTerm
  let azimuthal := (order : ℝ) * (g * sinTerm - h * cosTerm)
  let azimuthalDot := (order : ℝ) * (gDot * sinTerm - hDot * cosTerm)
  { x := a.x - radialScale * combined * dpBar degree order
    y := a.y + radialScale * azimuthal * pBar degree order / cosPhi
    z := a.z - radialScale * ((degree : ℝ) + 1) * combined * pBar degree order
    xDot := a.xDot - radialScale * combinedDot * dpBar degree order
    yDot := a.yDot + radialScale * azimuthalDot * pBar degree order / cosPhi
    zDot := a.zDot - radialScale * ((degree : ℝ) + 1) * combinedDot * pBar degree order }

/-- `wmm/mod.rs:268-292`: both loops. -/
noncomputable def accumulate (C : Coefficients) (cm sm : ℕ → ℝ) (pBar dpBar : ℕ → ℕ → ℝ) (cosPhi radius : ℝ) : Acc :=
  (upto 1 C.maxDegree).foldl (fun a degree =>
    (upto 0 degree).foldl (accStep C cm sm pBar dpBar cosPhi ((referenceRadius / radius) ^ (degree + 2)) degree) a) ⟨0, 0, 0, 0, 0, 0⟩

/-- `wmm/mod.rs:72-88` `MagneticElements`; the two vectors by components. -/
structure Elements where
  geodetic : Geodetic
  geocentric : Geocentric
  decimalYear : ℝ
  x : ℝ
  y : ℝ
  z : ℝ
  xDot : ℝ
  yDot : ℝ
  zDot : ℝ
  horizontal : ℝ
  total : ℝ
  declination : ℝ
  inclination : ℝ
  gridVariation : ℝ
  horizontalRate : ℝ
  totalRate : ℝ
  declinationRate : ℝ
  inclinationRate : ℝ

/-- `wmm/mod.rs:90-98` `WmmError`, and the panic of an index past the end of a table. -/
inductive Failure where
  | poleSingularity (latitude : ℝ)
  | undefinedHorizontalField
  | panic

/-- `wmm/mod.rs:294-338`: rotation to the geodetic frame and the magnetic elements. -/
noncomputable def elements (year : ℝ) (p : Geodetic) (q : Geocentric) (a : Acc) : Except Failure Elements :=
  let deltaLat := q.latitude - p.latitude
  let cosDelta := cos deltaLat
  let sinDelta := sin deltaLat
  let x := a.x * cosDelta - a.z * sinDelta
  let y := a.y
  let z := a.x * sinDelta + a.z * cosDelta
  let xDot := a.xDot * cosDelta - a.zDot * sinDelta
  let yDot := a.yDot
  let zDot := a.xDot * sinDelta + a.zDot * cosDelta
  let horizontal := √(x * x + y * y)
  if horizontal = 0 then .error .undefinedHorizontalField
  else
    let total := √(horizontal * horizontal + z * z)
    let declination := Att.atan2 y x
    let inclination := Att.atan2 z horizontal
    let horizontalRate := (x * xDot + y * yDot) / horizontal
    let totalRate := (x * xDot + y * yDot + z * zDot) / total
    let declinationRate := (x * yDot - y * xDot) / (horizontal * horizontal)
    let inclinationRate := (horizontal * zDot - z * horizontalRate) / (total * total)
    .ok { geodetic := p, geocentric := q, decimalYear := year, x := x, y := y, z := z, xDot := xDot, yDot := yDot, zDot := zDot,
          horizontal := horizontal, total := total, declination := declination, inclination := inclination,
          gridVariation := declination, horizontalRate := horizontalRate, totalRate := totalRate,
          declinationRate := declinationRate, inclinationRate := inclinationRate }

/-- `wmm/mod.rs:243-338` `evaluate_with_coefficients`. The tables `cos_m_lambda`, `p_bar`, … have 13 entries per index, so a
`max_degree` above 12 panics at the first order 13 (`wmm/mod.rs:271`). -/
noncomputable def evaluateWith (C : Coefficients) (p : Geodetic) : Except Failure Elements :=
  let q := toGeocentric p
  let sinPhi := sin q.latitude
  let cosPhi := cos q.latitude
  if |cosPhi| ≤ poleEps then .error (.poleSingularity q.latitude)
  else if maxDegree < C.maxDegree then .error .panic
  else
    let P := schmidtLegendre maxDegree sinPhi cosPhi
    let L := longitudeHarmonics maxDegree p.longitude
    elements C.decimalYear p q (accumulate C L.1 L.2 P.1 P.2 cosPhi q.radius)

/-- `wmm/mod.rs:238-241` `evaluate`. -/
noncomputable def MagneticModel.evaluate (M : MagneticModel) (decimalYear : ℝ) (p : Geodetic) : Except Failure Elements :=
  match M.coefficientsAt decimalYear with
  | some C => evaluateWith C p
  | none => .error .panic

end Verif.Wmm
