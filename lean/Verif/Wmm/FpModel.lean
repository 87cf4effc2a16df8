import Verif.Wmm.Model
import Verif.Float.Model

/-!
# Model of the magnetic field computation in rounded arithmetic

The functions of `Verif/Wmm/Model.lean` with every operation on `f64` rounded by `fl` and with the functions `sin`, `cos`,
`asin` and `powi` of a library. Integers converted to `f64` are at most 25 and exact. Only the three components of the
field are modelled in `field`; `evaluate` has their rates and the other elements. Overflow and underflow are not modelled.
-/

namespace Verif.Wmm.Fp

open Verif.Float (Libm)

variable (fl : ℝ → ℝ)

/-- `wmm/mod.rs:393-395`. -/
noncomputable def diag (N : ℕ) (c : ℝ) (p : ℕ → ℕ → ℝ) : ℕ → ℕ → ℝ :=
  (upto 1 N).foldl (fun p order => set2 p order order
    (fl (fl (((2 * order - 1 : ℕ) : ℝ) * c) * p (order - 1) (order - 1)))) p

/-- `wmm/mod.rs:397-399`. -/
noncomputable def off (N : ℕ) (s : ℝ) (p : ℕ → ℕ → ℝ) : ℕ → ℕ → ℝ :=
  (List.range N).foldl (fun p order => set2 p (order + 1) order
    (fl (fl (((2 * order + 1 : ℕ) : ℝ) * s) * p order order))) p

/-- `wmm/mod.rs:402-406`. -/
noncomputable def col (N : ℕ) (s : ℝ) (p : ℕ → ℕ → ℝ) (order : ℕ) : ℕ → ℕ → ℝ :=
  (upto (order + 2) N).foldl (fun p degree => set2 p degree order
    (fl (fl (fl (fl (((2 * degree - 1 : ℕ) : ℝ) * s) * p (degree - 1) order) -
      fl (((degree + order - 1 : ℕ) : ℝ) * p (degree - 2) order)) / ((degree - order : ℕ) : ℝ)))) p

/-- `wmm/mod.rs:390-407`. -/
noncomputable def table (N : ℕ) (s c : ℝ) : ℕ → ℕ → ℝ :=
  let p := set2 (fun _ _ => 0) 0 0 1
  let p := diag fl N c p
  let p := off fl N s p
  (upto 0 N).foldl (col fl N s) p

/-- `wmm/mod.rs:438-448` `schmidt_factor`. -/
noncomputable def factor (degree order : ℕ) : ℝ :=
  if order = 0 then 1
  else fl √((upto (degree - order + 1) (degree + order)).foldl (fun ratio value => fl (ratio / ((value : ℕ) : ℝ))) 2)

/-- `wmm/mod.rs:413-433`. -/
noncomputable def entry (p : ℕ → ℕ → ℝ) (s c : ℝ) (degree order : ℕ) : ℝ × ℝ :=
  let schmidt := factor fl degree order
  let pBar := fl (schmidt * p degree order)
  let previous := if degree > 0 ∧ order < degree then p (degree - 1) order else 0
  let derivativeWrtX := if |c| ≤ poleEps then 0
    else fl (fl (fl (fl ((degree : ℝ) * s) * p degree order) - fl (((degree + order : ℕ) : ℝ) * previous)) /
      fl (fl (s * s) - 1))
  (pBar, fl (fl (schmidt * c) * derivativeWrtX))

/-- `wmm/mod.rs:383-436` `schmidt_semi_normalized_legendre`. -/
noncomputable def legendre (N : ℕ) (s c : ℝ) : (ℕ → ℕ → ℝ) × (ℕ → ℕ → ℝ) :=
  let p := table fl N s c
  (upto 0 N).foldl (fun t degree => (upto 0 degree).foldl (fun t order =>
      (set2 t.1 degree order (entry fl p s c degree order).1, set2 t.2 degree order (entry fl p s c degree order).2)) t)
    (fun _ _ => 0, fun _ _ => 0)

/-- `wmm/mod.rs:450-466` `longitude_harmonics`, from the cosine `cl` and the sine `sl` of the longitude. -/
noncomputable def harmonics (N : ℕ) (cl sl : ℝ) : (ℕ → ℝ) × (ℕ → ℝ) :=
  (upto 1 N).foldl (fun t order =>
      let ct := set1 t.1 order (fl (fl (t.1 (order - 1) * cl) - fl (t.2 (order - 1) * sl)))
      let st := set1 t.2 order (fl (fl (t.2 (order - 1) * cl) + fl (ct (order - 1) * sl)))
      (ct, st))
    (set1 (fun _ => 0) 0 1, fun _ => 0)

/-- One entry of `coefficients_at` (`wmm/mod.rs:210-226`), from the tables of values and rates in tenths; the embedded
decimal numbers are rounded. The loop over the records, which visits every entry (`coefficients_eq`), is left out. -/
noncomputable def coefficient (raw rawDot : List ℤ) (deltaYears : ℝ) (n m : ℕ) : ℝ :=
  fl (fl ((tableOf raw).get n m) + fl (deltaYears * fl ((tableOf rawDot).get n m)))

/-- `wmm/mod.rs:271-286`: one pass of the inner loop, for the three components of the field. -/
noncomputable def step (g h : ℕ → ℕ → ℝ) (cm sm : ℕ → ℝ) (pBar dpBar : ℕ → ℕ → ℝ) (cosPhi radialScale : ℝ) (degree : ℕ)
    (a : ℝ × ℝ × ℝ) (order : ℕ) : ℝ × ℝ × ℝ :=
  let cosTerm := cm order
  let sinTerm := sm order
  let combined := fl (fl (g degree order * cosTerm) + fl (h degree order * sinTerm))
  let azimuthal := fl ((order : ℝ) * fl (fl (g degree order * sinTerm) - fl (h degree order * cosTerm)))
  (fl (a.1 - fl (fl (radialScale * combined) * dpBar degree order)),
    fl (a.2.1 + fl (fl (fl (radialScale * azimuthal) * pBar degree order) / cosPhi)),
    fl (a.2.2 - fl (fl (fl (radialScale * ((degree : ℝ) + 1)) * combined) * pBar degree order)))

/-- `wmm/mod.rs:268-292`: both loops, with the reference radius (`wmm/mod.rs:16,19-21`) and the powers of the library. -/
noncomputable def accumulate (powi : ℝ → ℕ → ℝ) (N : ℕ) (g h : ℕ → ℕ → ℝ) (cm sm : ℕ → ℝ) (pBar dpBar : ℕ → ℕ → ℝ)
    (cosPhi radius : ℝ) : ℝ × ℝ × ℝ :=
  (upto 1 N).foldl (fun a degree => (upto 0 degree).foldl
    (step fl g h cm sm pBar dpBar cosPhi (powi (fl (fl (fl 6371.2 * 1000) / radius)) (degree + 2)) degree) a) (0, 0, 0)

/-- `wmm/mod.rs:365-381` `geodetic_to_geocentric`: radius and latitude. -/
noncomputable def geocentric (lib : Libm) (lat height : ℝ) : ℝ × ℝ :=
  let sinLat := lib.sin lat
  let cosLat := lib.cos lat
  let f := fl wgsF
  let e2 := fl (f * fl (2 - f))
  let n := fl (Frames.wgsA / fl √(fl (1 - fl (fl (e2 * sinLat) * sinLat))))
  let rho := fl (fl (n + height) * cosLat)
  let z := fl (fl (fl (n * fl (1 - e2)) + height) * sinLat)
  let radius := fl √(fl (fl (rho * rho) + fl (z * z)))
  (radius, lib.asin (fl (z / radius)))

/-- `wmm/mod.rs:238-300` `evaluate` with the embedded model, up to the three components of the field: north, east, down;
`none` is the error near the poles. -/
noncomputable def field (lib : Libm) (powi : ℝ → ℕ → ℝ) (year lat lon height : ℝ) : Option (ℝ × ℝ × ℝ) :=
  let deltaYears := fl (year - 2025)
  let q := geocentric fl lib lat height
  let sinPhi := lib.sin q.2
  let cosPhi := lib.cos q.2
  if |cosPhi| ≤ poleEps then none
  else
    let P := legendre fl maxDegree sinPhi cosPhi
    let L := harmonics fl maxDegree (lib.cos lon) (lib.sin lon)
    let deltaLat := fl (q.2 - lat)
    let a := accumulate fl powi maxDegree (coefficient fl rawG rawGDot deltaYears) (coefficient fl rawH rawHDot deltaYears)
      L.1 L.2 P.1 P.2 cosPhi q.1
    let cosDelta := lib.cos deltaLat
    let sinDelta := lib.sin deltaLat
    some (fl (fl (a.1 * cosDelta) - fl (a.2.2 * sinDelta)), a.2.1, fl (fl (a.1 * sinDelta) + fl (a.2.2 * cosDelta)))

/-- `wmm/mod.rs:268-304`: the rates of change of the three components, from the tables of rates. In the code the same loop adds
up the field and the rates, in variables of their own. -/
noncomputable def rates (lib : Libm) (powi : ℝ → ℕ → ℝ) (lat lon height : ℝ) : ℝ × ℝ × ℝ :=
  let q := geocentric fl lib lat height
  let P := legendre fl maxDegree (lib.sin q.2) (lib.cos q.2)
  let L := harmonics fl maxDegree (lib.cos lon) (lib.sin lon)
  let deltaLat := fl (q.2 - lat)
  let a := accumulate fl powi maxDegree (fun n m => fl ((tableOf rawGDot).get n m)) (fun n m => fl ((tableOf rawHDot).get n m))
    L.1 L.2 P.1 P.2 (lib.cos q.2) q.1
  let cosDelta := lib.cos deltaLat
  let sinDelta := lib.sin deltaLat
  (fl (fl (a.1 * cosDelta) - fl (a.2.2 * sinDelta)), a.2.1, fl (fl (a.1 * sinDelta) + fl (a.2.2 * cosDelta)))

/-- `wmm/mod.rs:306-338`: the magnetic elements, from the components `f` of the field and their rates `d`. -/
noncomputable def elements (lib : Libm) (year : ℝ) (p : Geodetic) (q : Geocentric) (f d : ℝ × ℝ × ℝ) : Except Failure Elements :=
  let x := f.1
  let y := f.2.1
  let z := f.2.2
  let xDot := d.1
  let yDot := d.2.1
  let zDot := d.2.2
  let horizontal := fl √(fl (fl (x * x) + fl (y * y)))
  if horizontal = 0 then .error .undefinedHorizontalField
  else
    let total := fl √(fl (fl (horizontal * horizontal) + fl (z * z)))
    let declination := lib.atan2 y x
    let inclination := lib.atan2 z horizontal
    let horizontalRate := fl (fl (fl (x * xDot) + fl (y * yDot)) / horizontal)
    let totalRate := fl (fl (fl (fl (x * xDot) + fl (y * yDot)) + fl (z * zDot)) / total)
    let declinationRate := fl (fl (fl (x * yDot) - fl (y * xDot)) / fl (horizontal * horizontal))
    let inclinationRate := fl (fl (fl (horizontal * zDot) - fl (z * horizontalRate)) / fl (total * total))
    .ok { geodetic := p, geocentric := q, decimalYear := year, x := x, y := y, z := z, xDot := xDot, yDot := yDot, zDot := zDot,
          horizontal := horizontal, total := total, declination := declination, inclination := inclination,
          gridVariation := declination, horizontalRate := horizontalRate, totalRate := totalRate,
          declinationRate := declinationRate, inclinationRate := inclinationRate }

/-- `wmm/mod.rs:238-338` `evaluate` with the embedded model. -/
noncomputable def evaluate (lib : Libm) (powi : ℝ → ℕ → ℝ) (year : ℝ) (p : Geodetic) : Except Failure Elements :=
  let q := geocentric fl lib p.latitude p.height
  match field fl lib powi year p.latitude p.longitude p.height with
  | none => .error (.poleSingularity q.2)
  | some f => elements fl lib year p { latitude := q.2, longitude := p.longitude, radius := q.1 } f
      (rates fl lib powi p.latitude p.longitude p.height)

end Verif.Wmm.Fp
