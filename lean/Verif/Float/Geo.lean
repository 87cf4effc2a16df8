import Verif.Float.Model

/-!
# Model of the geodetic conversions over any scalar type

See `Verif/Float/Model.lean` for the scalar types; over the reals these are the definitions of `Verif/Frames/Model.lean`.
The constants `a`, `e2` (converted by `T::from_f64`) and the tolerance `T::EPSILON * 1e2` are parameters.
-/

namespace Verif.Float

section Generic

variable {K : Type} [Scalar K]

/-- `terrestrial/wgs84/transforms/mod.rs:43-55` `geocentric_to_ecef`. -/
def geodeticToEcef (a e2 latitude longitude altitude : K) : Fin 3 → K :=
  let n := a / Scalar.sqrt (1 - e2 * Scalar.sin latitude * Scalar.sin latitude)
  let x := (n + altitude) * Scalar.cos latitude * Scalar.cos longitude
  let y := (n + altitude) * Scalar.cos latitude * Scalar.sin longitude
  let z := (n * (1 - e2) + altitude) * Scalar.sin latitude
  ![x, y, z]

/-- `terrestrial/wgs84/transforms/mod.rs:108-112`: `n` and `dz_new` of one pass. -/
def geoPass (a e2 rho2 z dz : K) : K × K :=
  let zdz := z + dz
  let nh := Scalar.sqrt (rho2 + zdz * zdz)
  let sinphi := zdz / nh
  let n := a / Scalar.sqrt (1 - e2 * sinphi * sinphi)
  (n, n * e2 * sinphi)

open Classical in
/-- `terrestrial/wgs84/transforms/mod.rs:106-121`: the loop, with `fuel` passes left (`while iter < 101`); the final `n`
and `dz`. -/
noncomputable def geoLoop (a e2 eps rho2 z : K) : ℕ → K → K → K × K
  | 0, n, dz => (n, dz)
  | fuel + 1, _, dz =>
    let pass := geoPass a e2 rho2 z dz
    if Scalar.lt (Scalar.abs (dz - pass.2)) eps then (pass.1, dz) else geoLoop a e2 eps rho2 z fuel pass.1 pass.2

/-- `terrestrial/wgs84/transforms/mod.rs:96-138` `ecef_to_geocentric`; the two arms of the final `if` are the same. -/
noncomputable def ecefToGeodetic (a e2 eps x y z : K) : Fin 3 → K :=
  let rho2 := x * x + y * y
  let s := geoLoop a e2 eps rho2 z 101 0 (e2 * z)
  let zdz := z + s.2
  let lon := Scalar.atan2 y x
  let lat := Scalar.atan2 zdz (Scalar.sqrt rho2)
  let alt := Scalar.sqrt (rho2 + zdz * zdz) - s.1
  ![lat, lon, alt]

end Generic

end Verif.Float
