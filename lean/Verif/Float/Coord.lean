import Verif.Float.Model

/-!
# Model of the conversions to Cartesian coordinates over any scalar type

See `Verif/Float/Model.lean` for the scalar types; over the reals these are the definitions of `Verif/Frames/Model.lean`.
-/

namespace Verif.Float

section Generic

variable {K : Type} [Scalar K]

/-- `coordinate/cylindrical.rs:29-38` `From<&Cartesian> for Cylindrical`. -/
def cylindricalOfCartesian (c : Fin 3 → K) : Fin 3 → K :=
  let x := c 0
  let y := c 1
  let z := c 2
  let r := Scalar.sqrt (x * x + y * y)
  let theta := Scalar.atan2 y x
  ![r, theta, z]

/-- `coordinate/cartesian.rs:322-333` `From<&Spherical> for Cartesian`. -/
def cartesianOfSpherical (p : Fin 3 → K) : Fin 3 → K :=
  let r := p 0
  let phi := p 1
  let theta := p 2
  let sinTheta := Scalar.sin theta
  let x := r * sinTheta * Scalar.cos phi
  let y := r * sinTheta * Scalar.sin phi
  let z := r * Scalar.cos theta
  ![x, y, z]

/-- `coordinate/cartesian.rs:335-342` `From<&Cylindrical> for Cartesian`. -/
def cartesianOfCylindrical (c : Fin 3 → K) : Fin 3 → K :=
  let x := c 0 * Scalar.cos (c 1)
  let y := c 0 * Scalar.sin (c 1)
  let z := c 2
  ![x, y, z]

end Generic

end Verif.Float
