import Verif.Float.Model

/-!
# The turning axes of the Earth and of the Moon over any scalar type
-/

namespace Verif.Float

open Verif.Mat (Mat)
open Verif.Att (Quat)

variable {K : Type} [Scalar K]

/-- `reference_frame/transforms.rs:86-101` and `aether_models/src/terrestrial/wgs84/transforms/mod.rs:10-25`
`icrf_to_itrf` (the two copies are identical). -/
def icrfToItrf (time : K) (w : Fin 3 → K) : Mat K 3 3 :=
  ![![Scalar.cos (w 2 * time), Scalar.sin (w 2 * time), 0],
    ![Scalar.sin (-w 2 * time), Scalar.cos (w 2 * time), 0],
    ![0, 0, 1]]

/-- `reference_frame/transforms.rs:102-117` and `wgs84/transforms/mod.rs:26-41` `itrf_to_icrf`. -/
def itrfToIcrf (time : K) (w : Fin 3 → K) : Mat K 3 3 :=
  ![![Scalar.cos (w 2 * time), Scalar.sin (-w 2 * time), 0],
    ![Scalar.sin (w 2 * time), Scalar.cos (w 2 * time), 0],
    ![0, 0, 1]]

/-- `aether_models/src/lunar/transforms.rs:26-39` `lirf_to_ltrf`; `rate` is the stored constant
`MOON_SIDEREAL_ROTATION_RATE_RAD_S`. -/
def lirfToLtrf (rate time : K) : Mat K 3 3 :=
  let theta := rate * time
  ![![Scalar.cos theta, Scalar.sin theta, 0],
    ![-Scalar.sin theta, Scalar.cos theta, 0],
    ![0, 0, 1]]

/-- `lunar/transforms.rs:41-54` `ltrf_to_lirf`. -/
def ltrfToLirf (rate time : K) : Mat K 3 3 :=
  let theta := rate * time
  ![![Scalar.cos theta, -Scalar.sin theta, 0],
    ![Scalar.sin theta, Scalar.cos theta, 0],
    ![0, 0, 1]]

/-- `reference_frame/itrf.rs:29-43` `orientation_at`; `omega` and `half` are the stored constants. -/
def orientationAt (omega half epoch t : K) : Quat K :=
  let dtheta := (t - epoch) * omega
  let halfTheta := dtheta * half
  ⟨Scalar.cos halfTheta, 0, 0, Scalar.sin halfTheta⟩

end Verif.Float
