import Verif.Float.Model
import Verif.Geom.Model
import Verif.Graphics.Model

/-!
# The orbit camera over any scalar type
-/

namespace Verif.Float

open Verif.Mat (Mat)
open Verif.Att (Quat)

variable {K : Type} [Scalar K]

/-- The functions of the scalar type, as `Verif/Geom/Model.lean` takes them. -/
def fns (K : Type) [Scalar K] : Geom.Fns K := ⟨Scalar.sqrt, Scalar.sin, Scalar.cos, 1 / (1 + 1)⟩

open Classical in
/-- `real/real.rs:34` `max` (IEEE: a NaN is ignored). -/
noncomputable def smax (a b : K) : K := if Scalar.lt a b then b else if Scalar.eq a a then a else b

open Classical in
/-- `real/real.rs:33` `min`. -/
noncomputable def smin (a b : K) : K := if Scalar.lt b a then b else if Scalar.eq a a then a else b

/-- `crates/aether_graphics/src/cameras/orbit_camera.rs:17-29` `OrbitCamera`. -/
structure Cam (K : Type) where
  target : Fin 3 → K
  distance : K
  yaw : K
  pitch : K
  orientation : Quat K
  minDist : K
  maxDist : K
  orbitSens : K
  panSens : K
  zoomSens : K

open Classical in
/-- `orbit_camera.rs:63-68`, `93-98` and `152-160`: the right axis from the forward axis; `eps` is `from_f64(1e-16)`. -/
noncomputable def rightOf (eps : K) (fwd : Fin 3 → K) : Fin 3 → K :=
  let right := Mat.cross ![0, 0, 1] fwd
  let n2 := right 0 * right 0 + right 1 * right 1 + right 2 * right 2
  let right := if Scalar.lt n2 eps then Mat.cross ![1, 0, 0] fwd else right
  Geom.normalize (fns K) right

/-- `orbit_camera.rs:143-146` `forward`. -/
def Cam.forward (c : Cam K) : Fin 3 → K := Geom.normalize (fns K) (Geom.rotate (fns K) c.orientation ![1, 0, 0])

/-- `orbit_camera.rs:149-161` `right`. -/
noncomputable def Cam.right (eps : K) (c : Cam K) : Fin 3 → K := rightOf eps c.forward

open Classical in
/-- `orbit_camera.rs:164-180` `cam_up`. -/
noncomputable def Cam.up (eps : K) (c : Cam K) : Fin 3 → K :=
  let fwd := c.forward
  let right := c.right eps
  let up := Mat.cross fwd right
  let n2 := up 0 * up 0 + up 1 * up 1 + up 2 * up 2
  if Scalar.lt n2 eps then ![0, 0, 1]
  else
    let upN := Geom.normalize (fns K) up
    if Scalar.lt (upN 2) 0 then fun i => upN i * -1 else upN

/-- `orbit_camera.rs:183-186` `position`. -/
def Cam.position (c : Cam K) : Fin 3 → K := fun i => c.target i - c.forward i * c.distance

/-- `orbit_camera.rs:53-72` `set_angles`. -/
noncomputable def Cam.setAngles (eps : K) (c : Cam K) (yaw pitch : K) : Cam K :=
  let qYaw := Geom.ofAxisAngle (fns K) ![0, 0, 1] yaw
  let fwd := Geom.normalize (fns K) (Geom.rotate (fns K) qYaw ![1, 0, 0])
  let right := rightOf eps fwd
  let qPitch := Geom.ofAxisAngle (fns K) right pitch
  { c with yaw := yaw, pitch := pitch, orientation := Geom.normalized (fns K) (qPitch.mul qYaw) }

/-- `orbit_camera.rs:105-107` and `127-129`. -/
noncomputable def Cam.refresh (c : Cam K) : Cam K :=
  let fwd := c.forward
  { c with yaw := Scalar.atan2 (fwd 1) (fwd 0), pitch := Scalar.asin (smin (smax (fwd 2) (-1)) 1) }

/-- `orbit_camera.rs:84-108` `apply_orbit_angles`. -/
noncomputable def Cam.orbitAngles (eps : K) (c : Cam K) (dyaw dpitch : K) : Cam K :=
  let qYaw := Geom.ofAxisAngle (fns K) ![0, 0, 1] dyaw
  let tmp := Geom.normalized (fns K) (qYaw.mul c.orientation)
  let fwdTmp := Geom.normalize (fns K) (Geom.rotate (fns K) tmp ![1, 0, 0])
  let right := rightOf eps fwdTmp
  let qPitch := Geom.ofAxisAngle (fns K) right dpitch
  { c with orientation := Geom.normalized (fns K) (qPitch.mul tmp) }.refresh

/-- `orbit_camera.rs:78-82` `apply_orbit_pixels`. -/
noncomputable def Cam.orbitPixels (eps : K) (c : Cam K) (dx dy : K) : Cam K :=
  c.orbitAngles eps (-dx * c.orbitSens) (-dy * c.orbitSens)

/-- `orbit_camera.rs:115-130` `apply_orbit_world_angles`. -/
noncomputable def Cam.orbitWorldAngles (c : Cam K) (droll dpitch : K) : Cam K :=
  let qx := Geom.ofAxisAngle (fns K) ![1, 0, 0] droll
  let qy := Geom.ofAxisAngle (fns K) ![0, 1, 0] dpitch
  let qxy := Geom.normalized (fns K) (qx.mul qy)
  { c with orientation := Geom.normalized (fns K) (qxy.mul c.orientation) }.refresh

/-- `orbit_camera.rs:135-139` `apply_orbit_world_pixels`. -/
noncomputable def Cam.orbitWorldPixels (c : Cam K) (dx dy : K) : Cam K :=
  let dX := -dy * c.orbitSens
  let dY := -dx * c.orbitSens
  c.orbitWorldAngles dX dY

end Verif.Float
