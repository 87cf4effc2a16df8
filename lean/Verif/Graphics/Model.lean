import Verif.Att.Model

/-!
# Model of `aether_graphics`

Scalars are real numbers, 3-vectors `Fin 3 → ℝ`, 4×4 matrices `Mat ℝ 4 4` (row first). Frames are phantom types and dropped.
-/

namespace Verif.Graphics

open Verif.Mat Verif.Att

/-- `crates/aether_graphics/src/graphics/transforms.rs:7-22` `look_at`. -/
noncomputable def lookAt (eye center up : Fin 3 → ℝ) : Mat ℝ 4 4 :=
  let f := normalize (fun i => center i - eye i)
  let r := normalize (cross up f)
  let u := cross f r
  ![![r 0, r 1, r 2, -dot r eye],
    ![u 0, u 1, u 2, -dot u eye],
    ![-f 0, -f 1, -f 2, dot f eye],
    ![0, 0, 0, 1]]

/-- `transforms.rs:24-45` `perspective`. -/
noncomputable def perspective (aspect fovY near far : ℝ) : Mat ℝ 4 4 :=
  let f := 1 / Real.tan (fovY / 2)
  let nf := 1 / (near - far)
  ![![f / aspect, 0, 0, 0],
    ![0, f, 0, 0],
    ![0, 0, (far + near) * nf, -1],
    ![0, 0, 2 * far * near * nf, 0]]

/-- `transforms.rs:47-59` `look_at_perspective`. -/
noncomputable def lookAtPerspective (eye center up : Fin 3 → ℝ) (aspect fovY near far : ℝ) : Mat ℝ 4 4 × Mat ℝ 4 4 :=
  let view := lookAt eye center up
  let projection := perspective aspect fovY near far
  (view, projection)

/-- `transforms.rs:61-81` `translate`: three entries of a copy are overwritten in turn. -/
noncomputable def translate (mat : Mat ℝ 4 4) (t : Fin 3 → ℝ) : Mat ℝ 4 4 :=
  let res := mat
  let res := setE res 0 3 (res 0 0 * t 0 + res 0 1 * t 1 + res 0 2 * t 2 + res 0 3)
  let res := setE res 1 3 (res 1 0 * t 0 + res 1 1 * t 1 + res 1 2 * t 2 + res 1 3)
  let res := setE res 2 3 (res 2 0 * t 0 + res 2 1 * t 1 + res 2 2 * t 2 + res 2 3)
  res

/-- `crates/aether_graphics/src/cameras/orbit_camera.rs:17-29` `OrbitCamera`. -/
structure Camera where
  target : Fin 3 → ℝ
  distance : ℝ
  yaw : ℝ
  pitch : ℝ
  orientation : Quat ℝ
  minDist : ℝ
  maxDist : ℝ
  orbitSens : ℝ
  panSens : ℝ
  zoomSens : ℝ

/-- `orbit_camera.rs:31-46` `Default`. -/
noncomputable def Camera.default : Camera :=
  { target := ![0, 0, 0]
    distance := 0
    yaw := 0
    pitch := 0
    orientation := Quat.identity
    minDist := 0
    maxDist := 2.0e12
    orbitSens := 0.010
    panSens := 1.25
    zoomSens := 1.10 }

/-- The lines that compute the right axis from the forward axis; the same text at `orbit_camera.rs:63-68`, `93-98` and `152-160`. -/
noncomputable def rightOf (fwd : Fin 3 → ℝ) : Fin 3 → ℝ :=
  let worldUp : Fin 3 → ℝ := ![0, 0, 1]
  let right := cross worldUp fwd
  let n2 := right 0 * right 0 + right 1 * right 1 + right 2 * right 2
  let right := if n2 < 1.0e-16 then cross ![1, 0, 0] fwd else right
  normalize right

/-- `orbit_camera.rs:143-146` `forward`. -/
noncomputable def Camera.forward (c : Camera) : Fin 3 → ℝ := normalize (c.orientation.rotate ![1, 0, 0])

/-- `orbit_camera.rs:149-161` `right`. -/
noncomputable def Camera.right (c : Camera) : Fin 3 → ℝ := rightOf c.forward

/-- `orbit_camera.rs:164-180` `cam_up`. -/
noncomputable def Camera.up (c : Camera) : Fin 3 → ℝ :=
  let fwd := c.forward
  let right := c.right
  let up := cross fwd right
  let n2 := up 0 * up 0 + up 1 * up 1 + up 2 * up 2
  if n2 < 1.0e-16 then ![0, 0, 1]
  else
    let upN := normalize up
    if upN 2 < 0 then fun i => upN i * -1 else upN

/-- `orbit_camera.rs:183-186` `position`. -/
noncomputable def Camera.position (c : Camera) : Fin 3 → ℝ := fun i => c.target i - c.forward i * c.distance

/-- `orbit_camera.rs:53-72` `set_angles`. `mul_hamilton_same` is the product `Quat.mul` (`attitude/quaternion.rs:194-196`). -/
noncomputable def Camera.setAngles (c : Camera) (yaw pitch : ℝ) : Camera :=
  let qYaw := Quat.ofAxisAngle ![0, 0, 1] yaw
  let fwd := normalize (qYaw.rotate ![1, 0, 0])
  let right := rightOf fwd
  let qPitch := Quat.ofAxisAngle right pitch
  { c with yaw := yaw, pitch := pitch, orientation := (qPitch.mul qYaw).normalized }

/-- `orbit_camera.rs:105-107` and `127-129`: yaw and pitch are recomputed from the forward axis. -/
noncomputable def Camera.refresh (c : Camera) : Camera :=
  let fwd := c.forward
  { c with yaw := atan2 (fwd 1) (fwd 0), pitch := Real.arcsin (min (max (fwd 2) (-1)) 1) }

/-- `orbit_camera.rs:84-108` `apply_orbit_angles`. -/
noncomputable def Camera.orbitAngles (c : Camera) (dyaw dpitch : ℝ) : Camera :=
  let qYaw := Quat.ofAxisAngle ![0, 0, 1] dyaw
  let tmp := (qYaw.mul c.orientation).normalized
  let fwdTmp := normalize (tmp.rotate ![1, 0, 0])
  let right := rightOf fwdTmp
  let qPitch := Quat.ofAxisAngle right dpitch
  { c with orientation := (qPitch.mul tmp).normalized }.refresh

/-- `orbit_camera.rs:78-82` `apply_orbit_pixels`. -/
noncomputable def Camera.orbitPixels (c : Camera) (dx dy : ℝ) : Camera :=
  c.orbitAngles (-dx * c.orbitSens) (-dy * c.orbitSens)

/-- `orbit_camera.rs:115-130` `apply_orbit_world_angles`. -/
noncomputable def Camera.orbitWorldAngles (c : Camera) (droll dpitch : ℝ) : Camera :=
  let qx := Quat.ofAxisAngle ![1, 0, 0] droll
  let qy := Quat.ofAxisAngle ![0, 1, 0] dpitch
  let qxy := (qx.mul qy).normalized
  { c with orientation := (qxy.mul c.orientation).normalized }.refresh

/-- `orbit_camera.rs:135-139` `apply_orbit_world_pixels`. -/
noncomputable def Camera.orbitWorldPixels (c : Camera) (dx dy : ℝ) : Camera :=
  let dX := -dy * c.orbitSens
  let dY := -dx * c.orbitSens
  c.orbitWorldAngles dX dY

end Verif.Graphics
