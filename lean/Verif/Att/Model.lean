import Verif.Mat.Vec
import Mathlib.Analysis.SpecialFunctions.Complex.Arg

/-!
# Model of `aether_core::attitude` over the reals

Quaternions, direction cosine matrices (`Mat ℝ 3 3`) and Euler angles. The frame parameters `From`, `To` are
phantom types: they restrict which calls type-check and have no run-time content, so they are dropped here and
named in the comments where they say which order is meant. `sqrt`, `sin`, `cos`, `asin`, `atan2` are the real
functions; `atan2 y x` is the argument of `x + i y` (the two zeros of floating point are one number here).
-/

namespace Verif.Att

open Verif.Mat

/-- `Real::atan2`: `y.atan2(x)`. -/
noncomputable def atan2 (y x : ℝ) : ℝ := Complex.arg ⟨x, y⟩

/-- `crates/aether_core/src/attitude/quaternion.rs:13-17` `Quaternion`: `data = [w, i, j, k]`. -/
@[ext] structure Quat (K : Type*) where
  w : K
  i : K
  j : K
  k : K

section Algebra
variable {K : Type*} [Zero K] [One K] [Add K] [Sub K] [Mul K] [Div K] [Neg K]

/-- `attitude/quaternion.rs:30-32` `identity`. -/
def Quat.identity : Quat K := ⟨1, 0, 0, 0⟩

/-- `attitude/quaternion.rs:55-57` `norm2`: `data.dot(&data)`. -/
def Quat.norm2 (q : Quat K) : K := dot ![q.w, q.i, q.j, q.k] ![q.w, q.i, q.j, q.k]

/-- `attitude/quaternion.rs:76-78` `dot`. -/
def Quat.dot (p q : Quat K) : K := Mat.dot ![p.w, p.i, p.j, p.k] ![q.w, q.i, q.j, q.k]

/-- `attitude/quaternion.rs:82-89` `conjugate`. -/
def Quat.conj (q : Quat K) : Quat K := ⟨q.w, -q.i, -q.j, -q.k⟩

/-- `attitude/quaternion.rs:93-101` `inverse`. -/
def Quat.inv (q : Quat K) : Quat K :=
  ⟨q.w / q.norm2, -q.i / q.norm2, -q.j / q.norm2, -q.k / q.norm2⟩

/-- `attitude/quaternion.rs:176-186` `mul_raw`, and `244-274` `Mul`: the same formula. The frame types of
`Mul` read `(Mid → To) * (From → Mid) = (From → To)`. -/
def Quat.mul (p q : Quat K) : Quat K :=
  ⟨p.w * q.w - p.i * q.i - p.j * q.j - p.k * q.k,
   p.w * q.i + p.i * q.w + p.j * q.k - p.k * q.j,
   p.w * q.j - p.i * q.k + p.j * q.w + p.k * q.i,
   p.w * q.k + p.i * q.j - p.j * q.i + p.k * q.w⟩

/-- `attitude/quaternion.rs:319-330` `Mul<T>`. -/
def Quat.scale (q : Quat K) (s : K) : Quat K := ⟨q.w * s, q.i * s, q.j * s, q.k * s⟩

/-- `attitude/quaternion.rs:333-344` `Add`. -/
def Quat.add (p q : Quat K) : Quat K := ⟨p.w + q.w, p.i + q.i, p.j + q.j, p.k + q.k⟩

/-- `attitude/quaternion.rs:361-372` `Neg`. -/
def Quat.neg (q : Quat K) : Quat K := ⟨-q.w, -q.i, -q.j, -q.k⟩

/-- The body of `rotate_vector` after normalising, `attitude/quaternion.rs:108-126`: first `qc ⊗ p`, then
`⊗ q`. -/
def Quat.sandwich (q : Quat K) (p : Fin 3 → K) : Fin 3 → K :=
  let qc := q.conj
  let px := p 0
  let py := p 1
  let pz := p 2
  let aw := -(qc.i * px + qc.j * py + qc.k * pz)
  let ax := qc.w * px + qc.j * pz - qc.k * py
  let ay := qc.w * py + qc.k * px - qc.i * pz
  let az := qc.w * pz + qc.i * py - qc.j * px
  ![aw * q.i + ax * q.w + ay * q.k - az * q.j,
    aw * q.j - ax * q.k + ay * q.w + az * q.i,
    aw * q.k + ax * q.j - ay * q.i + az * q.w]

/-- The matrix of `to_dcm` after normalising, `attitude/quaternion.rs:149-171`. -/
def Quat.dcmActive (q : Quat K) : Mat K 3 3 :=
  let w := q.w
  let x := q.i
  let y := q.j
  let z := q.k
  let two := 1 + 1
  ![![w * w + x * x - y * y - z * z, two * (x * y - w * z), two * (x * z + w * y)],
    ![two * (x * y + w * z), w * w - x * x + y * y - z * z, two * (y * z - w * x)],
    ![two * (x * z - w * y), two * (y * z + w * x), w * w - x * x - y * y + z * z]]

/-- `attitude/dcm.rs:129-164` `From<&Quaternion> for DirectionCosineMatrix`. The quaternion is not
normalised. `s.powf(2)` is the square. -/
def dcmOfQuat [Pow K ℕ] (q : Quat K) : Mat K 3 3 :=
  let s := q.w
  let i := q.i
  let j := q.j
  let k := q.k
  let two := 1 + 1
  ![![s ^ 2 + i ^ 2 - j ^ 2 - k ^ 2, two * (i * j + s * k), two * (i * k - s * j)],
    ![two * (i * j - s * k), s ^ 2 - i ^ 2 + j ^ 2 - k ^ 2, two * (j * k + s * i)],
    ![two * (i * k + s * j), two * (j * k - s * i), s ^ 2 - i ^ 2 - j ^ 2 + k ^ 2]]

/-- `attitude/dcm.rs:83-98` `Mul`: `(B → C) * (A → B) = (A → C)`. -/
def dcmMul (a b : Mat K 3 3) : Mat K 3 3 := Mat.mul a b

/-- `attitude/dcm.rs:179-233` `DirectionCosineMatrix * Cartesian`. -/
def dcmApply (a : Mat K 3 3) (v : Fin 3 → K) : Fin 3 → K := Mat.mulVec a v

/-- `attitude/dcm.rs:263-276` `transpose`: writes `result[(i, j)] = data[(j, i)]`. -/
def dcmTranspose (a : Mat K 3 3) : Mat K 3 3 := fillLoop (fun i j => a j i) (zeros 3 3)

end Algebra

/-! ## Real functions -/

/-- `attitude/quaternion.rs:60-62` `norm`. -/
noncomputable def Quat.norm (q : Quat ℝ) : ℝ := Real.sqrt q.norm2

/-- `attitude/quaternion.rs:65-73` `normalized`. -/
noncomputable def Quat.normalized (q : Quat ℝ) : Quat ℝ :=
  ⟨q.w / q.norm, q.i / q.norm, q.j / q.norm, q.k / q.norm⟩

/-- `attitude/quaternion.rs:35-41` `from_axis_angle`. -/
noncomputable def Quat.ofAxisAngle (axis : Fin 3 → ℝ) (angle : ℝ) : Quat ℝ :=
  let half := angle * (1 / (1 + 1))
  let s := Real.sin half
  let c := Real.cos half
  let a := normalize axis
  (⟨c, a 0 * s, a 1 * s, a 2 * s⟩ : Quat ℝ).normalized

/-- `attitude/quaternion.rs:105-127` `rotate_vector` (`rotate_vec`, `rotate_cartesian` and
`Quaternion * Cartesian`, lines 129-143 and 280-325, call it). -/
noncomputable def Quat.rotate (q : Quat ℝ) (v : Fin 3 → ℝ) : Fin 3 → ℝ := q.normalized.sandwich v

/-- `attitude/quaternion.rs:147-174` `to_dcm`. -/
noncomputable def Quat.toDcm (q : Quat ℝ) : Mat ℝ 3 3 := q.normalized.dcmActive

/-- `attitude/quaternion.rs:199-230` `integrate`. `from_parts(one, v)` (lines 50-52) has scalar part `1`. -/
noncomputable def Quat.integrate (q₀ : Quat ℝ) (vel acc : Fin 3 → ℝ) (dt : ℝ) : Quat ℝ :=
  let q := q₀.normalized
  let half : ℝ := 1 / 2
  let quarter : ℝ := 1 / 4
  let ninth : ℝ := 1 / 9
  let accq : Quat ℝ := ⟨1, acc 0, acc 1, acc 2⟩
  let velq : Quat ℝ := ⟨1, vel 0, vel 1, vel 2⟩
  let qd := (q.mul velq).scale half
  let qdd := (((q.mul velq).mul velq).scale quarter).add ((q.mul accq).scale half)
  let qddd := (((((q.mul velq).mul velq).mul velq).scale (1 / (3 + 3))).add
    (((q.mul accq).mul velq).scale quarter)).add (((q.mul velq).mul accq).scale half)
  let dt2 := dt * dt
  let dt3 := dt2 * dt
  let n := q.add (qd.scale dt)
  let n := n.add (qdd.scale (quarter * dt2))
  let n := n.add (qddd.scale (ninth * dt3))
  n.normalized

/-- `attitude/quaternion.rs:388-449` `TryFrom<&DirectionCosineMatrix> for Quaternion`; `none` is
`Err(())`. -/
noncomputable def quatOfDcm (m : Mat ℝ 3 3) : Option (Quat ℝ) :=
  let k : ℝ := 1 / 4
  let c1 := 1 + m 0 0 + m 1 1 + m 2 2
  let c2 := 1 + m 0 0 - m 1 1 - m 2 2
  let c3 := 1 - m 0 0 + m 1 1 - m 2 2
  let c4 := 1 - m 0 0 - m 1 1 + m 2 2
  if c1 > k then
    let qs := Real.sqrt (c1 / 4)
    let qs4 := qs * 4
    some ⟨qs, (m 1 2 - m 2 1) / qs4, (m 2 0 - m 0 2) / qs4, (m 0 1 - m 1 0) / qs4⟩
  else if c2 > k then
    let qi := Real.sqrt (c2 / 4)
    let qi4 := qi * 4
    some ⟨(m 1 2 - m 2 1) / qi4, qi, (m 0 1 + m 1 0) / qi4, (m 2 0 + m 0 2) / qi4⟩
  else if c3 > k then
    let qj := Real.sqrt (c3 / 4)
    let qj4 := qj * 4
    some ⟨(m 2 0 - m 0 2) / qj4, (m 0 1 + m 1 0) / qj4, qj, (m 1 2 + m 2 1) / qj4⟩
  else if c4 > k then
    let qk := Real.sqrt (c4 / 4)
    let qk4 := qk * 4
    some ⟨(m 0 1 - m 1 0) / qk4, (m 2 0 + m 0 2) / qk4, (m 1 2 + m 2 1) / qk4, qk⟩
  else none

/-- `attitude/dcm.rs:42-54` `rotate_x`. -/
noncomputable def rotX (t : ℝ) : Mat ℝ 3 3 :=
  ![![1, 0, 0], ![0, Real.cos t, Real.sin t], ![0, -Real.sin t, Real.cos t]]

/-- `attitude/dcm.rs:56-68` `rotate_y`. -/
noncomputable def rotY (t : ℝ) : Mat ℝ 3 3 :=
  ![![Real.cos t, 0, -Real.sin t], ![0, 1, 0], ![Real.sin t, 0, Real.cos t]]

/-- `attitude/dcm.rs:70-83` `rotate_z`. -/
noncomputable def rotZ (t : ℝ) : Mat ℝ 3 3 :=
  ![![Real.cos t, Real.sin t, 0], ![-Real.sin t, Real.cos t, 0], ![0, 0, 1]]

/-- `attitude/euler.rs:13-17` `Euler`: `data = [roll, pitch, yaw]`. -/
@[ext] structure Euler where
  roll : ℝ
  pitch : ℝ
  yaw : ℝ

/-- `attitude/dcm.rs:101-114` `From<Euler> for DirectionCosineMatrix`: `rx * ry * rz`. -/
noncomputable def dcmOfEuler (e : Euler) : Mat ℝ 3 3 :=
  dcmMul (dcmMul (rotX e.roll) (rotY e.pitch)) (rotZ e.yaw)

/-- `attitude/quaternion.rs:451-470` `From<&Euler> for Quaternion`. -/
noncomputable def quatOfEuler (e : Euler) : Quat ℝ :=
  let half : ℝ := 1 / (1 + 1)
  let cr := Real.cos (e.roll * half)
  let sr := Real.sin (e.roll * half)
  let cp := Real.cos (e.pitch * half)
  let sp := Real.sin (e.pitch * half)
  let cy := Real.cos (e.yaw * half)
  let sy := Real.sin (e.yaw * half)
  ⟨cr * cp * cy + sr * sp * sy, sr * cp * cy - cr * sp * sy,
   cr * sp * cy + sr * cp * sy, cr * cp * sy - sr * sp * cy⟩

/-- `f64::signum`: `1` for positive numbers and `+0`, `-1` for negative numbers. -/
noncomputable def signum (x : ℝ) : ℝ := if x < 0 then -1 else 1

/-- `attitude/euler.rs:39-71` `From<&Quaternion> for Euler`. -/
noncomputable def eulerOfQuat (q : Quat ℝ) : Euler :=
  let w := q.w
  let x := q.i
  let y := q.j
  let z := q.k
  let two : ℝ := 1 + 1
  let sinr_cosp := two * (w * x + y * z)
  let cosr_cosp := 1 - two * (x * x + y * y)
  let roll := atan2 sinr_cosp cosr_cosp
  let sinp := two * (w * y - z * x)
  let pitch := if |sinp| ≥ 1 then Real.pi / 2 * signum sinp else Real.arcsin sinp
  let siny_cosp := two * (w * z + x * y)
  let cosy_cosp := 1 - two * (y * y + z * z)
  let yaw := atan2 siny_cosp cosy_cosp
  ⟨roll, pitch, yaw⟩

/-- `attitude/euler.rs:74-88` `From<&DirectionCosineMatrix> for Euler`. -/
noncomputable def eulerOfDcm (m : Mat ℝ 3 3) : Euler :=
  ⟨atan2 (m 1 2) (m 2 2), -Real.arcsin (m 0 2), atan2 (m 0 1) (m 0 0)⟩

/-- `attitude/rotation.rs:88-105` `from_angular_velocity`. -/
noncomputable def Quat.ofAngularVelocity (omega : Fin 3 → ℝ) (dt : ℝ) : Quat ℝ :=
  let mag := Mat.norm Real.sqrt omega
  if mag = 0 then Quat.identity
  else
    let axis := vdiv omega mag
    let angle := mag * dt
    let half := angle * (1 / 2)
    let s := Real.sin half
    ⟨Real.cos half, axis 0 * s, axis 1 * s, axis 2 * s⟩

/-- `attitude/rotation.rs:30-35` `Rotation::compose`: `self` is Inertial → Body, `rhs` is Body → Next. -/
noncomputable def composeRotation (self rhs : Quat ℝ) : Quat ℝ := rhs.mul self

/-- `attitude/rotation.rs:74-78` `Rotation::integrate`. -/
noncomputable def integrateRotation (self : Quat ℝ) (omega : Fin 3 → ℝ) (dt : ℝ) : Quat ℝ :=
  (Quat.ofAngularVelocity omega dt).mul self

end Verif.Att
