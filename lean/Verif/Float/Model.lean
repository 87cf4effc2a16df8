import Verif.Att.Model
import Verif.Frames.Model
import Verif.Wmm.Model
import Verif.Float.Spec
import Mathlib.Analysis.SpecialFunctions.Pow.Real

/-!
# Model of the angle computations over any scalar type

The code is generic in its scalar type (`T: Real`). `Scalar` lists the operations used here and assumes no law about
them. Two instances: the reals (`Verif/Float/Agree.lean` proves that these definitions are then the ones of
`Verif/Att`, `Verif/Frames`, `Verif/Mat` and `Verif/Wmm`), and `CF fl lib`, floating point: every operation is rounded
by `fl`, the functions of the mathematics library are arbitrary, and `none` stands for NaN or infinity.
-/

namespace Verif.Float

open Verif.Mat (Mat)
open Verif.Att (Quat)

/-- `real/real.rs:4-59` `Real`: the part of the trait used by the functions below. -/
class Scalar (K : Type) extends Zero K, One K, Add K, Sub K, Mul K, Div K, Neg K where
  sqrt : K → K
  sin : K → K
  cos : K → K
  asin : K → K
  acos : K → K
  atan2 : K → K → K
  powf : K → K → K
  abs : K → K
  signum : K → K
  fracPi2 : K
  eq : K → K → Prop
  lt : K → K → Prop
  le : K → K → Prop

/-- The reals. -/
noncomputable instance : Scalar ℝ where
  sqrt := Real.sqrt
  sin := Real.sin
  cos := Real.cos
  asin := Real.arcsin
  acos := Real.arccos
  atan2 := Verif.Att.atan2
  powf := fun x y => x ^ y
  abs := fun x => |x|
  signum := Verif.Att.signum
  fracPi2 := Real.pi / 2
  eq := fun x y => x = y
  lt := fun x y => x < y
  le := fun x y => x ≤ y

/-- The functions of the mathematics library and the constant `FRAC_PI_2` (`real/std_impl.rs`, `no_std_impl.rs`). -/
structure Libm where
  sin : ℝ → ℝ
  cos : ℝ → ℝ
  asin : ℝ → ℝ
  acos : ℝ → ℝ
  atan2 : ℝ → ℝ → ℝ
  powf : ℝ → ℝ → ℝ
  fracPi2 : ℝ

/-- Floating-point numbers; `none` is NaN or infinite. -/
def CF (_ : ℝ → ℝ) (_ : Libm) : Type := Option ℝ

variable {fl : ℝ → ℝ} {lib : Libm}

/-- A finite number. -/
def CF.num (x : ℝ) : CF fl lib := some x

/-- NaN or infinity. -/
def CF.nan : CF fl lib := none

/-- An operation of one argument that is defined on `dom`. -/
noncomputable def CF.op1 (dom : ℝ → Prop) (f : ℝ → ℝ) (a : CF fl lib) : CF fl lib :=
  open Classical in Option.bind a fun x => if dom x then some (f x) else none

/-- An operation of two arguments that is defined on `dom`. -/
noncomputable def CF.op2 (dom : ℝ → ℝ → Prop) (f : ℝ → ℝ → ℝ) (a b : CF fl lib) : CF fl lib :=
  open Classical in Option.bind a fun x => Option.bind b fun y => if dom x y then some (f x y) else none

/-- A comparison; false if an argument is not a number. -/
def CF.rel (r : ℝ → ℝ → Prop) (a b : CF fl lib) : Prop := ∃ x y, a = CF.num x ∧ b = CF.num y ∧ r x y

/-- IEEE arithmetic without overflow and underflow. The square root of a negative number, the inverse sine and cosine
of a number outside `[-1, 1]` and division by zero do not give a finite number. Powers are taken here of positive
numbers or with exponent two only. -/
noncomputable instance : Scalar (CF fl lib) where
  zero := CF.num 0
  one := CF.num 1
  add := CF.op2 (fun _ _ => True) fun x y => fl (x + y)
  sub := CF.op2 (fun _ _ => True) fun x y => fl (x - y)
  mul := CF.op2 (fun _ _ => True) fun x y => fl (x * y)
  div := CF.op2 (fun _ y => y ≠ 0) fun x y => fl (x / y)
  neg := CF.op1 (fun _ => True) fun x => -x
  sqrt := CF.op1 (fun x => 0 ≤ x) fun x => fl √x
  sin := CF.op1 (fun _ => True) lib.sin
  cos := CF.op1 (fun _ => True) lib.cos
  asin := CF.op1 (fun x => |x| ≤ 1) lib.asin
  acos := CF.op1 (fun x => |x| ≤ 1) lib.acos
  atan2 := CF.op2 (fun _ _ => True) lib.atan2
  powf := CF.op2 (fun x y => 0 < x ∨ y = 2) lib.powf
  abs := CF.op1 (fun _ => True) fun x => |x|
  signum := CF.op1 (fun _ => True) fun x => if x < 0 then -1 else 1
  fracPi2 := CF.num lib.fracPi2
  eq := CF.rel fun x y => x = y
  lt := CF.rel fun x y => x < y
  le := CF.rel fun x y => x ≤ y

section Generic

variable {K : Type} [Scalar K] {n : Nat}

open Classical

/-- `coordinate/spherical.rs:33-48` `From<&Cartesian> for Spherical`. -/
noncomputable def sphericalOfCartesian (c : Fin 3 → K) : Fin 3 → K :=
  let x := c 0
  let y := c 1
  let z := c 2
  let rho := Scalar.sqrt (x * x + y * y + z * z)
  let theta := Scalar.atan2 y x
  let phi := if Scalar.eq rho 0 then 0 else Scalar.acos (z / rho)
  ![rho, theta, phi]

/-- `coordinate/spherical.rs:50-63` `From<&Cylindrical> for Spherical`. -/
noncomputable def sphericalOfCylindrical (c : Fin 3 → K) : Fin 3 → K :=
  let r := c 0
  let theta := c 1
  let z := c 2
  let rho := Scalar.sqrt (r * r + z * z)
  let phi := if ¬ Scalar.eq rho 0 then Scalar.acos (z / rho) else 0
  ![rho, theta, phi]

/-- `math/vector.rs:303-322` `angle`. -/
noncomputable def angle (a b : Fin n → K) : K :=
  let dot := Mat.dot a b
  let denom := Mat.norm Scalar.sqrt a * Mat.norm Scalar.sqrt b
  if Scalar.eq denom 0 then 0
  else
    let c := dot / denom
    let minusOne : K := -1
    let one : K := 1
    let c := if Scalar.lt one c then one else c
    let c := if Scalar.lt c minusOne then minusOne else c
    Scalar.acos c

/-- `attitude/euler.rs:39-71` `From<&Quaternion> for Euler`: roll, pitch, yaw. -/
noncomputable def eulerOfQuat (q : Quat K) : Fin 3 → K :=
  let w := q.w
  let x := q.i
  let y := q.j
  let z := q.k
  let two : K := 1 + 1
  let one : K := 1
  let sinr_cosp := two * (w * x + y * z)
  let cosr_cosp := one - two * (x * x + y * y)
  let roll := Scalar.atan2 sinr_cosp cosr_cosp
  let sinp := two * (w * y - z * x)
  let pitch := if Scalar.le one (Scalar.abs sinp) then Scalar.fracPi2 * Scalar.signum sinp else Scalar.asin sinp
  let siny_cosp := two * (w * z + x * y)
  let cosy_cosp := one - two * (y * y + z * z)
  let yaw := Scalar.atan2 siny_cosp cosy_cosp
  ![roll, pitch, yaw]

/-- `attitude/euler.rs:74-88` `From<&DirectionCosineMatrix> for Euler`: roll, pitch, yaw. -/
def eulerOfDcm (m : Mat K 3 3) : Fin 3 → K :=
  let yaw := Scalar.atan2 (m 0 1) (m 0 0)
  let pitch := -Scalar.asin (m 0 2)
  let roll := Scalar.atan2 (m 1 2) (m 2 2)
  ![roll, pitch, yaw]

/-- `attitude/dcm.rs:129-164` `From<&Quaternion> for DirectionCosineMatrix`. -/
def dcmOfQuat (q : Quat K) : Mat K 3 3 :=
  let s := q.w
  let i := q.i
  let j := q.j
  let k := q.k
  let two : K := 1 + 1
  let sp2 := Scalar.powf s two
  let ip2 := Scalar.powf i two
  let jp2 := Scalar.powf j two
  let kp2 := Scalar.powf k two
  ![![sp2 + ip2 - jp2 - kp2, two * (i * j + s * k), two * (i * k - s * j)],
    ![two * (i * j - s * k), sp2 - ip2 + jp2 - kp2, two * (j * k + s * i)],
    ![two * (i * k + s * j), two * (j * k - s * i), sp2 - ip2 - jp2 + kp2]]

/-- `attitude/quaternion.rs:388-449` `TryFrom<&DirectionCosineMatrix> for Quaternion`; `none` is `Err(())`. -/
noncomputable def quatOfDcm (m : Mat K 3 3) : Option (Quat K) :=
  let one : K := 1
  let two := one + one
  let four := two + two
  let k := one / four
  let c1 := one + m 0 0 + m 1 1 + m 2 2
  let c2 := one + m 0 0 - m 1 1 - m 2 2
  let c3 := one - m 0 0 + m 1 1 - m 2 2
  let c4 := one - m 0 0 - m 1 1 + m 2 2
  if Scalar.lt k c1 then
    let qs := Scalar.sqrt (c1 / four)
    let qs4 := qs * four
    some ⟨qs, (m 1 2 - m 2 1) / qs4, (m 2 0 - m 0 2) / qs4, (m 0 1 - m 1 0) / qs4⟩
  else if Scalar.lt k c2 then
    let qi := Scalar.sqrt (c2 / four)
    let qi4 := qi * four
    some ⟨(m 1 2 - m 2 1) / qi4, qi, (m 0 1 + m 1 0) / qi4, (m 2 0 + m 0 2) / qi4⟩
  else if Scalar.lt k c3 then
    let qj := Scalar.sqrt (c3 / four)
    let qj4 := qj * four
    some ⟨(m 2 0 - m 0 2) / qj4, (m 0 1 + m 1 0) / qj4, qj, (m 1 2 + m 2 1) / qj4⟩
  else if Scalar.lt k c4 then
    let qk := Scalar.sqrt (c4 / four)
    let qk4 := qk * four
    some ⟨(m 0 1 - m 1 0) / qk4, (m 2 0 + m 0 2) / qk4, (m 1 2 + m 2 1) / qk4, qk⟩
  else none

/-- `wmm/mod.rs:365-381` `geodetic_to_geocentric`: radius and latitude. The constants `WGS84_SEMI_MAJOR_AXIS_M` and
`WGS84_FLATTENING` are parameters. -/
def toGeocentric (a f latitude height : K) : Fin 2 → K :=
  let sinLat := Scalar.sin latitude
  let cosLat := Scalar.cos latitude
  let e2 := f * ((1 + 1) - f)
  let n := a / Scalar.sqrt (1 - e2 * sinLat * sinLat)
  let p := (n + height) * cosLat
  let z := (n * (1 - e2) + height) * sinLat
  let radius := Scalar.sqrt (p * p + z * z)
  ![radius, Scalar.asin (z / radius)]

end Generic

end Verif.Float
