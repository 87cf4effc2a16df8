import Verif.Att.Model

/-!
# Model of the attitude functions over any scalar type

The code is generic in its scalar type. The definitions below assume no law about the operations; the square root, sine,
cosine and the constant one half are parameters. With those of the reals they are the ones of `Verif/Att/Model.lean` and
`Verif/Mat/Vec.lean` (`Verif/Geom/Agree.lean`).
-/

namespace Verif.Geom

open Verif.Mat (Mat)
open Verif.Att (Quat)

/-- The functions of `Real` (`real/real.rs`) used here, and `from_f32(0.5)`. -/
structure Fns (K : Type*) where
  sqrt : K → K
  sin : K → K
  cos : K → K
  half : K

variable {K : Type*} [Zero K] [One K] [Add K] [Sub K] [Mul K] [Div K] [Neg K] {n : Nat}

/-- `crates/aether_core/src/math/vector.rs:206-219` `Vector / scalar`. -/
def vdiv (v : Fin n → K) (s : K) : Fin n → K := fun i => v i / s

/-- `math/vector.rs:284-286` `normalize`. -/
def normalize (f : Fns K) (v : Fin n → K) : Fin n → K := vdiv v (Mat.norm f.sqrt v)

/-- `attitude/quaternion.rs:60-73` `norm`, `normalized`. -/
def normalized (f : Fns K) (q : Quat K) : Quat K :=
  let n := f.sqrt q.norm2
  ⟨q.w / n, q.i / n, q.j / n, q.k / n⟩

/-- `attitude/quaternion.rs:35-41` `from_axis_angle`. -/
def ofAxisAngle (f : Fns K) (axis : Fin 3 → K) (angle : K) : Quat K :=
  let half := angle * (1 / (1 + 1))
  let s := f.sin half
  let c := f.cos half
  let a := normalize f axis
  normalized f ⟨c, a 0 * s, a 1 * s, a 2 * s⟩

/-- `attitude/quaternion.rs:105-127` `rotate_vector`. -/
def rotate (f : Fns K) (q : Quat K) (v : Fin 3 → K) : Fin 3 → K := (normalized f q).sandwich v

/-- `attitude/quaternion.rs:147-174` `to_dcm`. -/
def toDcm (f : Fns K) (q : Quat K) : Mat K 3 3 := (normalized f q).dcmActive

open Classical in
/-- `attitude/rotation.rs:88-105` `from_angular_velocity`. -/
noncomputable def ofAngularVelocity (f : Fns K) (omega : Fin 3 → K) (dt : K) : Quat K :=
  let mag := Mat.norm f.sqrt omega
  if mag = 0 then Quat.identity
  else
    let axis := vdiv omega mag
    let angle := mag * dt
    let half := angle * f.half
    let s := f.sin half
    ⟨f.cos half, axis 0 * s, axis 1 * s, axis 2 * s⟩

/-- `attitude/rotation.rs:74-78` `Rotation::integrate`. -/
noncomputable def integrateRotation (f : Fns K) (self : Quat K) (omega : Fin 3 → K) (dt : K) : Quat K :=
  (ofAngularVelocity f omega dt).mul self

end Verif.Geom
