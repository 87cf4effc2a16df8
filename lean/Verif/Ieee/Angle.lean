import Verif.Att.Model

/-!
# Model of the conversions between degrees and radians

`pi` and `c180` are the constants `PI` and `180.0` of the scalar type.
-/

namespace Verif.Ieee

variable {K : Type*} [Mul K] [Div K] {n : ℕ}

/-- `crates/aether_core/src/utils/angle_conversion.rs:15-20,29-34` `to_radians` of `f32` and `f64`. -/
def toRadians (pi c180 x : K) : K := x * pi / c180

/-- `utils/angle_conversion.rs:22-27,36-41` `to_degrees` of `f32` and `f64`. -/
def toDegrees (pi c180 x : K) : K := x * c180 / pi

/-- `utils/angle_conversion.rs:43-51` and `math/vector.rs:518-527` `to_radians` of arrays and vectors;
`attitude/euler.rs:235-241` `Euler::from_degrees_vec`. -/
def toRadiansVec (pi c180 : K) (v : Fin n → K) : Fin n → K := fun i => toRadians pi c180 (v i)

/-- `utils/angle_conversion.rs:53-61` and `math/vector.rs:529-538` `to_degrees` of arrays and vectors;
`attitude/euler.rs:243-245` `Euler::to_degrees_vec`. -/
def toDegreesVec (pi c180 : K) (v : Fin n → K) : Fin n → K := fun i => toDegrees pi c180 (v i)

/-- `real/no_std_impl.rs:44,88` `Real::to_radians` without the standard library. -/
def toRadiansReal (pi c180 x : K) : K := x * (pi / c180)

/-- `real/no_std_impl.rs:43,87` `Real::to_degrees` without the standard library. -/
def toDegreesReal (pi c180 x : K) : K := x * (c180 / pi)

/-- `core::f64::consts::PI`. -/
noncomputable def pi64 : ℝ := 884279719003555 / 2 ^ 48

/-- `core::f32::consts::PI`. -/
noncomputable def pi32 : ℝ := 13176795 / 2 ^ 22

end Verif.Ieee
