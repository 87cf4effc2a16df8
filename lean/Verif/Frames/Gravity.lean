import Verif.Frames.Ferrari
import Mathlib.Analysis.SpecialFunctions.Trigonometric.Arctan

/-!
# Model of the gravity vector of the Earth (`terrestrial/wgs84/gravity/mod.rs`)

Numbers are real; `powf(2.0)` is the square. On the polar axis the code divides by zero before taking an arc tangent (giving a right
angle); over the reals the quotient is zero, so the theorems are about points off the axis.
-/

namespace Verif.Frames

open Verif.Mat Verif.Att Real

/-- `terrestrial/wgs84/constants/mod.rs:21` `E`. -/
noncomputable def wgsLinE : ℝ := 5.2185400842339e5
/-- `terrestrial/wgs84/constants/mod.rs:3` `GM`. -/
noncomputable def wgsGM : ℝ := 3.986004418e14
/-- `terrestrial/wgs84/constants/mod.rs:4` `w`. -/
noncomputable def wgsW : ℝ := 7.292115e-5

/-- `wgs84/gravity/mod.rs:17-22` `ellipsoidal_beta`. -/
noncomputable def ellipsoidalBeta (x y z u : ℝ) : ℝ :=
  arctan ((z * √(u ^ 2 + wgsLinE ^ 2)) / (u * √(x ^ 2 + y ^ 2)))

/-- `wgs84/gravity/mod.rs:24-30` `ellipsoidal_height`. -/
noncomputable def ellipsoidalHeight (x y z : ℝ) : ℝ :=
  let tShare := x ^ 2 + y ^ 2 + z ^ 2 - wgsLinE ^ 2
  let t1 := 0.5 * tShare
  let t2 := 1 + √(1 + (4 * wgsLinE ^ 2 * z ^ 2) / tShare ^ 2)
  √(t1 * t2)

/-- `wgs84/gravity/mod.rs:32-36` `ellipsoidal_w`: `beta.sin().sin()` is the sine of the sine. -/
noncomputable def ellipsoidalW (u beta : ℝ) : ℝ :=
  √((u ^ 2 + wgsLinE ^ 2 * sin (sin beta)) / (u ^ 2 + wgsLinE ^ 2))

/-- `wgs84/gravity/mod.rs:38-68` `gravity_ellipsoidal`. -/
noncomputable def gravityEllipsoidal (x y z : ℝ) : Fin 3 → ℝ :=
  let u := ellipsoidalHeight x y z
  let beta := ellipsoidalBeta x y z u
  let ellipW := ellipsoidalW u beta
  let q := 0.5 * ((1 + 3 * u ^ 2 / wgsLinE ^ 2) * arctan (wgsLinE / u) - 3 * u / wgsLinE)
  let q0 := 0.5 * ((1 + 3 * wgsB ^ 2 / wgsLinE ^ 2) * arctan (wgsLinE / wgsB) - 3 * wgsB / wgsLinE)
  let qprime := 3 * (1 + u ^ 2 / wgsLinE ^ 2) * (1 - u / wgsLinE * arctan (wgsLinE / u)) - 1
  let gU := -1 / ellipW *
      ((wgsGM / (u ^ 2 + wgsLinE ^ 2)) +
        (wgsW ^ 2 * wgsA ^ 2 * wgsLinE) / (u ^ 2 + wgsLinE ^ 2) * (qprime / q0) * (0.5 * sin (sin beta) - 1 / 6)) +
    1 / ellipW * wgsW ^ 2 * u * cos (cos beta)
  let gB := 1 / ellipW * (wgsW ^ 2 * wgsA ^ 2 / (u ^ 2 + wgsLinE ^ 2)) * q / q0 * sin beta * cos beta -
    1 / ellipW * wgsW ^ 2 * √(u ^ 2 + wgsLinE ^ 2) * sin beta * cos beta
  ![gU, gB, 0]

/-- `wgs84/gravity/mod.rs:69-95` `gravity_rectangular`. -/
noncomputable def gravityRectangular (x y z : ℝ) : Fin 3 → ℝ :=
  let u := ellipsoidalHeight x y z
  let beta := ellipsoidalBeta x y z u
  let ellipW := ellipsoidalW u beta
  let lla := ferrari x y z
  let gEllip := gravityEllipsoidal x y z
  let long := lla 1
  let low := u / (ellipW * √(u ^ 2 + wgsLinE ^ 2)) * cos beta
  let r1 : Mat ℝ 3 3 :=
    ![![low * cos (lla 1), -1 / ellipW * sin beta * cos long, -(sin long)],
      ![low * sin long, -1 / ellipW * sin beta * sin long, cos long],
      ![1 / ellipW * sin beta, low, 0]]
  Mat.mulVec r1 gEllip

/-- `terrestrial/earth.rs:74-85` `solve_gravitational_force`. -/
noncomputable def earthGravityForce (p : Fin 3 → ℝ) (mass : ℝ) : Fin 3 → ℝ :=
  scaled (gravityRectangular (p 0) (p 1) (p 2)) mass

end Verif.Frames
