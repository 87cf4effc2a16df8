import Verif.Frames.PropsGeo
import Mathlib.Analysis.SpecialFunctions.Pow.Real

/-!
# Model of the closed-form geodetic conversion

Numbers are real. `powf` is the real power. In the code a negative base under the power one third gives NaN; the base is positive
wherever `g` is (everywhere but the innermost part of the Earth), and the theorems are about such points. The guard of the code
replaces a NaN or non-positive `r0_op` by zero; over the reals only the second can happen.
-/

namespace Verif.Frames

open Verif.Att Real

/-- `terrestrial/wgs84/constants/mod.rs:15` `b`. -/
noncomputable def wgsB : ℝ := 6356752.3142

theorem b_pos : 0 < wgsB := by unfold wgsB; norm_num

/-- `terrestrial/wgs84/transforms/mod.rs:57-94` `ecef_to_geocentric_ferrari`; `Earth::ecef_to_geocentric_ferrari`
(`terrestrial/earth.rs:107-109`) calls it. -/
noncomputable def ferrari (x y z : ℝ) : Fin 3 → ℝ :=
  let a2 := wgsA * wgsA
  let b2 := wgsB * wgsB
  let f := (wgsA - wgsB) / wgsA
  let e_2 := 2 * f - f * f
  let ep := √(a2 / b2 - 1)
  let z2 := z * z
  let r := √(x * x + y * y)
  let r2 := r * r
  let e2_2 := a2 - b2
  let ff := 54 * b2 * z2
  let g := r2 + (1 - e_2) * z2 - e_2 * e2_2
  let c := e_2 ^ (2 : ℝ) * ff * r2 / g ^ (3 : ℝ)
  let s := (1 + c + (c ^ (2 : ℝ) + 2 * c)) ^ (1 / 3 : ℝ)
  let pp := ff / (3 * (s + 1 / s + 1) ^ (2 : ℝ) * g ^ (2 : ℝ))
  let q := √(1 + 2 * e_2 ^ (2 : ℝ) * pp)
  let r0Op := 1 / 2 * a2 * (1 + 1 / q) - (pp * (1 - e_2) * z2) / (q * (1 + q)) - 1 / 2 * pp * r2
  let r0Op := if r0Op > 0 then r0Op else 0
  let r0 := -pp * e_2 * r / (1 + q) + √r0Op
  let u := √((r - e_2 * r0) ^ (2 : ℝ) + z2)
  let v := √((r - e_2 * r0) ^ (2 : ℝ) + (1 - e_2) * z2)
  let z0 := b2 * z / (wgsA * v)
  let altitude := u * (1 - (b2 / (wgsA * v)))
  let latitude := atan2 (z + ep * ep * z0) r
  let longitude := atan2 y x
  ![latitude, longitude, altitude]

end Verif.Frames
