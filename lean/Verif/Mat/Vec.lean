import Verif.Mat.Model
import Mathlib.Analysis.SpecialFunctions.Trigonometric.Inverse

/-!
# Model of the vector geometry of `aether_core::math::vector`, over the reals
-/

namespace Verif.Mat

variable {n : Nat}

/-- `crates/aether_core/src/math/vector.rs:206-219` `Vector / scalar` (the loop assigns every entry once, from
the original vector). -/
noncomputable def vdiv (v : Fin n → ℝ) (s : ℝ) : Fin n → ℝ := fun i => v i / s

/-- `math/vector.rs:284-286` `normalize`. -/
noncomputable def normalize (v : Fin n → ℝ) : Fin n → ℝ := vdiv v (norm Real.sqrt v)

/-- `math/vector.rs:289-297` `try_normalize`; the constant `1e-12` is the parameter `eps`. -/
noncomputable def tryNormalize (eps : ℝ) (v : Fin n → ℝ) : (Fin n → ℝ) × ℝ :=
  let k := norm Real.sqrt v
  if k > eps then (vdiv v k, k) else (v, k)

/-- `math/vector.rs:303-322` `angle`. -/
noncomputable def angle (a b : Fin n → ℝ) : ℝ :=
  let d := dot a b
  let denom := norm Real.sqrt a * norm Real.sqrt b
  if denom = 0 then 0
  else
    let c := d / denom
    let c := if c > 1 then 1 else c
    let c := if c < -1 then -1 else c
    Real.arccos c

end Verif.Mat
