import Verif.Float.Model
import Verif.Frames.Model

/-!
# Lunar gravity and the forces of rotating axes over any scalar type
-/

namespace Verif.Float

open Verif.Mat (Mat)

variable {K : Type} [Scalar K]

open Classical in
/-- `crates/aether_models/src/lunar/moon.rs:60-71` `gravitational_acceleration`; `eps` is `f64::EPSILON`. The integer power
`powi(3)` is multiplication, as compiled. -/
noncomputable def moonGravity (eps gm : K) (p : Fin 3 → K) : Fin 3 → K :=
  let radius := Mat.norm Scalar.sqrt p
  if Scalar.le radius eps then fun _ => 0
  else
    let scalar := -gm / (radius * (radius * radius))
    fun i => p i * scalar

/-- `crates/aether_models/src/lunar/moon.rs:73-79` `solve_gravitational_force`. -/
noncomputable def moonForce (eps gm : K) (p : Fin 3 → K) (mass : K) : Fin 3 → K := fun i => moonGravity eps gm p i * mass

open Classical in
/-- `crates/aether_models/src/lunar/moon.rs:81-95` `solve_gravitational_torque`; `three` is the constant 3. `powi(5)` is
multiplication, as compiled. -/
noncomputable def moonTorque (eps three gm : K) (p : Fin 3 → K) (inertia : Mat K 3 3) : Fin 3 → K :=
  let radius := Mat.norm Scalar.sqrt p
  if Scalar.le radius eps then fun _ => 0
  else
    let value := Mat.mulVec inertia p
    let loc := Mat.cross p value
    let r2 := radius * radius
    let scalar := three * gm / (radius * (r2 * r2))
    fun i => loc i * scalar

/-- `crates/aether_models/src/terrestrial/earth.rs:55-62` `solve_coriolis_force`; `two` is the constant 2. -/
def coriolis (two : K) (w vel : Fin 3 → K) (mass : K) : Fin 3 → K := fun i => -(Mat.cross w vel i * two * mass)

/-- `crates/aether_models/src/terrestrial/earth.rs:64-72` `solve_centrifugal_force`. -/
def centrifugal (w pos : Fin 3 → K) (mass : K) : Fin 3 → K := fun i => -(Mat.cross w (Mat.cross w pos) i * mass)

end Verif.Float
