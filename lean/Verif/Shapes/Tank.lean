import Verif.Shapes.Model
import Verif.Ieee.Cast
import Verif.Ieee.Order

/-!
# Model of `aether_fluids` in IEEE arithmetic

The tanks of `Verif.Shapes.Model` once more, with numbers that overflow and with infinities and NaN.
-/

namespace Verif.Shapes.Ie

open Verif.Ieee

variable {F : Format} {fl : ℝ → ℝ}

/-- `f64::clamp(0.0, 1.0)` of the standard library: NaN stays. -/
noncomputable def clamp01 (x : IE F fl) : IE F fl :=
  let x := if x < 0 then 0 else x
  if 1 < x then 1 else x

/-- `crates/aether_fluids/src/lib.rs:7-11` `TankShape`. -/
inductive TankShape (F : Format) (fl : ℝ → ℝ) where
  | cyl (radius length : IE F fl)
  | sph (radius : IE F fl)

/-- `lib.rs:14-25` `volume_m3`; `pi` is the constant of the scalar type. -/
noncomputable def TankShape.volume (pi : IE F fl) : TankShape F fl → IE F fl
  | .cyl r l => (cylinderOf pi r l).volume
  | .sph r => (sphereOf pi r).volume

/-- `lib.rs:27-43` `inertia_principal_cm_kg_m2`. -/
noncomputable def TankShape.inertia (pi : IE F fl) (s : TankShape F fl) (mass : IE F fl) : Fin 3 → IE F fl :=
  let mass := mass.fmax 0
  match s with
  | .cyl r l => (cylinderOf pi r.abs l.abs).inertia mass
  | .sph r => (sphereOf pi r.abs).inertia mass

/-- `lib.rs:47-51` `PropellantTankSpec`. -/
structure TankSpec (F : Format) (fl : ℝ → ℝ) where
  shape : TankShape F fl
  density : IE F fl
  fill : IE F fl

/-- `lib.rs:54-58` `PropellantTankLimits`. -/
structure TankLimits (F : Format) (fl : ℝ → ℝ) where
  geometric : IE F fl
  usable : IE F fl
  maxMass : IE F fl

/-- `lib.rs:67-78` `limits`. -/
noncomputable def TankSpec.limits (pi : IE F fl) (s : TankSpec F fl) : TankLimits F fl :=
  let geometric := (s.shape.volume pi).fmax 0
  let fill := clamp01 s.fill
  let usable := geometric * fill
  let maxMass := usable * s.density.fmax 0
  ⟨geometric, usable, maxMass⟩

/-- `lib.rs:61-64` `TankMassState`. -/
structure Tank (F : Format) (fl : ℝ → ℝ) where
  shape : TankShape F fl
  mass : IE F fl

/-- `lib.rs:81-87` `aggregate_tank_mass_kg`. -/
noncomputable def aggregateMass (tanks : List (Tank F fl)) : IE F fl := tanks.foldl (fun total t => total + t.mass.fmax 0) 0

/-- `lib.rs:89-100` `aggregate_tank_inertia_principal_cm_kg_m2`. -/
noncomputable def aggregateInertia (pi : IE F fl) (tanks : List (Tank F fl)) : Fin 3 → IE F fl :=
  tanks.foldl (fun p t =>
    let i := t.shape.inertia pi (t.mass.fmax 0)
    ![p 0 + i 0, p 1 + i 1, p 2 + i 2]) (fun _ => 0)

end Verif.Shapes.Ie
