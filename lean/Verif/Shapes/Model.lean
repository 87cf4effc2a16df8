import Verif.Mat.Vec
import Mathlib.Analysis.SpecialFunctions.Trigonometric.Basic

/-!
# Model of `aether_shapes` and `aether_fluids`

Mass models are generic in the scalar type, so that they can be read over the reals and over rounded arithmetic; shapes and tanks are also
instantiated with real numbers. Reference frames are erased.
-/

namespace Verif.Shapes

open Verif.Mat

variable {α : Type}

/-- `crates/aether_shapes/src/attributes.rs:10-14` `Solid`: what a shape offers. -/
structure Solid (α : Type) where
  volume : α
  inertia : α → Fin 3 → α

/-- `sphere.rs:15-30` `Sphere`, with `T::PI` as a parameter. -/
def sphereOf [One α] [Add α] [Mul α] [Div α] (pi r : α) : Solid α where
  volume := (1 + 1 + 1 + 1) / (1 + 1 + 1) * pi * r * r * r
  inertia m :=
    let twoFifths : α := (1 + 1) / (1 + 1 + 1 + 1 + 1)
    let i := twoFifths * m * r * r
    ![i, i, i]

/-- `sphere.rs:15-30` `Sphere` over the reals. -/
noncomputable def sphere (r : ℝ) : Solid ℝ := sphereOf Real.pi r

/-- `cylinder.rs:10-39` `Cylinder`, with `T::PI` as a parameter. -/
def cylinderOf [One α] [Add α] [Mul α] [Div α] (pi r h : α) : Solid α where
  volume := pi * r * r * h
  inertia m :=
    let half : α := 1 / (1 + 1)
    let twelve : α := 1 + 1 + 1 + 1 + 1 + 1 + 1 + 1 + 1 + 1 + 1 + 1
    let r2 := r * r
    let h2 := h * h
    let iz := m * r2 * half
    let ixy := m * (1 + 1 + 1) * r2 + m * h2
    ![ixy / twelve, ixy / twelve, iz]

/-- `cylinder.rs:10-39` `Cylinder` over the reals. -/
noncomputable def cylinder (r h : ℝ) : Solid ℝ := cylinderOf Real.pi r h

/-- `prism.rs:11-43` `RectangularPrism`. -/
def prismOf [One α] [Add α] [Mul α] [Div α] (a b c : α) : Solid α where
  volume := a * b * c
  inertia m :=
    let twelve : α := 1 + 1 + 1 + 1 + 1 + 1 + 1 + 1 + 1 + 1 + 1 + 1
    ![m * (b * b + c * c) / twelve, m * (a * a + c * c) / twelve, m * (a * a + b * b) / twelve]

/-- `prism.rs:11-43` `RectangularPrism` over the reals. -/
noncomputable def prism (a b c : ℝ) : Solid ℝ := prismOf a b c

/-- `crates/aether_core/src/math/vector.rs:190-203` `Vector * scalar`. -/
def vscale [Mul α] (v : Fin 3 → α) (s : α) : Fin 3 → α := fun i => v i * s

/-- `crates/aether_core/src/math/vector.rs:206-219` `Vector / scalar`. -/
def vquot [Div α] (v : Fin 3 → α) (s : α) : Fin 3 → α := fun i => v i / s

/-- `attributes.rs:34-41` `MassProps`. -/
structure MassProps (α : Type) where
  volume : α
  density : α
  mass : α
  com : Fin 3 → α
  inertia : Mat α 3 3

/-- `attributes.rs:151-157` `parallel_axis`. -/
def parallelAxis [Zero α] [One α] [Add α] [Sub α] [Mul α] (icm : Mat α 3 3) (m : α) (r : Fin 3 → α) : Mat α 3 3 :=
  let r2 := dot r r
  let eye : Mat α 3 3 := identity 3
  let rrT := outer r r
  add icm (mulS (sub (mulS eye r2) rrT) m)

/-- `attributes.rs:17-31` `MassModel` (and the arguments of `add_with`, `subtract_with`): a solid with density, rotation from the
local to the assembly axes and position of its centre of mass. -/
structure Model (α : Type) where
  solid : Solid α
  density : α
  rot : Mat α 3 3
  pos : Fin 3 → α

/-- `attributes.rs:55-69`, `108-122`, `205-214`, `252-261`: the inertia tensor of one part about the assembly origin. -/
def Model.inertiaOrigin [Zero α] [One α] [Add α] [Sub α] [Mul α] (p : Model α) : Mat α 3 3 :=
  let m := p.density * p.solid.volume
  let prin := diag (p.solid.inertia m)
  let icm := mul (mul p.rot prin) (transpose p.rot)
  parallelAxis icm m p.pos

/-- `attributes.rs:97-148` `Add`, and `235-281` `add_with`: the two functions differ only in how the arguments are passed. -/
def Model.add [Zero α] [One α] [Add α] [Sub α] [Mul α] [Div α] [LE α] [DecidableLE α] (a b : Model α) : Option (MassProps α) :=
  if a.solid.volume ≤ 0 ∨ b.solid.volume ≤ 0 then none
  else
    let ma := a.density * a.solid.volume
    let mb := b.density * b.solid.volume
    let mass := ma + mb
    let volume := a.solid.volume + b.solid.volume
    if mass ≤ 0 ∨ volume ≤ 0 then none
    else
      let com := vquot (vscale a.pos ma + vscale b.pos mb) mass
      let iO := Mat.add a.inertiaOrigin b.inertiaOrigin
      some ⟨volume, mass / volume, mass, com, Mat.sub iO (parallelAxis (zeros 3 3) mass com)⟩

/-- `attributes.rs:43-95` `Sub`, and `187-233` `subtract_with`. -/
def Model.sub [Zero α] [One α] [Add α] [Sub α] [Mul α] [Div α] [LE α] [DecidableLE α] (o i : Model α) : Option (MassProps α) :=
  if o.solid.volume ≤ 0 ∨ i.solid.volume ≤ 0 then none
  else
    let mo := o.density * o.solid.volume
    let mi := i.density * i.solid.volume
    let mass := mo - mi
    let volume := o.solid.volume - i.solid.volume
    if mass ≤ 0 ∨ volume ≤ 0 then none
    else
      let com := vquot (vscale o.pos mo - vscale i.pos mi) mass
      let iO := Mat.sub o.inertiaOrigin i.inertiaOrigin
      some ⟨volume, mass / volume, mass, com, Mat.sub iO (parallelAxis (zeros 3 3) mass com)⟩

/-! ## Propellant tanks -/

/-- `crates/aether_fluids/src/lib.rs:7-11` `TankShape`. -/
inductive TankShape where
  | cyl (radius length : ℝ)
  | sph (radius : ℝ)

/-- `lib.rs:14-25` `volume_m3`. -/
noncomputable def TankShape.volume : TankShape → ℝ
  | .cyl r l => (cylinder r l).volume
  | .sph r => (sphere r).volume

/-- `lib.rs:27-43` `inertia_principal_cm_kg_m2`. -/
noncomputable def TankShape.inertia (s : TankShape) (mass : ℝ) : Fin 3 → ℝ :=
  let mass := max mass 0
  match s with
  | .cyl r l => (cylinder |r| |l|).inertia mass
  | .sph r => (sphere |r|).inertia mass

/-- `lib.rs:47-51` `PropellantTankSpec`. -/
structure TankSpec where
  shape : TankShape
  density : ℝ
  fill : ℝ

/-- `lib.rs:54-58` `PropellantTankLimits`. -/
structure TankLimits where
  geometric : ℝ
  usable : ℝ
  maxMass : ℝ

/-- `lib.rs:67-78` `limits`; `f64::clamp(0, 1)`. -/
noncomputable def TankSpec.limits (s : TankSpec) : TankLimits :=
  let geometric := max s.shape.volume 0
  let fill := min (max s.fill 0) 1
  let usable := geometric * fill
  ⟨geometric, usable, usable * max s.density 0⟩

/-- `lib.rs:61-64` `TankMassState`. -/
structure Tank where
  shape : TankShape
  mass : ℝ

/-- `lib.rs:81-87` `aggregate_tank_mass_kg`. -/
noncomputable def aggregateMass (tanks : List Tank) : ℝ := tanks.foldl (fun total t => total + max t.mass 0) 0

/-- `lib.rs:89-100` `aggregate_tank_inertia_principal_cm_kg_m2`. -/
noncomputable def aggregateInertia (tanks : List Tank) : Fin 3 → ℝ :=
  tanks.foldl (fun p t =>
    let i := t.shape.inertia (max t.mass 0)
    ![p 0 + i 0, p 1 + i 1, p 2 + i 2]) (fun _ => 0)

end Verif.Shapes
