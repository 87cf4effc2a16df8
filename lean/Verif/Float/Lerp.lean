import Verif.Interp.Model
import Verif.Mat.Model

/-!
# Model of linear interpolation over any scalar type

Over the reals these are the definitions of `Verif/Interp/Model.lean`; over `Fl fl` every operation is rounded.
-/

namespace Verif.Float

open Verif.Mat (AbsVal absV)

variable {α : Type}

/-- `aether_interp/src/lerp.rs:8-13` `lerp` for scalars. -/
def lerp [Add α] [Sub α] [Mul α] (a b t : α) : α := a + (b - a) * t

/-- `lerp.rs:17-24` `inverse_lerp`; `f64::EPSILON` is the parameter `eps`. -/
def inverseLerp [Zero α] [Sub α] [Div α] [LE α] [DecidableLE α] [AbsVal α] (eps a b value : α) : α :=
  let denom := b - a
  if absV denom ≤ eps then 0 else (value - a) / denom

/-- `lerp.rs:28-30` `remap`. -/
def remap [Zero α] [Add α] [Sub α] [Mul α] [Div α] [LE α] [DecidableLE α] [AbsVal α] (eps value inA inB outA outB : α) :
    α :=
  lerp outA outB (inverseLerp eps inA inB value)

end Verif.Float
