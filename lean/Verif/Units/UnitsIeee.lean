import Verif.Units.Model
import Verif.Ieee.Cast

/-!
# Model of unit conversions in machine arithmetic, `crates/aether_units/src/si/si_prefix.rs`

The conversions of `Verif/Units/Model.lean` on `f32` or `f64` numbers with rounding, infinities and NaN.
-/

namespace Verif.Units

open Verif.Ieee

variable {F : Format} {fl : ℝ → ℝ}

/-- `si_prefix.rs:38`, `47`: `T::from_f32($factor)`, the factor rounded to the scalar type. -/
noncomputable def factorIe (u : Unit) : IE F fl := IE.ofReal ((u.factor : ℚ) : ℝ)

/-- `si_prefix.rs:36-40` `$to_prefixed`. -/
noncomputable def toPrefixedIe (u : Unit) (q : IE F fl) : IE F fl := q / factorIe u

/-- `si_prefix.rs:45-49` `$to_base`. -/
noncomputable def toBaseIe (u : Unit) (q : IE F fl) : IE F fl := q * factorIe u

end Verif.Units
