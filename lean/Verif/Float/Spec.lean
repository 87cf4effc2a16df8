import Mathlib.Algebra.Order.Archimedean.Real.Basic
import Mathlib.Algebra.Order.Round
import Mathlib.Data.Int.Log

/-!
# Specification: binary floating-point numbers with rounding to nearest

The numbers are those with `p` significant bits (`p = 53` for `f64`, `24` for `f32`); the exponent is not bounded, so
nothing overflows or underflows. `Nearest p fl` says that `fl` returns a number nearest to its argument; it may break
ties in any way, so IEEE's "ties to even" is one case.
-/

namespace Verif.Float

/-- `x` is a binary floating-point number with `p` significant bits. -/
def IsFloat (p : ℕ) (x : ℝ) : Prop := ∃ m e : ℤ, |m| < 2 ^ p ∧ x = m * 2 ^ e

/-- `fl` rounds to a nearest floating-point number. -/
def Nearest (p : ℕ) (fl : ℝ → ℝ) : Prop :=
  ∀ x, IsFloat p (fl x) ∧ ∀ y, IsFloat p y → |fl x - x| ≤ |y - x|

/-- The distance between neighbouring floating-point numbers at `x`. -/
noncomputable def ulp (p : ℕ) (x : ℝ) : ℝ := 2 ^ (Int.log 2 |x| + 1 - p)

/-- One way to round: scale, round to the nearest integer, scale back. -/
noncomputable def rnd (p : ℕ) (x : ℝ) : ℝ := round (x / ulp p x) * ulp p x

end Verif.Float
