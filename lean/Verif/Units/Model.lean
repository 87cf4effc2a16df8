import Mathlib.Data.Int.Log
import Mathlib.Data.Rat.Floor
import Mathlib.Algebra.Order.Field.Rat

/-!
# Model of `aether_units`

Numbers are rational. Constants of type `f32` are rounded to 24 bits, to nearest and ties to even (all the constants are within the normal
range of `f32`, so the exponent range is not modelled). The arithmetic of the scalar type `T` is a parameter: `rnd` is applied to the
result of every operation. The crate directory `standard/` is not compiled (`standard/mod.rs` is empty) and not modelled.
-/

namespace Verif.Units

/-- Rounding to the nearest integer, ties to even. -/
def roundEven (x : ℚ) : ℤ :=
  let f := ⌊x⌋
  if x - f < 1 / 2 then f else if 1 / 2 < x - f then f + 1 else if f % 2 = 0 then f else f + 1

/-- Rounding a positive number to `p` significant bits. -/
def roundTo (p : ℕ) (x : ℚ) : ℚ :=
  let ulp : ℚ := 2 ^ (Int.log 2 x - (p - 1))
  roundEven (x / ulp) * ulp

/-- A literal of type `f32`. -/
def f32 (x : ℚ) : ℚ := roundTo 24 x

/-- The SI prefixes. -/
inductive Prefix where
  | yocto | zepto | atto | femto | pico | nano | micro | milli | centi | deci
  | deca | hecto | kilo | mega | giga | tera | peta | exa | zetta | yotta
  deriving DecidableEq

/-- `crates/aether_units/src/si/si_prefix.rs:6-25`, the constants `YOCTO` to `YOTTA`. -/
def factor : Prefix → ℚ
  | .yocto => f32 (1 / 10 ^ 24)
  | .zepto => f32 (1 / 10 ^ 21)
  | .atto => f32 (1 / 10 ^ 18)
  | .femto => f32 (1 / 10 ^ 15)
  | .pico => f32 (1 / 10 ^ 12)
  | .nano => f32 (1 / 10 ^ 9)
  | .micro => f32 (1 / 10 ^ 6)
  | .milli => f32 (1 / 10 ^ 3)
  | .centi => f32 (1 / 10 ^ 2)
  | .deci => f32 (1 / 10 ^ 1)
  | .deca => f32 (10 ^ 1)
  | .hecto => f32 (10 ^ 2)
  | .kilo => f32 (10 ^ 3)
  | .mega => f32 (10 ^ 6)
  | .giga => f32 (10 ^ 9)
  | .tera => f32 (10 ^ 12)
  | .peta => f32 (10 ^ 15)
  | .exa => f32 (10 ^ 18)
  | .zetta => f32 (10 ^ 21)
  | .yotta => f32 (10 ^ 24)

/-- `si_prefix.rs:71-97`, `100-125`, `128-152`: the families of prefixed units. Mass has no kilo among its prefixed units (that is the base
unit), and its prefixes apply to the gram. -/
inductive Unit where
  | metre (p : Prefix)
  | second (p : Prefix)
  | gram (p : Prefix) (h : p ≠ .kilo)

/-- The `$factor` of each unit; the factors of mass are products in `f32`. -/
def Unit.factor : Unit → ℚ
  | .metre p => Units.factor p
  | .second p => Units.factor p
  | .gram p _ => f32 (Units.factor p * f32 (1 / 10 ^ 3))

/-- `base/units.rs:5-21` `Quantity`: a value; the unit is a phantom type. -/
structure Quantity where
  raw : ℚ

variable (rnd : ℚ → ℚ)

/-- `base/units.rs:23-29` `Add`. -/
def Quantity.add (a b : Quantity) : Quantity := ⟨rnd (a.raw + b.raw)⟩

/-- `base/units.rs:31-37` `Sub`. -/
def Quantity.sub (a b : Quantity) : Quantity := ⟨rnd (a.raw - b.raw)⟩

/-- `base/units.rs:39-45` `Div<T>`. -/
def Quantity.div (a : Quantity) (s : ℚ) : Quantity := ⟨rnd (a.raw / s)⟩

/-- `base/units.rs:47-54` `Mul<T>`. -/
def Quantity.mul (a : Quantity) (s : ℚ) : Quantity := ⟨rnd (a.raw * s)⟩

/-- `base/units.rs:56-62` `Neg`. -/
def Quantity.neg (a : Quantity) : Quantity := ⟨-a.raw⟩

/-- `si_prefix.rs:36-40` `$to_prefixed`, and `aether_core/src/real.rs` `from_f32`, which is exact for `f32` and `f64`. -/
def toPrefixed (u : Unit) (q : Quantity) : Quantity :=
  let k := u.factor
  ⟨rnd (q.raw / k)⟩

/-- `si_prefix.rs:45-49` `$to_base`. -/
def toBase (u : Unit) (q : Quantity) : Quantity :=
  let k := u.factor
  ⟨rnd (q.raw * k)⟩

end Verif.Units
