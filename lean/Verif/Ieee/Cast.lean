import Verif.Ieee.Order

/-!
# Model of the scalar casts, `crates/aether_core/src/real/real.rs`, and of `f64::max`

`as` between floating-point types rounds to a nearest number of the target, keeps infinities and NaN, and gives an infinity when the rounded
value is too large; `as` from an unsigned integer rounds to nearest.
-/

namespace Verif.Ieee

variable {F G : Format} {fl gl : ℝ → ℝ}

/-- `crates/aether_core/src/real/real.rs:191-204` `from_f32`, `from_f64`, `to_f32`, `to_f64`, `from_f16`, `to_f16`, `from_f128`, `to_f128`:
`self as T`. -/
noncomputable def IE.cast (a : IE F fl) : IE G gl := match a.val with
  | .nan => IE.nan
  | .inf s => IE.inf s
  | .num x => IE.ofReal x

/-- `real.rs:193-194` `from_u32`, `from_usize`: `x as T`. -/
noncomputable def IE.ofCount (n : ℕ) : IE F fl := IE.ofReal (n : ℝ)

/-- `f64::max` of the standard library: NaN loses against a number. -/
noncomputable def IE.fmax (a b : IE F fl) : IE F fl :=
  open Classical in if a.val = .nan then b else if b.val = .nan then a else if a < b then b else a

end Verif.Ieee
