import Verif.Ieee.Cast
import Verif.Rand.Model
import Mathlib.Analysis.Real.Pi.Bounds

/-!
# Model of uniform and normal draws in machine arithmetic, `crates/aether_rand` and `crates/aether_stats/src/distributions/gaussian.rs`

The same functions as in `Verif/Rand/Model.lean` and `Verif/Stats/Model.lean`, on numbers with rounding, infinities and NaN: `F` is the format of the
caller, `f64` that of the generator.  The logarithm and the cosine of the platform are parameters.
-/

namespace Verif.Stats.Ie

open Verif.Ieee

variable {F : Format} {fl dl : ℝ → ℝ}

/-- `xor_shift.rs:25-29` `next_real`; the division is in `f64`. -/
noncomputable def nextReal (dl : ℝ → ℝ) (g : Rand.Gen) : IE F fl × Rand.Gen :=
  let (u, g) := g.nextU64
  let unit : IE binary64 dl := IE.ofCount (u >>> 11).toNat / IE.ofCount (2 ^ 53)
  (unit.cast, g)

/-- `xor_shift.rs:37-47` `normal01_real`; `T::EPSILON` is `2 ^ (1 - p)`. -/
noncomputable def normal01 (dl : ℝ → ℝ) (ln cos : IE F fl → IE F fl) (g : Rand.Gen) : IE F fl × Rand.Gen :=
  let (u1, g) := nextReal dl g
  let u1 : IE F fl := if u1 ≤ 0 then IE.num (2 ^ (1 - F.p : ℤ)) else u1
  let (u2, g) := nextReal dl g
  let two : IE F fl := 1 + 1
  let r := IE.sqrt (-(two * ln u1))
  let theta := two * IE.ofReal Real.pi * u2
  (r * cos theta, g)

/-- `gaussian.rs:20-33` `sample` of the distribution with the given mean and standard deviation. -/
noncomputable def draw (ln cos : IE binary64 dl → IE binary64 dl) (mu sigma : IE F fl) (g : Rand.Gen) : IE F fl × Rand.Gen :=
  let (u1, g) := nextReal dl g
  let u1 : IE binary64 dl := if u1 ≤ 0 then IE.num (2 ^ (-52 : ℤ)) else u1
  let (u2, g) := nextReal dl g
  let r := IE.sqrt (IE.num (-2) * ln u1)
  let theta := IE.num 2 * IE.ofReal Real.pi * u2
  let z0 := r * cos theta
  let z : IE F fl := z0.cast
  (sigma * z + mu, g)

end Verif.Stats.Ie
