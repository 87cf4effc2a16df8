import Verif.Ieee.Cast
import Mathlib.Analysis.Real.Pi.Bounds

/-!
# Model of the normal distribution in machine arithmetic, `crates/aether_stats/src/distributions/gaussian.rs`

The same functions as in `Verif/Stats/Model.lean`, on `f64` numbers with rounding, infinities and NaN.  The exponential of the platform is a parameter.
-/

namespace Verif.Stats.Ie

open Verif.Ieee

variable {fl : ℝ → ℝ}

/-- `gaussian.rs:6-9` `Gaussian`. -/
structure Gauss (fl : ℝ → ℝ) where
  mu : IE binary64 fl
  sigma : IE binary64 fl

/-- `gaussian.rs:35-44` `pdf`. -/
noncomputable def Gauss.pdf (exp : IE binary64 fl → IE binary64 fl) (g : Gauss fl) (x : IE binary64 fl) : IE binary64 fl :=
  let two : IE binary64 fl := 1 + 1
  let half := 1 / two
  let var := IE.fmax (g.sigma * g.sigma) 0
  let coeff := 1 / IE.sqrt (two * IE.ofReal Real.pi * var)
  let diff := x - g.mu
  coeff * exp (-(half * diff * diff / var))

/-- `gaussian.rs:47-59` `fit_mle`; `F::EPSILON` is `2 ^ -52`. -/
noncomputable def Gauss.fit (samples : List (IE binary64 fl)) : Gauss fl :=
  if samples.isEmpty then ⟨0, 1⟩
  else
    let nF : IE binary64 fl := IE.ofCount samples.length
    let mu := samples.foldl (fun sum s => sum + s) 0 / nF
    let s2 := samples.foldl (fun s2 s => s2 + (s - mu) * (s - mu)) 0
    ⟨mu, IE.fmax (IE.sqrt (s2 / nF)) (IE.num (2 ^ (-52 : ℤ)))⟩

end Verif.Stats.Ie
