import Verif.Ieee.Cast

/-!
# Model of the discrete distributions in machine arithmetic, `crates/aether_stats/src/distributions`

The same functions as in `Verif/Stats/Model.lean`, on `f32` or `f64` numbers with rounding, infinities and NaN.
-/

namespace Verif.Stats.Ie

open Verif.Ieee

variable {F : Format} {fl : ℝ → ℝ}

/-- `categorical.rs:18-20` `pmf` of the categorical distribution with the given probabilities. -/
noncomputable def catPmf (probs : List (IE F fl)) (k : ℕ) : IE F fl := if h : k < probs.length then probs[k] else 0

/-- `categorical.rs:23-31` `fit_mle`; `none` is the panic of `sum` on overflow (debug builds). -/
noncomputable def catFit (counts : List ℕ) : Option (List (IE F fl)) := do
  let total ← counts.foldlM (fun s c => if s + c < 2 ^ 64 then some (s + c) else none) 0
  let totalF : IE F fl := IE.ofCount (max total 1)
  return counts.map fun c => IE.ofCount c / totalF

/-- `bernoulli.rs:5-7` `Bernoulli`. -/
structure Bernoulli (F : Format) (fl : ℝ → ℝ) where
  p : IE F fl

/-- `bernoulli.rs:17-23` `pmf`. -/
noncomputable def Bernoulli.pmf (b : Bernoulli F fl) (x : UInt8) : IE F fl := if x = 0 then 1 - b.p else if x = 1 then b.p else 0

/-- `bernoulli.rs:26-34` `fit_mle`. The sum of bytes cannot overflow a 64-bit `usize` for a slice that fits in memory. -/
noncomputable def Bernoulli.fit (samples : List UInt8) : Bernoulli F fl :=
  ⟨IE.ofCount (samples.foldl (fun sum s => sum + s.toNat) 0) / IE.ofCount (max samples.length 1)⟩

end Verif.Stats.Ie
