import Verif.Mat.Vec
import Verif.Rand.Model
import Mathlib.Analysis.SpecialFunctions.Log.Basic
import Mathlib.Analysis.SpecialFunctions.Trigonometric.Basic

/-!
# Model of `aether_stats` and of the normal draws of `aether_rand`

Scalars are real numbers, `T::EPSILON` is a parameter `eps`.
-/

namespace Verif.Stats

open Verif.Mat

variable {n m : ℕ}

/-- `crates/aether_stats/src/covariance.rs:6-12` `CovarianceError`. -/
inductive CovErr where
  | emptySamples
  | insufficientSamples
  | sampleCountMismatch
  | zeroVarianceAxis
  deriving DecidableEq

section Generic

/- The functions of `covariance.rs` are generic in the scalar type: `α` is the reals here, and rounded numbers in `Verif/Stats/PropsCovFloat.lean`. -/
variable {α : Type} [Zero α] [One α] [Add α] [Sub α] [Mul α] [Div α] [NatCast α] [LE α] [DecidableLE α]

/-- `covariance.rs:14-25` `mean`; the division is that of `math/vector.rs:206-218`. -/
def mean (samples : List (Fin n → α)) : Except CovErr (Fin n → α) :=
  if samples.isEmpty then .error .emptySamples
  else .ok fun i => samples.foldl (fun mean sample => mean + sample) (fun _ => 0) i / (samples.length : α)

/-- `covariance.rs:41-46`, `72-78`: add the outer product of two vectors. -/
def addOuter (cov : Mat α n m) (x : Fin n → α) (y : Fin m → α) : Mat α n m :=
  (rng n 0 n).foldl (fun cov row => (rng m 0 m).foldl (fun cov col => setE cov row col (cov row col + x row * y col)) cov) cov

/-- `covariance.rs:27-51` `sample_covariance`. -/
def sampleCovariance (samples : List (Fin n → α)) : Except CovErr (Mat α n n) :=
  if samples.isEmpty then .error .emptySamples
  else if samples.length < 2 then .error .insufficientSamples
  else do
    let mu ← mean samples
    let scale : α := 1 / ((samples.length - 1 : ℕ) : α)
    let cov := samples.foldl (fun cov sample => addOuter cov (sample - mu) (sample - mu)) (zeros n n)
    return mulS cov scale

/-- `covariance.rs:53-83` `sample_cross_covariance`. -/
def crossCovariance (xs : List (Fin n → α)) (ys : List (Fin m → α)) : Except CovErr (Mat α n m) :=
  if xs.length ≠ ys.length then .error .sampleCountMismatch
  else if xs.isEmpty then .error .emptySamples
  else if xs.length < 2 then .error .insufficientSamples
  else do
    let mx ← mean xs
    let my ← mean ys
    let scale : α := 1 / ((xs.length - 1 : ℕ) : α)
    let cov := (xs.zip ys).foldl (fun cov p => addOuter cov (p.1 - mx) (p.2 - my)) (zeros n m)
    return mulS cov scale

/-- `covariance.rs:85-98` `standard_deviations_from_covariance`, given the square root. -/
def standardDeviations (sqrt : α → α) (eps : α) (cov : Mat α n n) : Except CovErr (Fin n → α) :=
  (rng n 0 n).foldlM (fun sd i =>
    if cov i i ≤ eps then .error .zeroVarianceAxis else .ok (Function.update sd i (sqrt (cov i i)))) (fun _ => 0)

/-- `covariance.rs:100-114` `correlation_from_covariance`. -/
def correlation (sqrt : α → α) (eps : α) (cov : Mat α n n) : Except CovErr (Mat α n n) := do
  let sd ← standardDeviations sqrt eps cov
  return fillLoop (fun row col => cov row col / (sd row * sd col)) (zeros n n)

/-- `covariance.rs:116-131` `covariance_from_correlation`. -/
def covarianceOf (corr : Mat α n n) (sd : Fin n → α) : Mat α n n :=
  fillLoop (fun row col => corr row col * sd row * sd col) (zeros n n)

end Generic

/-! ## Distributions -/

/-- `distributions/bernoulli.rs:5-7` `Bernoulli`. -/
structure Bernoulli where
  p : ℝ

/-- `bernoulli.rs:17-23` `pmf`. -/
def Bernoulli.pmf (b : Bernoulli) (x : UInt8) : ℝ := if x = 0 then 1 - b.p else if x = 1 then b.p else 0

/-- `bernoulli.rs:26-34` `fit_mle`. The sum of bytes cannot overflow a 64-bit `usize` for a slice that fits in memory. -/
noncomputable def Bernoulli.fit (samples : List UInt8) : Bernoulli :=
  ⟨((samples.foldl (fun sum s => sum + s.toNat) 0 : ℕ) : ℝ) / ((max samples.length 1 : ℕ) : ℝ)⟩

/-- `distributions/categorical.rs:18-20` `pmf` of the categorical distribution with the given probabilities. -/
def catPmf (probs : List ℝ) (k : ℕ) : ℝ := if h : k < probs.length then probs[k] else 0

/-- `categorical.rs:23-31` `fit_mle`; `none` is the panic of `sum` on overflow (debug builds). -/
noncomputable def catFit (counts : List ℕ) : Option (List ℝ) := do
  let total ← counts.foldlM (fun s c => if s + c < 2 ^ 64 then some (s + c) else none) 0
  let totalF : ℝ := ((max total 1 : ℕ) : ℝ)
  return counts.map fun (c : ℕ) => (c : ℝ) / totalF

/-- `distributions/gaussian.rs:6-9` `Gaussian`. -/
structure Gauss where
  mu : ℝ
  sigma : ℝ

/-- `gaussian.rs:36-45` `pdf`. -/
noncomputable def Gauss.pdf (g : Gauss) (x : ℝ) : ℝ :=
  let two : ℝ := 1 + 1
  let half := 1 / two
  let var := max (g.sigma * g.sigma) 0
  let coeff := 1 / Real.sqrt (two * Real.pi * var)
  let diff := x - g.mu
  coeff * Real.exp (-(half * diff * diff / var))

/-- `gaussian.rs:48-59` `fit_mle`. -/
noncomputable def Gauss.fit (eps : ℝ) (samples : List ℝ) : Gauss :=
  if samples.isEmpty then ⟨0, 1⟩
  else
    let nF : ℝ := samples.length
    let mu := samples.foldl (fun sum s => sum + s) 0 / nF
    let s2 := samples.foldl (fun s2 s => s2 + (s - mu) * (s - mu)) 0
    ⟨mu, max (Real.sqrt (s2 / nF)) eps⟩

/-- Box–Muller, `crates/aether_rand/src/randomizers/xor_shift.rs:37-47` `normal01_real` and `gaussian.rs:20-33`
`sample`, from the two uniform draws; `none` is a NaN: the logarithm of a number that is not positive, or the square root
of a negative number. -/
noncomputable def boxMuller (eps u1 u2 : ℝ) : Option ℝ :=
  let u1 := if u1 ≤ 0 then eps else u1
  if u1 ≤ 0 then none
  else
    let a := -(2 * Real.log u1)
    if a < 0 then none else some (Real.sqrt a * Real.cos (2 * Real.pi * u2))

/-- `xor_shift.rs:37-47` `normal01_real` for `f64`. -/
noncomputable def normal01 (g : Rand.Gen) : Option ℝ × Rand.Gen :=
  let (u1, g) := g.nextUnit
  let (u2, g) := g.nextUnit
  (boxMuller (2⁻¹ ^ 52) u1 u2, g)

/-- `gaussian.rs:20-33` `sample` for `f64`, as a function of the two uniform draws `next_f64`. -/
noncomputable def Gauss.draw (d : Gauss) (u1 u2 : ℝ) : Option ℝ :=
  (boxMuller (2⁻¹ ^ 52) u1 u2).map fun z => d.sigma * z + d.mu

/-- `gaussian.rs:20-33` `sample` for `f64`. -/
noncomputable def Gauss.sample (d : Gauss) (g : Rand.Gen) : Option ℝ × Rand.Gen :=
  let (u1, g) := g.nextUnit
  let (u2, g) := g.nextUnit
  (d.draw u1 u2, g)

/-- `distributions/multivariate.rs:16-30` `pdf` of the multivariate normal distribution with given mean and covariance;
`none` is the panic of `expect`. `eps` is the threshold of `inverse_gauss_jordan` and `determinant` (`1e-12` in both). -/
noncomputable def mvnPdf (eps : ℝ) (mu : Fin n → ℝ) (cov : Mat ℝ n n) (x : Fin n → ℝ) : Option ℝ := do
  let diff := (rng n 0 n).foldl (fun d i => Function.update d i (d i - mu i)) x
  let inv ← gaussJordan eps cov
  let quad := dot diff (mulVec inv diff)
  let det := determinant eps cov
  let denom := Real.sqrt ((2 * Real.pi) ^ n * det)
  return Real.exp (-0.5 * quad) / denom

end Verif.Stats
