import Verif.Ieee.Cast
import Mathlib.Analysis.Real.Pi.Bounds

/-!
# Model of Gaussian Naive Bayes in machine arithmetic, `crates/aether_ml/src/classification/naive_bayes.rs`

The same functions as in `Verif/ML/Model.lean`, on `f64` numbers with rounding, infinities and NaN.  Loops that treat every coordinate on its own are
written as functions of the coordinate.  The logarithm of the platform is a parameter.
-/

namespace Verif.ML.Ie

open Verif.Ieee

variable {fl : ℝ → ℝ} {n k : ℕ}

/-- `naive_bayes.rs:5-10` `GaussianNB`, for `k` classes. -/
structure NB (fl : ℝ → ℝ) (k n : ℕ) where
  count : Fin k → ℕ
  prior : Fin k → IE binary64 fl
  mean : Fin k → Fin n → IE binary64 fl
  var : Fin k → Fin n → IE binary64 fl

/-- `naive_bayes.rs:18-23`: counts and sums; `none` is the panic of `class_count[label]` for a label that is not a class. -/
noncomputable def sums (data : List ((Fin n → IE binary64 fl) × ℕ)) : Option ((Fin k → ℕ) × (Fin k → Fin n → IE binary64 fl)) :=
  data.foldlM (fun s d =>
    if h : d.2 < k then
      some (Function.update s.1 ⟨d.2, h⟩ (s.1 ⟨d.2, h⟩ + 1), Function.update s.2 ⟨d.2, h⟩ fun i => s.2 ⟨d.2, h⟩ i + d.1 i)
    else none) (fun _ => 0, fun _ _ => 0)

/-- `naive_bayes.rs:24-30`, `38-44`: divide by the class counts. -/
noncomputable def divCounts (count : Fin k → ℕ) (a : Fin k → Fin n → IE binary64 fl) (c : Fin k) (i : Fin n) : IE binary64 fl :=
  if count c > 0 then a c i / IE.ofCount (count c) else a c i

/-- `naive_bayes.rs:32-37`: sums of squared deviations. The labels have been used as indices before, so they are classes. -/
noncomputable def squares (mean : Fin k → Fin n → IE binary64 fl) (data : List ((Fin n → IE binary64 fl) × ℕ)) : Fin k → Fin n → IE binary64 fl :=
  data.foldl (fun v d =>
    if h : d.2 < k then
      Function.update v ⟨d.2, h⟩ fun i => v ⟨d.2, h⟩ i + (d.1 i - mean ⟨d.2, h⟩ i) * (d.1 i - mean ⟨d.2, h⟩ i)
    else v) (fun _ _ => 0)

/-- `naive_bayes.rs:13-58` `fit`. -/
noncomputable def fit (k : ℕ) (xs : List (Fin n → IE binary64 fl)) (ys : List ℕ) : Option (NB fl k n) := do
  let s ← sums (xs.zip ys)
  let mean := divCounts s.1 s.2
  let var := divCounts s.1 (squares mean (xs.zip ys))
  let total := ((List.finRange k).map s.1).sum
  return ⟨s.1, fun c => IE.ofCount (s.1 c) / IE.ofCount total, mean, var⟩

/-- `naive_bayes.rs:69-73`: the term of a coordinate. -/
noncomputable def term (ln : IE binary64 fl → IE binary64 fl) (var mean x : IE binary64 fl) : IE binary64 fl :=
  let v := IE.fmax var (IE.ofReal (1 / 10 ^ 12))
  let diff := x - mean
  IE.ofReal (-1 / 2) * (ln (IE.ofReal 2 * IE.ofReal Real.pi * v) + diff * diff / v)

/-- `naive_bayes.rs:67-74`: the score of a class. -/
noncomputable def score (ln : IE binary64 fl → IE binary64 fl) (o : NB fl k n) (x : Fin n → IE binary64 fl) (c : Fin k) : IE binary64 fl :=
  (List.finRange n).foldl (fun s i => s + term ln (o.var c i) (o.mean c i) (x i)) (ln (o.prior c))

/-- `naive_bayes.rs:60-81` `predict`. -/
noncomputable def predict (ln : IE binary64 fl → IE binary64 fl) (o : NB fl k n) (x : Fin n → IE binary64 fl) : ℕ :=
  ((List.finRange k).foldl (fun (s : ℕ × IE binary64 fl) c =>
    if o.count c = 0 then s else if s.2 < score ln o x c then (c.1, score ln o x c) else s) (0, IE.inf true)).1

end Verif.ML.Ie
