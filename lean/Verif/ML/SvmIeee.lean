import Verif.ML.MarginIeee

/-!
# Model of the linear support vector machine in machine arithmetic, `crates/aether_ml/src/classification/svm.rs`

The same functions as in `Verif/ML/Model.lean`, on `f64` numbers with rounding, infinities and NaN.  Loops that treat every coordinate on its own are
written as functions of the coordinate.
-/

namespace Verif.ML.Ie

open Verif.Ieee

variable {fl : ℝ → ℝ} {n : ℕ}

/-- `svm.rs:8-13` `LinearSvm`. -/
structure Svm (fl : ℝ → ℝ) (n : ℕ) where
  weights : Fin n → IE binary64 fl
  bias : IE binary64 fl
  lr : IE binary64 fl
  c : IE binary64 fl

/-- `svm.rs:16-23` `new`. -/
noncomputable def Svm.new (fl : ℝ → ℝ) (n : ℕ) : Svm fl n := ⟨fun _ => 0, 0, 1, 1⟩

/-- `svm.rs:46-61`: one example added to the gradient sums; `svm.rs:25-31` `decision` is `lscore`. A margin that is NaN is not at least one. -/
noncomputable def Svm.accum (o : Svm fl n) (g : (Fin n → IE binary64 fl) × IE binary64 fl) (d : (Fin n → IE binary64 fl) × ℤ) :
    (Fin n → IE binary64 fl) × IE binary64 fl :=
  let y : IE binary64 fl := if d.2 ≥ 0 then 1 else -1
  let margin := y * lscore o.weights o.bias d.1
  if margin ≥ 1 then (fun i => g.1 i + 0, g.2 + 0)
  else (fun i => g.1 i + -y * d.1 i, g.2 + -y)

/-- `svm.rs:35-69` `train_epoch`. -/
noncomputable def Svm.trainEpoch (o : Svm fl n) (xs : List (Fin n → IE binary64 fl)) (ys : List ℤ) : Svm fl n :=
  if xs.length = 0 then o
  else
    let m : IE binary64 fl := IE.ofCount xs.length
    let g := (xs.zip ys).foldl o.accum (fun _ => 0, 0)
    { o with
      weights := fun i =>
        let two : IE binary64 fl := 1 + 1
        let reg := (two / (o.c * m)) * o.weights i
        o.weights i - o.lr * (g.1 i / m + reg)
      bias := o.bias - o.lr * (g.2 / m) }

end Verif.ML.Ie
