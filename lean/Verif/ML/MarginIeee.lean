import Verif.ML.Model
import Verif.Ieee.Cast

/-!
# Model of the perceptron and of logistic regression in machine arithmetic, `crates/aether_ml/src`

The same functions as in `Verif/ML/Model.lean`, on numbers with rounding, infinities and NaN.  Loops that treat every coordinate on its own are
written as functions of the coordinate.  The exponential of the platform is a parameter.
-/

namespace Verif.ML.Ie

open Verif.Mat Verif.Ieee

variable {F : Format} {fl : ℝ → ℝ} {n : ℕ}

/-- `regression/logistic.rs:33-36`, `classification/perceptron.rs:23-29` `predict_raw`: the score `b + w·x`, accumulated from the bias. -/
noncomputable def lscore (w : Fin n → IE F fl) (b : IE F fl) (x : Fin n → IE F fl) : IE F fl :=
  (rng n 0 n).foldl (fun s i => s + w i * x i) b

/-- `classification/perceptron.rs:8-12` `Perceptron`. -/
structure Perceptron (F : Format) (fl : ℝ → ℝ) (n : ℕ) where
  weights : Fin n → IE F fl
  bias : IE F fl
  lr : IE F fl

/-- `perceptron.rs:15-21` `new`. -/
noncomputable def Perceptron.new (F : Format) (fl : ℝ → ℝ) (n : ℕ) : Perceptron F fl n := ⟨fun _ => 0, 0, 1⟩

/-- `perceptron.rs:30-36` `predict`. -/
noncomputable def Perceptron.predict (o : Perceptron F fl n) (x : Fin n → IE F fl) : ℤ :=
  if lscore o.weights o.bias x ≥ 0 then 1 else -1

/-- `perceptron.rs:41-49`: the treatment of one example. -/
noncomputable def Perceptron.step (o : Perceptron F fl n) (d : (Fin n → IE F fl) × ℤ) : Perceptron F fl n :=
  let lab : IE F fl := if d.2 ≥ 0 then 1 else -1
  if lab * lscore o.weights o.bias d.1 ≤ 0 then
    { o with weights := fun i => o.weights i + o.lr * lab * d.1 i, bias := o.bias + o.lr * lab }
  else o

/-- `perceptron.rs:39-51` `train_epoch`. -/
noncomputable def Perceptron.trainEpoch (o : Perceptron F fl n) (xs : List (Fin n → IE F fl)) (ys : List ℤ) : Perceptron F fl n :=
  (xs.zip ys).foldl Perceptron.step o

/-- `regression/logistic.rs:10-14` `LogisticRegression`. -/
structure Logistic (F : Format) (fl : ℝ → ℝ) (n : ℕ) where
  weights : Fin n → IE F fl
  bias : IE F fl
  lr : IE F fl

/-- `logistic.rs:17-24` `new`. -/
noncomputable def Logistic.new (F : Format) (fl : ℝ → ℝ) (n : ℕ) : Logistic F fl n := ⟨fun _ => 0, 0, 1⟩

/-- `logistic.rs:27-29` `sigmoid` (and lines 106, 121). -/
noncomputable def sigmoid (exp : IE F fl → IE F fl) (x : IE F fl) : IE F fl := 1 / (1 + exp (-x))

/-- `logistic.rs:32-38` `predict_probability`. -/
noncomputable def Logistic.prob (exp : IE F fl → IE F fl) (o : Logistic F fl n) (x : Fin n → IE F fl) : IE F fl :=
  sigmoid exp (lscore o.weights o.bias x)

/-- `logistic.rs:41-47` `predict`. -/
noncomputable def Logistic.predict (exp : IE F fl → IE F fl) (o : Logistic F fl n) (x : Fin n → IE F fl) : ℕ :=
  if o.prob exp x > 1 / (1 + 1) then 1 else 0

/-- `logistic.rs:61-69`: one example added to the gradient sums. -/
noncomputable def Logistic.accum (exp : IE F fl → IE F fl) (o : Logistic F fl n) (g : (Fin n → IE F fl) × IE F fl)
    (d : (Fin n → IE F fl) × UInt8) : (Fin n → IE F fl) × IE F fl :=
  let err := o.prob exp d.1 - (if d.2 = 0 then 0 else 1)
  (fun i => g.1 i + err * d.1 i, g.2 + err)

/-- `logistic.rs:51-75` `train_epoch`. -/
noncomputable def Logistic.trainEpoch (exp : IE F fl → IE F fl) (o : Logistic F fl n) (xs : List (Fin n → IE F fl)) (ys : List UInt8) :
    Logistic F fl n :=
  if xs.length = 0 then o
  else
    let m : IE F fl := IE.ofCount xs.length
    let g := (xs.zip ys).foldl (o.accum exp) (fun _ => 0, 0)
    { o with weights := fun i => o.weights i - o.lr * (g.1 i / m), bias := o.bias - o.lr * (g.2 / m) }

end Verif.ML.Ie
