import Verif.ML.Model

/-!
# Model of linear and ridge regression in any arithmetic, `crates/aether_ml/src/regression`

The code is generic in its scalar type `F: Real`.  Here `α` is that type and `cnt` is its `from_usize`.  `linear_real` and `ridge_real` (`Verif/ML/PropsTrainFloat.lean`) say that at the
reals these functions are those of `Verif/ML/Model.lean`.
-/

namespace Verif.ML.Gen

open Verif.Mat

variable {α : Type*} [Zero α] [One α] [Add α] [Sub α] [Mul α] [Div α] {n : ℕ}

/-- `linear.rs:24-30`, `ridge.rs:26-32` `predict`: the score, accumulated from the bias. -/
def score (w : Fin n → α) (b : α) (x : Fin n → α) : α := (rng n 0 n).foldl (fun s i => s + w i * x i) b

/-- `linear.rs:46-49`, `ridge.rs:47-50`: adding `e·x` and `e` to the gradient sums. -/
def accum (e : α) (x : Fin n → α) (g : (Fin n → α) × α) : (Fin n → α) × α :=
  ((rng n 0 n).foldl (fun gw i => Function.update gw i (gw i + e * x i)) g.1, g.2 + e)

/-- `linear.rs:8-12` `LinearRegression`. -/
structure Linear (α : Type*) (n : ℕ) where
  weights : Fin n → α
  bias : α
  lr : α

/-- `linear.rs:15-22` `new`. -/
def Linear.new (α : Type*) [Zero α] [One α] (n : ℕ) : Linear α n := ⟨fun _ => 0, 0, 1⟩

/-- `linear.rs:33-57` `train_epoch`. -/
def Linear.trainEpoch (cnt : ℕ → α) (o : Linear α n) (xs : List (Fin n → α)) (ys : List α) : Linear α n :=
  if xs.length = 0 then o
  else
    let m : α := cnt xs.length
    let g := (xs.zip ys).foldl (fun g d => accum (score o.weights o.bias d.1 - d.2) d.1 g) (fun _ => 0, 0)
    let two : α := 1 + 1
    { o with
      weights := (rng n 0 n).foldl (fun w i => Function.update w i (w i - o.lr * (two * g.1 i / m))) o.weights
      bias := o.bias - o.lr * (two * g.2 / m) }

/-- `ridge.rs:8-13` `RidgeRegression`. -/
structure Ridge (α : Type*) (n : ℕ) where
  weights : Fin n → α
  bias : α
  lr : α
  alpha : α

/-- `ridge.rs:34-60` `train_epoch`. -/
def Ridge.trainEpoch (cnt : ℕ → α) (o : Ridge α n) (xs : List (Fin n → α)) (ys : List α) : Ridge α n :=
  if xs.length = 0 then o
  else
    let m : α := cnt xs.length
    let g := (xs.zip ys).foldl (fun g d => accum (score o.weights o.bias d.1 - d.2) d.1 g) (fun _ => 0, 0)
    let two : α := 1 + 1
    { o with
      weights := (rng n 0 n).foldl (fun w i =>
        Function.update w i (w i - o.lr * ((two * g.1 i / m) + two * o.alpha * w i))) o.weights
      bias := o.bias - o.lr * (two * g.2 / m) }

end Verif.ML.Gen
