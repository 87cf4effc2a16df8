import Verif.Opt.Model
import Mathlib.Analysis.SpecialFunctions.Log.Basic
import Mathlib.Analysis.SpecialFunctions.Trigonometric.Basic
import Mathlib.Order.WithBot

/-!
# Model of `aether_ml`

Scalars are real numbers, `Vector<F, N>` is `Fin n → ℝ`, a data set is a list of inputs and a list of labels, walked with
`zip` as in the code. The parameter vector of the optimiser has length `N + 1`; `fit_with_optimizer` panics for any other
length (`assert_eq!(M, N + 1)`), so only that length is modelled.
-/

namespace Verif.ML

open Verif.Mat Verif.Opt

variable {n : ℕ}

/-- The score `b + w·x`, accumulated from the bias: `regression/linear.rs:24-30` `predict`, `ridge.rs:26-32` `predict`,
`logistic.rs:33-36`, `classification/perceptron.rs:23-29` `predict_raw`, `svm.rs:25-31` `decision`. -/
def score (w : Fin n → ℝ) (b : ℝ) (x : Fin n → ℝ) : ℝ :=
  (rng n 0 n).foldl (fun s i => s + w i * x i) b

/-- The same score inside the closures of `fit_with_optimizer`, from the packed parameters (`linear.rs:87-90` and the same
lines in the other files). -/
def scoreP (pv : Fin (n + 1) → ℝ) (x : Fin n → ℝ) : ℝ :=
  (rng n 0 n).foldl (fun s i => s + pv i.castSucc * x i) (pv (Fin.last n))

/-- Packing of weights and bias (`linear.rs:75-80` and the same lines in the other files). -/
def pack (w : Fin n → ℝ) (b : ℝ) : Fin (n + 1) → ℝ :=
  Function.update ((rng n 0 n).foldl (fun p i => Function.update p i.castSucc (w i)) (fun _ => 0)) (Fin.last n) b

/-- Adding `e·x` and `e` to the gradient sums (`linear.rs:46-49`, `ridge.rs:47-50`, `logistic.rs:65-68`, `svm.rs:56-59`). -/
def accum (e : ℝ) (x : Fin n → ℝ) (g : (Fin n → ℝ) × ℝ) : (Fin n → ℝ) × ℝ :=
  ((rng n 0 n).foldl (fun gw i => Function.update gw i (gw i + e * x i)) g.1, g.2 + e)

/-- The same on a packed gradient (`linear.rs:105-108` and the same lines in the other files). -/
def accumP (e : ℝ) (x : Fin n → ℝ) (g : Fin (n + 1) → ℝ) : Fin (n + 1) → ℝ :=
  let g := (rng n 0 n).foldl (fun g i => Function.update g i.castSucc (g i.castSucc + e * x i)) g
  Function.update g (Fin.last n) (g (Fin.last n) + e)

/-- `for i in 0..M { grads[i] = grads[i] / m; }` (`linear.rs:110-112`, `logistic.rs:128-130`, `perceptron.rs:106-108`). -/
noncomputable def divAll {k : ℕ} (m : ℝ) (g : Fin k → ℝ) : Fin k → ℝ :=
  (rng k 0 k).foldl (fun g i => Function.update g i (g i / m)) g

/-- Unpacking of the optimum (`linear.rs:117-120` and the same lines in the other files). -/
def unpackW (w : Fin n → ℝ) (p : Fin (n + 1) → ℝ) : Fin n → ℝ :=
  (rng n 0 n).foldl (fun w i => Function.update w i (p i.castSucc)) w

/-! ## Linear and ridge regression -/

/-- `regression/linear.rs:8-12` `LinearRegression`. -/
structure Linear (n : ℕ) where
  weights : Fin n → ℝ
  bias : ℝ
  lr : ℝ

/-- `linear.rs:33-57` `train_epoch`. -/
noncomputable def Linear.trainEpoch (o : Linear n) (xs : List (Fin n → ℝ)) (ys : List ℝ) : Linear n :=
  if xs.length = 0 then o
  else
    let m : ℝ := xs.length
    let g := (xs.zip ys).foldl (fun g d => accum (score o.weights o.bias d.1 - d.2) d.1 g) (fun _ => 0, 0)
    let two : ℝ := 1 + 1
    { o with
      weights := (rng n 0 n).foldl (fun w i => Function.update w i (w i - o.lr * (two * g.1 i / m))) o.weights
      bias := o.bias - o.lr * (two * g.2 / m) }

/-- `linear.rs:83-95`: the objective given to the optimiser. -/
noncomputable def Linear.objective (m : ℝ) (data : List ((Fin n → ℝ) × ℝ)) (pv : Fin (n + 1) → ℝ) : ℝ :=
  data.foldl (fun loss d => loss + (scoreP pv d.1 - d.2) * (scoreP pv d.1 - d.2)) 0 / m

/-- `linear.rs:97-114`: the gradient given to the optimiser. -/
noncomputable def Linear.gradient (m : ℝ) (data : List ((Fin n → ℝ) × ℝ)) (pv : Fin (n + 1) → ℝ) : Fin (n + 1) → ℝ :=
  let two : ℝ := 1 + 1
  divAll m (data.foldl (fun g d => accumP (two * (scoreP pv d.1 - d.2)) d.1 g) (fun _ => 0))

/-- `linear.rs:61-121` `fit_with_optimizer`; `none` means the optimiser has not returned (see `Verif.Opt`). -/
noncomputable def Linear.fit (o : Linear n) (xs : List (Fin n → ℝ)) (ys : List ℝ) (opt : GD ℝ (n + 1)) (fuel : ℕ) :
    Option (Linear n) :=
  if xs.length = 0 then some o
  else
    let m : ℝ := xs.length
    (opt.minimize (Linear.objective m (xs.zip ys)) (Linear.gradient m (xs.zip ys)) fuel (pack o.weights o.bias)).map fun r =>
      { o with weights := unpackW o.weights r.1, bias := r.1 (Fin.last n) }

/-- `regression/ridge.rs:8-13` `RidgeRegression`. -/
structure Ridge (n : ℕ) where
  weights : Fin n → ℝ
  bias : ℝ
  lr : ℝ
  alpha : ℝ

/-- `ridge.rs:34-60` `train_epoch`. -/
noncomputable def Ridge.trainEpoch (o : Ridge n) (xs : List (Fin n → ℝ)) (ys : List ℝ) : Ridge n :=
  if xs.length = 0 then o
  else
    let m : ℝ := xs.length
    let g := (xs.zip ys).foldl (fun g d => accum (score o.weights o.bias d.1 - d.2) d.1 g) (fun _ => 0, 0)
    let two : ℝ := 1 + 1
    { o with
      weights := (rng n 0 n).foldl (fun w i =>
        Function.update w i (w i - o.lr * ((two * g.1 i / m) + two * o.alpha * w i))) o.weights
      bias := o.bias - o.lr * (two * g.2 / m) }

/-- `ridge.rs:83-99`: the objective given to the optimiser. -/
noncomputable def Ridge.objective (alpha m : ℝ) (data : List ((Fin n → ℝ) × ℝ)) (pv : Fin (n + 1) → ℝ) : ℝ :=
  let loss := data.foldl (fun loss d => loss + (scoreP pv d.1 - d.2) * (scoreP pv d.1 - d.2)) 0
  let rw := (rng n 0 n).foldl (fun rw i => rw + pv i.castSucc * pv i.castSucc) 0
  (loss / m) + alpha * rw

/-- `ridge.rs:101-119`: the gradient given to the optimiser. -/
noncomputable def Ridge.gradient (alpha m : ℝ) (data : List ((Fin n → ℝ) × ℝ)) (pv : Fin (n + 1) → ℝ) : Fin (n + 1) → ℝ :=
  let two : ℝ := 1 + 1
  let g := data.foldl (fun g d => accumP (two * (scoreP pv d.1 - d.2)) d.1 g) (fun _ => 0)
  let g := (rng n 0 n).foldl (fun g i =>
    Function.update g i.castSucc (g i.castSucc / m + two * alpha * pv i.castSucc)) g
  Function.update g (Fin.last n) (g (Fin.last n) / m)

/-- `ridge.rs:63-126` `fit_with_optimizer`. -/
noncomputable def Ridge.fit (o : Ridge n) (xs : List (Fin n → ℝ)) (ys : List ℝ) (opt : GD ℝ (n + 1)) (fuel : ℕ) :
    Option (Ridge n) :=
  if xs.length = 0 then some o
  else
    let m : ℝ := xs.length
    (opt.minimize (Ridge.objective o.alpha m (xs.zip ys)) (Ridge.gradient o.alpha m (xs.zip ys)) fuel
      (pack o.weights o.bias)).map fun r =>
      { o with weights := unpackW o.weights r.1, bias := r.1 (Fin.last n) }

/-! ## Logistic regression -/

/-- `regression/logistic.rs:10-14` `LogisticRegression`. -/
structure Logistic (n : ℕ) where
  weights : Fin n → ℝ
  bias : ℝ
  lr : ℝ

/-- `logistic.rs:27-29` `sigmoid` (and lines 106, 121). -/
noncomputable def sigmoid (x : ℝ) : ℝ := 1 / (1 + Real.exp (-x))

/-- `logistic.rs:32-38` `predict_probability`. -/
noncomputable def Logistic.prob (o : Logistic n) (x : Fin n → ℝ) : ℝ := sigmoid (score o.weights o.bias x)

/-- `logistic.rs:41-47` `predict`. -/
noncomputable def Logistic.predict (o : Logistic n) (x : Fin n → ℝ) : ℕ := if o.prob x > 1 / (1 + 1) then 1 else 0

/-- `logistic.rs:63`, `107`, `122`: a `u8` label as a number. -/
noncomputable def labelF (y : UInt8) : ℝ := if y = 0 then 0 else 1

/-- `logistic.rs:51-75` `train_epoch`. -/
noncomputable def Logistic.trainEpoch (o : Logistic n) (xs : List (Fin n → ℝ)) (ys : List UInt8) : Logistic n :=
  if xs.length = 0 then o
  else
    let m : ℝ := xs.length
    let g := (xs.zip ys).foldl (fun g d => accum (o.prob d.1 - labelF d.2) d.1 g) (fun _ => 0, 0)
    { o with
      weights := (rng n 0 n).foldl (fun w i => Function.update w i (w i - o.lr * (g.1 i / m))) o.weights
      bias := o.bias - o.lr * (g.2 / m) }

/-- `logistic.rs:97-112`: the objective given to the optimiser. -/
noncomputable def Logistic.objective (m : ℝ) (data : List ((Fin n → ℝ) × UInt8)) (pv : Fin (n + 1) → ℝ) : ℝ :=
  let tiny : ℝ := 1 / (1 + (1 + 1))
  data.foldl (fun loss d =>
    let p := sigmoid (scoreP pv d.1)
    let yv := labelF d.2
    loss - (yv * Real.log (p + tiny) + (1 - yv) * Real.log (1 - p + tiny))) 0 / m

/-- `logistic.rs:114-132`: the gradient given to the optimiser. -/
noncomputable def Logistic.gradient (m : ℝ) (data : List ((Fin n → ℝ) × UInt8)) (pv : Fin (n + 1) → ℝ) :
    Fin (n + 1) → ℝ :=
  divAll m (data.foldl (fun g d => accumP (sigmoid (scoreP pv d.1) - labelF d.2) d.1 g) (fun _ => 0))

/-- `logistic.rs:78-139` `fit_with_optimizer`. -/
noncomputable def Logistic.fit (o : Logistic n) (xs : List (Fin n → ℝ)) (ys : List UInt8) (opt : GD ℝ (n + 1)) (fuel : ℕ) :
    Option (Logistic n) :=
  if xs.length = 0 then some o
  else
    let m : ℝ := xs.length
    (opt.minimize (Logistic.objective m (xs.zip ys)) (Logistic.gradient m (xs.zip ys)) fuel
      (pack o.weights o.bias)).map fun r =>
      { o with weights := unpackW o.weights r.1, bias := r.1 (Fin.last n) }

/-! ## Perceptron and linear SVM -/

/-- `classification/perceptron.rs:42`, `81`, `97`, `svm.rs:46`, `99`, `117`: the sign a label stands for. Labels are `i8` in
the code, any integer here. -/
def sign (y : ℤ) : ℝ := if y ≥ 0 then 1 else -1

/-- `classification/perceptron.rs:8-12` `Perceptron`. -/
structure Perceptron (n : ℕ) where
  weights : Fin n → ℝ
  bias : ℝ
  lr : ℝ

/-- `perceptron.rs:15-21` `new`. -/
def Perceptron.new (n : ℕ) : Perceptron n := ⟨fun _ => 0, 0, 1⟩

/-- `perceptron.rs:30-36` `predict`. -/
noncomputable def Perceptron.predict (o : Perceptron n) (x : Fin n → ℝ) : ℤ :=
  if score o.weights o.bias x ≥ 0 then 1 else -1

/-- `perceptron.rs:41-49`: the treatment of one example. -/
noncomputable def Perceptron.step (o : Perceptron n) (d : (Fin n → ℝ) × ℤ) : Perceptron n :=
  let pred := score o.weights o.bias d.1
  let lab := sign d.2
  if lab * pred ≤ 0 then
    { o with
      weights := (rng n 0 n).foldl (fun w i => Function.update w i (w i + o.lr * lab * d.1 i)) o.weights
      bias := o.bias + o.lr * lab }
  else o

/-- `perceptron.rs:39-51` `train_epoch`. -/
noncomputable def Perceptron.trainEpoch (o : Perceptron n) (xs : List (Fin n → ℝ)) (ys : List ℤ) : Perceptron n :=
  (xs.zip ys).foldl Perceptron.step o

/-- `perceptron.rs:73-88`: the objective given to the optimiser. -/
noncomputable def Perceptron.objective (m : ℝ) (data : List ((Fin n → ℝ) × ℤ)) (pv : Fin (n + 1) → ℝ) : ℝ :=
  data.foldl (fun loss d =>
    let val := -sign d.2 * scoreP pv d.1
    if val > 0 then loss + val else loss) 0 / m

/-- `perceptron.rs:90-110`: the gradient given to the optimiser. -/
noncomputable def Perceptron.gradient (m : ℝ) (data : List ((Fin n → ℝ) × ℤ)) (pv : Fin (n + 1) → ℝ) : Fin (n + 1) → ℝ :=
  divAll m (data.foldl (fun g d =>
    let val := -sign d.2 * scoreP pv d.1
    if val > 0 then accumP (-sign d.2) d.1 g else g) (fun _ => 0))

/-- `perceptron.rs:54-117` `fit_with_optimizer`. -/
noncomputable def Perceptron.fit (o : Perceptron n) (xs : List (Fin n → ℝ)) (ys : List ℤ) (opt : GD ℝ (n + 1)) (fuel : ℕ) :
    Option (Perceptron n) :=
  if xs.length = 0 then some o
  else
    let m : ℝ := xs.length
    (opt.minimize (Perceptron.objective m (xs.zip ys)) (Perceptron.gradient m (xs.zip ys)) fuel
      (pack o.weights o.bias)).map fun r =>
      { o with weights := unpackW o.weights r.1, bias := r.1 (Fin.last n) }

/-- `classification/svm.rs:8-13` `LinearSvm`. -/
structure Svm (n : ℕ) where
  weights : Fin n → ℝ
  bias : ℝ
  lr : ℝ
  c : ℝ

/-- `svm.rs:35-69` `train_epoch`. -/
noncomputable def Svm.trainEpoch (o : Svm n) (xs : List (Fin n → ℝ)) (ys : List ℤ) : Svm n :=
  if xs.length = 0 then o
  else
    let m : ℝ := xs.length
    let g := (xs.zip ys).foldl (fun g d =>
      let margin := sign d.2 * score o.weights o.bias d.1
      if margin ≥ 1 then ((rng n 0 n).foldl (fun gw i => Function.update gw i (gw i + 0)) g.1, g.2 + 0)
      else accum (-sign d.2) d.1 g) (fun _ => 0, 0)
    { o with
      weights := (rng n 0 n).foldl (fun w i =>
        let two : ℝ := 1 + 1
        let reg := (two / (o.c * m)) * w i
        Function.update w i (w i - o.lr * ((g.1 i / m) + reg))) o.weights
      bias := o.bias - o.lr * (g.2 / m) }

/-- `svm.rs:92-112`: the objective given to the optimiser. -/
noncomputable def Svm.objective (c m : ℝ) (data : List ((Fin n → ℝ) × ℤ)) (pv : Fin (n + 1) → ℝ) : ℝ :=
  let loss := data.foldl (fun loss d =>
    let margin := sign d.2 * scoreP pv d.1
    if margin < 1 then loss + (1 - margin) else loss) 0
  let rw := (rng n 0 n).foldl (fun rw i => rw + pv i.castSucc * pv i.castSucc) 0
  let two : ℝ := 1 + 1
  loss / m + (rw / (two * c))

/-- `svm.rs:114-135`: the gradient given to the optimiser. -/
noncomputable def Svm.gradient (c m : ℝ) (data : List ((Fin n → ℝ) × ℤ)) (pv : Fin (n + 1) → ℝ) : Fin (n + 1) → ℝ :=
  let g := data.foldl (fun g d =>
    let margin := sign d.2 * scoreP pv d.1
    if margin < 1 then accumP (-sign d.2) d.1 g else g) (fun _ => 0)
  let g := (rng n 0 n).foldl (fun g i => Function.update g i.castSucc (g i.castSucc / m + pv i.castSucc / c)) g
  Function.update g (Fin.last n) (g (Fin.last n) / m)

/-- `svm.rs:72-142` `fit_with_optimizer`. -/
noncomputable def Svm.fit (o : Svm n) (xs : List (Fin n → ℝ)) (ys : List ℤ) (opt : GD ℝ (n + 1)) (fuel : ℕ) : Option (Svm n) :=
  if xs.length = 0 then some o
  else
    let m : ℝ := xs.length
    (opt.minimize (Svm.objective o.c m (xs.zip ys)) (Svm.gradient o.c m (xs.zip ys)) fuel
      (pack o.weights o.bias)).map fun r =>
      { o with weights := unpackW o.weights r.1, bias := r.1 (Fin.last n) }

/-! ## Gaussian classifiers

Numbers that may be NaN are `Option ℝ`, with `none` for NaN; the running best score, which starts at `-inf`, is a
`WithBot ℝ`. -/

/-- Floating-point division of a number that is not negative: `0/0` is NaN; `x/0` for `x > 0` does not occur below. -/
noncomputable def fdiv (a b : ℝ) : Option ℝ := if b = 0 then none else some (a / b)

/-- `ln` of a prior: NaN for NaN or a negative number, `-inf` for zero. -/
noncomputable def fln : Option ℝ → Option (WithBot ℝ)
  | none => none
  | some x => if x < 0 then none else if x = 0 then some ⊥ else some (Real.log x)

/-- `if score > best_score { best_score = score; best = c; }` (`naive_bayes.rs:75-78`, `lda_qda.rs:103-106`, `188-191`); a
NaN score compares false. -/
noncomputable def better (s : ℕ × WithBot ℝ) (c : ℕ) : Option (WithBot ℝ) → ℕ × WithBot ℝ
  | none => s
  | some v => if v > s.2 then (c, v) else s

/-- `classification/naive_bayes.rs:5-10` `GaussianNB`, for `k` classes. -/
structure NB (k n : ℕ) where
  count : Fin k → ℕ
  prior : Fin k → Option ℝ
  mean : Fin k → Fin n → ℝ
  var : Fin k → Fin n → ℝ

/-- `naive_bayes.rs:18-23`: counts and sums; `none` is the panic of `class_count[label]` for a label that is not a class. -/
def NB.sums {k : ℕ} (data : List ((Fin n → ℝ) × ℕ)) : Option ((Fin k → ℕ) × (Fin k → Fin n → ℝ)) :=
  data.foldlM (fun s d =>
    if h : d.2 < k then
      let c : Fin k := ⟨d.2, h⟩
      some (Function.update s.1 c (s.1 c + 1),
        (rng n 0 n).foldl (fun m i => setE m c i (m c i + d.1 i)) s.2)
    else none) (fun _ => 0, fun _ _ => 0)

/-- `naive_bayes.rs:24-30`, `38-44`: divide by the class counts. -/
noncomputable def NB.divCounts {k : ℕ} (count : Fin k → ℕ) (a : Fin k → Fin n → ℝ) : Fin k → Fin n → ℝ :=
  (rng k 0 k).foldl (fun a c =>
    if count c > 0 then (rng n 0 n).foldl (fun a i => setE a c i (a c i / (count c : ℝ))) a else a) a

/-- `naive_bayes.rs:32-37`: sums of squared deviations. The labels have been used as indices before, so they are classes. -/
def NB.squares {k : ℕ} (mean : Fin k → Fin n → ℝ) (data : List ((Fin n → ℝ) × ℕ)) : Fin k → Fin n → ℝ :=
  data.foldl (fun v d =>
    if h : d.2 < k then
      let c : Fin k := ⟨d.2, h⟩
      (rng n 0 n).foldl (fun v i => setE v c i (v c i + (d.1 i - mean c i) * (d.1 i - mean c i))) v
    else v) (fun _ _ => 0)

/-- `naive_bayes.rs:13-58` `fit`. -/
noncomputable def NB.fit (k : ℕ) (xs : List (Fin n → ℝ)) (ys : List ℕ) : Option (NB k n) := do
  let s ← NB.sums (xs.zip ys)
  let mean := NB.divCounts s.1 s.2
  let var := NB.divCounts s.1 (NB.squares mean (xs.zip ys))
  let total := (rng k 0 k).foldl (fun t c => t + s.1 c) 0
  return ⟨s.1, fun c => fdiv (s.1 c) total, mean, var⟩

/-- `naive_bayes.rs:68-74`: the score of a class; `floor` is `1e-12`. -/
noncomputable def NB.score {k : ℕ} (floor : ℝ) (o : NB k n) (x : Fin n → ℝ) (c : Fin k) : Option (WithBot ℝ) :=
  (fln (o.prior c)).map fun s => (rng n 0 n).foldl (fun (s : WithBot ℝ) i =>
    let var := max (o.var c i) floor
    let diff := x i - o.mean c i
    s + ((-0.5 * (Real.log (2 * Real.pi * var) + (diff * diff) / var) : ℝ) : WithBot ℝ)) s

/-- `naive_bayes.rs:60-81` `predict`. -/
noncomputable def NB.predict {k : ℕ} (floor : ℝ) (o : NB k n) (x : Fin n → ℝ) : ℕ :=
  ((rng k 0 k).foldl (fun s c => if o.count c = 0 then s else better s c.1 (o.score floor x c)) (0, ⊥)).1

/-- `lda_qda.rs:26-36`, `120-129`: sum and count of the samples of class `c`. -/
def classSum (data : List ((Fin n → ℝ) × ℕ)) (c : ℕ) : (Fin n → ℝ) × ℕ :=
  data.foldl (fun s d =>
    if d.2 = c then ((rng n 0 n).foldl (fun m i => Function.update m i (m i + d.1 i)) s.1, s.2 + 1) else s) (fun _ => 0, 0)

/-- `lda_qda.rs:43-46`, `136-139`: the class mean; zero for a class without samples (`39-42`, `130-131`). -/
noncomputable def classMean (data : List ((Fin n → ℝ) × ℕ)) (c : ℕ) : Fin n → ℝ :=
  let s := classSum data c
  if s.2 = 0 then fun _ => 0
  else (rng n 0 n).foldl (fun m i => Function.update m i (m i / (s.2 : ℝ))) s.1

/-- `lda_qda.rs:49-66`, `142-158`: the class covariance. -/
noncomputable def classCov (data : List ((Fin n → ℝ) × ℕ)) (c : ℕ) : Mat ℝ n n :=
  let mu := classMean data c
  let count := (classSum data c).2
  let cov : Mat ℝ n n := data.foldl (fun cov d =>
    if d.2 = c then
      let diff : Fin n → ℝ := (rng n 0 n).foldl (fun f i => Function.update f i (d.1 i - mu i)) (fun _ => 0)
      (rng n 0 n).foldl (fun cov i => (rng n 0 n).foldl (fun cov j => setE cov i j (cov i j + diff i * diff j)) cov) cov
    else cov) (fun _ _ => 0)
  if count > 1 then fun i j => cov i j / ((count : ℝ) - 1) else cov

/-- `lda_qda.rs:5-9` `Lda`, for `k` classes. -/
structure Lda (k n : ℕ) where
  means : Fin k → Fin n → ℝ
  priors : Fin k → Option ℝ
  pooled : Mat ℝ n n

/-- `lda_qda.rs:19-75` `Lda::fit`. Without samples (`x_data` empty) the priors are NaN; classes without samples do not
contribute to the pooled covariance. -/
noncomputable def Lda.fit (k : ℕ) (xs : List (Fin n → ℝ)) (ys : List ℕ) : Lda k n :=
  let data := xs.zip ys
  let m : ℝ := xs.length
  { means := fun c => classMean data c
    priors := fun c => fdiv ((classSum data c).2 : ℝ) m
    pooled := (rng k 0 k).foldl (fun pooled c =>
      let count := (classSum data c.1).2
      if count = 0 then pooled
      else fun i j => pooled i j + classCov data c.1 i j * ((count : ℝ) / m)) (fun _ _ => 0) }

/-- `lda_qda.rs:83-107`: the discriminant of a class; the outer `none` is a singular pooled covariance. -/
noncomputable def Lda.score {k : ℕ} (eps : ℝ) (o : Lda k n) (x : Fin n → ℝ) (c : Fin k) : Option (Option (WithBot ℝ)) := do
  let sinv ← gaussJordan eps o.pooled
  let tmp := Mat.mulVec sinv (o.means c)
  let term1 := (rng n 0 n).foldl (fun t i => t + x i * tmp i) 0
  let term2 := (rng n 0 n).foldl (fun t i => t + o.means c i * tmp i) 0
  return (fln (o.priors c)).map fun lp => ((term1 - 0.5 * term2 : ℝ) : WithBot ℝ) + lp

/-- `lda_qda.rs:78-110` `Lda::predict`; `eps` is the threshold of `inverse_gauss_jordan`. -/
noncomputable def Lda.predict {k : ℕ} (eps : ℝ) (o : Lda k n) (x : Fin n → ℝ) : ℕ :=
  ((rng k 0 k).foldl (fun s c =>
    match o.score eps x c with
    | none => s
    | some v => better s c.1 v) (0, ⊥)).1

/-- `lda_qda.rs:12-16` `Qda`, for `k` classes. -/
structure Qda (k n : ℕ) where
  means : Fin k → Fin n → ℝ
  priors : Fin k → Option ℝ
  covs : Fin k → Mat ℝ n n

/-- `lda_qda.rs:114-167` `Qda::fit`. -/
noncomputable def Qda.fit (k : ℕ) (xs : List (Fin n → ℝ)) (ys : List ℕ) : Qda k n :=
  let data := xs.zip ys
  let m : ℝ := xs.length
  { means := fun c => classMean data c
    priors := fun c => if (classSum data c).2 = 0 then some 0 else fdiv ((classSum data c).2 : ℝ) m
    covs := fun c => if (classSum data c).2 = 0 then fun _ _ => 0 else classCov data c }

/-- `lda_qda.rs:174-187`: the score of a class; the outer `none` is a singular covariance. `ln` of a determinant is NaN
when it is negative (it is not zero here, see `C26_consistent`). -/
noncomputable def Qda.score {k : ℕ} (eps : ℝ) (o : Qda k n) (x : Fin n → ℝ) (c : Fin k) : Option (Option (WithBot ℝ)) := do
  let cinv ← gaussJordan eps (o.covs c)
  let det := determinant eps (o.covs c)
  let diff : Fin n → ℝ := (rng n 0 n).foldl (fun f i => Function.update f i (x i - o.means c i)) (fun _ => 0)
  let tmp := Mat.mulVec cinv diff
  let quad := (rng n 0 n).foldl (fun t i => t + diff i * tmp i) 0
  return if det < 0 then none else
    (fln (o.priors c)).map fun lp => ((-0.5 * Real.log det - 0.5 * quad : ℝ) : WithBot ℝ) + lp

/-- `lda_qda.rs:168-195` `Qda::predict`. -/
noncomputable def Qda.predict {k : ℕ} (eps : ℝ) (o : Qda k n) (x : Fin n → ℝ) : ℕ :=
  ((rng k 0 k).foldl (fun s c =>
    match o.score eps x c with
    | none => s
    | some v => better s c.1 v) (0, ⊥)).1

end Verif.ML
