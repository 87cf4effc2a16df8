import Verif.Ieee.Cast
import Verif.Ieee.PropsLu

/-!
# Model of discriminant analysis in machine arithmetic, `crates/aether_ml/src/classification/lda_qda.rs`

The same functions as in `Verif/ML/Model.lean`, on `f64` numbers with rounding, infinities and NaN.  Loops that treat every coordinate on its own are
written as functions of the coordinate.  The logarithm of the platform is a parameter.
-/

namespace Verif.ML.Ie

open Verif.Ieee Verif.Mat

variable {fl : ℝ → ℝ} {n k : ℕ}

/-! ## The inverse -/

/-- `math/matrix.rs:1028-1031`: scale row `k` of both matrices. -/
noncomputable def gjNormalize (s : Mat (IE binary64 fl) n n × Mat (IE binary64 fl) n n) (k : Fin n) : Mat (IE binary64 fl) n n × Mat (IE binary64 fl) n n :=
  let invd := 1 / s.1 k k
  (rng n 0 n).foldl (fun s c => (setE s.1 k c (s.1 k c * invd), setE s.2 k c (s.2 k c * invd))) s

/-- `math/matrix.rs:1034-1045`: clear column `k` in every other row of both matrices. A NaN is different from zero. -/
noncomputable def gjElim (s : Mat (IE binary64 fl) n n × Mat (IE binary64 fl) n n) (k : Fin n) : Mat (IE binary64 fl) n n × Mat (IE binary64 fl) n n :=
  open Classical in
  (rng n 0 n).foldl (fun s r =>
    if r = k then s
    else
      let f := s.1 r k
      if f ≠ 0 then
        (rng n 0 n).foldl (fun s c =>
          (setE s.1 r c (s.1 r c - f * s.1 k c), setE s.2 r c (s.2 r c - f * s.2 k c))) s
      else s) s

/-- One iteration of `inverse_gauss_jordan` (`math/matrix.rs:998-1046`). -/
noncomputable def gjStep (eps : IE binary64 fl) (s : Mat (IE binary64 fl) n n × Mat (IE binary64 fl) n n) (k : Fin n) :
    Option (Mat (IE binary64 fl) n n × Mat (IE binary64 fl) n n) :=
  let pv := pivot s.1 k
  if pv.2 ≤ eps then none
  else
    let s' := if pv.1 ≠ k then (swapRows s.1 k pv.1, swapRows s.2 k pv.1) else s
    some (gjElim (gjNormalize s' k) k)

/-- `math/matrix.rs:992-1048` `inverse_gauss_jordan`; the threshold is `1e-12`. -/
noncomputable def inverse (a : Mat (IE binary64 fl) n n) : Option (Mat (IE binary64 fl) n n) :=
  ((rng n 0 n).foldlM (gjStep (IE.ofReal (1 / 10 ^ 12))) (a, identity n)).map (·.2)

/-! ## Training -/

/-- `lda_qda.rs:29-36`, `123-130`: sum and number of the examples of a class. -/
noncomputable def classSum (data : List ((Fin n → IE binary64 fl) × ℕ)) (c : ℕ) : (Fin n → IE binary64 fl) × ℕ :=
  data.foldl (fun s d => if d.2 = c then (fun i => s.1 i + d.1 i, s.2 + 1) else s) (fun _ => 0, 0)

/-- `lda_qda.rs:39-46`, `131-140`: the mean of a class; zero for a class without examples. -/
noncomputable def classMean (data : List ((Fin n → IE binary64 fl) × ℕ)) (c : ℕ) : Fin n → IE binary64 fl :=
  let s := classSum data c
  if s.2 = 0 then fun _ => 0 else fun i => s.1 i / IE.ofCount s.2

/-- `lda_qda.rs:49-66`, `143-160`: the covariance of a class. -/
noncomputable def classCov (data : List ((Fin n → IE binary64 fl) × ℕ)) (c : ℕ) : Mat (IE binary64 fl) n n :=
  let mu := classMean data c
  let count := (classSum data c).2
  let cov : Mat (IE binary64 fl) n n := data.foldl (fun cov d =>
    if d.2 = c then fun i j => cov i j + (d.1 i - mu i) * (d.1 j - mu j) else cov) (fun _ _ => 0)
  if count > 1 then fun i j => cov i j / (IE.ofCount count - 1) else cov

/-- `lda_qda.rs:5-9` `Lda`, for `k` classes. -/
structure Lda (fl : ℝ → ℝ) (k n : ℕ) where
  means : Fin k → Fin n → IE binary64 fl
  priors : Fin k → IE binary64 fl
  pooled : Mat (IE binary64 fl) n n

/-- `lda_qda.rs:20-75` `Lda::fit`. -/
noncomputable def Lda.fit (k : ℕ) (xs : List (Fin n → IE binary64 fl)) (ys : List ℕ) : Lda fl k n :=
  let data := xs.zip ys
  let prior : ℕ → IE binary64 fl := fun c => IE.ofCount (classSum data c).2 / IE.ofCount xs.length
  { means := fun c => classMean data c
    priors := fun c => prior c
    pooled := (List.range k).foldl (fun pooled c =>
      if (classSum data c).2 = 0 then pooled else fun i j => pooled i j + classCov data c i j * prior c) (fun _ _ => 0) }

/-- `lda_qda.rs:83-103`: the discriminant of a class; `none` is a pooled covariance without inverse. -/
noncomputable def Lda.score (ln : IE binary64 fl → IE binary64 fl) (o : Lda fl k n) (x : Fin n → IE binary64 fl) (c : Fin k) : Option (IE binary64 fl) := do
  let sinv ← inverse o.pooled
  let tmp := Mat.mulVec sinv (o.means c)
  let term1 := (rng n 0 n).foldl (fun t i => t + x i * tmp i) 0
  let term2 := (rng n 0 n).foldl (fun t i => t + o.means c i * tmp i) 0
  return term1 - IE.ofReal (1 / 2) * term2 + ln (o.priors c)

/-- `lda_qda.rs:79-82`, `103-110`, `171-173`, `190-197`: the search for the greatest score. -/
noncomputable def search (k : ℕ) (score : Fin k → Option (IE binary64 fl)) : ℕ :=
  ((List.finRange k).foldl (fun (s : ℕ × IE binary64 fl) c =>
    match score c with
    | none => s
    | some v => if v > s.2 then (c.1, v) else s) (0, IE.inf true)).1

/-- `lda_qda.rs:78-110` `Lda::predict`. -/
noncomputable def Lda.predict (ln : IE binary64 fl → IE binary64 fl) (o : Lda fl k n) (x : Fin n → IE binary64 fl) : ℕ := search k (o.score ln x)

/-- `lda_qda.rs:12-16` `Qda`, for `k` classes. -/
structure Qda (fl : ℝ → ℝ) (k n : ℕ) where
  means : Fin k → Fin n → IE binary64 fl
  priors : Fin k → IE binary64 fl
  covs : Fin k → Mat (IE binary64 fl) n n

/-- `lda_qda.rs:114-167` `Qda::fit`. -/
noncomputable def Qda.fit (k : ℕ) (xs : List (Fin n → IE binary64 fl)) (ys : List ℕ) : Qda fl k n :=
  let data := xs.zip ys
  { means := fun c => classMean data c
    priors := fun c => if (classSum data c.1).2 = 0 then 0 else IE.ofCount (classSum data c).2 / IE.ofCount xs.length
    covs := fun c => if (classSum data c.1).2 = 0 then fun _ _ => 0 else classCov data c }

/-- `lda_qda.rs:174-190`: the score of a class; `none` is a covariance without inverse. -/
noncomputable def Qda.score (ln : IE binary64 fl → IE binary64 fl) (o : Qda fl k n) (x : Fin n → IE binary64 fl) (c : Fin k) : Option (IE binary64 fl) := do
  let cinv ← inverse (o.covs c)
  let det := determinant (IE.ofReal (1 / 10 ^ 12)) (o.covs c)
  let diff : Fin n → IE binary64 fl := fun i => x i - o.means c i
  let tmp := Mat.mulVec cinv diff
  let quad := (rng n 0 n).foldl (fun t i => t + diff i * tmp i) 0
  return IE.ofReal (-1 / 2) * ln det - IE.ofReal (1 / 2) * quad + ln (o.priors c)

/-- `lda_qda.rs:170-197` `Qda::predict`. -/
noncomputable def Qda.predict (ln : IE binary64 fl → IE binary64 fl) (o : Qda fl k n) (x : Fin n → IE binary64 fl) : ℕ := search k (o.score ln x)

end Verif.ML.Ie
