import Verif.Att.Model

/-!
# Programs over the frame-typed attitude API

The types `DirectionCosineMatrix<T, From, To>`, `Quaternion<T, From, To>`, `Euler<T, From, To>` and `Cartesian<T, Frame>` carry frames that
have no run-time content; `Att.Model` leaves them out. Here they are put back: `Expr` and `VExpr` are the programs that the compiler accepts,
built from the public operations with exactly the frame types of their signatures, and `eval` runs the model of the code on them. The frames
are the elements of a type `F`.
-/

namespace Verif.Att

open Verif.Mat

/-- The three attitude types. -/
inductive Kind where
  | dcm
  | quat
  | euler

/-- The run-time content of the attitude types: `attitude/dcm.rs:11-15`, `attitude/quaternion.rs:13-17`, `attitude/euler.rs:13-17`. -/
abbrev Val : Kind → Type
  | .dcm => Mat ℝ 3 3
  | .quat => Quat ℝ
  | .euler => Euler

/-- Attitude-valued programs. `Expr k a b` is a program of the attitude type `k` with `From = a` and `To = b`. -/
inductive Expr (F : Type) : Kind → F → F → Type where
  /-- A value made by one of the constructors that take any frames (`new`, `from_matrix`, `identity`, `rotate_x`, …). -/
  | lit {k : Kind} {a b : F} (v : Val k) : Expr F k a b
  /-- `attitude/dcm.rs:83-98` `DCM<B, C> * DCM<A, B>`. -/
  | dcmMul {a b c : F} (l : Expr F .dcm b c) (r : Expr F .dcm a b) : Expr F .dcm a c
  /-- `attitude/dcm.rs:263-276` `transpose`. -/
  | dcmTranspose {a b : F} (e : Expr F .dcm a b) : Expr F .dcm b a
  /-- `attitude/dcm.rs:117-164` `From<Quaternion>`, `From<&Quaternion>`. -/
  | dcmOfQuat {a b : F} (e : Expr F .quat a b) : Expr F .dcm a b
  /-- `attitude/dcm.rs:101-114` `From<Euler>`. -/
  | dcmOfEuler {a b : F} (e : Expr F .euler a b) : Expr F .dcm a b
  /-- `attitude/quaternion.rs:147-174` `to_dcm`. -/
  | toDcm {a b : F} (e : Expr F .quat a b) : Expr F .dcm a b
  /-- `attitude/quaternion.rs:93-101` `inverse`. -/
  | quatInverse {a b : F} (e : Expr F .quat a b) : Expr F .quat b a
  /-- `attitude/quaternion.rs:82-89` `conjugate`. -/
  | quatConj {a b : F} (e : Expr F .quat a b) : Expr F .quat a b
  /-- `attitude/quaternion.rs:65-73` `normalized`. -/
  | quatNormalized {a b : F} (e : Expr F .quat a b) : Expr F .quat a b
  /-- `attitude/quaternion.rs:361-372` `-q`. -/
  | quatNeg {a b : F} (e : Expr F .quat a b) : Expr F .quat a b
  /-- `attitude/quaternion.rs:244-274` `Quaternion<Mid, To> * Quaternion<From, Mid>`. -/
  | quatMul {a b c : F} (l : Expr F .quat b c) (r : Expr F .quat a b) : Expr F .quat a c
  /-- `attitude/rotation.rs:30-35` `Rotation<A, B>::compose(Rotation<B, C>)`; a `Rotation` is its quaternion. -/
  | compose {a b c : F} (l : Expr F .quat a b) (r : Expr F .quat b c) : Expr F .quat a c
  /-- `attitude/quaternion.rs:388-449` `TryFrom<&DirectionCosineMatrix>`, followed by `?`. -/
  | quatOfDcm {a b : F} (e : Expr F .dcm a b) : Expr F .quat a b
  /-- `attitude/quaternion.rs:451-470` `From<&Euler>`. -/
  | quatOfEuler {a b : F} (e : Expr F .euler a b) : Expr F .quat a b
  /-- `attitude/euler.rs:74-88` `From<&DirectionCosineMatrix>`. -/
  | eulerOfDcm {a b : F} (e : Expr F .dcm a b) : Expr F .euler a b
  /-- `attitude/euler.rs:38-71` `From<&Quaternion>`. -/
  | eulerOfQuat {a b : F} (e : Expr F .quat a b) : Expr F .euler a b

/-- The value of a program; `none` is the error of `TryFrom` (`attitude/quaternion.rs:446`). -/
noncomputable def Expr.eval {F : Type} : {k : Kind} → {a b : F} → Expr F k a b → Option (Val k)
  | _, _, _, .lit v => some v
  | _, _, _, .dcmMul l r => do
    let x : Mat ℝ 3 3 ← l.eval
    let y : Mat ℝ 3 3 ← r.eval
    return Att.dcmMul x y
  | _, _, _, .dcmTranspose e => do
    let x : Mat ℝ 3 3 ← e.eval
    return Att.dcmTranspose x
  | _, _, _, .dcmOfQuat e => do
    let x : Quat ℝ ← e.eval
    return Att.dcmOfQuat x
  | _, _, _, .dcmOfEuler e => do
    let x : Euler ← e.eval
    return Att.dcmOfEuler x
  | _, _, _, .toDcm e => do
    let x : Quat ℝ ← e.eval
    return x.toDcm
  | _, _, _, .quatInverse e => do
    let x : Quat ℝ ← e.eval
    return x.inv
  | _, _, _, .quatConj e => do
    let x : Quat ℝ ← e.eval
    return x.conj
  | _, _, _, .quatNormalized e => do
    let x : Quat ℝ ← e.eval
    return x.normalized
  | _, _, _, .quatNeg e => do
    let x : Quat ℝ ← e.eval
    return x.neg
  | _, _, _, .quatMul l r => do
    let x : Quat ℝ ← l.eval
    let y : Quat ℝ ← r.eval
    return x.mul y
  | _, _, _, .compose l r => do
    let x : Quat ℝ ← l.eval
    let y : Quat ℝ ← r.eval
    return composeRotation x y
  | _, _, _, .quatOfDcm e => do
    let x : Mat ℝ 3 3 ← e.eval
    Att.quatOfDcm x
  | _, _, _, .quatOfEuler e => do
    let x : Euler ← e.eval
    return Att.quatOfEuler x
  | _, _, _, .eulerOfDcm e => do
    let x : Mat ℝ 3 3 ← e.eval
    return Att.eulerOfDcm x
  | _, _, _, .eulerOfQuat e => do
    let x : Quat ℝ ← e.eval
    return Att.eulerOfQuat x

/-- Vector-valued programs, `Cartesian<T, a>`. -/
inductive VExpr (F : Type) : F → Type where
  /-- `coordinate/cartesian.rs:19-24` `new`. -/
  | lit {a : F} (v : Fin 3 → ℝ) : VExpr F a
  /-- `attitude/dcm.rs:179-233` `DCM<A, B> * Cartesian<A>`. -/
  | apply {a b : F} (m : Expr F .dcm a b) (x : VExpr F a) : VExpr F b
  /-- `attitude/quaternion.rs:134-143`, `276-317` and `coordinate/cartesian.rs:35-43`: `rotate_cartesian`, `Quaternion * Cartesian` and
  `Cartesian::transform`. -/
  | rotate {a b : F} (q : Expr F .quat a b) (x : VExpr F a) : VExpr F b
  /-- `coordinate/cartesian.rs:83-118` `+`. -/
  | add {a : F} (x y : VExpr F a) : VExpr F a
  /-- `coordinate/cartesian.rs:129-167` `-`. -/
  | sub {a : F} (x y : VExpr F a) : VExpr F a
  /-- `coordinate/cartesian.rs:177-197` `-x`. -/
  | neg {a : F} (x : VExpr F a) : VExpr F a
  /-- `coordinate/cartesian.rs:200-208` `x * s`. -/
  | scale {a : F} (x : VExpr F a) (s : ℝ) : VExpr F a
  /-- `coordinate/cartesian.rs:47-52` `cross`. -/
  | cross {a : F} (x y : VExpr F a) : VExpr F a

/-- The value of a vector program. The entrywise loops of `math/vector.rs:44-203` are pointwise operations here. -/
noncomputable def VExpr.eval {F : Type} : {a : F} → VExpr F a → Option (Fin 3 → ℝ)
  | _, .lit v => some v
  | _, .apply m x => do
    let m : Mat ℝ 3 3 ← m.eval
    let v ← x.eval
    return dcmApply m v
  | _, .rotate q x => do
    let q : Quat ℝ ← q.eval
    let v ← x.eval
    return q.rotate v
  | _, .add x y => do
    let v ← x.eval
    let w ← y.eval
    return fun i => v i + w i
  | _, .sub x y => do
    let v ← x.eval
    let w ← y.eval
    return fun i => v i - w i
  | _, .neg x => do
    let v ← x.eval
    return fun i => -v i
  | _, .scale x s => do
    let v ← x.eval
    return fun i => v i * s
  | _, .cross x y => do
    let v ← x.eval
    let w ← y.eval
    return Mat.cross v w

end Verif.Att
