import Mathlib.Algebra.Order.Field.Basic
import Mathlib.Data.List.FinRange

/-!
# Model of the test helpers with not-a-number, `crates/aether_test/src/assert`

Values are `Option K` for an ordered field `K`; `none` is not-a-number. Infinities and rounding are not modelled. A panic is `none` in the
result of a helper.
-/

namespace Verif.Tools

variable {K : Type} [Field K] [LinearOrder K]

/-- Subtraction followed by `abs`. -/
def absDiff : Option K → Option K → Option K
  | some x, some y => some |x - y|
  | _, _ => none

/-- `a > b`: false if an operand is not a number. -/
def gt : Option K → Option K → Bool
  | some a, some b => decide (b < a)
  | _, _ => false

/-- `a <= b`. -/
def le : Option K → Option K → Bool
  | some a, some b => decide (a ≤ b)
  | _, _ => false

/-- `f64::max`: an operand that is not a number is ignored. -/
def fmax : Option K → Option K → Option K
  | some a, some b => some (max a b)
  | some a, none => some a
  | none, b => b

/-- The crate `approx`, `abs_diff_eq!(x, y, epsilon = tol)`: equal, or the difference is at most the tolerance. -/
def absDiffEq (x y tol : Option K) : Bool :=
  (match x, y with
    | some x, some y => decide (x = y)
    | _, _ => false) || le (absDiff x y) tol

/-- function.rs:21-29, the loop over the samples: the state is `(worst_x, max_e)`. -/
def gridStep (f0 f1 : K → Option K) (a b : K) (samples : Nat) (st : K × Option K) (i : Nat) : K × Option K :=
  let t := (i : K) / samples
  let x := a + (b - a) * t
  let e := absDiff (f1 x) (f0 x)
  if gt e st.2 then (x, e) else st

/-- function.rs:5-39 `assert_max_abs_error_on_grid`. -/
def gridAssert (f0 f1 : K → Option K) (a b : K) (samples : Nat) (tol : Option K) : Option (K × Option K) :=
  if samples = 0 then none
  else
    let st := (List.range (samples + 1)).foldl (gridStep f0 f1 a b samples) (a, some 0)
    if gt st.2 tol then none else some st

/-- vector.rs:46-69 `vector_approx_eq`: the index of the mismatch or `none` for `Ok`. -/
def vectorApproxEq {n : Nat} (a b : Fin n → Option K) (tol : Option K) : Option (Fin n) :=
  (List.finRange n).find? fun i => !absDiffEq (a i) (b i) tol

/-- vector.rs:72-78 `vector_max_abs_diff`. -/
def vectorMaxAbsDiff {n : Nat} (a b : Fin n → Option K) : Option K :=
  ((List.finRange n).map fun i => absDiff (a i) (b i)).foldl fmax (some 0)

/-- matrix.rs:51-85 `matrix_approx_eq` (the comparison of the shapes, lines 58-67, never fails). -/
def matrixApproxEq {m n : Nat} (a b : Fin m → Fin n → Option K) (tol : Option K) : Option (Fin m × Fin n) :=
  (List.finRange m).findSome? fun r => (List.finRange n).findSome? fun c =>
    if absDiffEq (a r c) (b r c) tol then none else some (r, c)

/-- matrix.rs:88-102 `matrix_max_abs_diff`. -/
def matrixMaxAbsDiff {m n : Nat} (a b : Fin m → Fin n → Option K) : Option K :=
  (List.finRange m).foldl (fun maxd r => (List.finRange n).foldl (fun maxd c =>
    let d := absDiff (a r c) (b r c)
    if gt d maxd then d else maxd) maxd) (some 0)

/-- matrix.rs:157-175 `assert_matrix_symmetric`: `true` if it does not panic. -/
def symmetricAssert {n : Nat} (a : Fin n → Fin n → Option K) (tol : Option K) : Bool :=
  (List.finRange n).all fun i => ((List.finRange n).filter fun j => decide (i < j)).all fun j => le (absDiff (a i j) (a j i)) tol

end Verif.Tools
