import Verif.Num.Loops
import Mathlib.Algebra.Order.Group.Abs
import Mathlib.Algebra.Field.Defs

/-!
# Model of the matrix and vector code

`Matrix<T, M, N>` (`crates/aether_core/src/math/matrix.rs:18-27`) is `Mat α m n = Fin m → Fin n → α`;
`Vector<T, N>` (`math/vector.rs:21-24`) is `Fin n → α`. Mutation of an entry is `Function.update`. The
scalar type carries only the operations (no laws), so the index-level theorems hold for IEEE floats too;
functions that compare scalars are stated over an ordered field, i.e. in exact arithmetic.
-/

namespace Verif.Mat

set_option linter.dupNamespace false in
/-- `crates/aether_core/src/math/matrix.rs:18-27` `Matrix { data: [[T; N]; M] }`. -/
abbrev Mat (α : Type*) (m n : Nat) := Fin m → Fin n → α

/-- Assignment `a.data[r][c] = v` (`matrix.rs:1063-1087`, `IndexMut`). -/
def setE {α : Type*} {m n : Nat} (a : Mat α m n) (r : Fin m) (c : Fin n) (v : α) : Mat α m n :=
  Function.update a r (Function.update (a r) c v)

section LawFree
variable {α : Type*} {m n p : Nat}

/-- `math/matrix.rs:192-206` `zeros`. -/
def zeros [Zero α] (m n : Nat) : Mat α m n := fun _ _ => 0

/-- `math/matrix.rs:200-205` `ones`. -/
def ones [One α] (m n : Nat) : Mat α m n := fun _ _ => 1

/-- The body shared by the two paths of `mul_matrix_strided`: `math/algorithms.rs:20-23` and `46-49`,
`for j in j0..j1 { result[i][j] = result[i][j] + a * rhs[k][j] }`. -/
def mulInner [Add α] [Mul α] (a : α) (rhs : Mat α n p) (i : Fin m) (k : Fin n) (j0 j1 : Nat)
    (res : Mat α m p) : Mat α m p :=
  (rng p j0 j1).foldl (fun res j => setE res i j (res i j + a * rhs k j)) res

/-- `math/algorithms.rs:14-27`: the path for sizes up to 8. -/
def mulDirect [Zero α] [Add α] [Mul α] (a : Mat α m n) (rhs : Mat α n p) : Mat α m p :=
  (rng m 0 m).foldl (fun res i =>
    (rng n 0 n).foldl (fun res k => mulInner (a i k) rhs i k 0 p res) res) (zeros m p)

/-- `math/algorithms.rs:30` `const BLOCK: usize = 16`. -/
def BLOCK : Nat := 16

/-- `math/algorithms.rs:41-53`: `while j0 < P { …; j0 += BLOCK }` for a fixed row and a fixed `k` block. -/
def mulColBlocks [Add α] [Mul α] (a : Mat α m n) (rhs : Mat α n p) (i : Fin m) (k0 kmax : Nat)
    (j0 : Nat) (res : Mat α m p) : Mat α m p :=
  if j0 < p then
    mulColBlocks a rhs i k0 kmax (j0 + BLOCK)
      ((rng n k0 kmax).foldl
        (fun res k => mulInner (a i k) rhs i k j0 (min (j0 + BLOCK) p) res) res)
  else res
termination_by p - j0
decreasing_by simp only [BLOCK]; omega

/-- `math/algorithms.rs:37-56`: `while k0 < N { …; k0 += BLOCK }` for a fixed row. -/
def mulRowBlocks [Add α] [Mul α] (a : Mat α m n) (rhs : Mat α n p) (i : Fin m)
    (k0 : Nat) (res : Mat α m p) : Mat α m p :=
  if k0 < n then
    mulRowBlocks a rhs i (k0 + BLOCK) (mulColBlocks a rhs i k0 (min (k0 + BLOCK) n) 0 res)
  else res
termination_by n - k0
decreasing_by simp only [BLOCK]; omega

/-- `math/algorithms.rs:32-59`: the blocked path. -/
def mulBlocked [Zero α] [Add α] [Mul α] (a : Mat α m n) (rhs : Mat α n p) : Mat α m p :=
  (rng m 0 m).foldl (fun res i => mulRowBlocks a rhs i 0 res) (zeros m p)

/-- `math/algorithms.rs:12-60` `mul_matrix_strided`, which is what every `Matrix * Matrix` operator calls
(`math/matrix.rs:117-155`). -/
def mul [Zero α] [Add α] [Mul α] (a : Mat α m n) (rhs : Mat α n p) : Mat α m p :=
  if m ≤ 8 ∧ n ≤ 8 ∧ p ≤ 8 then mulDirect a rhs else mulBlocked a rhs

/-- `math/algorithms.rs:63-78` `mul_vector_unrolled`; every `Matrix * Vector` operator calls it
(`math/matrix.rs:158-188`). -/
def mulVec [Zero α] [Add α] [Mul α] (a : Mat α m n) (v : Fin n → α) : Fin m → α :=
  (rng m 0 m).foldl (fun res i =>
    Function.update res i ((rng n 0 n).foldl (fun sum j => sum + a i j * v j) 0)) (fun _ => 0)

/-- `math/matrix.rs:410-423` `mul_vec4_scalar`, the fallback of `mul_vec4_simd`. -/
def mulVec4 [Zero α] [Add α] [Mul α] (a : Mat α m 4) (v : Fin 4 → α) : Fin m → α :=
  (rng m 0 m).foldl (fun res i =>
    Function.update res i (a i 0 * v 0 + a i 1 * v 1 + a i 2 * v 2 + a i 3 * v 3)) (fun _ => 0)

/-- `math/matrix.rs:328-341` `mul_vec6_scalar`, the fallback of `mul_vec6_simd`. -/
def mulVec6 [Zero α] [Add α] [Mul α] (a : Mat α m 6) (v : Fin 6 → α) : Fin m → α :=
  (rng m 0 m).foldl (fun res i =>
    Function.update res i (a i 0 * v 0 + a i 1 * v 1 + a i 2 * v 2 + a i 3 * v 3 + a i 4 * v 4
      + a i 5 * v 5)) (fun _ => 0)

/-- `math/algorithms.rs:88-94` `dot_generic`, called by `Vector::dot` (`math/vector.rs:276-278`). -/
def dot [Zero α] [Add α] [Mul α] (u v : Fin n → α) : α :=
  (rng n 0 n).foldl (fun acc i => acc + u i * v i) 0

/-- `math/algorithms.rs:97-103` `norm_generic` with the square root as a parameter; called by
`Vector::norm` (`math/vector.rs:280-282`). -/
def norm [Zero α] [Add α] [Mul α] (sqrt : α → α) (v : Fin n → α) : α :=
  sqrt ((rng n 0 n).foldl (fun acc i => acc + v i * v i) 0)

/-- The shape of every elementwise operator: start from some matrix and overwrite every entry, row by
row. -/
def fillLoop (f : Fin m → Fin n → α) (init : Mat α m n) : Mat α m n :=
  (rng m 0 m).foldl (fun res r => (rng n 0 n).foldl (fun res c => setE res r c (f r c)) res) init

/-- `math/matrix.rs:40-52` `Add`. -/
def add [Add α] (a b : Mat α m n) : Mat α m n := fillLoop (fun r c => a r c + b r c) a

/-- `math/matrix.rs:55-67` `Sub`. -/
def sub [Sub α] (a b : Mat α m n) : Mat α m n := fillLoop (fun r c => a r c - b r c) a

/-- `math/matrix.rs:70-82` `Div<T>`. -/
def divS [Div α] (a : Mat α m n) (s : α) : Mat α m n := fillLoop (fun r c => a r c / s) a

/-- `math/matrix.rs:85-97` `Neg`. -/
def neg [Neg α] (a : Mat α m n) : Mat α m n := fillLoop (fun r c => -a r c) a

/-- `math/matrix.rs:100-112` `Mul<T>`. -/
def mulS [Mul α] (a : Mat α m n) (s : α) : Mat α m n := fillLoop (fun r c => a r c * s) a

/-- `math/matrix.rs:618-626` `outer`. -/
def outer [Zero α] [Mul α] (a : Fin m → α) (b : Fin n → α) : Mat α m n :=
  fillLoop (fun i j => a i * b j) (zeros m n)

/-- `math/matrix.rs:963-971` `transpose`: writes `out[(c, r)] = self[(r, c)]`. -/
def transpose [Zero α] (a : Mat α m n) : Mat α n m :=
  (rng m 0 m).foldl (fun out r => (rng n 0 n).foldl (fun out c => setE out c r (a r c)) out) (zeros n m)

/-- `math/matrix.rs:221-236` `diag`, `diag_from_vector`. -/
def diag [Zero α] (d : Fin n → α) : Mat α n n :=
  (rng n 0 n).foldl (fun data i => setE data i i (d i)) (zeros n n)

/-- `math/matrix.rs:211-217` `identity`. -/
def identity [Zero α] [One α] (n : Nat) : Mat α n n :=
  (rng n 0 n).foldl (fun data i => setE data i i 1) (zeros n n)

/-- `math/matrix.rs:633-639` `trace`. -/
def trace [Zero α] [Add α] (a : Mat α n n) : α := (rng n 0 n).foldl (fun sum i => sum + a i i) 0

/-- `math/matrix.rs:731-739` `as_flat_array`: writes `flat[i * 4 + j] = data[i][j]`. -/
def asFlat (a : Mat α 4 4) : Fin 16 → α :=
  (rng 4 0 4).foldl (fun flat i => (rng 4 0 4).foldl (fun flat j =>
    Function.update flat ⟨i.1 * 4 + j.1, by omega⟩ (a i j)) flat) (fun _ => a 0 0)

/-- `math/matrix.rs:973-984` `max_abs`. -/
def maxAbs [Lattice α] [AddGroup α] [DecidableLT α] (a : Mat α m n) : α :=
  (rng m 0 m).foldl (fun mx r => (rng n 0 n).foldl (fun mx c =>
    if |a r c| > mx then |a r c| else mx) mx) 0

/-- `math/vector.rs:499-514` `cross`. -/
def cross [Sub α] [Mul α] (a b : Fin 3 → α) : Fin 3 → α :=
  ![a 1 * b 2 - a 2 * b 1, a 2 * b 0 - a 0 * b 2, a 0 * b 1 - a 1 * b 0]

/-- `math/vector.rs:651-670` `FromIterator`: `none` is the panic (too few or too many elements). The
recursion is on the number of elements still to be written. -/
def fromIter : (n : Nat) → List α → Option (Fin n → α)
  | 0, [] => some (fun i => i.elim0)
  | 0, _ :: _ => none
  | _ + 1, [] => none
  | n + 1, x :: xs => (fromIter n xs).map (fun v => Fin.cons x v)

end LawFree

/-! ## Pivoted elimination

The factorisations and the triangular solves assume no laws of their scalars, so they can be run in exact
arithmetic (an ordered field) and in rounded arithmetic alike. -/

/-- `Real::abs` (`real/real.rs:24`, `81`, `130`). -/
class AbsVal (K : Type*) where
  /-- The absolute value. -/
  absV : K → K

export AbsVal (absV)

/-- In an ordered field: the absolute value. -/
instance {K : Type*} [Field K] [LinearOrder K] : AbsVal K := ⟨fun x => |x|⟩

section Elim
variable {K : Type*} {n k : Nat}

/-- The pivot search of `determinant` (`math/matrix.rs:656-664`), `inverse_gauss_jordan` (`1000-1008`) and
`lu_decompose` (`numerical_methods/solvers/lu.rs:22-27`): the row and absolute value of the first entry of
largest absolute value in column `k`, rows `k..n`. -/
def pivot [AbsVal K] [LT K] [DecidableLT K] (a : Mat K n n) (k : Fin n) : Fin n × K :=
  (rng n (k.1 + 1) n).foldl (fun s r => if absV (a r k) > s.2 then (r, absV (a r k)) else s)
    (k, absV (a k k))

/-- The row swap `for c in 0..N { let t = a[(k,c)]; a[(k,c)] = a[(p,c)]; a[(p,c)] = t; }`
(`math/matrix.rs:672-676`, `1015-1023`, `numerical_methods/solvers/lu.rs:32-36`). -/
def swapRows {m : Nat} (a : Mat K n m) (k p : Fin n) : Mat K n m :=
  (rng m 0 m).foldl (fun a c => setE (setE a k c (a p c)) p c (a k c)) a

/-- `math/matrix.rs:684-689`: eliminate below the pivot, columns `k+1..N` only. -/
def detElim [Sub K] [Mul K] [Div K] (a : Mat K n n) (k : Fin n) : Mat K n n :=
  (rng n (k.1 + 1) n).foldl (fun a' r =>
    (rng n (k.1 + 1) n).foldl (fun a'' c => setE a'' r c (a'' r c - a' r k / a k k * a'' k c)) a') a

/-- One iteration of the loop of `determinant` (`math/matrix.rs:654-690`); `none` is the early
`return T::ZERO` of line 667. -/
def detStep [Neg K] [Sub K] [Mul K] [Div K] [AbsVal K] [LT K] [DecidableLT K] [LE K] [DecidableLE K]
    (eps : K) (s : Mat K n n × K) (k : Fin n) : Option (Mat K n n × K) :=
  let pv := pivot s.1 k
  if pv.2 ≤ eps then none
  else
    let s' := if pv.1 ≠ k then (swapRows s.1 k pv.1, -s.2) else s
    some (detElim s'.1 k, s'.2 * s'.1 k k)

/-- `math/matrix.rs:647-693` `determinant`, with the threshold (`1e-12` in the code) as a parameter. -/
def determinant [Zero K] [One K] [Neg K] [Sub K] [Mul K] [Div K] [AbsVal K] [LT K] [DecidableLT K] [LE K]
    [DecidableLE K] (eps : K) (a : Mat K n n) : K :=
  match (rng n 0 n).foldlM (detStep eps) (a, 1) with
  | none => 0
  | some s => s.2

/-- `numerical_methods/solvers/lu.rs:5-9` `LuDecomp`. `piv[i]` is an index `< N` by construction here; in
the code it is a `usize` (`LuDecomp` has public fields, so a caller could store anything). -/
structure Lu (K : Type*) (n : Nat) where
  lu : Mat K n n
  piv : Fin n → Fin n
  sign : Int

/-- `numerical_methods/solvers/lu.rs:43-50`: multipliers and rank-1 update. -/
def luElim [Sub K] [Mul K] [Div K] (a : Mat K n n) (k : Fin n) : Mat K n n :=
  (rng n (k.1 + 1) n).foldl (fun a' i =>
    let b := setE a' i k (a' i k / a k k)
    let lik := b i k
    (rng n (k.1 + 1) n).foldl (fun a'' j => setE a'' i j (a'' i j - lik * a'' k j)) b) a

/-- `piv.swap(k, p)` (`numerical_methods/solvers/lu.rs:37`). -/
def swapIdx {β : Type*} (f : Fin n → β) (k p : Fin n) : Fin n → β :=
  Function.update (Function.update f k (f p)) p (f k)

/-- One iteration of `lu_decompose` (`numerical_methods/solvers/lu.rs:20-51`). -/
def luStep [Sub K] [Mul K] [Div K] [AbsVal K] [LT K] [DecidableLT K] [LE K] [DecidableLE K]
    (eps : K) (s : Lu K n) (k : Fin n) : Option (Lu K n) :=
  let pv := pivot s.lu k
  if pv.2 ≤ eps then none
  else
    let s' : Lu K n :=
      if pv.1 ≠ k then ⟨swapRows s.lu k pv.1, swapIdx s.piv k pv.1, -s.sign⟩ else s
    some { s' with lu := luElim s'.lu k }

/-- `numerical_methods/solvers/lu.rs:14-54` `lu_decompose`; `eps` is `T::EPSILON`. -/
def luDecompose [Sub K] [Mul K] [Div K] [AbsVal K] [LT K] [DecidableLT K] [LE K] [DecidableLE K]
    (eps : K) (a : Mat K n n) : Option (Lu K n) :=
  (rng n 0 n).foldlM (luStep eps) ⟨a, id, 1⟩

/-- `numerical_methods/solvers/lu.rs:59-86` `LuDecomp::solve`. -/
def Lu.solve [Zero K] [Sub K] [Mul K] [Div K] (d : Lu K n) (b : Fin n → K) : Fin n → K :=
  let x := (rng n 0 n).foldl (fun x i => Function.update x i (b (d.piv i))) (fun _ => 0)
  let y := (rng n 0 n).foldl (fun x i =>
    Function.update x i ((rng n 0 i.1).foldl (fun s j => s - d.lu i j * x j) (x i))) x
  (rng n 0 n).reverse.foldl (fun x i =>
    Function.update x i ((rng n (i.1 + 1) n).foldl (fun s j => s - d.lu i j * x j) (x i) / d.lu i i)) y

/-- `numerical_methods/solvers/lu.rs:89-127` `LuDecomp::solve_multi`. -/
def Lu.solveMulti [Zero K] [Sub K] [Mul K] [Div K] (d : Lu K n) (b : Mat K n k) : Mat K n k :=
  let x := (rng k 0 k).foldl (fun x col =>
    let tmp := (rng n 0 n).foldl (fun t i => Function.update t i (x (d.piv i) col)) (fun _ => 0)
    (rng n 0 n).foldl (fun x i => setE x i col (tmp i)) x) b
  let y := (rng n 0 n).foldl (fun x i => (rng k 0 k).foldl (fun x col =>
    setE x i col ((rng n 0 i.1).foldl (fun s j => s - d.lu i j * x j col) (x i col))) x) x
  (rng n 0 n).reverse.foldl (fun x i => (rng k 0 k).foldl (fun x col =>
    setE x i col ((rng n (i.1 + 1) n).foldl (fun s j => s - d.lu i j * x j col) (x i col) / d.lu i i)) x) y

/-- `numerical_methods/solvers/lu.rs:132-135` `Matrix::solve`. -/
def solve [Zero K] [Sub K] [Mul K] [Div K] [AbsVal K] [LT K] [DecidableLT K] [LE K] [DecidableLE K]
    (eps : K) (a : Mat K n n) (b : Fin n → K) : Option (Fin n → K) :=
  (luDecompose eps a).map (·.solve b)

/-- `numerical_methods/solvers/lu.rs:137-140` `Matrix::solve_multi`. -/
def solveMulti [Zero K] [Sub K] [Mul K] [Div K] [AbsVal K] [LT K] [DecidableLT K] [LE K] [DecidableLE K]
    (eps : K) (a : Mat K n n) (b : Mat K n k) : Option (Mat K n k) :=
  (luDecompose eps a).map (·.solveMulti b)

/-- `numerical_methods/solvers/spd.rs:15-25`: the body of the `j` loop of `cholesky_lower`. -/
def cholEntry [Zero K] [Sub K] [Mul K] [Div K] [LE K] [DecidableLE K] (sqrt : K → K) (a : Mat K n n) (i : Fin n) (l : Mat K n n) (j : Fin n) :
    Option (Mat K n n) :=
  let s := (rng n 0 j.1).foldl (fun s k => s - l i k * l j k) (a i j)
  if i = j then
    if s ≤ 0 then none else some (setE l i j (sqrt s))
  else some (setE l i j (s / l j j))

/-- `numerical_methods/solvers/spd.rs:14-30`: one row of `cholesky_lower`. -/
def cholRow [Zero K] [Sub K] [Mul K] [Div K] [LE K] [DecidableLE K] (sqrt : K → K) (a : Mat K n n) (l : Mat K n n) (i : Fin n) : Option (Mat K n n) :=
  ((rng n 0 (i.1 + 1)).foldlM (cholEntry sqrt a i) l).map (fun l =>
    (rng n (i.1 + 1) n).foldl (fun l j => setE l i j 0) l)

/-- `numerical_methods/solvers/spd.rs:11-33` `cholesky_lower`. -/
def cholesky [Zero K] [Sub K] [Mul K] [Div K] [LE K] [DecidableLE K] (sqrt : K → K) (a : Mat K n n) : Option (Mat K n n) :=
  (rng n 0 n).foldlM (cholRow sqrt a) (zeros n n)

/-- `numerical_methods/solvers/spd.rs:38-63` `CholLower::solve`. -/
def cholSolveWith [Sub K] [Mul K] [Div K] (l : Mat K n n) (b : Fin n → K) : Fin n → K :=
  let y := (rng n 0 n).foldl (fun y i =>
    Function.update y i ((rng n 0 i.1).foldl (fun s k => s - l i k * y k) (y i) / l i i)) b
  (rng n 0 n).reverse.foldl (fun x i =>
    Function.update x i ((rng n (i.1 + 1) n).foldl (fun s k => s - l k i * x k) (x i) / l i i)) y

/-- `numerical_methods/solvers/spd.rs:68-71` `cholesky_solve`. -/
def choleskySolve [Zero K] [Sub K] [Mul K] [Div K] [LE K] [DecidableLE K] (sqrt : K → K) (a : Mat K n n) (b : Fin n → K) : Option (Fin n → K) :=
  (cholesky sqrt a).map (fun l => cholSolveWith l b)

end Elim

/-! ## Inverses (exact arithmetic) -/

section Field
variable {K : Type*} [Field K] [LinearOrder K] {n k : Nat}

/-- `math/matrix.rs:699-725`: `Matrix<T, 3, 3>::inverse`. -/
def inverse3 (eps : K) (m : Mat K 3 3) : Option (Mat K 3 3) :=
  let det := determinant eps m
  if |det| ≤ eps then none
  else
    let inv_det := 1 / det
    some ![![(m 1 1 * m 2 2 - m 1 2 * m 2 1) * inv_det,
             -(m 0 1 * m 2 2 - m 0 2 * m 2 1) * inv_det,
             (m 0 1 * m 1 2 - m 0 2 * m 1 1) * inv_det],
           ![-(m 1 0 * m 2 2 - m 1 2 * m 2 0) * inv_det,
             (m 0 0 * m 2 2 - m 0 2 * m 2 0) * inv_det,
             -(m 0 0 * m 1 2 - m 1 0 * m 0 2) * inv_det],
           ![(m 1 0 * m 2 1 - m 1 1 * m 2 0) * inv_det,
             -(m 0 0 * m 2 1 - m 0 1 * m 2 0) * inv_det,
             (m 0 0 * m 1 1 - m 0 1 * m 1 0) * inv_det]]

/-- `math/matrix.rs:1028-1031`: scale row `k` of both matrices. -/
def gjNormalize (s : Mat K n n × Mat K n n) (k : Fin n) : Mat K n n × Mat K n n :=
  let invd := 1 / s.1 k k
  (rng n 0 n).foldl (fun s c => (setE s.1 k c (s.1 k c * invd), setE s.2 k c (s.2 k c * invd))) s

/-- `math/matrix.rs:1034-1045`: clear column `k` in every other row of both matrices. -/
def gjElim (s : Mat K n n × Mat K n n) (k : Fin n) : Mat K n n × Mat K n n :=
  (rng n 0 n).foldl (fun s r =>
    if r = k then s
    else
      let f := s.1 r k
      if f ≠ 0 then
        (rng n 0 n).foldl (fun s c =>
          (setE s.1 r c (s.1 r c - f * s.1 k c), setE s.2 r c (s.2 r c - f * s.2 k c))) s
      else s) s

/-- One iteration of `inverse_gauss_jordan` (`math/matrix.rs:998-1046`). The swap loop of lines 1015-1023
exchanges both matrices in one pass; here it is one pass for each, which touches disjoint storage. -/
def gjStep (eps : K) (s : Mat K n n × Mat K n n) (k : Fin n) : Option (Mat K n n × Mat K n n) :=
  let pv := pivot s.1 k
  if pv.2 ≤ eps then none
  else
    let s' := if pv.1 ≠ k then (swapRows s.1 k pv.1, swapRows s.2 k pv.1) else s
    some (gjElim (gjNormalize s' k) k)

/-- `math/matrix.rs:992-1048` `inverse_gauss_jordan`. -/
def gaussJordan (eps : K) (a : Mat K n n) : Option (Mat K n n) :=
  ((rng n 0 n).foldlM (gjStep eps) (a, identity n)).map (·.2)

end Field

end Verif.Mat
