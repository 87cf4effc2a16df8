import Verif.Mat.Model

/-!
# Model of tensor offsets, serialisation and the approximate-equality helpers
-/

namespace Verif.Mat

/-! ## Tensor views -/

/-- `crates/aether_core/src/math/tensor.rs:64-73` `offset`. The two `debug_assert`s are not modelled (they
are absent from release builds); `none` is the panic of `idx[shape.len()-1-ax]` when `idx` is shorter than
the shape. `usize` overflow is not modelled: for an in-bounds index the offset is below the storage length. -/
def offset (shape idx : List Nat) : Option Nat :=
  (shape.reverse.zipIdx.foldlM (fun (s : Nat × Nat) (p : Nat × Nat) =>
    (idx[shape.length - 1 - p.2]?).map (fun i => (s.1 + i * s.2, s.2 * p.1))) (0, 1)).map (·.1)

/-- `math/tensor.rs:76-78` `TensorView::get`; `none` is the out-of-range panic. -/
def viewGet {α : Type*} (data : List α) (shape idx : List Nat) : Option α :=
  (offset shape idx).bind (fun o => data[o]?)

/-- `math/tensor.rs:81-84` `TensorViewMut::get_mut` followed by an assignment. -/
def viewSet {α : Type*} (data : List α) (shape idx : List Nat) (v : α) : Option (List α) :=
  (offset shape idx).bind (fun o => if o < data.length then some (data.set o v) else none)

/-- `math/tensor.rs:10-16` `Tensor3::as_flat`: the nested arrays read as one slice. That an array `[T; n]`
is laid out as its elements in order is a guarantee of the language, taken as the meaning of the slice. -/
def tensor3Flat {α : Type*} {d0 d1 d2 : Nat} (t : Fin d0 → Fin d1 → Fin d2 → α) : List α :=
  (List.finRange d0).flatMap fun i => (List.finRange d1).flatMap fun j =>
    (List.finRange d2).map fun k => t i j k

/-! ## bincode -/

/-- A scalar codec as `bincode` provides it for `T`: `dec` returns the value and the unread bytes, or
`none` for a decode error. -/
structure Codec (T : Type*) where
  enc : T → List UInt8
  dec : List UInt8 → Option (T × List UInt8)

/-- The contract of a scalar codec: decoding what was encoded returns the value and leaves what follows. -/
def Codec.Good {T : Type*} (c : Codec T) : Prop := ∀ v rest, c.dec (c.enc v ++ rest) = some (v, rest)

variable {T : Type*}

/-- `math/matrix.rs:1159-1174` `Encode for Matrix`. -/
def encodeMat (c : Codec T) {m n : Nat} (a : Mat T m n) : List UInt8 :=
  (List.finRange m).flatMap fun r => (List.finRange n).flatMap fun k => c.enc (a r k)

/-- `math/matrix.rs:1189-1211` (and `1235-1257`): decode the `n` elements of one row, left to right,
stopping at the first error. The partially initialised row is dropped on error. -/
def decodeRow (c : Codec T) : (n : Nat) → List UInt8 → Option ((Fin n → T) × List UInt8)
  | 0, bs => some (fun i => i.elim0, bs)
  | n + 1, bs =>
    match c.dec bs with
    | none => none
    | some (v, bs) =>
      match decodeRow c n bs with
      | none => none
      | some (row, bs) => some (Fin.cons v row, bs)

/-- `math/matrix.rs:1177-1219` `Decode for Matrix` (and `BorrowDecode`, `1222-1265`). -/
def decodeMat (c : Codec T) (n : Nat) : (m : Nat) → List UInt8 → Option (Mat T m n × List UInt8)
  | 0, bs => some (fun i => i.elim0, bs)
  | m + 1, bs =>
    match decodeRow c n bs with
    | none => none
    | some (row, bs) =>
      match decodeMat c n m bs with
      | none => none
      | some (rows, bs) => some (Fin.cons row rows, bs)

/-- `math/vector.rs:20-24`: the derived `Encode` of `Vector` writes the array `[T; N]`, element by
element. -/
def encodeVec (c : Codec T) {n : Nat} (v : Fin n → T) : List UInt8 :=
  (List.finRange n).flatMap fun k => c.enc (v k)

/-- `math/vector.rs:20-24`: the derived `Decode` of `Vector` reads `N` elements. -/
def decodeVec (c : Codec T) (n : Nat) (bs : List UInt8) : Option ((Fin n → T) × List UInt8) :=
  decodeRow c n bs

/-- The scalar codec of `f64`: its 64 bits, least significant byte first (bincode's standard
configuration). -/
def f64Codec : Codec (BitVec 64) where
  enc v := (List.range 8).map (fun i => UInt8.ofBitVec ((v >>> (8 * i)).setWidth 8))
  dec
    | a0 :: a1 :: a2 :: a3 :: a4 :: a5 :: a6 :: a7 :: rest =>
      some (a7.toBitVec ++ a6.toBitVec ++ a5.toBitVec ++ a4.toBitVec ++ a3.toBitVec ++ a2.toBitVec
        ++ a1.toBitVec ++ a0.toBitVec, rest)
    | _ => none

/-! ## serde -/

/-- The serde data model restricted to what these types use: scalars and sequences. -/
inductive SVal (T : Type*) where
  | leaf : T → SVal T
  | seq : List (SVal T) → SVal T

/-- Deserialising one scalar of type `T`. -/
def SVal.scalar? : SVal T → Option T
  | .leaf v => some v
  | .seq _ => none

/-- `math/matrix.rs:1273-1305` `Serialize for Matrix`: a sequence of `M` rows, each a sequence of `N`. -/
def serMat {m n : Nat} (a : Mat T m n) : SVal T :=
  .seq ((List.finRange m).map fun r => .seq ((List.finRange n).map fun c => .leaf (a r c)))

/-- The element loop of a visitor: read exactly `n` elements with `de`; returns them and the elements not
read (`math/matrix.rs:1348-1363`, `1403-1418`, `math/vector.rs:719-723`). `none` is an error. -/
def visitN {V β : Type*} (de : V → Option β) : (n : Nat) → List V → Option ((Fin n → β) × List V)
  | 0, xs => some (fun i => i.elim0, xs)
  | _ + 1, [] => none
  | n + 1, x :: xs =>
    match de x with
    | none => none
    | some v =>
      match visitN de n xs with
      | none => none
      | some (row, xs) => some (Fin.cons v row, xs)

/-- The check after the loop, `math/matrix.rs:1365-1372` and `1420-1427`: one more element is an error. -/
def checkEnd {V β : Type*} : Option (β × List V) → Option β
  | some (b, []) => some b
  | _ => none

/-- `math/matrix.rs:1316-1380` `RowSeed`. -/
def deRow (n : Nat) : SVal T → Option (Fin n → T)
  | .seq xs => checkEnd (visitN SVal.scalar? n xs)
  | .leaf _ => none

/-- `math/matrix.rs:1308-1434` `Deserialize for Matrix`. -/
def deMat (m n : Nat) : SVal T → Option (Mat T m n)
  | .seq xs => checkEnd (visitN (deRow n) m xs)
  | .leaf _ => none

/-- `math/vector.rs:684-695` `Serialize for Vector`. -/
def serVec {n : Nat} (v : Fin n → T) : SVal T := .seq ((List.finRange n).map fun i => .leaf (v i))

/-- `math/vector.rs:698-735` `Deserialize for Vector`: the visitor does not look for a further element.
(Some formats, such as `serde_json`, make that check themselves after the visitor returns.) -/
def deVec (n : Nat) : SVal T → Option (Fin n → T)
  | .seq xs => (visitN SVal.scalar? n xs).map (·.1)
  | .leaf _ => none

/-! ## Approximate equality (`crates/aether_test/src/assert`) -/

section Approx
variable {K : Type*} [AddGroup K] [LinearOrder K] {m n : Nat}

/-- `crates/aether_test/src/assert/vector.rs:58-68` of `vector_approx_eq`: `none` is `Ok(())`, `some i` is
`Err(ValueMismatch { index: i, … })` (the values reported are those at `i`). `abs_diff_eq!(x, y, epsilon)`
of the `approx` crate is `|x - y| <= epsilon`. -/
def vectorApproxEq (a b : Fin n → K) (tol : K) : Option (Fin n) :=
  (List.finRange n).find? (fun i => ¬ |a i - b i| ≤ tol)

/-- `crates/aether_test/src/assert/vector.rs:72-78` `vector_max_abs_diff`. -/
def vectorMaxAbsDiff (a b : Fin n → K) : K :=
  ((List.finRange n).map (fun i => |a i - b i|)).foldl max 0

/-- `crates/aether_test/src/assert/matrix.rs:69-84` `matrix_approx_eq`: the loops over `r` and `c` with
an early return; `none` is `Ok(())`. -/
def matrixApproxEq (a b : Mat K m n) (tol : K) : Option (Fin m × Fin n) :=
  (List.finRange m).findSome? (fun r =>
    (List.finRange n).findSome? (fun c => if ¬ |a r c - b r c| ≤ tol then some (r, c) else none))

/-- `crates/aether_test/src/assert/matrix.rs:88-102` `matrix_max_abs_diff`. -/
def matrixMaxAbsDiff (a b : Mat K m n) : K :=
  (rng m 0 m).foldl (fun mx r => (rng n 0 n).foldl (fun mx c =>
    if |a r c - b r c| > mx then |a r c - b r c| else mx) mx) 0

/-- `crates/aether_test/src/assert/matrix.rs:105-114` `matrix_frobenius_norm`; `sqrt` is a parameter. -/
def frobenius (sqrt : K → K) [Mul K] (a : Mat K m n) : K :=
  sqrt ((rng m 0 m).foldl (fun s r => (rng n 0 n).foldl (fun s c => s + a r c * a r c) s) 0)

/-- `crates/aether_test/src/assert/matrix.rs:117-129` `matrix_diff_frobenius`. -/
def diffFrobenius (sqrt : K → K) [Mul K] (a b : Mat K m n) : K :=
  sqrt ((rng m 0 m).foldl (fun s r => (rng n 0 n).foldl (fun s c =>
    s + (a r c - b r c) * (a r c - b r c)) s) 0)

end Approx

end Verif.Mat
