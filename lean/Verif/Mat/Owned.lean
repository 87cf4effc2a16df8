import Mathlib.Logic.Function.Basic
import Mathlib.Data.List.OfFn

/-!
# Model of the decoders that fill uninitialised memory

`matrix.rs` and `vector.rs` build their arrays in `MaybeUninit` memory, element by element, and have to release by hand what they have
built when an element fails. A buffer is a function from positions to `Option T`: `none` is a place that holds no value (never written,
or already released). Reading or dropping such a place is undefined behaviour; a function of this file returns `none` if that happens.
`drops` lists the values released. Values that are neither in the result nor in `drops` at the end have leaked.
-/

namespace Verif.Mat

variable {T : Type}

/-- What is left when a decoder returns: the result (`none`: `Err`, or a panic), the values dropped, and the unread input. -/
structure Left (β ι T : Type) where
  result : Option β
  drops : List T
  rest : ι

/-- `MaybeUninit::assume_init` of an array of `n` elements; `none` is undefined behaviour. -/
def assumeInit (n : Nat) (buf : Nat → Option T) : Option (Fin n → T) :=
  if h : ∀ i : Fin n, (buf i).isSome then some fun i => (buf i).get (h i) else none

/-- `for i in 0..k { ptr::drop_in_place(ptr.add(i)) }` (matrix.rs:1201-1206, 1247-1252, 1356-1358, 1367-1369, 1411-1413, 1422-1424), from
place `i` on, `k` places; `none` is undefined behaviour. -/
def dropRange : Nat → Nat → (Nat → Option T) → Option (List T)
  | _, 0, _ => some []
  | i, k + 1, buf =>
    match buf i with
    | none => none
    | some v => (dropRange (i + 1) k (Function.update buf i none)).map (v :: ·)

/-! ## bincode -/

/-- matrix.rs:1193-1211 (and 1239-1257): the loop over the columns of one row, from column `c` on, `k` columns. The input lists the outcomes
of `T::decode`: a value, or `none` for `Err`; past its end every outcome is `Err`. -/
def decodeCols (n : Nat) (out : Nat → Option (Fin n → T)) (initedRows : Nat) :
    Nat → Nat → (Nat → Option T) → Nat → List (Option T) → Option (Left (Nat → Option T) (List (Option T)) T)
  | _, 0, row, _, input => some { result := some row, drops := [], rest := input }
  | c, k + 1, row, initedCols, some v :: input =>
    decodeCols n out initedRows (c + 1) k (Function.update row c (some v)) (initedCols + 1) input
  | _, _ + 1, row, initedCols, input =>
    (dropRange 0 initedCols row).bind fun d =>
      (dropRange 0 initedRows out).map fun rows =>
        { result := none, drops := d ++ rows.flatMap List.ofFn, rest := input.tail }

/-- matrix.rs:1184-1217 (and 1230-1263): the loop over the rows, from row `r` on, `k` rows, and `assume_init` at the end. -/
def decodeRows (m n : Nat) : Nat → Nat → (Nat → Option (Fin n → T)) → Nat → List (Option T) →
    Option (Left (Fin m → Fin n → T) (List (Option T)) T)
  | _, 0, out, _, input => (assumeInit m out).map fun a => { result := some a, drops := [], rest := input }
  | r, k + 1, out, initedRows, input =>
    (decodeCols n out initedRows 0 n (fun _ => none) 0 input).bind fun l =>
      match l.result with
      | none => some { result := none, drops := l.drops, rest := l.rest }
      | some row =>
        (assumeInit n row).bind fun row =>
          decodeRows m n (r + 1) k (Function.update out r (some row)) (initedRows + 1) l.rest

/-- matrix.rs:1181-1218 `Decode::decode` and 1227-1264 `BorrowDecode::borrow_decode` of `Matrix<T, M, N>`. -/
def decodeOwned (m n : Nat) (input : List (Option T)) : Option (Left (Fin m → Fin n → T) (List (Option T)) T) :=
  decodeRows m n 0 m (fun _ => none) 0 input

/-! ## serde -/

/-- The outcome of `SeqAccess::next_element`: `Ok(Some(v))`, `Ok(None)`, `Err`. -/
inductive Next (α : Type)
  | item (v : α)
  | fin
  | error

/-- matrix.rs:1340-1375: `visit_seq` of a row, from column `i` on, `k` columns. The input lists the outcomes of `next_element`; past its end
they are `Ok(None)`. The value of line 1365 is made as `IgnoredAny`, so nothing of type `T` is made there. -/
def visitRow (n : Nat) : Nat → Nat → (Nat → Option T) → Nat → List (Next T) → Option (Left (Fin n → T) Unit T)
  | i, k + 1, row, inited, .item v :: input => visitRow n (i + 1) k (Function.update row i (some v)) (inited + 1) input
  | _, _ + 1, _, _, .error :: _ => some { result := none, drops := [], rest := () }
  | _, _ + 1, row, inited, _ => (dropRange 0 inited row).map fun d => { result := none, drops := d, rest := () }
  | _, 0, _, _, .error :: _ => some { result := none, drops := [], rest := () }
  | _, 0, row, inited, .item _ :: _ => (dropRange 0 inited row).map fun d => { result := none, drops := d, rest := () }
  | _, 0, row, _, _ => (assumeInit n row).map fun a => { result := some a, drops := [], rest := () }

/-- matrix.rs:1395-1430: `visit_seq` of a matrix, from row `i` on, `k` rows. Every item of the input is itself the input of `visitRow`. -/
def visitMatrix (m n : Nat) : Nat → Nat → (Nat → Option (Fin n → T)) → Nat → List (Next (List (Next T))) →
    Option (Left (Fin m → Fin n → T) Unit T)
  | i, k + 1, out, inited, .item cells :: input =>
    (visitRow n 0 n (fun _ => none) 0 cells).bind fun l =>
      match l.result with
      | none => some { result := none, drops := l.drops, rest := () }
      | some row => visitMatrix m n (i + 1) k (Function.update out i (some row)) (inited + 1) input
  | _, _ + 1, _, _, .error :: _ => some { result := none, drops := [], rest := () }
  | _, _ + 1, out, inited, _ =>
    (dropRange 0 inited out).map fun rows => { result := none, drops := rows.flatMap List.ofFn, rest := () }
  | _, 0, _, _, .error :: _ => some { result := none, drops := [], rest := () }
  | _, 0, out, inited, .item _ :: _ =>
    (dropRange 0 inited out).map fun rows => { result := none, drops := rows.flatMap List.ofFn, rest := () }
  | _, 0, out, _, _ => (assumeInit m out).map fun a => { result := some a, drops := [], rest := () }

/-- matrix.rs:1312-1434 `Deserialize::deserialize` of `Matrix<T, M, N>`, once the deserializer presents a sequence. -/
def deserializeOwned (m n : Nat) (input : List (Next (List (Next T)))) : Option (Left (Fin m → Fin n → T) Unit T) :=
  visitMatrix m n 0 m (fun _ => none) 0 input

/-! ## Collecting an iterator -/

/-- vector.rs:657-669: the loop of `from_iter`, from place `i` on, `k` places; `result = none` is a panic. The item of line 663 is dropped at
the end of its statement. -/
def collectLoop (n : Nat) : Nat → Nat → (Nat → Option T) → List T → Option (Left (Fin n → T) (List T) T)
  | i, k + 1, buf, v :: items => collectLoop n (i + 1) k (Function.update buf i (some v)) items
  | _, _ + 1, _, [] => some { result := none, drops := [], rest := [] }
  | _, 0, buf, [] => (assumeInit n buf).map fun a => { result := some a, drops := [], rest := [] }
  | _, 0, _, v :: items => some { result := none, drops := [v], rest := items }

/-- vector.rs:652-669 `FromIterator::from_iter` of `Vector<T, N>`; the items not asked for stay in the iterator. -/
def collectOwned (n : Nat) (items : List T) : Option (Left (Fin n → T) (List T) T) := collectLoop n 0 n (fun _ => none) items

end Verif.Mat
