import Verif.Mat.Model

/-!
# The operators of vectors as the loops of the source, and assignment to entries
-/

namespace Verif.Mat

variable {α β : Type*} {n : Nat}

/-- `math/vector.rs:44-54`, `56-67` (and `69-82`, which call them) `Vector + Vector`:
`let mut result = self; for i in 0..N { result.data[i] = self.data[i] + rhs.data[i]; }`. -/
def vecAdd [Add α] (a b : Fin n → α) : Fin n → α :=
  (rng n 0 n).foldl (fun r i => Function.update r i (a i + b i)) a

/-- `math/vector.rs:84-100` `Vector += Vector`, by value and by reference: `for i in 0..N { self.data[i] += rhs.data[i]; }`.
`Cartesian += Cartesian` (`coordinate/cartesian.rs:122-126`) calls it. -/
def vecAddAssign [Add α] (a b : Fin n → α) : Fin n → α :=
  (rng n 0 n).foldl (fun r i => Function.update r i (r i + b i)) a

/-- `math/vector.rs:104-142` `Vector - Vector`. -/
def vecSub [Sub α] (a b : Fin n → α) : Fin n → α :=
  (rng n 0 n).foldl (fun r i => Function.update r i (a i - b i)) a

/-- `math/vector.rs:144-160` `Vector -= Vector`, by value and by reference. `Cartesian -= Cartesian`
(`coordinate/cartesian.rs:170-174`) calls it. -/
def vecSubAssign [Sub α] (a b : Fin n → α) : Fin n → α :=
  (rng n 0 n).foldl (fun r i => Function.update r i (r i - b i)) a

/-- `math/vector.rs:164-186` `-Vector`. -/
def vecNeg [Neg α] (a : Fin n → α) : Fin n → α :=
  (rng n 0 n).foldl (fun r i => Function.update r i (-a i)) a

/-- `math/vector.rs:190-203`, `221-227` `Vector * scalar`. -/
def vecMul [Mul α] (a : Fin n → α) (s : α) : Fin n → α :=
  (rng n 0 n).foldl (fun r i => Function.update r i (a i * s)) a

/-- `math/vector.rs:205-218`, `229-235` `Vector / scalar`. -/
def vecDiv [Div α] (a : Fin n → α) (s : α) : Fin n → α :=
  (rng n 0 n).foldl (fun r i => Function.update r i (a i / s)) a

/-- `attitude/euler.rs:118-132` `Euler += Euler`: `self.data = self.data + rhs.data`. -/
def eulerAddAssign [Add α] (a b : Fin 3 → α) : Fin 3 → α := vecAdd a b

/-- `math/vector.rs:542-548` `v[idx]`; `none` is the panic for an index out of bounds. -/
def vecGet (v : Fin n → α) (i : Nat) : Option α := if h : i < n then some (v ⟨i, h⟩) else none

/-- `math/vector.rs:550-554` `v[idx] = x`; `none` is the panic for an index out of bounds. -/
def vecSet (v : Fin n → α) (i : Nat) (x : α) : Option (Fin n → α) :=
  if h : i < n then some (Function.update v ⟨i, h⟩ x) else none

/-- `math/vector.rs:594-611`, `619-646`: the entries handed out by `iter`, `iter_copied` and `into_iter`, in order. -/
def vecIter (v : Fin n → α) : List α := (rng n 0 n).map v

/-- `math/vector.rs:600-602`, `639-646`: `for x in v.iter_mut() { *x = f(*x) }`, with a closure that has a state `σ` of its own. -/
def vecIterMut {σ : Type*} (f : σ → α → σ × α) (s : σ) (v : Fin n → α) : σ × (Fin n → α) :=
  (rng n 0 n).foldl (fun q i => let (s', x) := f q.1 (q.2 i); (s', Function.update q.2 i x)) (s, v)

/-- `math/vector.rs:612-615` `map` with a closure that has a state: the array of the results, and the final state. The results are collected
in the order of the calls. -/
def vecMap {σ : Type*} (f : σ → α → σ × β) (s : σ) (v : Fin n → α) : σ × Option (Fin n → β) :=
  let r := (vecIter v).foldl (fun (q : σ × List β) x => let (s', y) := f q.1 x; (s', q.2 ++ [y])) (s, [])
  (r.1, fromIter n r.2)

end Verif.Mat
