/-!
# Rust primitives used by the models

Not code of /repo itself: the parts of Rust's integer semantics the models need.
`Option` reads "`none` = the call panics". Debug-build overflow checks are assumed
(a release build wraps instead of panicking; see DESIGN.md).
-/

namespace Verif.Rust

/-! Smallest / largest values of the integer types. -/
scoped notation "i64Min" => (-9223372036854775808 : Int)
scoped notation "i64Max" => (9223372036854775807 : Int)
scoped notation "i32Min" => (-2147483648 : Int)
scoped notation "i32Max" => (2147483647 : Int)
scoped notation "u32Max" => (4294967295 : Int)
scoped notation "u64Max" => (18446744073709551615 : Int)

/-- Result of an `i64` operation whose mathematical value is `x`: panic on overflow. -/
def chk64 (x : Int) : Option Int := if i64Min ≤ x ∧ x ≤ i64Max then some x else none

/-- Result of an `i32` operation whose mathematical value is `x`: panic on overflow. -/
def chk32 (x : Int) : Option Int := if i32Min ≤ x ∧ x ≤ i32Max then some x else none

/-- `x as i32` (wraps). -/
def asI32 (x : Int) : Int := (x + 2147483648) % 4294967296 - 2147483648

/-- `x as i64` (wraps). -/
def asI64 (x : Int) : Int := (x + 9223372036854775808) % 18446744073709551616 - 9223372036854775808

/-- `x as u8`, `x as u16`, `x as u32` (wrap). -/
def asU8 (x : Int) : Int := x % 256
def asU16 (x : Int) : Int := x % 65536
def asU32 (x : Int) : Int := x % 4294967296

/-- `a.wrapping_sub(b)` on `u64`. -/
def wrappingSubU64 (a b : Int) : Int := (a - b) % 18446744073709551616

/-- Outcome of running a possibly non-terminating call for a bounded number of loop
iterations: it returned, it panicked, or it is still inside its loop. -/
inductive Run (α : Type) where
  | ok (a : α)
  | panic
  | running
  deriving DecidableEq

/-- A call `f` (indexed by the number of loop iterations it may use) *returns* `a`. -/
def Returns {α : Type} (f : Nat → Run α) (a : α) : Prop := ∃ n, f n = .ok a

/-- A call never returns normally, however long it runs. -/
def NeverReturns {α : Type} (f : Nat → Run α) : Prop := ∀ n a, f n ≠ .ok a

def Run.bind {α β : Type} (r : Run α) (k : α → Run β) : Run β :=
  match r with
  | .ok a => k a
  | .panic => .panic
  | .running => .running

def Run.ofOption {α : Type} : Option α → Run α
  | some a => .ok a
  | none => .panic

end Verif.Rust
