import Mathlib.Data.Rat.Defs
import Mathlib.Data.BitVec

/-!
# Model of `crates/aether_rand` (xorshift64* generator)

`u64` is `BitVec 64`: `^`, `>>`, `<<` and `wrapping_mul` are the bit-vector operations.
-/

namespace Verif.Rand

/-- xor_shift.rs:5-7 `struct XorShift64Star { state: u64 }`. -/
structure Gen where
  state : BitVec 64
  deriving DecidableEq

/-- xor_shift.rs:9-13 `XorShift64Star::new`. -/
def Gen.new (seed : BitVec 64) : Gen :=
  { state := if seed = 0 then 0x9E3779B97F4A7C15#64 else seed }

/-- xor_shift.rs:16-20: the state update inside `next_u64`. -/
def stepState (x : BitVec 64) : BitVec 64 :=
  let x := x ^^^ (x >>> 12)
  let x := x ^^^ (x <<< 25)
  x ^^^ (x >>> 27)

/-- xor_shift.rs:15-22 `next_u64`: returns the output and the advanced generator. -/
def Gen.nextU64 (g : Gen) : BitVec 64 × Gen :=
  let x := stepState g.state
  (x * 0x2545F4914F6CDD1D#64, { state := x })

/-- xor_shift.rs:25-29 `next_real` up to the final `T::from_f64`: the exact rational value of the
`f64` `((next_u64() >> 11) as f64) / DEN`, `DEN = 2^53`. The numerator is below `2^53`, so both the
cast and the division by a power of two are exact in `f64`. -/
def Gen.nextUnit (g : Gen) : ℚ × Gen :=
  let (u, g') := g.nextU64
  (((u >>> 11).toNat : ℚ) / (2 ^ 53 : ℚ), g')

/-- `n` draws of `next_u64`: the outputs, first draw first, and the final generator. -/
def Gen.draws : Nat → Gen → List (BitVec 64) × Gen
  | 0, g => ([], g)
  | n + 1, g =>
    let (u, g') := g.nextU64
    let (us, g'') := Gen.draws n g'
    (u :: us, g'')

end Verif.Rand
