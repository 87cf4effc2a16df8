import Mathlib.Data.Rat.Floor
import Mathlib.Algebra.Order.Floor.Ring

/-!
# Model of the two implementations of `Real`, `crates/aether_core/src/real`

`std_impl.rs` (with the standard library) forwards to the methods of `f32` and `f64`; `no_std_impl.rs` (without) has its own definitions or
forwards to `libm`. Modelled are the methods which `no_std_impl.rs` defines by its own code; the methods that are one call of `libm`
are not. A number is a not-a-number, an infinity, or a sign and a magnitude, so that the two zeros differ.
-/

namespace Verif.Real

/-- Values of `f32` and `f64`. -/
inductive Fl
  | nan
  | inf (neg : Bool)
  | fin (neg : Bool) (mag : ℚ)
  deriving DecidableEq

/-- The sign is separate: magnitudes are not negative. -/
def Fl.Ok : Fl → Prop
  | .fin _ mag => 0 ≤ mag
  | _ => True

/-- The value of a finite number. -/
def signed (neg : Bool) (mag : ℚ) : ℚ := if neg then -mag else mag

/-- `<` of `f32` and `f64` (IEEE 754): false if an operand is not a number; the two zeros are equal. -/
def Fl.lt : Fl → Fl → Bool
  | .nan, _ => false
  | _, .nan => false
  | .inf a, .inf b => a && !b
  | .inf a, .fin _ _ => a
  | .fin _ _, .inf b => !b
  | .fin a x, .fin b y => decide (signed a x < signed b y)

/-- `is_nan`. -/
def Fl.isNan : Fl → Bool
  | .nan => true
  | _ => false

/-- `0.0`. -/
def zero : Fl := .fin false 0
/-- `1.0` and `-1.0`. -/
def one (neg : Bool) : Fl := .fin neg 1

/-- std_impl.rs:13 and 51: `f32::signum`, `f64::signum`. The standard library defines it as `1.0.copysign(self)` unless `self` is not a
number: 1 for `+0.0`, −1 for `-0.0`. -/
def signumStd : Fl → Fl
  | .nan => .nan
  | .inf neg => one neg
  | .fin neg _ => one neg

/-- no_std_impl.rs:13-15 and 57-59 `signum`. -/
def signumNoStd (x : Fl) : Fl :=
  if x.isNan then x else if zero.lt x then one false else if x.lt zero then one true else x

/-- no_std_impl.rs:21-23 and 65-67 `min`. -/
def minNoStd (x y : Fl) : Fl :=
  if x.isNan then y else if y.isNan || x.lt y then x else y

/-- no_std_impl.rs:24-26 and 68-70 `max`. -/
def maxNoStd (x y : Fl) : Fl :=
  if x.isNan then y else if y.isNan || y.lt x then x else y

/-- The nearest number with `p` significant bits to an integer (ties to even): the value of `n as f32` (`p = 24`) and `n as f64`
(`p = 53`) for integers in range. -/
def intToFloat (p : Nat) (n : Int) : Int :=
  let a := n.natAbs
  let e := Nat.log2 a + 1 - p
  let q := a / 2 ^ e
  let r := a % 2 ^ e
  let q := if 2 ^ e < 2 * r ∨ (2 * r = 2 ^ e ∧ q % 2 = 1) then q + 1 else q
  if n < 0 then -((q * 2 ^ e : Nat) : Int) else ((q * 2 ^ e : Nat) : Int)

/-- std_impl.rs:35 and 73 `powi`, before rounding. -/
def powiStd (x : ℚ) (n : Int) : ℚ := x ^ n

/-- no_std_impl.rs:41 (`p = 24`) and 85 (`p = 53`) `powi`, before rounding: the exponent goes through a float. -/
def powiNoStd (p : Nat) (x : ℚ) (n : Int) : ℚ := x ^ intToFloat p n

/-- The nearest multiple of `2^e` (ties to even): rounding of a number between `2^(e+p-1)` and `2^(e+p)` to `p` significant bits. -/
def roundTo (e : Int) (q : ℚ) : ℚ :=
  let k := ⌊q / 2 ^ e⌋
  let r := q / 2 ^ e - k
  let k := if 1 / 2 < r ∨ (r = 1 / 2 ∧ k % 2 = 1) then k + 1 else k
  k * 2 ^ e

/-- `core::f32::consts::PI`: the literal 3.14159265358979323846264338327950288 (between 2 and 4) as `f32`. -/
def pi32 : ℚ := roundTo (-22) (314159265358979323846264338327950288 / 10 ^ 35)

/-- no_std_impl.rs:43: the factor of `to_degrees` for `f32`, `180.0 / PI` (between 32 and 64). -/
def degreesNoStd : ℚ := roundTo (-18) (180 / pi32)

/-- std_impl.rs:37 `f32::to_degrees`: the standard library multiplies by the constant 57.2957795130823208767981548141051703. -/
def degreesStd : ℚ := roundTo (-18) (572957795130823208767981548141051703 / 10 ^ 34)

end Verif.Real
