import Verif.Time.Model

/-!
# Conversions while another thread changes the leap seconds

`time.rs:34` keeps the leap seconds in one atomic, which `set_leap_seconds` (`time.rs:43-46`) stores and `tai_minus_utc` (`time.rs:37-40`) loads.
Loads and stores of one atomic take place in one order, also with `Relaxed`; an execution is that order. Stores may come from any number
of threads; the loads are those of the call in question.
-/

namespace Verif.Time
open Verif.Rust

/-- `time.rs:37-46`: what happens to the atomic, in the order in which it happens. -/
inductive LeapEvent where
  | store (leaps : Int)
  | load
  deriving DecidableEq, Repr

/-- The values the loads of an execution give, from the value the atomic holds at its beginning. -/
def loads : Int → List LeapEvent → List Int
  | _, [] => []
  | _, .store v :: es => loads v es
  | c, .load :: es => c :: loads c es

/-- A call of a conversion that loads once: `time.rs:116-146` `to_tai`, `to_utc`, `to_gps` between UTC and the two other scales. `none`: the
execution is not that of one such call. The inner `none` is a panic. -/
def callOnce {a b : Scale} (conv : Int → Time a → Option (Time b)) (c : Int) (es : List LeapEvent) (t : Time a) : Option (Option (Time b)) :=
  match loads c es with
  | [x] => some (conv x t)
  | _ => none

/-- A call of a conversion that loads twice: `time.rs:153-163` between GPS and TAI, which go through UTC. -/
def callTwice {a b : Scale} (conv : Int → Int → Time a → Option (Time b)) (c : Int) (es : List LeapEvent) (t : Time a) :
    Option (Option (Time b)) :=
  match loads c es with
  | [x, y] => some (conv x y t)
  | _ => none

end Verif.Time
