import Mathlib.Algebra.Order.Floor.Ring
import Mathlib.Algebra.Order.Field.Basic

/-!
# Model of the grid of the magnetic field table, `crates/aether_catalogs/examples/wmm_grid_csv.rs:151-168`

Over an ordered field with floor. The repeated addition is a parameter, so that its rounding errors are part of the model; the other
operations are exact.
-/

namespace Verif.Tools

variable {K : Type} [Field K] [LinearOrder K] [FloorRing K]

/-- `f64::round`: to the nearest integer, ties away from zero. -/
def roundAway (x : K) : Int := if 0 ≤ x then ⌊x + 1 / 2⌋ else -⌊-x + 1 / 2⌋

/-- wmm_grid_csv.rs:154-157, the `while` loop; `none` if it has not ended after `fuel` turns. -/
def gridLoop (add : K → K → K) (maxValue step : K) : Nat → K → Option (List K)
  | 0, _ => none
  | fuel + 1, value =>
    if value ≤ maxValue + 1 / 10 ^ 9 then
      (gridLoop add maxValue step fuel (add value step)).map fun l => (roundAway (value * 10 ^ 6) : K) / 10 ^ 6 :: l
    else some []

/-- wmm_grid_csv.rs:151-168 `grid_values`. -/
def gridValues (add : K → K → K) (fuel : Nat) (minValue maxValue step : K) : Option (List K) :=
  (gridLoop add maxValue step fuel minValue).map fun values =>
    match values.getLast? with
    | none => values
    | some last => if 1 / 10 ^ 9 < |last - maxValue| then values ++ [maxValue] else values.dropLast ++ [maxValue]

end Verif.Tools
