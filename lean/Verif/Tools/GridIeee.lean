import Verif.Ieee.Cast
import Verif.Tools.Grid

/-!
# Model of the grid of the magnetic field table in machine arithmetic, `crates/aether_catalogs/examples/wmm_grid_csv.rs`
-/

namespace Verif.Tools.Ie

open Verif.Ieee

variable {fl : ℝ → ℝ}

/-- wmm_grid_csv.rs:57-65, the checks of `parse_args` on the steps and the largest latitude: true if they are accepted. The comparisons are those of `f64`; `(0.0..90.0).contains(&x)` is `0.0 <= x && x < 90.0`. -/
def Accepts (latStep lonStep maxLat : IE binary64 fl) : Prop :=
  ¬ latStep ≤ IE.num 0 ∧ ¬ lonStep ≤ IE.num 0 ∧ ¬ ¬ (IE.num 0 ≤ maxLat ∧ maxLat < IE.num 90)

/-- `f64::round`. -/
noncomputable def round (a : IE binary64 fl) : IE binary64 fl := match a.val with
  | .num x => IE.num (roundAway x)
  | _ => a

/-- wmm_grid_csv.rs:154-157, the `while` loop; `none` if it has not ended after `fuel` turns. -/
noncomputable def gridLoop (maxValue step : IE binary64 fl) : Nat → IE binary64 fl → Option (List (IE binary64 fl))
  | 0, _ => none
  | fuel + 1, value =>
    if value ≤ maxValue + IE.ofReal (1 / 10 ^ 9) then
      (gridLoop maxValue step fuel (value + step)).map fun l => round (value * IE.num (10 ^ 6)) / IE.num (10 ^ 6) :: l
    else some []

/-- wmm_grid_csv.rs:151-168 `grid_values`. -/
noncomputable def gridValues (fuel : Nat) (minValue maxValue step : IE binary64 fl) : Option (List (IE binary64 fl)) :=
  (gridLoop maxValue step fuel minValue).map fun values =>
    match values.getLast? with
    | none => values
    | some last => if IE.ofReal (1 / 10 ^ 9) < (last - maxValue).abs then values ++ [maxValue] else values.dropLast ++ [maxValue]

/-- wmm_grid_csv.rs:112-113: the latitudes and longitudes of the table. -/
noncomputable def axes (fuel : Nat) (latStep lonStep maxLat : IE binary64 fl) : Option (List (IE binary64 fl) × List (IE binary64 fl)) := do
  let latitudes ← gridValues fuel (-maxLat) maxLat latStep
  let longitudes ← gridValues fuel (-IE.num 180) (IE.num 180) lonStep
  return (latitudes, longitudes)

end Verif.Tools.Ie
