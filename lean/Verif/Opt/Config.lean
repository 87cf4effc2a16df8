import Mathlib.Data.EReal.Basic
import Mathlib.Data.EReal.Inv

/-!
# Model of the settings of the stochastic optimisers

`stochastic.rs` (`GDStochastic`, numbers `f64`) and `stochastic_parallel.rs` (`GDStochasticParallel`, numbers of any type). A number is an extended
real or not a number; the sign of zero is left out. The seed is not part of the model. The decimal constants stand for the nearest numbers.
-/

namespace Verif.Opt

/-- A floating-point number: an extended real or not a number. -/
inductive Val where
  | nan
  | num (x : EReal)

/-- `<`. -/
def Val.Lt : Val → Val → Prop
  | .num a, .num b => a < b
  | _, _ => False

/-- `<=`. -/
def Val.Le : Val → Val → Prop
  | .num a, .num b => a ≤ b
  | _, _ => False

noncomputable instance (a b : Val) : Decidable (a.Lt b) := Classical.dec _
noncomputable instance (a b : Val) : Decidable (a.Le b) := Classical.dec _

/-- `f64::max`: the other argument if one is not a number. -/
noncomputable def Val.max : Val → Val → Val
  | .nan, b => b
  | a, .nan => a
  | .num a, .num b => .num (Max.max a b)

/-- A real number. -/
def Val.real (r : ℝ) : Val := .num (r : EReal)

/-- `stochastic.rs:249-258`, `stochastic_parallel.rs:9-18` `clamp`. -/
noncomputable def clampV (x lo hi : Val) : Val := if x.Lt lo then lo else if hi.Lt x then hi else x

/-- The settings of both optimisers; `threads` is only used by the parallel one. -/
structure Config where
  lr0 : Val
  decay : Val
  momentum : Val
  batchSize : ℕ
  ema : Val
  tolGrad : Val
  tolStep : Val
  tolF : Val
  minIters : ℕ
  maxIters : ℕ
  biasCorrected : Bool
  threads : Option ℕ

/-- `stochastic.rs:48-67` `GDStochastic::new`. -/
noncomputable def Config.new : Config :=
  ⟨.real 1e-2, .real 1e-3, .real 0, 1, .real 0.9, .real 1e-4, .real 1e-8, .real 0, 0, 100000, true, none⟩

/-- `stochastic_parallel.rs:47-75` `GDStochasticParallel::new`. -/
noncomputable def Config.newParallel : Config :=
  ⟨.real 1e-2, .real 1e-3, .real 0, 32, .real 0.95, .real 1e-4, .real 1e-8, .real 0, 0, 100000, true, none⟩

/-- A call of a setter. -/
inductive Call where
  | learningRate (v : Val)
  | decay (v : Val)
  | momentum (v : Val)
  | batchSize (n : ℕ)
  | ema (v : Val)
  | tolerances (g s : Val)
  | tolF (v : Val)
  | minIters (n : ℕ)
  | maxIters (n : ℕ)
  | biasCorrected (on : Bool)
  | threads (n : ℕ)

/-- `stochastic.rs:70-104, 153-167`: the setters of `GDStochastic`. It has no `threads`. -/
noncomputable def Config.set (c : Config) : Call → Config
  | .learningRate v => { c with lr0 := v.max (.real 0) }
  | .decay v => { c with decay := if v.Lt (.real 0) then .real 0 else v }
  | .momentum v => { c with momentum := clampV v (.real 0) (.real 0.999999) }
  | .batchSize n => { c with batchSize := if n = 0 then 1 else n }
  | .ema v => { c with ema := clampV v (.real 0) (.real 0.999999999) }
  | .tolerances g s => { c with tolGrad := g.max (.real 0), tolStep := s.max (.real 0) }
  | .tolF v => { c with tolF := if v.Lt (.real 0) then .real 0 else v }
  | .minIters n => { c with minIters := n }
  | .maxIters n => { c with maxIters := n }
  | .biasCorrected on => { c with biasCorrected := on }
  | .threads _ => c

/-- `stochastic_parallel.rs:78-160`: the setters of `GDStochasticParallel`. It has no `bias_corrected_ema`. -/
noncomputable def Config.setParallel (c : Config) : Call → Config
  | .learningRate v => { c with lr0 := if v.Le (.real 0) then .real 0 else v }
  | .decay v => { c with decay := if v.Lt (.real 0) then .real 0 else v }
  | .momentum v => { c with momentum := clampV v (.real 0) (.real 1) }
  | .batchSize n => { c with batchSize := if n = 0 then 1 else n }
  | .ema v => { c with ema := clampV v (.real 0) (.real 1) }
  | .tolerances g s => { c with tolGrad := if g.Le (.real 0) then .real 0 else g, tolStep := if s.Le (.real 0) then .real 0 else s }
  | .tolF v => { c with tolF := if v.Lt (.real 0) then .real 0 else v }
  | .minIters n => { c with minIters := n }
  | .maxIters n => { c with maxIters := n }
  | .biasCorrected _ => c
  | .threads n => { c with threads := some (Max.max n 1) }

/-- A chain of calls. -/
noncomputable def Config.sets (set : Config → Call → Config) (c : Config) (calls : List Call) : Config := calls.foldl set c

end Verif.Opt
