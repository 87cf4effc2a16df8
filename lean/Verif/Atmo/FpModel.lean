import Verif.Atmo.Model

/-!
# The ICAO atmosphere in rounded arithmetic

The definitions of `Verif/Atmo/Model.lean` with every stored constant and every operation rounded by `fl`. Comparisons
and negation are exact. The exponential and the power function are arbitrary. Overflow and underflow are not modelled.
-/

namespace Verif.Atmo.Fp

open ISA

/-- The library functions used by `isa.rs` (`f64::exp`, `f64::powf`). -/
structure Lib where
  exp : ℝ → ℝ
  powf : ℝ → ℝ → ℝ

variable (fl : ℝ → ℝ) (lib : Lib)

/-- `crates/aether_models/src/terrestrial/atmospheres/isa.rs:101-111` `get_base_index`. -/
noncomputable def baseIndex (h : ℝ) : Except Fault ℕ := baseLoop h (altitudes.map fl) 0

/-- `isa.rs:123-127` `gravity`. -/
noncomputable def gravity (z : ℝ) : ℝ := fl (fl g0 * lib.powf (fl (fl earthRadius / fl (fl earthRadius + z))) 2)

/-- `isa.rs:128-131` `geopotential_altitude`. -/
noncomputable def geopotential (z : ℝ) : ℝ := fl (fl (fl earthRadius * z) / fl (fl earthRadius + z))

/-- `isa.rs:132-135` `geometric_altitude`. -/
noncomputable def geometric (h : ℝ) : ℝ := fl (fl (fl earthRadius * h) / fl (fl earthRadius - h))

/-- `isa.rs:137-140` `base_temperature`. -/
noncomputable def baseTemperature (h : ℝ) : Except Fault ℝ := do get (temperatures.map fl) (← baseIndex fl h)

/-- `isa.rs:142-145` `base_density`. -/
noncomputable def baseDensity (h : ℝ) : Except Fault ℝ := do get (densities.map fl) (← baseIndex fl h)

/-- `isa.rs:147-152` `base_pressure`. -/
noncomputable def basePressure (h : ℝ) : Except Fault ℝ := do
  let d ← baseDensity fl h
  let t ← baseTemperature fl h
  pure (fl (fl (d * fl (fl rStar / fl molarMass)) * t))

/-- `isa.rs:154-168` `temperature`. -/
noncomputable def temperature (h : ℝ) : Except Fault ℝ := do
  let i ← baseIndex fl h
  match gradientIndex i with
  | .ok j => do
    let t ← get (temperatures.map fl) i
    let g ← get (gradients.map fl) j
    let b ← get (altitudes.map fl) i
    pure (fl (t + fl (g * fl (h - b))))
  | .error _ => get (temperatures.map fl) i

/-- `isa.rs:170-201` `pressure`. -/
noncomputable def pressure (h : ℝ) : Except Fault ℝ := do
  let i ← baseIndex fl h
  match gradientIndex i with
  | .ok j => do
    let baseT ← get (temperatures.map fl) i
    let baseP ← basePressure fl h
    let t ← temperature fl h
    let g ← get (gradients.map fl) j
    let b ← get (altitudes.map fl) i
    if g ≠ 0 then
      let t1 := baseP
      let t2 := fl (1 + fl (fl (g / baseT) * fl (h - b)))
      let t3 := fl (-fl g0 / fl (fl gasR * g))
      pure (fl (t1 * lib.powf t2 t3))
    else
      pure (fl (baseP * lib.exp (fl (fl (-fl g0 / fl (fl gasR * t)) * fl (h - b)))))
  | .error _ => .error .noGradient

/-- `isa.rs:203-208` `density`. -/
noncomputable def density (h : ℝ) : Except Fault ℝ := do
  let t ← temperature fl h
  let p ← pressure fl lib h
  pure (fl (p / fl (fl (fl rStar / fl molarMass) * t)))

end Verif.Atmo.Fp
