import Mathlib.Analysis.SpecialFunctions.Pow.Real

/-!
# Model of `aether_models/src/terrestrial/atmospheres`

Scalars are real numbers; decimal literals are taken as written. A table read outside the table and an `expect` on an error are the fault
`panic`. The unused files `layers/*.rs` are not modelled.
-/

namespace Verif.Atmo

/-- The error strings of `isa.rs` and `ussa.rs`, and panics. -/
inductive Fault where
  | panic
  | yikes
  | noGradient
  deriving DecidableEq

/-- Indexing of an array. -/
def get (l : List ℝ) (i : ℕ) : Except Fault ℝ :=
  match l[i]? with
  | some v => .ok v
  | none => .error .panic

namespace ISA

/-- `crates/aether_models/src/terrestrial/atmospheres/isa.rs:88-90`. -/
noncomputable def altitudes : List ℝ := [-5000, 0, 11000, 20000, 32000, 47000, 51000, 71000, 80000]

/-- `isa.rs:91-94`. -/
noncomputable def densities : List ℝ :=
  [1.93047, 1.225, 3.63918e-1, 8.80345e-2, 1.32249e-2, 1.42752e-3, 8.616e-4, 6.42105e-5, 1.57004e-5]

/-- `isa.rs:95-97`. -/
noncomputable def temperatures : List ℝ := [320.65, 288.15, 216.65, 216.65, 228.65, 270.65, 270.65, 214.650, 196.65]

/-- `isa.rs:98`. -/
noncomputable def gradients : List ℝ := [-6.5e-3, -6.5e-3, 0, 1.0e-3, 2.8e-3, 0, -2.8e-3, -2.0e-3]

/-- `isa.rs:20`, `24`, `25`, `36`, `73`: `g_0`, `R_Star`, `R`, `earth_radius_nominal`, `air_molar_mass`. -/
noncomputable def g0 : ℝ := 9.80665
noncomputable def rStar : ℝ := 8314.32
noncomputable def gasR : ℝ := 287.05287
noncomputable def earthRadius : ℝ := 6356766
noncomputable def molarMass : ℝ := 28.964420

/-- `isa.rs:103-110`, the loop of `get_base_index`. -/
noncomputable def baseLoop (h : ℝ) : List ℝ → ℕ → Except Fault ℕ
  | [], _ => .error .yikes
  | v :: vs, i => if h ≤ v then .ok i else baseLoop h vs (i + 1)

/-- `isa.rs:101-111` `get_base_index`. -/
noncomputable def baseIndex (h : ℝ) : Except Fault ℕ := baseLoop h altitudes 0

/-- `isa.rs:112-121` `get_gradient_index`. -/
noncomputable def gradientIndex (i : ℕ) : Except Fault ℕ :=
  if i = altitudes.length then .error .noGradient else if i = 0 then .ok i else .ok (i - 1)

/-- `isa.rs:123-127` `gravity`. -/
noncomputable def gravity (z : ℝ) : ℝ := g0 * (earthRadius / (earthRadius + z)) ^ (2 : ℝ)

/-- `isa.rs:128-131` `geopotential_altitude`. -/
noncomputable def geopotential (z : ℝ) : ℝ := earthRadius * z / (earthRadius + z)

/-- `isa.rs:132-135` `geometric_altitude`. -/
noncomputable def geometric (h : ℝ) : ℝ := earthRadius * h / (earthRadius - h)

/-- `isa.rs:137-140` `base_temperature`. -/
noncomputable def baseTemperature (h : ℝ) : Except Fault ℝ := do get temperatures (← baseIndex h)

/-- `isa.rs:142-145` `base_density`. -/
noncomputable def baseDensity (h : ℝ) : Except Fault ℝ := do get densities (← baseIndex h)

/-- `isa.rs:147-152` `base_pressure`. -/
noncomputable def basePressure (h : ℝ) : Except Fault ℝ := do
  let d ← baseDensity h
  let t ← baseTemperature h
  pure (d * (rStar / molarMass) * t)

/-- `isa.rs:154-168` `temperature`. -/
noncomputable def temperature (h : ℝ) : Except Fault ℝ := do
  let i ← baseIndex h
  match gradientIndex i with
  | .ok j => do
    let t ← get temperatures i
    let g ← get gradients j
    let b ← get altitudes i
    pure (t + g * (h - b))
  | .error _ => get temperatures i

/-- `isa.rs:170-201` `pressure`. -/
noncomputable def pressure (h : ℝ) : Except Fault ℝ := do
  let i ← baseIndex h
  match gradientIndex i with
  | .ok j => do
    let baseT ← get temperatures i
    let baseP ← basePressure h
    let t ← temperature h
    let g ← get gradients j
    let b ← get altitudes i
    if g ≠ 0 then
      let t1 := baseP
      let t2 := 1 + g / baseT * (h - b)
      let t3 := -g0 / (gasR * g)
      pure (t1 * t2 ^ t3)
    else
      pure (baseP * Real.exp (-g0 / (gasR * t) * (h - b)))
  | .error _ => .error .noGradient

/-- `isa.rs:203-208` `density`. -/
noncomputable def density (h : ℝ) : Except Fault ℝ := do
  let t ← temperature h
  let p ← pressure h
  pure (p / (rStar / molarMass * t))

end ISA

namespace USSA

/-- `crates/aether_models/src/terrestrial/atmospheres/ussa.rs:16-21`. -/
noncomputable def r0 : ℝ := 6356766
noncomputable def rStar : ℝ := 8.31432e3
noncomputable def molarMass : ℝ := 28.9644
noncomputable def g0 : ℝ := 9.80655

/-- `ussa.rs:22-25`. -/
noncomputable def heights : List ℝ :=
  [0, 11019, 20063, 32162, 47350, 51413, 71802, 86000, 91000, 110000, 120000, 500000, 1000000]

/-- `ussa.rs:26-29`. -/
noncomputable def temperatures : List ℝ :=
  [288.15, 216.65, 216.65, 228.650, 270.65, 270.65, 214.650, 186.87, 186.87, 240, 360, 999.24, 1000]

/-- `ussa.rs:30-33`. -/
noncomputable def pressures : List ℝ :=
  [101.325e3, 226.32e2, 547.48e1, 868.01, 110.90, 669.38e-1, 395.64e-2, 373.38e-3, 153.81e-3, 710.42e-5, 253.82e-5, 302.36e-6, 751.38e-8]

/-- `ussa.rs:38-40`. -/
noncomputable def lapseRates : List ℝ := [-6.5e-3, 0, 1.0e-3, 2.8e-3, 0, -2.8e-3, -2.0e-3, 0, 0, 12, 12, 0]

/-- `ussa.rs:49-57`, the loop of `get_base_index`: `n` is the number of passes left. -/
noncomputable def baseLoop (h : ℝ) : ℕ → ℕ → Except Fault ℕ
  | 0, _ => .error .yikes
  | n + 1, i => do
    let next ← get heights (i + 1)
    if h < next then .ok i else baseLoop h n (i + 1)

/-- `ussa.rs:48-58` `get_base_index`. -/
noncomputable def baseIndex (h : ℝ) : Except Fault ℕ := baseLoop h heights.length 0

/-- `ussa.rs:60-66` `get_gradient_index`. -/
noncomputable def gradientIndex (i : ℕ) : Except Fault ℕ := if i = heights.length then .error .noGradient else .ok i

/-- `expect`, `unwrap`: an error is a panic. -/
def expect {α : Type} : Except Fault α → Except Fault α
  | .ok a => .ok a
  | .error _ => .error .panic

/-- `ussa.rs:84-127` `temperature`. -/
noncomputable def temperature (h : ℝ) : Except Fault ℝ := do
  let i ← expect (baseIndex h)
  match gradientIndex i with
  | .ok j => do
    if h < 86000 then do
      let t ← get temperatures i
      let l ← get lapseRates j
      let b ← get heights i
      pure (t + l * (h - b))
    else if h < 91000 then get temperatures i
    else if h < 110000 then do
      let tc : ℝ := 263.1905
      let ca : ℝ := -76.3232
      let a : ℝ := -19942.9
      let b ← get heights i
      pure (tc + ca * Real.exp (1 - ((h - b) / a) ^ (2 : ℝ)))
    else if h < 1000000 then do
      let tinf : ℝ := 1000
      let lambda : ℝ := 0.01875
      let b ← get heights 9
      let eta := (h - b) * (r0 + b) / (r0 + h) * 1e-3
      let expo := Real.exp (-lambda * eta)
      let t9 ← get temperatures 9
      pure (tinf - (tinf - t9) * expo)
    else pure 0
  | .error _ => get temperatures i

/-- `ussa.rs:129-158` `pressure`. -/
noncomputable def pressure (h : ℝ) : Except Fault ℝ := do
  let i ← baseIndex h
  match gradientIndex i with
  | .ok j => do
    let baseT ← get temperatures i
    let baseP ← get pressures i
    let t ← expect (temperature h)
    let l ← get lapseRates j
    if l ≠ 0 then
      pure (baseP * (baseT / t) ^ (g0 * molarMass / (rStar * l)))
    else do
      let b ← get heights i
      pure (baseP * Real.exp (-g0 * molarMass * (h - b) / (rStar * t)))
  | .error _ => .error .noGradient

/-- `ussa.rs:160-165` `density`. -/
noncomputable def density (h : ℝ) : Except Fault ℝ := do
  let t ← expect (temperature h)
  let p ← pressure h
  pure (p * molarMass / (rStar * t))

/-- `ussa.rs:167-172` `speed_of_sound`. -/
noncomputable def speedOfSound (h : ℝ) : Except Fault ℝ := do
  let t ← expect (temperature h)
  pure (1.4 * rStar / molarMass * t)

/-- `ussa.rs:41-42`, `174-182` `dynamic_viscosity`. -/
noncomputable def viscosity (h : ℝ) : Except Fault ℝ := do
  let t ← expect (temperature h)
  pure (145.8 * 1e-7 * t ^ (1.5 : ℝ) / (t + 110.4) * 0.1)

end USSA

end Verif.Atmo
