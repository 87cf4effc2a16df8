import Mathlib.Analysis.SpecialFunctions.Trigonometric.Basic

/-! # Model of `crates/aether_models/src/lunar/orbit.rs`: the orbit of the Moon -/

namespace Verif.Frames

/-- `lunar/orbit.rs:8-15` `MoonOrbitAroundEarth`, with real fields. -/
structure MoonOrbit where
  semiMajorAxis : ℝ
  eccentricity : ℝ
  inclination : ℝ
  siderealPeriod : ℝ
  muEarth : ℝ
  muMoon : ℝ

/-- `lunar/orbit.rs:35-37` `mu_total_m3_s2`. -/
noncomputable def MoonOrbit.muTotal (o : MoonOrbit) : ℝ := o.muEarth + o.muMoon

/-- `lunar/orbit.rs:39-41` `mean_motion_rad_s`. -/
noncomputable def MoonOrbit.meanMotion (o : MoonOrbit) : ℝ := 2 * Real.pi / o.siderealPeriod

/-- `lunar/orbit.rs:43-45` `keplerian_period_s`. -/
noncomputable def MoonOrbit.keplerianPeriod (o : MoonOrbit) : ℝ := 2 * Real.pi * √(o.semiMajorAxis ^ 3 / o.muTotal)

end Verif.Frames
