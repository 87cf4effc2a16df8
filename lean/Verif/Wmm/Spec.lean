import Verif.Wmm.Legendre
import Verif.Frames.Model
import Mathlib.Analysis.SpecialFunctions.Trigonometric.Inverse
import Mathlib.Algebra.BigOperators.Intervals

/-!
# Specification of the magnetic field: the scalar potential and the WGS84 ellipsoid

Nothing here refers to the model of the code (except the length of the semi-major axis).
-/

namespace Verif.Wmm

open Real Polynomial

/-- The Schmidt semi-normalisation factor. -/
noncomputable def schmidt (n m : ℕ) : ℝ := if m = 0 then 1 else √(2 * ((n - m).factorial : ℝ) / (n + m).factorial)

/-- The Schmidt semi-normalised associated Legendre function of degree `n` and order `m` at latitude `φ`. -/
noncomputable def schmidtP (n m : ℕ) (φ : ℝ) : ℝ := schmidt n m * (cos φ ^ m * (legendreD n m).eval (sin φ))

/-- The scalar potential of a spherical-harmonic expansion up to degree `N` with reference radius `a` and Gauss coefficients `g`, `h`, at
radius `r`, geocentric latitude `φ` and longitude `lon`. -/
noncomputable def potential (a : ℝ) (N : ℕ) (g h : ℕ → ℕ → ℝ) (r φ lon : ℝ) : ℝ :=
  a * ∑ n ∈ Finset.Icc 1 N, (a / r) ^ (n + 1) * ∑ m ∈ Finset.Icc 0 n, (g n m * cos (m * lon) + h n m * sin (m * lon)) * schmidtP n m φ

/-- First eccentricity squared of the ellipsoid of flattening 1/298.25722…. -/
noncomputable def ecc2 : ℝ := 3.3528106647475e-3 * (2 - 3.3528106647475e-3)

/-- Prime-vertical radius of curvature at geodetic latitude `φ`. -/
noncomputable def primeVertical (φ : ℝ) : ℝ := 6378137 / √(1 - ecc2 * sin φ ^ 2)

/-- Meridian radius of curvature at geodetic latitude `φ`. -/
noncomputable def meridian (φ : ℝ) : ℝ := 6378137 * (1 - ecc2) / √(1 - ecc2 * sin φ ^ 2) ^ 3

/-- Distance from the polar axis of the point at geodetic latitude `φ` and height `h`. -/
noncomputable def axisDistance (φ h : ℝ) : ℝ := (primeVertical φ + h) * cos φ

/-- Height over the equatorial plane of that point. -/
noncomputable def planeHeight (φ h : ℝ) : ℝ := (primeVertical φ * (1 - ecc2) + h) * sin φ

/-- Distance of that point from the centre. -/
noncomputable def centreDistance (φ h : ℝ) : ℝ := √(axisDistance φ h ^ 2 + planeHeight φ h ^ 2)

/-- Geocentric latitude of that point. -/
noncomputable def geocentricLatitude (φ h : ℝ) : ℝ := arcsin (planeHeight φ h / centreDistance φ h)

/-- The potential as a function of the geodetic coordinates. -/
noncomputable def geodeticPotential (N : ℕ) (g h : ℕ → ℕ → ℝ) (lat lon height : ℝ) : ℝ :=
  potential 6371200 N g h (centreDistance lat height) (geocentricLatitude lat height) lon

end Verif.Wmm
