import Mathlib.Analysis.SpecialFunctions.Pow.Real
import Mathlib.Analysis.SpecialFunctions.Log.Basic
import Mathlib.Analysis.SpecialFunctions.Trigonometric.Basic

/-!
# Model of `aether_catalogs::star_catalogs`

Numbers are real (`f32`/`f64` rounding, infinities and NaN are not modelled); `powf`, `ln`, `sin`, `cos`, `sqrt` are the real
functions. `sqrt` of a negative number, a NaN in Rust, is `none`. Of a catalogue record only the fields that the functions
below read are kept.
-/

namespace Verif.Stars

open Real

/-- `f32::clamp`. -/
noncomputable def clamp (x lo hi : ℝ) : ℝ := if x < lo then lo else if hi < x then hi else x

/-- `crates/aether_catalogs/src/star_catalogs/color.rs:4-14` `KNOTS`. -/
noncomputable def knots : List (ℝ × ℝ) :=
  [(-0.2, 15000), (0, 10000), (0.3, 8000), (0.65, 5800), (1, 5000), (1.5, 4000), (2, 3500), (2.5, 3200), (3, 3000)]

/-- `color.rs:16-24`: the loop over `KNOTS.windows(2)` and the value after it. -/
noncomputable def scan (x : ℝ) : List (ℝ × ℝ) → ℝ
  | [] => 0
  | [k] => k.2
  | k0 :: k1 :: rest =>
    if x ≤ k1.1 then
      let t := (x - k0.1) / (k1.1 - k0.1)
      k0.2 + t * (k1.2 - k0.2)
    else scan x (k1 :: rest)

/-- `color.rs:3-25` `bp_rp_to_teff`. -/
noncomputable def teff (bpRp : ℝ) : ℝ := scan (clamp bpRp (-0.2) 3) knots

/-- Three colour channels (`[f32; 3]`). -/
structure Rgb where
  r : ℝ
  g : ℝ
  b : ℝ

/-- `color.rs:28-58` `blackbody_to_rgb`. -/
noncomputable def blackbody (temperature : ℝ) : Rgb :=
  let t := clamp temperature 1000 40000 / 100
  let r := if t ≤ 66 then 1 else clamp (329.698727446 * (t - 60) ^ (-0.1332047592 : ℝ) / 255) 0 1
  let g := if t ≤ 66 then min (max (99.4708025861 * log t - 161.1195681661) 0) 255 / 255
    else clamp (288.1221695283 * (t - 60) ^ (-0.0755148492 : ℝ) / 255) 0 1
  let b := if 66 ≤ t then 1 else if t ≤ 19 then 0
    else min (max (138.5177312231 * log (t - 10) - 305.0447927307) 0) 255 / 255
  ⟨r, g, b⟩

/-- `color.rs:62-68`: the transfer function of one channel. -/
noncomputable def linear1 (u : ℝ) : ℝ := if u ≤ 0.04045 then u / 12.92 else ((u + 0.055) / 1.055) ^ (2.4 : ℝ)

/-- `color.rs:61-70` `srgb_to_linear`. -/
noncomputable def srgbToLinear (c : Rgb) : Rgb := ⟨linear1 c.r, linear1 c.g, linear1 c.b⟩

/-- `color.rs:73-91` `bp_rp_to_rgb`. -/
noncomputable def bpRpToRgb (bpRp : ℝ) (linearOut : Bool) : Rgb :=
  let c := blackbody (teff bpRp)
  let sat := 1.15
  let avg := (c.r + c.g + c.b) / 3
  let c : Rgb := ⟨clamp (avg + (c.r - avg) * sat) 0 1, clamp (avg + (c.g - avg) * sat) 0 1, clamp (avg + (c.b - avg) * sat) 0 1⟩
  if linearOut then srgbToLinear c else c

/-- `crates/aether_catalogs/src/star_catalogs/mod.rs:13-55` `GncRecord`, the fields read below. -/
structure Star where
  ra : ℝ
  de : ℝ
  eRa : ℝ
  eDe : ℝ
  pmra : Option ℝ
  pmde : Option ℝ
  ePmra : Option ℝ
  ePmde : Option ℝ
  plx : Option ℝ
  cat : Option String
  gmag : Option ℝ
  bpmag : Option ℝ
  rpmag : Option ℝ
  jmag : Option ℝ
  hmag : Option ℝ
  kmag : Option ℝ

/-- `mod.rs:262-267` `GncCatalogPhotoSample`. -/
structure PhotoSample where
  gmag : ℝ
  bpmag : ℝ
  rpmag : ℝ
  rgb : Rgb

/-- `mod.rs:275-290` `photometric_color`. -/
noncomputable def Star.photometricColor (s : Star) : Option PhotoSample :=
  match s.bpmag, s.rpmag, s.gmag with
  | some bp, some rp, some g => some ⟨g, bp, rp, srgbToLinear (bpRpToRgb (bp - rp) false)⟩
  | _, _, _ => none

/-- `mod.rs:308-316` `GncCatalogInfraredColor`. -/
inductive Infrared where
  | from2Mass (rgb : Rgb) (j h k : ℝ)
  | missing

/-- `mod.rs:326`: the closure `clamp`. -/
noncomputable def brightness (mag : ℝ) : ℝ := clamp (1 - (mag - 8) / 8) 0 1

/-- `mod.rs:323-340` `photometric_infrared_rgb`; the `Some` around every result is dropped. -/
noncomputable def Star.infrared (s : Star) : Infrared :=
  match s.jmag, s.hmag, s.kmag with
  | some j, some h, some k => .from2Mass ⟨brightness k, brightness h, brightness j⟩ j h k
  | _, _, _ => .missing

/-- `f64::sqrt`, with `none` for NaN. -/
noncomputable def sqrt? (x : ℝ) : Option ℝ := if x < 0 then none else some √x

/-- `mod.rs:123-151` `propagated_uncertainty`. -/
noncomputable def Star.uncertainty (s : Star) (t : ℝ) : Option ℝ × Option ℝ :=
  let ePmra := s.ePmra.getD 0
  let ePmde := s.ePmde.getD 0
  if s.cat = some "GAIADR3" then
    (sqrt? (s.eRa ^ 2 + ePmra ^ 2 * (t - 2016) ^ 2), sqrt? (s.eDe ^ 2 + ePmde ^ 2 * (t - 2016) ^ 2))
  else
    let deltaT2 := (t - 1991.25) ^ 2 - (2016 - 1991.25) ^ 2
    (sqrt? (s.eRa ^ 2 + ePmra ^ 2 * deltaT2), sqrt? (s.eDe ^ 2 + ePmde ^ 2 * deltaT2))

/-- `f64::to_radians`. -/
noncomputable def toRadians (d : ℝ) : ℝ := d * (π / 180)

/-- `mod.rs:182-188` `GncCatalogMotionSample`. -/
structure MotionSample where
  epoch : ℝ
  position : Fin 3 → ℝ
  velocity : Fin 3 → ℝ
  uncertaintyRa : Option ℝ
  uncertaintyDec : Option ℝ

/-- `mod.rs:212-220`: `distance_au`. -/
noncomputable def Star.distance (s : Star) : ℝ :=
  match s.plx with
  | some p => if 0 < p then
      let plxArcsec := p / 1000
      let distancePc := 1 / plxArcsec
      distancePc * 206264.806
    else 1
  | none => 1

/-- `mod.rs:195-258` `icrs_sample`. -/
noncomputable def Star.icrsSample (s : Star) (epoch : ℝ) : MotionSample :=
  let dt := epoch - 2016
  let raDeg := s.ra + s.pmra.getD 0 * dt / 3600000
  let decDeg := s.de + s.pmde.getD 0 * dt / 3600000
  let raRad := toRadians raDeg
  let decRad := toRadians decDeg
  let cosDec := cos decRad
  let sinDec := sin decRad
  let cosRa := cos raRad
  let sinRa := sin raRad
  let unit : Fin 3 → ℝ := ![cosDec * cosRa, cosDec * sinRa, sinDec]
  let position : Fin 3 → ℝ := fun i => unit i * s.distance
  let velocity : Fin 3 → ℝ := match s.plx, s.pmra, s.pmde with
    | some plx, some pmra, some pmde =>
      if 0 < plx then
        let scale := 4.74047 / plx
        let tRa : Fin 3 → ℝ := ![-sinRa, cosRa, 0]
        let tDe : Fin 3 → ℝ := ![-cosRa * sinDec, -sinRa * sinDec, cosDec]
        fun i => scale * (pmra * tRa i + pmde * tDe i)
      else fun _ => 0
    | _, _, _ => fun _ => 0
  let e := s.uncertainty epoch
  ⟨epoch, position, velocity, e.1, e.2⟩

end Verif.Stars
