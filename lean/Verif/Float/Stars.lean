import Verif.Float.Model

/-!
# Model of the star motion samples over any scalar type

See `Verif/Float/Model.lean` for the scalar types; over the reals these are the definitions of `Verif/Stars/Model.lean`
(proved at the end of `Verif/Float/PropsStars.lean`). `powi(2)` is the product of the number with itself. The `f32` fields
of a record are converted to `f64` without rounding, so that a record holds numbers of one type.
-/

namespace Verif.Float

section Generic

variable {K : Type} [Scalar K]

/-- The literals of `crates/aether_catalogs/src/star_catalogs/mod.rs:136-217` and the factor of `f64::to_radians`. -/
structure StarConsts (K : Type) where
  /-- `2016.0` -/
  gaia : K
  /-- `1991.25` -/
  hip : K
  /-- `3_600_000.0` -/
  mas : K
  /-- `PI / 180.0` -/
  rad : K
  /-- `1000.0` -/
  thousand : K
  /-- `206_264.806` -/
  au : K
  /-- `4.74047` -/
  speed : K

/-- `star_catalogs/mod.rs:13-55` `GncRecord`, the fields that the sample reads; `gaiaDr3` says that `cat_2016` is
`Some("GAIADR3")`. -/
structure StarRec (K : Type) where
  ra : K
  de : K
  eRa : K
  eDe : K
  pmra : Option K
  pmde : Option K
  ePmra : Option K
  ePmde : Option K
  plx : Option K
  gaiaDr3 : Bool

/-- `star_catalogs/mod.rs:199-203`: one angle of the star at an epoch, in radians. -/
def starAngle (k : StarConsts K) (deg : K) (pm : Option K) (epoch : K) : K :=
  let dt := epoch - k.gaia
  (deg + pm.getD 0 * dt / k.mas) * k.rad

open Classical in
/-- `star_catalogs/mod.rs:212-220`: `distance_au`. -/
noncomputable def starDistance (k : StarConsts K) (plx : Option K) : K :=
  match plx with
  | some p => if Scalar.lt 0 p then
      let plxArcsec := p / k.thousand
      let distancePc := 1 / plxArcsec
      distancePc * k.au
    else 1
  | none => 1

/-- `star_catalogs/mod.rs:205-222`: `position`. -/
noncomputable def starPosition (k : StarConsts K) (s : StarRec K) (epoch : K) : Fin 3 → K :=
  let raRad := starAngle k s.ra s.pmra epoch
  let decRad := starAngle k s.de s.pmde epoch
  let unit : Fin 3 → K := ![Scalar.cos decRad * Scalar.cos raRad, Scalar.cos decRad * Scalar.sin raRad, Scalar.sin decRad]
  fun i => unit i * starDistance k s.plx

open Classical in
/-- `star_catalogs/mod.rs:224-241`: `velocity`. -/
noncomputable def starVelocity (k : StarConsts K) (s : StarRec K) (epoch : K) : Fin 3 → K :=
  let raRad := starAngle k s.ra s.pmra epoch
  let decRad := starAngle k s.de s.pmde epoch
  let cosDec := Scalar.cos decRad
  let sinDec := Scalar.sin decRad
  let cosRa := Scalar.cos raRad
  let sinRa := Scalar.sin raRad
  match s.plx, s.pmra, s.pmde with
  | some plx, some pmra, some pmde =>
    if Scalar.lt 0 plx then
      let scale := k.speed / plx
      let tRa : Fin 3 → K := ![-sinRa, cosRa, 0]
      let tDe : Fin 3 → K := ![-cosRa * sinDec, -sinRa * sinDec, cosDec]
      fun i => scale * (pmra * tRa i + pmde * tDe i)
    else fun _ => 0
  | _, _, _ => fun _ => 0

/-- `star_catalogs/mod.rs:136-148` in `propagated_uncertainty`: one of the two angles. -/
noncomputable def starUncertainty (k : StarConsts K) (gaiaDr3 : Bool) (e : K) (ePm : Option K) (epoch : K) : K :=
  let ePm := ePm.getD 0
  if gaiaDr3 then
    Scalar.sqrt (e * e + ePm * ePm * ((epoch - k.gaia) * (epoch - k.gaia)))
  else
    let deltaT2 := (epoch - k.hip) * (epoch - k.hip) - (k.gaia - k.hip) * (k.gaia - k.hip)
    Scalar.sqrt (e * e + ePm * ePm * deltaT2)

/-- `star_catalogs/mod.rs:181-188` `GncCatalogMotionSample`. -/
structure StarSample (K : Type) where
  epoch : K
  position : Fin 3 → K
  velocity : Fin 3 → K
  uncertaintyRa : K
  uncertaintyDec : K

/-- `star_catalogs/mod.rs:195-259` `icrs_sample`. -/
noncomputable def starSample (k : StarConsts K) (s : StarRec K) (epoch : K) : StarSample K where
  epoch := epoch
  position := starPosition k s epoch
  velocity := starVelocity k s epoch
  uncertaintyRa := starUncertainty k s.gaiaDr3 s.eRa s.ePmra epoch
  uncertaintyDec := starUncertainty k s.gaiaDr3 s.eDe s.ePmde epoch

end Generic

end Verif.Float
