import Verif.Float.Coord
import Verif.Float.Geo

/-!
# Over the reals the generic definitions are the models used elsewhere
-/

namespace Verif.Float

open Verif.Mat (Mat)
open Verif.Att (Quat)

theorem sphericalOfCartesian_real (c : Fin 3 → ℝ) : sphericalOfCartesian c = Frames.sphericalOfCartesian c := by
  unfold sphericalOfCartesian Frames.sphericalOfCartesian
  simp only [Scalar.sqrt, Scalar.atan2, Scalar.eq, Scalar.acos]

theorem sphericalOfCylindrical_real (c : Fin 3 → ℝ) :
    sphericalOfCylindrical c = Frames.sphericalOfCylindrical c := by
  unfold sphericalOfCylindrical Frames.sphericalOfCylindrical
  simp only [Scalar.sqrt, Scalar.eq, Scalar.acos]

theorem angle_real {n : Nat} (a b : Fin n → ℝ) : angle a b = Mat.angle a b := by
  unfold angle Mat.angle
  simp only [Scalar.eq, Scalar.lt, Scalar.acos, gt_iff_lt]
  congr

theorem eulerOfQuat_real (q : Quat ℝ) :
    eulerOfQuat q = ![(Att.eulerOfQuat q).roll, (Att.eulerOfQuat q).pitch, (Att.eulerOfQuat q).yaw] := by
  unfold eulerOfQuat Att.eulerOfQuat
  simp only [Scalar.le, Scalar.abs, Scalar.atan2, Scalar.asin, Scalar.signum, Scalar.fracPi2, ge_iff_le]

theorem eulerOfDcm_real (m : Mat ℝ 3 3) :
    eulerOfDcm m = ![(Att.eulerOfDcm m).roll, (Att.eulerOfDcm m).pitch, (Att.eulerOfDcm m).yaw] := rfl

theorem dcmOfQuat_real (q : Quat ℝ) : dcmOfQuat q = Att.dcmOfQuat q := by
  unfold dcmOfQuat Att.dcmOfQuat
  have h : ∀ x : ℝ, Scalar.powf x (1 + 1 : ℝ) = x ^ 2 := fun x => by
    show x ^ (1 + 1 : ℝ) = x ^ 2
    rw [show (1 + 1 : ℝ) = ((2 : ℕ) : ℝ) by norm_num, Real.rpow_natCast]
  simp only [h]

theorem quatOfDcm_real (m : Mat ℝ 3 3) : quatOfDcm m = Att.quatOfDcm m := by
  unfold quatOfDcm Att.quatOfDcm
  have h4 : ((1 : ℝ) + 1 + (1 + 1)) = 4 := by norm_num
  simp only [Scalar.lt, Scalar.sqrt, gt_iff_lt, h4]

theorem toGeocentric_real (p : Wmm.Geodetic) :
    toGeocentric Frames.wgsA Wmm.wgsF p.latitude p.height =
      ![(Wmm.toGeocentric p).radius, (Wmm.toGeocentric p).latitude] := by
  unfold toGeocentric Wmm.toGeocentric
  have h2 : ((1 : ℝ) + 1) = 2 := by norm_num
  simp only [Scalar.sqrt, Scalar.sin, Scalar.cos, Scalar.asin, h2]

theorem cylindricalOfCartesian_real (c : Fin 3 → ℝ) :
    cylindricalOfCartesian c = Frames.cylindricalOfCartesian c := rfl

theorem cartesianOfSpherical_real (c : Fin 3 → ℝ) : cartesianOfSpherical c = Frames.cartesianOfSpherical c := rfl

theorem cartesianOfCylindrical_real (c : Fin 3 → ℝ) :
    cartesianOfCylindrical c = Frames.cartesianOfCylindrical c := rfl

theorem geodeticToEcef_real (lat lon alt : ℝ) :
    geodeticToEcef Frames.wgsA Frames.wgsE2 lat lon alt = Frames.geodeticToEcef lat lon alt := rfl

theorem geoLoop_real (eps rho2 z : ℝ) (fuel : ℕ) (n dz : ℝ) :
    geoLoop Frames.wgsA Frames.wgsE2 eps rho2 z fuel n dz =
      ((Frames.geoLoop eps rho2 z fuel n dz).n, (Frames.geoLoop eps rho2 z fuel n dz).dz) := by
  induction fuel generalizing n dz with
  | zero => rfl
  | succ k ih =>
    unfold geoLoop Frames.geoLoop
    dsimp only
    have h1 : (geoPass Frames.wgsA Frames.wgsE2 rho2 z dz).1 = Frames.geoN rho2 z dz := rfl
    have h2 : (geoPass Frames.wgsA Frames.wgsE2 rho2 z dz).2 = Frames.geoDz rho2 z dz := rfl
    rw [h1, h2]
    have h3 : Scalar.lt (Scalar.abs (dz - Frames.geoDz rho2 z dz)) eps ↔ |dz - Frames.geoDz rho2 z dz| < eps := Iff.rfl
    by_cases hc : |dz - Frames.geoDz rho2 z dz| < eps
    · rw [if_pos (h3.2 hc), if_pos hc]
    · rw [if_neg (mt h3.1 hc), if_neg hc, ih]

theorem ecefToGeodetic_real (x y z : ℝ) :
    ecefToGeodetic Frames.wgsA Frames.wgsE2 (Frames.f64Eps * 100) x y z = (Frames.ecefToGeodetic x y z).1 := by
  unfold ecefToGeodetic Frames.ecefToGeodetic
  dsimp only
  rw [geoLoop_real]
  rfl

end Verif.Float
