import Verif.Att.Model
import Verif.Mat.Vec
import Mathlib.Analysis.SpecialFunctions.Trigonometric.Inverse

/-!
# Coordinates, frame transformations, Earth and Moon force models

Rust sources: `crates/aether_core/src/coordinate/`, `crates/aether_core/src/reference_frame/` and
`crates/aether_models/src/{terrestrial,lunar}/`. Scalars are real numbers; a `Cartesian` is its array of three
components, `Spherical` is `[r, azimuth, inclination]` and `Cylindrical` is `[r, azimuth, z]`; the phantom frame
parameters are dropped. `f64` constants are the decimal numbers written in the source (their binary rounding is
not modelled).
-/

namespace Verif.Frames

open Verif.Mat Verif.Att Real

/-- `coordinate/spherical.rs:33-48` `From<&Cartesian> for Spherical`. -/
noncomputable def sphericalOfCartesian (c : Fin 3 → ℝ) : Fin 3 → ℝ :=
  let x := c 0
  let y := c 1
  let z := c 2
  let rho := √(x * x + y * y + z * z)
  let theta := atan2 y x
  let phi := if rho = 0 then 0 else arccos (z / rho)
  ![rho, theta, phi]

/-- `coordinate/spherical.rs:50-63` `From<&Cylindrical> for Spherical`. -/
noncomputable def sphericalOfCylindrical (c : Fin 3 → ℝ) : Fin 3 → ℝ :=
  let r := c 0
  let theta := c 1
  let z := c 2
  let rho := √(r * r + z * z)
  let phi := if rho ≠ 0 then arccos (z / rho) else 0
  ![rho, theta, phi]

/-- `coordinate/cylindrical.rs:29-38` `From<&Cartesian> for Cylindrical`. -/
noncomputable def cylindricalOfCartesian (c : Fin 3 → ℝ) : Fin 3 → ℝ :=
  let x := c 0
  let y := c 1
  let z := c 2
  let r := √(x * x + y * y)
  let theta := atan2 y x
  ![r, theta, z]

/-- `coordinate/cylindrical.rs:41-48` `From<&Spherical> for Cylindrical`. -/
noncomputable def cylindricalOfSpherical (s : Fin 3 → ℝ) : Fin 3 → ℝ :=
  let r := s 0 * sin (s 2)
  let z := s 0 * cos (s 2)
  let theta := s 1
  ![r, theta, z]

/-- `coordinate/cartesian.rs:320-333` `From<&Spherical> for Cartesian`. -/
noncomputable def cartesianOfSpherical (p : Fin 3 → ℝ) : Fin 3 → ℝ :=
  let r := p 0
  let phi := p 1
  let theta := p 2
  let sinTheta := sin theta
  ![r * sinTheta * cos phi, r * sinTheta * sin phi, r * cos theta]

/-- `coordinate/cartesian.rs:335-342` `From<&Cylindrical> for Cartesian`. -/
noncomputable def cartesianOfCylindrical (c : Fin 3 → ℝ) : Fin 3 → ℝ :=
  ![c 0 * cos (c 1), c 0 * sin (c 1), c 2]

/-! ## Frame matrices -/

/-- `reference_frame/transforms.rs:8-15` `angular_rate_dcm`. -/
def angularRateDcm (roll pitch yaw : ℝ) : Mat ℝ 3 3 :=
  ![![0, -yaw, pitch], ![yaw, 0, -roll], ![-pitch, roll, 0]]

/-- `reference_frame/transforms.rs:17-32` `aircraft_wind_to_body`: `t_ws * t_bs.transpose()`. -/
noncomputable def aircraftWindToBody (aoa slip : ℝ) : Mat ℝ 3 3 :=
  let tbs : Mat ℝ 3 3 := ![![cos aoa, 0, -sin aoa], ![0, 1, 0], ![sin aoa, 0, cos aoa]]
  let tws : Mat ℝ 3 3 := ![![cos slip, sin slip, 0], ![-sin slip, cos slip, 0], ![0, 0, 1]]
  dcmMul tws (dcmTranspose tbs)

/-- `reference_frame/transforms.rs:34-44` `aeroballistic_wind_to_body`. -/
noncomputable def aeroballisticWindToBody (aoa phi : ℝ) : Mat ℝ 3 3 :=
  ![![cos aoa, sin aoa * sin phi, sin aoa * cos phi],
    ![0, cos phi, -sin phi],
    ![-sin aoa, cos aoa * sin phi, cos aoa * cos phi]]

/-- `reference_frame/transforms.rs:46-53` `flight_path_to_geographic`. -/
noncomputable def flightPathToGeographic (heading gamma : ℝ) : Mat ℝ 3 3 :=
  ![![cos gamma * cos heading, cos gamma * sin heading, -sin gamma],
    ![-sin heading, cos heading, 0],
    ![sin gamma * cos heading, sin gamma * sin heading, cos gamma]]

/-- `reference_frame/transforms.rs:55-71` `body_to_ned`. -/
noncomputable def bodyToNed (roll pitch yaw : ℝ) : Mat ℝ 3 3 :=
  let phi := roll
  let tht := pitch
  let psi := yaw
  ![![cos psi * cos tht, sin psi * cos tht, -sin tht],
    ![cos psi * sin tht * sin phi - sin psi * cos phi, sin psi * sin tht * sin phi + cos psi * cos phi,
      cos tht * sin phi],
    ![cos psi * sin tht * cos phi + sin psi * sin phi, sin psi * sin tht * cos phi - cos psi * sin phi,
      cos tht * cos phi]]

/-- `reference_frame/transforms.rs:73-84` `itrf_to_ned`. -/
noncomputable def itrfToNed (lat lon : ℝ) : Mat ℝ 3 3 :=
  ![![-sin lat * cos lon, -sin lat * sin lon, cos lat],
    ![-sin lon, cos lon, 0],
    ![-cos lat * cos lon, -cos lat * sin lon, -sin lat]]

/-- `reference_frame/transforms.rs:86-101` and `aether_models/.../wgs84/transforms/mod.rs:10-25` `icrf_to_itrf`
(the two copies are identical; `Earth::icrf_to_itrf`, `earth.rs:115-117`, calls it with its own rate). -/
noncomputable def icrfToItrf (time : ℝ) (w : Fin 3 → ℝ) : Mat ℝ 3 3 :=
  ![![cos (w 2 * time), sin (w 2 * time), 0], ![sin (-w 2 * time), cos (w 2 * time), 0], ![0, 0, 1]]

/-- `reference_frame/transforms.rs:102-117` and `wgs84/transforms/mod.rs:26-41` `itrf_to_icrf`. -/
noncomputable def itrfToIcrf (time : ℝ) (w : Fin 3 → ℝ) : Mat ℝ 3 3 :=
  ![![cos (w 2 * time), sin (-w 2 * time), 0], ![sin (w 2 * time), cos (w 2 * time), 0], ![0, 0, 1]]

/-- `reference_frame/itrf.rs:20,31`: the Earth rate. -/
noncomputable def earthRate : ℝ := 7.2921150e-5

/-- `reference_frame/itrf.rs:18-23` `angular_velocity`. -/
noncomputable def itrfAngularVelocity : Fin 3 → ℝ := ![0, 0, earthRate]

/-- `reference_frame/itrf.rs:29-43` `orientation_at`. -/
noncomputable def orientationAt (epoch t : ℝ) : Quat ℝ :=
  let dtheta := (t - epoch) * earthRate
  let half := dtheta * (1 / 2)
  ⟨cos half, 0, 0, sin half⟩

/-- `lunar/constants.rs:17-18` `MOON_SIDEREAL_ROTATION_RATE_RAD_S`. -/
noncomputable def moonRate : ℝ := 2 * π / (27.321661 * 86400)

/-- `lunar/transforms.rs:10-16` and 18-24 `icrf_to_lirf`, `lirf_to_icrf`. -/
def icrfToLirf : Mat ℝ 3 3 := ![![1, 0, 0], ![0, 1, 0], ![0, 0, 1]]

/-- `lunar/transforms.rs:26-39` `lirf_to_ltrf`. -/
noncomputable def lirfToLtrf (time : ℝ) : Mat ℝ 3 3 :=
  let theta := moonRate * time
  ![![cos theta, sin theta, 0], ![-sin theta, cos theta, 0], ![0, 0, 1]]

/-- `lunar/transforms.rs:41-54` `ltrf_to_lirf`. -/
noncomputable def ltrfToLirf (time : ℝ) : Mat ℝ 3 3 :=
  let theta := moonRate * time
  ![![cos theta, -sin theta, 0], ![sin theta, cos theta, 0], ![0, 0, 1]]

/-- `lunar/transforms.rs:56-58` `icrf_to_ltrf`. -/
noncomputable def icrfToLtrf (time : ℝ) : Mat ℝ 3 3 := dcmMul (lirfToLtrf time) icrfToLirf

/-- `lunar/transforms.rs:60-62` `ltrf_to_icrf`. -/
noncomputable def ltrfToIcrf (time : ℝ) : Mat ℝ 3 3 := dcmMul icrfToLirf (ltrfToLirf time)

/-- `lunar/transforms.rs:64-69` `icrf_to_ltrf_at_epoch`. -/
noncomputable def icrfToLtrfAtEpoch (since : ℝ) (atEpoch : Mat ℝ 3 3) : Mat ℝ 3 3 :=
  dcmMul (lirfToLtrf since) atEpoch

/-- `lunar/transforms.rs:71-76` `ltrf_to_icrf_at_epoch`. -/
noncomputable def ltrfToIcrfAtEpoch (since : ℝ) (atEpoch : Mat ℝ 3 3) : Mat ℝ 3 3 :=
  dcmMul (dcmTranspose atEpoch) (ltrfToLirf since)

/-- `lunar/moon.rs:18-25` `Moon`: the fields the transforms read. -/
structure Moon where
  gm : ℝ
  epochTime : ℝ
  atEpoch : Mat ℝ 3 3

/-- `lunar/moon.rs:97-99` `Moon::lirf_to_ltrf`: the absolute time is passed on. -/
noncomputable def Moon.lirfToLtrf (_m : Moon) (time : ℝ) : Mat ℝ 3 3 := Frames.lirfToLtrf time

/-- `lunar/moon.rs:105-107` `Moon::icrf_to_lirf`. -/
def Moon.icrfToLirf (m : Moon) : Mat ℝ 3 3 := m.atEpoch

/-- `lunar/moon.rs:113-115` `Moon::icrf_to_ltrf`: the time since the epoch is passed on. -/
noncomputable def Moon.icrfToLtrf (m : Moon) (time : ℝ) : Mat ℝ 3 3 :=
  icrfToLtrfAtEpoch (time - m.epochTime) m.atEpoch

/-- `lunar/moon.rs:117-119` `Moon::ltrf_to_icrf`. -/
noncomputable def Moon.ltrfToIcrf (m : Moon) (time : ℝ) : Mat ℝ 3 3 :=
  ltrfToIcrfAtEpoch (time - m.epochTime) m.atEpoch

/-! ## Forces -/

/-- `math/vector.rs` scalar multiplication, as used by `Cartesian * f64` (`coordinate/cartesian.rs:207-215`). -/
def scaled (v : Fin 3 → ℝ) (s : ℝ) : Fin 3 → ℝ := fun i => v i * s

/-- `f64::EPSILON`. -/
noncomputable def f64Eps : ℝ := 2⁻¹ ^ 52

/-- `lunar/moon.rs:60-71` `gravitational_acceleration`. -/
noncomputable def Moon.gravity (m : Moon) (p : Fin 3 → ℝ) : Fin 3 → ℝ :=
  let radius := Mat.norm Real.sqrt p
  if radius ≤ f64Eps then fun _ => 0
  else scaled p (-m.gm / radius ^ 3)

/-- `lunar/moon.rs:73-79` `solve_gravitational_force`. -/
noncomputable def Moon.force (m : Moon) (p : Fin 3 → ℝ) (mass : ℝ) : Fin 3 → ℝ := scaled (m.gravity p) mass

/-- `lunar/moon.rs:81-95` `solve_gravitational_torque`. -/
noncomputable def Moon.torque (m : Moon) (p : Fin 3 → ℝ) (inertia : Mat ℝ 3 3) : Fin 3 → ℝ :=
  let radius := Mat.norm Real.sqrt p
  if radius ≤ f64Eps then fun _ => 0
  else
    let value := Mat.mulVec inertia p
    let loc := cross p value
    scaled loc (3 * m.gm / radius ^ 5)

/-- `terrestrial/earth.rs:55-62` `solve_coriolis_force`; `w` is `self.rotational_velocity`. -/
def coriolisForce (w vel : Fin 3 → ℝ) (mass : ℝ) : Fin 3 → ℝ :=
  fun i => -(scaled (scaled (cross w vel) 2) mass i)

/-- `terrestrial/earth.rs:64-72` `solve_centrifugal_force`. -/
def centrifugalForce (w pos : Fin 3 → ℝ) (mass : ℝ) : Fin 3 → ℝ :=
  fun i => -(scaled (cross w (cross w pos)) mass i)

/-- `terrestrial/iers/constants.rs:22` `geocentric_gravitational_constant`. -/
noncomputable def gmEarth : ℝ := 3.986004418e14

/-- `terrestrial/earth.rs:86-97` `solve_gravitational_torque`. `powf(5.0)` is the fifth power (the norm is
non-negative); at the origin the code divides zero by zero, here the quotient is zero. -/
noncomputable def earthTorque (pos : Fin 3 → ℝ) (inertia : Mat ℝ 3 3) : Fin 3 → ℝ :=
  let value := Mat.mulVec inertia pos
  let loc := cross pos value
  scaled loc (3 * gmEarth / Mat.norm Real.sqrt pos ^ 5)

/-- `terrestrial/wgs84/constants/mod.rs:31` `g_e`. -/
noncomputable def wgsGe : ℝ := 9.7803253359
/-- `terrestrial/wgs84/constants/mod.rs:32` `g_p`. -/
noncomputable def wgsGp : ℝ := 9.8321849379
/-- `terrestrial/wgs84/constants/mod.rs:34` `k`. -/
noncomputable def wgsK : ℝ := 1.931852652458e-3
/-- `terrestrial/wgs84/constants/mod.rs:18` `e2`. -/
noncomputable def wgsE2 : ℝ := 6.694379990141e-3
/-- `terrestrial/wgs84/constants/mod.rs:2` `a`. -/
noncomputable def wgsA : ℝ := 6378137

/-- `terrestrial/wgs84/gravity/mod.rs:13-15` `gravity_normal`: `latitude.sin().sin()` is the sine of the sine. -/
noncomputable def gravityNormal (latitude : ℝ) : ℝ :=
  wgsGe * (1 + wgsK * sin (sin latitude)) / (1 - wgsE2 * sin (sin latitude))

/-! ## Geodetic coordinates -/

/-- `terrestrial/wgs84/transforms/mod.rs:43-55` `geocentric_to_ecef`. -/
noncomputable def geodeticToEcef (latitude longitude altitude : ℝ) : Fin 3 → ℝ :=
  let n := wgsA / √(1 - wgsE2 * sin latitude * sin latitude)
  let x := (n + altitude) * cos latitude * cos longitude
  let y := (n + altitude) * cos latitude * sin longitude
  let z := (n * (1 - wgsE2) + altitude) * sin latitude
  ![x, y, z]

/-- State of the loop of `ecef_to_geocentric`: `n`, `dz` and whether the loop was left by `break`. -/
structure GeoState where
  n : ℝ
  dz : ℝ
  converged : Bool

/-- `terrestrial/wgs84/transforms/mod.rs:108-112`: `n` of one pass. -/
noncomputable def geoN (rho2 z dz : ℝ) : ℝ :=
  let zdz := z + dz
  let nh := √(rho2 + zdz * zdz)
  let sinphi := zdz / nh
  wgsA / √(1 - wgsE2 * sinphi * sinphi)

/-- `terrestrial/wgs84/transforms/mod.rs:108-112`: `dz_new` of one pass. -/
noncomputable def geoDz (rho2 z dz : ℝ) : ℝ :=
  let zdz := z + dz
  let nh := √(rho2 + zdz * zdz)
  let sinphi := zdz / nh
  let n := wgsA / √(1 - wgsE2 * sinphi * sinphi)
  n * wgsE2 * sinphi

/-- `terrestrial/wgs84/transforms/mod.rs:107-121`: the loop, with `fuel` passes left (`while iter < 101`). -/
noncomputable def geoLoop (eps rho2 z : ℝ) : ℕ → ℝ → ℝ → GeoState
  | 0, n, dz => ⟨n, dz, false⟩
  | fuel + 1, _, dz =>
    let n := geoN rho2 z dz
    let dzNew := geoDz rho2 z dz
    if |dz - dzNew| < eps then ⟨n, dz, true⟩ else geoLoop eps rho2 z fuel n dzNew

/-- `terrestrial/wgs84/transforms/mod.rs:96-138` `ecef_to_geocentric`, with the final loop state: the two arms of
the final `if` compute the same vector `[lat, lon, alt]`. -/
noncomputable def ecefToGeodetic (x y z : ℝ) : (Fin 3 → ℝ) × Bool :=
  let eps := f64Eps * 100
  let rho2 := x * x + y * y
  let s := geoLoop eps rho2 z 101 0 (wgsE2 * z)
  let zdz := z + s.dz
  let lon := atan2 y x
  let lat := atan2 zdz (√rho2)
  let alt := √(rho2 + zdz * zdz) - s.n
  (![lat, lon, alt], s.converged)

end Verif.Frames
