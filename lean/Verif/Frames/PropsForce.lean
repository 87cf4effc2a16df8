import Verif.Frames.Model
import Verif.Att.PropsQuat
import Verif.Mat.PropsVec

/-!
# C56, C57, C61: forces on a vehicle near the Earth and the Moon

`dot3 u v` is the textbook inner product.
-/

namespace Verif.Frames

open Verif.Mat Verif.Att Real

/-- The textbook inner product of three-dimensional vectors. -/
def dot3 (u v : Fin 3 → ℝ) : ℝ := u 0 * v 0 + u 1 * v 1 + u 2 * v 2

theorem norm3 (p : Fin 3 → ℝ) : Mat.norm Real.sqrt p = √(dot3 p p) := by
  rw [C22_norm_real, Fin.sum_univ_three]
  unfold dot3
  congr 1; ring

theorem mulVec3 (a : Mat ℝ 3 3) (v : Fin 3 → ℝ) (i : Fin 3) :
    Mat.mulVec a v i = a i 0 * v 0 + a i 1 * v 1 + a i 2 * v 2 := by
  have := dcmApply_apply a v i
  exact this

/-! ## C56 -/

/-- C56. The Coriolis force does no work and is orthogonal to the rotation axis; it equals `-2 m ω × v`. -/
theorem C56_coriolis (w v : Fin 3 → ℝ) (m : ℝ) :
    dot3 (coriolisForce w v m) v = 0 ∧ dot3 (coriolisForce w v m) w = 0 ∧
      ∀ i, coriolisForce w v m i = -2 * m * cross w v i := by
  refine ⟨?_, ?_, fun i => ?_⟩
  · simp [dot3, coriolisForce, scaled, cross]; ring
  · simp [dot3, coriolisForce, scaled, cross]; ring
  · unfold coriolisForce scaled; ring

/-- C56. The centrifugal force is orthogonal to the axis, points away from it, and is `m (|ω|² p - (ω·p) ω)`; for the
Earth's own axis it is `m ω_z²` times the distance vector from the z axis. -/
theorem C56_centrifugal (w p : Fin 3 → ℝ) {m : ℝ} (hm : 0 ≤ m) :
    dot3 (centrifugalForce w p m) w = 0 ∧ 0 ≤ dot3 (centrifugalForce w p m) p ∧
      (∀ i, centrifugalForce w p m i = m * (dot3 w w * p i - dot3 w p * w i)) ∧
      (∀ wz, centrifugalForce ![0, 0, wz] p m = ![m * wz ^ 2 * p 0, m * wz ^ 2 * p 1, 0]) := by
  refine ⟨?_, ?_, fun i => ?_, fun wz => ?_⟩
  · simp [dot3, centrifugalForce, scaled, cross]; ring
  · have : dot3 (centrifugalForce w p m) p
        = m * ((w 1 * p 2 - w 2 * p 1) ^ 2 + (w 2 * p 0 - w 0 * p 2) ^ 2 + (w 0 * p 1 - w 1 * p 0) ^ 2) := by
      simp [dot3, centrifugalForce, scaled, cross]; ring
    rw [this]; positivity
  · fin_cases i <;> simp [dot3, centrifugalForce, scaled, cross] <;> ring
  · funext i; fin_cases i <;> simp [centrifugalForce, scaled, cross] <;> ring

/-- C56. Gravity-gradient torque is orthogonal to the position and vanishes for a spherical inertia tensor and,
for any tensor, along its principal axes. (At the centre of the Earth the code divides by zero.) -/
theorem C56_torque (p : Fin 3 → ℝ) (_hp : p ≠ 0) (inertia : Mat ℝ 3 3) :
    dot3 (earthTorque p inertia) p = 0 ∧
      (∀ c : ℝ, (∀ i, Mat.mulVec inertia p i = c * p i) → ∀ i, earthTorque p inertia i = 0) ∧
      (∀ c : ℝ, ∀ i, earthTorque p (fun a b => if a = b then c else 0) i = 0) := by
  have key : ∀ (inertia : Mat ℝ 3 3) (c : ℝ), (∀ i, Mat.mulVec inertia p i = c * p i) →
      ∀ i, earthTorque p inertia i = 0 := by
    intro inertia c h i
    unfold earthTorque scaled
    have : cross p (Mat.mulVec inertia p) i = 0 := by
      fin_cases i <;> simp [cross, h] <;> ring
    rw [this, zero_mul]
  refine ⟨?_, fun c h => key inertia c h, fun c => key _ c ?_⟩
  · unfold earthTorque scaled
    simp [dot3, cross]; ring
  · intro i
    rw [mulVec3]
    fin_cases i <;> simp

/-- C56. The Earth torque is `3 GM / r⁵ · p × (I p)`. -/
theorem C56_torque_value (p : Fin 3 → ℝ) (_hp : p ≠ 0) (inertia : Mat ℝ 3 3) (i : Fin 3) :
    earthTorque p inertia i = 3 * gmEarth / √(dot3 p p) ^ 5 * cross p (Mat.mulVec inertia p) i := by
  unfold earthTorque scaled
  rw [norm3]; ring

example : (0 : ℝ) ≤ 2 ∧ dot3 (centrifugalForce ![0, 0, 1] ![1, 2, 3] 2) ![1, 2, 3] = 10 := by
  refine ⟨by norm_num, ?_⟩
  simp [dot3, centrifugalForce, scaled, cross]; norm_num

/-! ## C57 -/

/-- C57. On the equator normal gravity is the equatorial value. -/
theorem C57_equator_partial : gravityNormal 0 = wgsGe := by
  unfold gravityNormal; simp

/-- C57 fails: normal gravity takes the sine of the sine where the formula has the square of the sine, so the
value at the south pole differs from the value at the north pole. -/
theorem C57_fails : gravityNormal (-(π / 2)) < gravityNormal (π / 2) := by
  have hs : 0 < sin 1 := sin_pos_of_pos_of_lt_pi one_pos (by linarith [two_le_pi])
  have h1 : sin 1 ≤ 1 := sin_le_one 1
  unfold gravityNormal wgsGe wgsK wgsE2
  rw [sin_neg, sin_pi_div_two, sin_neg]
  generalize sin 1 = s at *
  rw [div_lt_div_iff₀ (by norm_num; nlinarith) (by norm_num; nlinarith)]
  norm_num
  nlinarith

/-- C57 fails already as a function of latitude: every latitude strictly between the equator and the north pole
gets a larger value than its mirror image. -/
theorem C57_asymmetric {lat : ℝ} (h0 : 0 < lat) (h1 : lat ≤ π / 2) : gravityNormal (-lat) < gravityNormal lat := by
  have hs1 : 0 < sin lat := sin_pos_of_pos_of_lt_pi h0 (by linarith [two_le_pi])
  have hs : 0 < sin (sin lat) := sin_pos_of_pos_of_lt_pi hs1 (by linarith [two_le_pi, sin_le_one lat])
  have h1 : sin (sin lat) ≤ 1 := sin_le_one _
  unfold gravityNormal wgsGe wgsK wgsE2
  rw [sin_neg, sin_neg]
  generalize sin (sin lat) = s at *
  rw [div_lt_div_iff₀ (by norm_num; nlinarith) (by norm_num; nlinarith)]
  norm_num
  nlinarith

/-- The sine of one radian. -/
theorem sin_one_bounds : 0.84 < sin 1 ∧ sin 1 < 0.843 := by
  have e1 : sin 1 = 4 * sin (1 / 4) * cos (1 / 4) * (1 - 2 * sin (1 / 4) ^ 2) := by
    have a : sin 1 = 2 * sin (1 / 2) * cos (1 / 2) := by rw [← sin_two_mul]; norm_num
    have b : sin (1 / 2) = 2 * sin (1 / 4) * cos (1 / 4) := by rw [← sin_two_mul]; norm_num
    have c : cos (1 / 2) = 2 * cos (1 / 4) ^ 2 - 1 := by rw [← cos_two_mul]; norm_num
    rw [a, b, c]
    have := sin_sq_add_cos_sq (1 / 4)
    have d : cos (1 / 4) ^ 2 = 1 - sin (1 / 4) ^ 2 := by linarith
    rw [d]; ring
  have hs := sin_bound (x := 1 / 4) (by rw [abs_of_pos] <;> norm_num)
  have hc := cos_bound (x := 1 / 4) (by rw [abs_of_pos] <;> norm_num)
  rw [abs_le, abs_of_pos (by norm_num)] at hs hc
  rw [e1]
  norm_num at hs hc
  obtain ⟨s1, s2⟩ := hs
  obtain ⟨c1, c2⟩ := hc
  generalize sin (1 / 4) = s at *
  generalize cos (1 / 4) = c at *
  have hs1 : 0.24719 ≤ s := by norm_num; linarith
  have hs2 : s ≤ 0.2476 := by norm_num; linarith
  have hc1 : 0.96854 ≤ c := by norm_num; linarith
  have hc2 : c ≤ 0.96896 := by norm_num; linarith
  have f1 : 0.8773 ≤ 1 - 2 * s ^ 2 := by norm_num at *; nlinarith
  have f2 : 1 - 2 * s ^ 2 ≤ 0.8778 := by norm_num at *; nlinarith
  have g1 : 0.9576 ≤ 4 * s * c := by norm_num at *; nlinarith
  have g2 : 4 * s * c ≤ 0.96 := by norm_num at *; nlinarith
  constructor
  · calc (0.84 : ℝ) < 0.9576 * 0.8773 := by norm_num
      _ ≤ _ := mul_le_mul g1 f1 (by norm_num) (le_trans (by norm_num) g1)
  · calc _ ≤ (0.96 : ℝ) * 0.8778 := mul_le_mul g2 f2 (le_trans (by norm_num) f1) (by norm_num)
      _ < 0.843 := by norm_num

/-- Normal gravity on the ellipsoid (Somigliana's formula with the constants of WGS 84), in m/s². -/
noncomputable def somigliana (latitude : ℝ) : ℝ :=
  9.7803253359 * (1 + 1.931852652458e-3 * sin latitude ^ 2) / √(1 - 6.694379990141e-3 * sin latitude ^ 2)

theorem somigliana_bounds (lat : ℝ) : 9.7803253359 ≤ somigliana lat ∧ somigliana lat ≤ 9.8323 := by
  unfold somigliana
  have h0 := sq_nonneg (sin lat)
  have h1 := sin_sq_le_one lat
  generalize sin lat ^ 2 = t at *
  have hpos : 0 < 1 - 6.694379990141e-3 * t := by norm_num; linarith
  have hr0 : 0 < √(1 - 6.694379990141e-3 * t) := Real.sqrt_pos.2 hpos
  have hr1 : √(1 - 6.694379990141e-3 * t) ≤ 1 := Real.sqrt_le_one.2 (by norm_num; linarith)
  have hr2 : 0.996647 ≤ √(1 - 6.694379990141e-3 * t) := by
    apply Real.le_sqrt_of_sq_le
    norm_num at *
    linarith
  generalize √(1 - 6.694379990141e-3 * t) = r at *
  constructor
  · rw [le_div_iff₀ hr0]
    norm_num at *
    nlinarith
  · rw [div_le_iff₀ hr0]
    norm_num at *
    nlinarith

/-- C57, the part that holds: at every latitude normal gravity is within 0.125 m/s² of the formula. Missing: equality, refuted below. -/
theorem C57_error_partial (lat : ℝ) : |gravityNormal lat - somigliana lat| ≤ 0.125 := by
  obtain ⟨hb1, hb2⟩ := somigliana_bounds lat
  obtain ⟨_, h1⟩ := sin_one_bounds
  have hpi := two_le_pi
  have hs1 : sin (sin lat) ≤ sin 1 := sin_le_sin_of_le_of_le_pi_div_two (by linarith [neg_one_le_sin lat]) (by linarith) (sin_le_one lat)
  have hs2 : -sin 1 ≤ sin (sin lat) := by
    rw [← sin_neg]
    exact sin_le_sin_of_le_of_le_pi_div_two (by linarith) (by linarith [sin_le_one lat]) (neg_one_le_sin lat)
  have hs1 : sin (sin lat) ≤ 0.843 := hs1.trans h1.le
  have hs2 : -0.843 ≤ sin (sin lat) := by linarith
  have hg : 9.7095 ≤ gravityNormal lat ∧ gravityNormal lat ≤ 9.8522 := by
    unfold gravityNormal wgsGe wgsK wgsE2
    generalize sin (sin lat) = s at *
    have hpos : 0 < 1 - 6.694379990141e-3 * s := by norm_num at *; linarith
    constructor
    · rw [le_div_iff₀ hpos]; norm_num at *; linarith
    · rw [div_le_iff₀ hpos]; norm_num at *; linarith
  rw [abs_le]
  norm_num at *
  constructor <;> linarith [hg.1, hg.2]

/-- C57 fails at the poles: the north pole gets at least 0.019 m/s² too much and the south pole at least 0.122 m/s² too little. -/
theorem C57_poles_fails : 0.019 ≤ gravityNormal (π / 2) - somigliana (π / 2) ∧
    gravityNormal (-(π / 2)) - somigliana (-(π / 2)) ≤ -0.122 := by
  obtain ⟨h0, h1⟩ := sin_one_bounds
  obtain ⟨_, hb⟩ := somigliana_bounds (π / 2)
  have hp : 9.8321 ≤ somigliana (-(π / 2)) := by
    unfold somigliana
    rw [sin_neg, sin_pi_div_two]
    have hr0 : 0 < √(1 - 6.694379990141e-3 * (-1 : ℝ) ^ 2) := Real.sqrt_pos.2 (by norm_num)
    have hr1 : √(1 - 6.694379990141e-3 * (-1 : ℝ) ^ 2) ≤ 0.996648 := by
      rw [Real.sqrt_le_left (by norm_num)]; norm_num
    rw [le_div_iff₀ hr0]
    generalize √(1 - 6.694379990141e-3 * (-1 : ℝ) ^ 2) = r at *
    norm_num at *
    linarith
  have hn : 9.8513 ≤ gravityNormal (π / 2) := by
    unfold gravityNormal wgsGe wgsK wgsE2
    rw [sin_pi_div_two]
    generalize sin 1 = s at *
    rw [le_div_iff₀ (by norm_num at *; linarith)]
    norm_num at *
    linarith
  have hs : gravityNormal (-(π / 2)) ≤ 9.7099 := by
    unfold gravityNormal wgsGe wgsK wgsE2
    rw [sin_neg, sin_pi_div_two, sin_neg]
    generalize sin 1 = s at *
    rw [div_le_iff₀ (by norm_num at *; linarith)]
    norm_num at *
    linarith
  norm_num at *
  constructor <;> linarith

example : (0 : ℝ) < π / 4 ∧ π / 4 ≤ π / 2 := by constructor <;> linarith [two_le_pi]

/-! ## C61 -/

/-- C61. Away from the centre lunar gravity is central and inverse-square: it is a negative multiple of the
position, and its magnitude is `GM / r²`. -/
theorem C61_gravity (m : Moon) (hg : 0 < m.gm) (p : Fin 3 → ℝ) (hr : f64Eps < √(dot3 p p)) :
    (∀ i, m.gravity p i = -(m.gm / √(dot3 p p) ^ 3) * p i) ∧
      √(dot3 (m.gravity p) (m.gravity p)) = m.gm / dot3 p p ∧ dot3 (m.gravity p) p < 0 := by
  have he : 0 < f64Eps := by unfold f64Eps; positivity
  have hpos : 0 < √(dot3 p p) := lt_trans he hr
  have hd : 0 < dot3 p p := Real.sqrt_pos.1 hpos
  have hsq : √(dot3 p p) ^ 2 = dot3 p p := Real.sq_sqrt hd.le
  have h1 : ∀ i, m.gravity p i = -(m.gm / √(dot3 p p) ^ 3) * p i := by
    intro i
    unfold Moon.gravity
    rw [norm3, if_neg (not_le.2 hr)]
    unfold scaled; ring
  refine ⟨h1, ?_, ?_⟩
  · have : dot3 (m.gravity p) (m.gravity p) = (m.gm / dot3 p p) ^ 2 := by
      have e : dot3 (m.gravity p) (m.gravity p) = (m.gm / √(dot3 p p) ^ 3) ^ 2 * dot3 p p := by
        unfold dot3; rw [h1, h1, h1]; unfold dot3; ring
      rw [e]
      have : (√(dot3 p p) ^ 3) ^ 2 = dot3 p p ^ 3 := by
        rw [← pow_mul, mul_comm 3 2, pow_mul, hsq]
      rw [div_pow, this]; field_simp
    rw [this, Real.sqrt_sq (by positivity)]
  · have e : dot3 (m.gravity p) p = -(m.gm / √(dot3 p p) ^ 3 * dot3 p p) := by
      unfold dot3; rw [h1, h1, h1]; unfold dot3; ring
    rw [e]
    have : 0 < m.gm / √(dot3 p p) ^ 3 * dot3 p p := by positivity
    linarith

/-- C61. At the centre the result is zero, the force is mass times acceleration, and the torque is orthogonal to the
position everywhere, and `3 GM / r⁵ · p × (I p)` away from the centre. -/
theorem C61_torque (m : Moon) (p : Fin 3 → ℝ) (inertia : Mat ℝ 3 3) (mass : ℝ) :
    (√(dot3 p p) ≤ f64Eps → ∀ i, m.gravity p i = 0 ∧ m.torque p inertia i = 0) ∧
      (∀ i, m.force p mass i = mass * m.gravity p i) ∧ dot3 (m.torque p inertia) p = 0 ∧
      (f64Eps < √(dot3 p p) →
        ∀ i, m.torque p inertia i = 3 * m.gm / √(dot3 p p) ^ 5 * cross p (Mat.mulVec inertia p) i) := by
  refine ⟨fun h i => ?_, fun i => ?_, ?_, fun h i => ?_⟩
  · unfold Moon.gravity Moon.torque
    dsimp only
    rw [norm3, if_pos h, if_pos h]
    exact ⟨rfl, rfl⟩
  · unfold Moon.force scaled; ring
  · unfold Moon.torque
    dsimp only
    split_ifs
    · simp [dot3]
    · simp [dot3, scaled, cross]; ring
  · unfold Moon.torque
    dsimp only
    rw [norm3, if_neg (not_le.2 h)]
    unfold scaled; ring

example : ∃ (m : Moon) (p : Fin 3 → ℝ), 0 < m.gm ∧ f64Eps < √(dot3 p p) := by
  refine ⟨⟨4.902800118e12, 0, fun _ _ => 0⟩, ![3, 0, 4], by norm_num, ?_⟩
  have : dot3 ![3, 0, 4] ![3, 0, 4] = 5 ^ 2 := by simp [dot3]; norm_num
  rw [this, Real.sqrt_sq (by norm_num)]
  unfold f64Eps
  norm_num

end Verif.Frames
