import Verif.Float.Forces
import Verif.Float.PropsView
import Verif.Float.PropsStars
import Verif.Frames.PropsAxes

/-!
# Lunar gravity and the forces of rotating axes in floating point (C227)
-/

namespace Verif.Float

open Verif.Mat (Mat)
open Verif.Frames (f64Eps Moon scaled)

variable {fl : ℝ → ℝ} {lib : Libm} {u : ℝ}

theorem Close.mulU (hs : Small fl u) {A B k m a' a b' b : ℝ} (hk0 : 0 ≤ k) (hk : k ≤ 50) (hm0 : 0 ≤ m) (hm : m ≤ 50)
    (ha : Close A (k * u) a' a) (hb : Close B (m * u) b' b) : Close (A * B) ((k + m + 11 / 10) * u) (fl (a' * b')) (a * b) := by
  have hu := hs.pos
  have h1 := hs.ku hk
  have h2 := hs.ku hm
  refine (Close.mul hs ha hb (by positivity)).mono ?_
  have h3 : k * u * (m * u) ≤ 1 / 20000 * (50 * u) :=
    mul_le_mul h1 (mul_le_mul_of_nonneg_right hm hu.le) (by positivity) (by norm_num)
  have h4 : u * ((1 + k * u) * (1 + m * u)) ≤ u * ((1 + 1 / 20000) * (1 + 1 / 20000)) := by gcongr
  nlinarith

theorem Close.roundU (hs : Small fl u) {A k a' a : ℝ} (hk : k ≤ 50) (ha : Close A (k * u) a' a) :
    Close A ((k + 101 / 100) * u) (fl a') a := by
  have hu := hs.pos
  have hA : 0 ≤ A := (abs_nonneg _).trans ha.1
  refine ⟨ha.1, ?_⟩
  have h1 := hs.acc a'
  have h2 := ha.size
  have h3 := ha.2
  have h4 := hs.ku hk
  have h5 := abs_add_le (fl a' - a') (a' - a)
  rw [sub_add_sub_cancel] at h5
  have h6 := mul_le_mul_of_nonneg_left h2 hu.le
  have h7 : u * ((1 + k * u) * A) ≤ u * ((1 + 1 / 100) * A) := by gcongr; linarith
  nlinarith

theorem Close.addU (hs : Small fl u) {A B k a' a b' b : ℝ} (hk : k ≤ 50)
    (ha : Close A (k * u) a' a) (hb : Close B (k * u) b' b) : Close (A + B) ((k + 101 / 100) * u) (fl (a' + b')) (a + b) := by
  have hu := hs.pos
  have h1 := hs.ku hk
  refine (Close.add hs ha hb).mono ?_
  have h4 : u * (1 + k * u) ≤ u * (1 + 1 / 100) := by gcongr; linarith
  nlinarith

/-- The computed length of a vector. -/
theorem length_rel (hs : Small fl u) (p : Fin 3 → ℝ) : ∃ r, Mat.norm Scalar.sqrt (fun i => (CF.num (p i) : CF fl lib)) = CF.num r ∧
    Rel u (71 / 10) r (Mat.norm Real.sqrt p) := by
  have h1 := sum_sq_rel hs (v := p) (V := p) fun i => (Rel.refl u _).mono hs zero_le_one
  have h0 : 0 ≤ p 0 * p 0 + p 1 * p 1 + p 2 * p 2 := add_nonneg (add_nonneg (mul_self_nonneg _) (mul_self_nonneg _)) (mul_self_nonneg _)
  have p1 := h1.nonneg hs (by norm_num) (by norm_num) h0
  refine ⟨_, norm_num3 p p1, ?_⟩
  have h2 := ((h1.sqrt h0 p1).round hs (by norm_num) (by norm_num)).mono hs (m := 71 / 10) (by norm_num)
  have e : Mat.norm Real.sqrt p = √(p 0 * p 0 + p 1 * p 1 + p 2 * p 2) := by
    rw [Mat.C22_norm_real, Fin.sum_univ_three]; simp only [pow_two]
  rwa [e]

/-- The computed length of a vector longer than twice the limit is beyond the limit. -/
theorem beyond (hs : Small fl u) {r R : ℝ} (h : Rel u (71 / 10) r R) (hR : 2 * f64Eps < R) : ¬ r ≤ f64Eps := by
  have h0 : 0 < f64Eps := by unfold f64Eps; positivity
  have h1 := hs.ku (k := 71 / 10) (by norm_num)
  unfold Rel at h
  rw [abs_of_pos (show 0 < R by linarith)] at h
  have h2 := (abs_le.1 h).1
  have h3 : 71 / 10 * u * R ≤ 1 / 20000 * R := mul_le_mul_of_nonneg_right h1 (by linarith)
  intro h4
  linarith

/-- C227. Farther than twice `f64::EPSILON` from the centre, each component of the computed lunar gravity and force is a
number with a relative error of at most 26 and 28 roundings. -/
theorem C227_gravity (hs : Small fl u) (m : Moon) (p : Fin 3 → ℝ) (mass : ℝ) (hp : 2 * f64Eps < Mat.norm Real.sqrt p) :
    ∃ g f : Fin 3 → ℝ, moonGravity (CF.num f64Eps : CF fl lib) (CF.num m.gm) (fun i => CF.num (p i)) = (fun i => CF.num (g i)) ∧
      moonForce (CF.num f64Eps : CF fl lib) (CF.num m.gm) (fun i => CF.num (p i)) (CF.num mass) = (fun i => CF.num (f i)) ∧
      ∀ i, Rel u 26 (g i) (m.gravity p i) ∧ Rel u 28 (f i) (m.force p mass i) := by
  obtain ⟨r, e1, h1⟩ := length_rel (lib := lib) hs p
  have h0 : 0 < f64Eps := by unfold f64Eps; positivity
  have hb := beyond hs h1 hp
  have hR : 0 < Mat.norm Real.sqrt p := by linarith
  have hg : m.gravity p = scaled p (-m.gm / Mat.norm Real.sqrt p ^ 3) := by
    unfold Moon.gravity
    dsimp only
    rw [if_neg (by linarith)]
  have r2 := (Rel.mul hs (by norm_num) (by norm_num) (by norm_num) (by norm_num) h1 h1).round hs (by norm_num) (by norm_num)
  have r3 := (Rel.mul hs (by norm_num) (by norm_num) (by norm_num) (by norm_num) h1 r2).round hs (by norm_num) (by norm_num)
  have p3 := r3.pos hs (by norm_num) (by norm_num) (by positivity)
  have r4 := (Rel.div hs le_rfl (by norm_num) (by norm_num) (by norm_num) (Rel.refl u (-m.gm)) r3 (by positivity)).round hs
    (by norm_num) (by norm_num)
  have r5 : ∀ i, Rel u 26 (fl (p i * fl (-m.gm / fl (r * fl (r * r))))) (m.gravity p i) := by
    intro i
    rw [hg]
    have := (Rel.mul hs le_rfl (by norm_num) (by norm_num) (by norm_num) (Rel.refl u (p i)) r4).round hs (by norm_num) (by norm_num)
    rw [show Mat.norm Real.sqrt p * (Mat.norm Real.sqrt p * Mat.norm Real.sqrt p) = Mat.norm Real.sqrt p ^ 3 by ring] at this
    exact this.mono hs (by norm_num)
  have hG : moonGravity (CF.num f64Eps : CF fl lib) (CF.num m.gm) (fun i => CF.num (p i)) =
      fun i => CF.num (fl (p i * fl (-m.gm / fl (r * fl (r * r))))) := by
    unfold moonGravity
    dsimp only
    rw [e1, if_neg (by rw [cf_le]; exact hb), cf_mul, cf_mul, cf_neg, cf_div _ p3.ne']
    funext i
    rw [cf_mul]
  refine ⟨_, fun i => fl (fl (p i * fl (-m.gm / fl (r * fl (r * r)))) * mass), hG, ?_, fun i => ⟨r5 i, ?_⟩⟩
  · unfold moonForce
    rw [hG]
    funext i
    rw [cf_mul]
  · exact ((Rel.mul hs (by norm_num) (by norm_num) le_rfl (by norm_num) (r5 i) (Rel.refl u mass)).round hs (by norm_num)
      (by norm_num)).mono hs (by norm_num)

/-- The moments of the absolute values of a position and of a tensor applied to it. -/
def torqueSize (p : Fin 3 → ℝ) (J : Mat ℝ 3 3) : Fin 3 → ℝ :=
  let v : Fin 3 → ℝ := fun k => |J k 0| * |p 0| + |J k 1| * |p 1| + |J k 2| * |p 2|
  ![|p 1| * v 2 + |p 2| * v 1, |p 2| * v 0 + |p 0| * v 2, |p 0| * v 1 + |p 1| * v 0]

/-- C227. Each component of the computed gravity-gradient torque of the Moon is a number; its error is at most 50 roundings of
the torque that the absolute values of all entries would give. -/
theorem C227_torque (hs : Small fl u) (m : Moon) (p : Fin 3 → ℝ) (J : Mat ℝ 3 3) (hp : 2 * f64Eps < Mat.norm Real.sqrt p) :
    ∃ t : Fin 3 → ℝ, moonTorque (CF.num f64Eps : CF fl lib) (CF.num 3) (CF.num m.gm) (fun i => CF.num (p i))
        (fun i j => CF.num (J i j)) = (fun i => CF.num (t i)) ∧
      ∀ i, |t i - m.torque p J i| ≤ 50 * u * (torqueSize p J i * |3 * m.gm / Mat.norm Real.sqrt p ^ 5|) := by
  obtain ⟨r, e1, h1⟩ := length_rel (lib := lib) hs p
  have h0 : 0 < f64Eps := by unfold f64Eps; positivity
  have hb := beyond hs h1 hp
  have hR : 0 < Mat.norm Real.sqrt p := by linarith
  have r2 := (Rel.mul hs (by norm_num) (by norm_num) (by norm_num) (by norm_num) h1 h1).round hs (by norm_num) (by norm_num)
  have r4 := (Rel.mul hs (by norm_num) (by norm_num) (by norm_num) (by norm_num) r2 r2).round hs (by norm_num) (by norm_num)
  have r5 := (Rel.mul hs (by norm_num) (by norm_num) (by norm_num) (by norm_num) h1 r4).round hs (by norm_num) (by norm_num)
  have p5 := r5.pos hs (by norm_num) (by norm_num) (by positivity)
  have r6 := (Rel.div hs zero_le_one (by norm_num) (by norm_num) (by norm_num) (hs.rel (3 * m.gm)) r5 (by positivity)).round hs
    (by norm_num) (by norm_num)
  rw [show Mat.norm Real.sqrt p * (Mat.norm Real.sqrt p * Mat.norm Real.sqrt p * (Mat.norm Real.sqrt p * Mat.norm Real.sqrt p)) =
    Mat.norm Real.sqrt p ^ 5 by ring] at r6
  have c6 := Close.of_rel (r6.mono hs (m := 42) (by norm_num))
  have cp : ∀ i, Close |p i| (0 * u) (p i) (p i) := fun i => by rw [zero_mul]; exact Close.exact _
  have cJ : ∀ k j, Close (|J k j| * |p j|) ((211 / 100) * u) (fl (J k j * p j)) (J k j * p j) := fun k j =>
    (Close.mulU hs le_rfl (by norm_num) le_rfl (by norm_num) (by rw [zero_mul]; exact Close.exact _) (cp j)).mono
      (by have := hs.pos; nlinarith)
  let w : Fin 3 → ℝ := fun k => fl (fl (fl (0 + fl (J k 0 * p 0)) + fl (J k 1 * p 1)) + fl (J k 2 * p 2))
  have cw : ∀ k, Close (|J k 0| * |p 0| + |J k 1| * |p 1| + |J k 2| * |p 2|) (414 / 100 * u) (w k)
      (J k 0 * p 0 + J k 1 * p 1 + J k 2 * p 2) := by
    intro k
    have a1 : Close (|J k 0| * |p 0|) ((211 / 100) * u) (fl (0 + fl (J k 0 * p 0))) (J k 0 * p 0) := by
      rw [zero_add]
      refine (Close.roundU hs (k := 11 / 10) (by norm_num) ?_).mono (by have := hs.pos; nlinarith)
      exact (Close.mulU hs le_rfl (by norm_num) le_rfl (by norm_num) (by rw [zero_mul]; exact Close.exact _) (cp 0)).mono
        (by have := hs.pos; nlinarith)
    have a2 := Close.addU hs (by norm_num) a1 (cJ k 1)
    have a3 := Close.addU hs (by norm_num) a2 ((cJ k 2).mono (by have := hs.pos; nlinarith))
    exact a3.mono (by have := hs.pos; nlinarith)
  have cx : ∀ i j, Close (|p i| * (|J j 0| * |p 0| + |J j 1| * |p 1| + |J j 2| * |p 2|) +
      |p j| * (|J i 0| * |p 0| + |J i 1| * |p 1| + |J i 2| * |p 2|)) (63 / 10 * u) (fl (fl (p i * w j) - fl (p j * w i)))
      (p i * (J j 0 * p 0 + J j 1 * p 1 + J j 2 * p 2) - p j * (J i 0 * p 0 + J i 1 * p 1 + J i 2 * p 2)) := by
    intro i j
    have a1 := Close.mulU hs le_rfl (by norm_num) (by norm_num) (by norm_num) (cp i) (cw j)
    have a2 := Close.mulU hs le_rfl (by norm_num) (by norm_num) (by norm_num) (cp j) (cw i)
    have a3 := Close.addU hs (by norm_num) a1 a2.neg
    rw [← sub_eq_add_neg, ← sub_eq_add_neg] at a3
    exact a3.mono (by have := hs.pos; nlinarith)
  have hV : Mat.mulVec (fun i j => (CF.num (J i j) : CF fl lib)) (fun i => CF.num (p i)) = fun k => CF.num (w k) := by
    funext k
    rw [Mat.C22_mulVec_entry]
    simp only [List.finRange_succ, List.finRange_zero, List.map_nil, List.map_cons, List.foldl_cons, List.foldl_nil,
      cf_zero, cf_mul, cf_add]
    rfl
  have hv : Mat.mulVec J p = fun k => J k 0 * p 0 + J k 1 * p 1 + J k 2 * p 2 := by
    funext k
    rw [Mat.C22_mulVec_entry, Mat.foldl_finRange_sum, Fin.sum_univ_three]
  have ht : m.torque p J = scaled (Mat.cross p (Mat.mulVec J p)) (3 * m.gm / Mat.norm Real.sqrt p ^ 5) := by
    unfold Moon.torque
    dsimp only
    rw [if_neg (by linarith)]
  refine ⟨fun i => fl ((![fl (fl (p 1 * w 2) - fl (p 2 * w 1)), fl (fl (p 2 * w 0) - fl (p 0 * w 2)),
    fl (fl (p 0 * w 1) - fl (p 1 * w 0))] : Fin 3 → ℝ) i * fl (fl (3 * m.gm) / fl (r * fl (fl (r * r) * fl (r * r))))), ?_, ?_⟩
  · unfold moonTorque
    dsimp only
    rw [e1, if_neg (by rw [cf_le]; exact hb), hV, cross_num, cf_mul, cf_mul, cf_mul, cf_mul, cf_div _ p5.ne']
    funext i
    rw [cf_mul]
  · intro i
    rw [ht, hv]
    have key : ∀ a b, _ := fun a b =>
      ((Close.mulU hs (by norm_num) (by norm_num) (by norm_num) (by norm_num) (cx a b) c6).mono (β := 50 * u)
        (by have := hs.pos; nlinarith)).2
    fin_cases i
    · exact key 1 2
    · exact key 2 0
    · exact key 0 1

/-- C227. For a rotation about the z axis, as that of the Earth, each component of the computed Coriolis and centrifugal force
is a number with a relative error of at most 5 and 6 roundings; the component along the axis is zero. -/
theorem C227_rotating (hs : Small fl u) (w mass : ℝ) (vel pos : Fin 3 → ℝ) :
    ∃ c f : Fin 3 → ℝ, coriolis (CF.num 2 : CF fl lib) ![CF.num 0, CF.num 0, CF.num w] (fun i => CF.num (vel i)) (CF.num mass) =
        (fun i => CF.num (c i)) ∧
      centrifugal (![CF.num 0, CF.num 0, CF.num w] : Fin 3 → CF fl lib) (fun i => CF.num (pos i)) (CF.num mass) = (fun i => CF.num (f i)) ∧
      (∀ i, Rel u 5 (c i) (Frames.coriolisForce ![0, 0, w] vel mass i) ∧
        Rel u 6 (f i) (Frames.centrifugalForce ![0, 0, w] pos mass i)) ∧ c 2 = 0 ∧ f 2 = 0 := by
  have f0 : fl 0 = 0 := by
    have := hs.acc 0
    rw [abs_zero, mul_zero, sub_zero] at this
    exact abs_eq_zero.1 (le_antisymm this (abs_nonneg _))
  have hw : (![CF.num 0, CF.num 0, CF.num w] : Fin 3 → CF fl lib) = fun i => CF.num ((![0, 0, w] : Fin 3 → ℝ) i) := by
    funext i; fin_cases i <;> rfl
  have hc : ∀ v : Fin 3 → ℝ, Mat.cross (![CF.num 0, CF.num 0, CF.num w] : Fin 3 → CF fl lib) (fun i => CF.num (v i)) =
      fun i => CF.num ((![fl (-fl (w * v 1)), fl (fl (w * v 0)), 0] : Fin 3 → ℝ) i) := by
    intro v
    rw [hw, cross_num]
    funext i
    fin_cases i <;> simp [f0]
  have p1 : ∀ a b : ℝ, Rel u (203 / 100) (fl (fl (a * b))) (a * b) := fun a b =>
    ((hs.rel (a * b)).round hs (by norm_num) (by norm_num)).mono hs (by norm_num)
  have ng : ∀ {k a b : ℝ}, Rel u k a b → Rel u k (-a) (-b) := by
    intro k a b h
    unfold Rel at *
    rwa [abs_neg, show -a - -b = -(a - b) by ring, abs_neg]
  have n1 : ∀ a b : ℝ, Rel u (203 / 100) (fl (-fl (a * b))) (-(a * b)) := fun a b =>
    ((ng (hs.rel (a * b))).round hs (by norm_num) (by norm_num)).mono hs (by norm_num)
  have sc : ∀ {k a b : ℝ} (s : ℝ), 0 ≤ k → k ≤ 10 → Rel u k a b → Rel u (k + 102 / 100) (fl (a * s)) (b * s) := by
    intro k a b s h0 h1 h
    exact ((Rel.mul hs h0 (by linarith) le_rfl (by norm_num) h (Rel.refl u s)).round hs (by linarith) (by linarith)).mono hs (by linarith)
  refine ⟨fun i => -fl (fl ((![fl (-fl (w * vel 1)), fl (fl (w * vel 0)), 0] : Fin 3 → ℝ) i * 2) * mass),
    fun i => -fl ((![fl (-fl (w * fl (fl (w * pos 0)))), fl (fl (w * fl (-fl (w * pos 1)))), 0] : Fin 3 → ℝ) i * mass), ?_, ?_,
    fun i => ⟨?_, ?_⟩, by simp [f0], by simp [f0]⟩
  · unfold coriolis
    rw [hc]
    funext i
    rw [cf_mul, cf_mul, cf_neg]
  · unfold centrifugal
    rw [hc, hc]
    funext i
    rw [cf_mul, cf_neg]
    fin_cases i <;> rfl
  · have a0 := ng (sc mass (by norm_num) (by norm_num) (sc 2 (by norm_num) (by norm_num) (n1 w (vel 1))))
    have a1 := ng (sc mass (by norm_num) (by norm_num) (sc 2 (by norm_num) (by norm_num) (p1 w (vel 0))))
    fin_cases i
    · simp [Frames.coriolisForce, scaled, Mat.cross]
      simpa using a0.mono hs (m := 5) (by norm_num)
    · simp [Frames.coriolisForce, scaled, Mat.cross]
      simpa using a1.mono hs (m := 5) (by norm_num)
    · simp [Frames.coriolisForce, scaled, Mat.cross, f0]
      exact (Rel.refl u 0).mono hs (by norm_num)
  · have b0 := ng (sc mass (by norm_num) (by norm_num) ((ng ((Rel.mul hs le_rfl (by norm_num) (by norm_num) (by norm_num) (Rel.refl u w) (p1 w (pos 0))).round hs
      (by norm_num) (by norm_num))).round hs (by norm_num) (by norm_num)))
    have b1 := ng (sc mass (by norm_num) (by norm_num) (((Rel.mul hs le_rfl (by norm_num) (by norm_num) (by norm_num) (Rel.refl u w) (n1 w (pos 1))).round hs
      (by norm_num) (by norm_num)).round hs (by norm_num) (by norm_num)))
    fin_cases i
    · simp [Frames.centrifugalForce, scaled, Mat.cross]
      simpa using b0.mono hs (m := 6) (by norm_num)
    · simp [Frames.centrifugalForce, scaled, Mat.cross]
      simpa using b1.mono hs (m := 6) (by norm_num)
    · simp [Frames.centrifugalForce, scaled, Mat.cross, f0]
      exact (Rel.refl u 0).mono hs (by norm_num)

/-- A position 100 km above the Moon, in double precision. -/
example : Small (rnd 53) (2 ^ (-53 : ℤ)) ∧ 2 * f64Eps < Mat.norm Real.sqrt ![1837400, 0, 0] := by
  refine ⟨nearest_small (by norm_num) (rnd_nearest (by norm_num)), ?_⟩
  rw [Mat.C22_norm_real, Fin.sum_univ_three]
  simp [f64Eps]
  norm_num

/-- Over the reals these are the definitions of `Verif.Frames`. -/
theorem forces_agree (m : Moon) (p : Fin 3 → ℝ) (J : Mat ℝ 3 3) (mass : ℝ) (w v : Fin 3 → ℝ) :
    moonGravity f64Eps m.gm p = m.gravity p ∧ moonForce f64Eps m.gm p mass = m.force p mass ∧
    moonTorque f64Eps 3 m.gm p J = m.torque p J ∧ coriolis 2 w v mass = Frames.coriolisForce w v mass ∧
    centrifugal w v mass = Frames.centrifugalForce w v mass := by
  have h1 : moonGravity f64Eps m.gm p = m.gravity p := by
    unfold moonGravity Moon.gravity
    dsimp only
    rw [show Mat.norm (Scalar.sqrt : ℝ → ℝ) p * (Mat.norm Scalar.sqrt p * Mat.norm Scalar.sqrt p) = Mat.norm Real.sqrt p ^ 3 from by
      show Mat.norm Real.sqrt p * (Mat.norm Real.sqrt p * Mat.norm Real.sqrt p) = _
      ring]
    congr
  refine ⟨h1, ?_, ?_, rfl, rfl⟩
  · unfold moonForce Moon.force
    rw [h1]
    rfl
  · unfold moonTorque Moon.torque
    dsimp only
    rw [show Mat.norm (Scalar.sqrt : ℝ → ℝ) p * (Mat.norm Scalar.sqrt p * Mat.norm Scalar.sqrt p * (Mat.norm Scalar.sqrt p * Mat.norm Scalar.sqrt p)) =
      Mat.norm Real.sqrt p ^ 5 from by
      show Mat.norm Real.sqrt p * (Mat.norm Real.sqrt p * Mat.norm Real.sqrt p * (Mat.norm Real.sqrt p * Mat.norm Real.sqrt p)) = _
      ring]
    congr

end Verif.Float
