import Verif.Float.PropsCamera

/-!
# C202: what one operation does to the orbit camera in floating point
-/

namespace Verif.Float

open Verif.Mat (Mat)
open Verif.Att (Quat)
open Verif.Simd (Accurate Fl)
open Verif.Round (growth valV)
open Verif.Geom (qval qlen len flFns qdist)

variable {fl : ℝ → ℝ} {lib : Libm} {u : ℝ}

/-- The turn by the angle `t` about the axis `a` of length one. -/
noncomputable def turnBy (a : Fin 3 → ℝ) (t : ℝ) : Quat ℝ :=
  ⟨Real.cos (t / 2), a 0 * Real.sin (t / 2), a 1 * Real.sin (t / 2), a 2 * Real.sin (t / 2)⟩

theorem qlen_turnBy {a : Fin 3 → ℝ} (ha : len a = 1) (t : ℝ) : qlen (turnBy a t) = 1 := by
  have h := len_three a
  rw [ha] at h
  have : qlen (turnBy a t) ^ 2 = 1 := by
    rw [Geom.qlen_sq]
    unfold turnBy
    dsimp only
    have := Real.sin_sq_add_cos_sq (t / 2)
    nlinarith
  nlinarith [Geom.qlen_nonneg (turnBy a t)]

/-- A computed quaternion near a unit one stays near it when it is normalised. -/
theorem normalized_near (hs : Small fl u) (q : Quat (Fl fl)) (hq : qval q ≠ ⟨0, 0, 0, 0⟩) (P : Quat ℝ) {δ m : ℝ} (hP : |qlen P - 1| ≤ m)
    (hd : qdist (qval q) P ≤ δ) : qdist (qval (Geom.normalized (flFns fl lib.sin lib.cos) q)) P ≤ 2 * δ + m + 51 / 10 * u := by
  have hu1 : u < 1 := by linarith [hs.le]
  have h1 := (Geom.C123_quaternion hs.acc hu1 (f := flFns fl lib.sin lib.cos) rfl q hq).1
  have g5 := growth_le hs (n := 5) (by norm_num)
  push_cast at g5
  have h2 := qdist_self_div (qval q) (Geom.qlen_pos hq)
  have h3 := (Geom.qlen_sub_le (qval q) P).trans hd
  have h4 := abs_sub_le (qlen (qval q)) (qlen P) 1
  have t1 := Geom.qdist_triangle (qval (Geom.normalized (flFns fl lib.sin lib.cos) q)) (qval q).normalized P
  have t2 := Geom.qdist_triangle (qval q).normalized (qval q) P
  linarith

theorem half_err (hs : Small fl u) (t : ℝ) : |(⟨t⟩ * (1 / (1 + 1)) : Fl fl).val - t / 2| ≤ 16 / 10 * u * |t| := by
  have hu1 : u < 1 := by linarith [hs.le]
  have hu := hs.pos
  have r1 : Geom.Rel u 1 (1 + 1 : Fl fl).val (1 + 1) := (Geom.Rel.refl (u := u) _).round hs.acc hu1
  have r2 : Geom.Rel u 2 (1 / (1 + 1) : Fl fl).val (1 / (1 + 1)) :=
    (((Geom.Rel.refl (u := u) (1 : ℝ)).div hu1 r1).round hs.acc hu1).mono hs.acc hu1 (by norm_num)
  have r3 : Geom.Rel u 3 (⟨t⟩ * (1 / (1 + 1)) : Fl fl).val (t * (1 / (1 + 1))) :=
    (((Geom.Rel.refl (u := u) t).mul hu1 r2).round hs.acc hu1).mono hs.acc hu1 (by norm_num)
  have h := rel_abs hs r3
  rw [show t * (1 / (1 + 1)) = t / 2 by ring] at h
  have g3 := growth_le hs (n := 3) (by norm_num)
  push_cast at g3
  refine h.trans ((mul_le_mul_of_nonneg_right g3 (abs_nonneg _)).trans ?_)
  rw [abs_div, abs_two]
  have := mul_nonneg hu.le (abs_nonneg t)
  linarith

theorem len_unit {n : ℕ} {v : Fin n → ℝ} (hv : v ≠ 0) : len (fun i => v i / len v) = 1 := by
  have hp := len_pos hv
  have : len (fun i => v i / len v) ^ 2 = 1 := by
    rw [Geom.len_sq]
    simp only [div_pow]
    rw [← Finset.sum_div, ← Geom.len_sq]
    exact div_self (pow_pos hp 2).ne'
  nlinarith [Geom.len_nonneg (fun i => v i / len v)]

/-- What turning by the angle `t` may cost. -/
noncomputable def turnError (u e t : ℝ) : ℝ := 4 * e + (7 * |t| + 36) * u

/-- A computed turn about an axis, and the exact one. -/
theorem turn_near (hs : Small fl u) {e : ℝ} (hl : LibNear lib e) (he : e ≤ 1 / 2) (a : Fin 3 → Fl fl) (ha : valV a ≠ 0) (t : ℝ) :
    ∃ r : Quat (Fl fl), Geom.ofAxisAngle (fns (CF fl lib)) (embV a) (CF.num t) = embQ r ∧ NearUnit u r ∧
      qdist (qval r) (turnBy (fun i => valV a i / len (valV a)) t) ≤ turnError u e t := by
  have hu := hs.pos
  have hle := hs.le
  have hu1 : u < 1 := by linarith
  have e0 : 0 ≤ e := (abs_nonneg _).trans (hl.sin 0)
  obtain ⟨h1, h2⟩ := turn_eq hs hl he a ha t
  refine ⟨_, h1, nearUnit_normalized hs _ h2, ?_⟩
  set b : Fin 3 → ℝ := fun i => valV a i / len (valV a) with hb
  have hp := len_pos ha
  have lb : len b = 1 := len_unit ha
  have b1 : ∀ i, |b i| ≤ 1 := fun i => lb ▸ Geom.abs_le_len b i
  set half : Fl fl := ⟨t⟩ * (1 / (1 + 1)) with hh
  have hhalf := half_err hs t
  rw [← hh] at hhalf
  have hsin : |lib.sin half.val - Real.sin (t / 2)| ≤ e + 16 / 10 * u * |t| := by
    have := abs_sub_le (lib.sin half.val) (Real.sin half.val) (Real.sin (t / 2))
    have := hl.sin half.val
    have := Real.abs_sin_sub_sin_le half.val (t / 2)
    linarith
  have hcos : |lib.cos half.val - Real.cos (t / 2)| ≤ e + 16 / 10 * u * |t| := by
    have := abs_sub_le (lib.cos half.val) (Real.cos half.val) (Real.cos (t / 2))
    have := hl.cos half.val
    have := Real.abs_cos_sub_cos_le half.val (t / 2)
    linarith
  have s15 : |lib.sin half.val| ≤ 3 / 2 := by
    have := abs_sub_abs_le_abs_sub (lib.sin half.val) (Real.sin half.val)
    have := hl.sin half.val
    have := Real.abs_sin_le_one half.val
    linarith
  have g5 := growth_le hs (n := 5) (by norm_num)
  push_cast at g5
  set w := Geom.normalize (flFns fl lib.sin lib.cos) a with hw
  have comp : ∀ i, |fl ((w i).val * lib.sin half.val) - b i * Real.sin (t / 2)| ≤ e + 16 / 10 * u * |t| + 77 / 10 * u := by
    intro i
    have r1 := Geom.normalize_rel hs.acc hu1 (f := flFns fl lib.sin lib.cos) rfl a i
    have r2 : Geom.Rel u 5 (fl ((w i).val * lib.sin half.val)) (b i * lib.sin half.val) :=
      (r1.mul hu1 (Geom.Rel.refl (lib.sin half.val))).round hs.acc hu1
    have r3 := rel_abs hs r2
    have r4 : |b i * lib.sin half.val| ≤ 3 / 2 := by
      rw [abs_mul]
      have := mul_le_mul (b1 i) s15 (abs_nonneg _) zero_le_one
      linarith
    have r5 : growth u 5 * |b i * lib.sin half.val| ≤ (5 + 1 / 10) * u * (3 / 2) := mul_le_mul g5 r4 (abs_nonneg _) (by linarith)
    have r6 : |b i * lib.sin half.val - b i * Real.sin (t / 2)| ≤ e + 16 / 10 * u * |t| := by
      rw [← mul_sub, abs_mul]
      have := mul_le_mul (b1 i) hsin (abs_nonneg _) zero_le_one
      linarith
    have := abs_sub_le (fl ((w i).val * lib.sin half.val)) (b i * lib.sin half.val) (b i * Real.sin (t / 2))
    linarith
  have hd : qdist (qval (preTurn lib a t)) (turnBy b t) ≤ 2 * (e + 16 / 10 * u * |t| + 77 / 10 * u) :=
    Geom.qdist_le (hcos.trans (by linarith)) (comp 0) (comp 1) (comp 2)
  have hP : |qlen (turnBy b t) - 1| ≤ 0 := by
    rw [qlen_turnBy lb, sub_self, abs_zero]
  have := normalized_near (lib := lib) hs _ h2 _ hP hd
  unfold turnError
  have := mul_nonneg hu.le (abs_nonneg t)
  linarith

theorem qdist_mul_right (p P q : Quat ℝ) : qdist (p.mul q) (P.mul q) = qdist p P * qlen q := by
  unfold Geom.qdist
  rw [← Geom.qlen_mul]
  congr 1
  simp only [Quat.mul]
  ext <;> dsimp only <;> ring

theorem qdist_mul_left (p q Q : Quat ℝ) : qdist (p.mul q) (p.mul Q) = qlen p * qdist q Q := by
  unfold Geom.qdist
  rw [← Geom.qlen_mul]
  congr 1
  simp only [Quat.mul]
  ext <;> dsimp only <;> ring

theorem qdist_nonneg (p q : Quat ℝ) : 0 ≤ qdist p q := Geom.qlen_nonneg _

/-- A product of two nearby quaternions. -/
theorem qdist_mul (p q P Q : Quat ℝ) : qdist (p.mul q) (P.mul Q) ≤ qdist p P * qlen q + qlen P * qdist q Q := by
  rw [← qdist_mul_right, ← qdist_mul_left]
  exact Geom.qdist_triangle _ _ _

/-- The world axes. -/
theorem world_near (hs : Small fl u) {e : ℝ} (hl : LibNear lib e) (he : e ≤ 1 / 2) (a : Fin 3 → Fl fl) (A : Fin 3 → ℝ) (ha : valV a = A)
    (hA : len A = 1) (t : ℝ) : ∃ r : Quat (Fl fl), Geom.ofAxisAngle (fns (CF fl lib)) (embV a) (CF.num t) = embQ r ∧ NearUnit u r ∧
      qdist (qval r) (turnBy A t) ≤ turnError u e t := by
  have hne : valV a ≠ 0 := by
    intro h
    rw [← ha, h] at hA
    have : len (0 : Fin 3 → ℝ) = 0 := by simp [len]
    rw [this] at hA
    exact zero_ne_one hA
  obtain ⟨r, h1, h2, h3⟩ := turn_near hs hl he a hne t
  refine ⟨r, h1, h2, ?_⟩
  have : (fun i => valV a i / len (valV a)) = A := by
    funext i
    rw [ha, hA, div_one]
  rwa [this] at h3

/-- **C202**: turning about the first two axes by the given angles multiplies the orientation by the exact turns, up to what the turns cost
and `73 u`. The bound on the length of the orientation is the one that `C201_camera` proves after any history. -/
theorem C202_world (hs : Small fl u) {e : ℝ} (hl : LibNear lib e) (he : e ≤ 1 / 2) (c : Cam (CF fl lib)) (q : Quat ℝ)
    (hq : c.orientation = quatOf q) (hn : |qlen q - 1| ≤ 6 * u) (droll dpitch : ℝ) :
    ∃ q' : Quat ℝ, (c.orbitWorldAngles (CF.num droll) (CF.num dpitch)).orientation = quatOf q' ∧
      qdist q' (((turnBy ![1, 0, 0] droll).mul (turnBy ![0, 1, 0] dpitch)).mul q) ≤
        101 / 100 * (turnError u e droll + turnError u e dpitch + 73 * u) := by
  have hu := hs.pos
  have hle := hs.le
  set o : Quat (Fl fl) := ⟨⟨q.w⟩, ⟨q.i⟩, ⟨q.j⟩, ⟨q.k⟩⟩ with ho
  have eo : c.orientation = embQ o := hq
  have no : NearUnit u o := hn
  have lx : len (![1, 0, 0] : Fin 3 → ℝ) = 1 := by simp [len, Fin.sum_univ_three]
  have ly : len (![0, 1, 0] : Fin 3 → ℝ) = 1 := by simp [len, Fin.sum_univ_three]
  have ex : (![1, 0, 0] : Fin 3 → CF fl lib) = embV ![1, 0, 0] := by funext i; fin_cases i <;> rfl
  have ey : (![0, 1, 0] : Fin 3 → CF fl lib) = embV ![0, 1, 0] := by funext i; fin_cases i <;> rfl
  obtain ⟨x, x1, x2, x3⟩ := world_near hs hl he ![1, 0, 0] ![1, 0, 0] (by funext i; fin_cases i <;> rfl) lx droll
  obtain ⟨y, y1, y2, y3⟩ := world_near hs hl he ![0, 1, 0] ![0, 1, 0] (by funext i; fin_cases i <;> rfl) ly dpitch
  obtain ⟨z, z1, z2, z3⟩ := quat_step (lib := lib) hs x2 y2
  obtain ⟨r, r1, r2, r3⟩ := quat_step (lib := lib) hs z2 no
  refine ⟨qval r, ?_, ?_⟩
  · show (Cam.refresh _).orientation = _
    unfold Cam.refresh
    dsimp only
    rw [ex, ey, x1, y1, z1, eo, r1]
    rfl
  · have lX := qlen_turnBy lx droll
    have d1 := qdist_mul (qval x) (qval y) (turnBy ![1, 0, 0] droll) (turnBy ![0, 1, 0] dpitch)
    rw [lX, one_mul] at d1
    obtain ⟨-, y4⟩ := abs_le.1 y2
    obtain ⟨-, n4⟩ := abs_le.1 hn
    have d2 : qdist (qval x) (turnBy ![1, 0, 0] droll) * qlen (qval y) ≤ turnError u e droll * (1001 / 1000) :=
      mul_le_mul x3 (by linarith) (Geom.qlen_nonneg _) ((qdist_nonneg _ _).trans x3)
    have t1 := Geom.qdist_triangle (qval z) ((qval x).mul (qval y)) ((turnBy ![1, 0, 0] droll).mul (turnBy ![0, 1, 0] dpitch))
    have d3 := qdist_mul_right (qval z) ((turnBy ![1, 0, 0] droll).mul (turnBy ![0, 1, 0] dpitch)) q
    have p1 := (qdist_nonneg _ _).trans x3
    have p2 := (qdist_nonneg _ _).trans y3
    have d4 : qdist (qval z) ((turnBy ![1, 0, 0] droll).mul (turnBy ![0, 1, 0] dpitch)) * qlen q ≤
        (36 * u + turnError u e droll * (1001 / 1000) + turnError u e dpitch) * (1001 / 1000) :=
      mul_le_mul (by linarith) (by linarith) (Geom.qlen_nonneg _) (by linarith)
    have t2 := Geom.qdist_triangle (qval r) ((qval z).mul q) (((turnBy ![1, 0, 0] droll).mul (turnBy ![0, 1, 0] dpitch)).mul q)
    have r3' : qdist (qval r) ((qval z).mul q) ≤ 36 * u := r3
    linarith

/-- The vector as a quaternion. -/
def pureQ (v : Fin 3 → ℝ) : Quat ℝ := ⟨0, v 0, v 1, v 2⟩

theorem sandwich_pure (q : Quat ℝ) (v : Fin 3 → ℝ) (i : Fin 3) :
    q.sandwich v i = ![((q.conj.mul (pureQ v)).mul q).i, ((q.conj.mul (pureQ v)).mul q).j, ((q.conj.mul (pureQ v)).mul q).k] i := by
  fin_cases i <;> simp [Quat.sandwich, Quat.conj, Quat.mul, pureQ] <;> ring

theorem qlen_conj (q : Quat ℝ) : qlen q.conj = qlen q := by
  unfold qlen Quat.conj
  simp only [neg_sq]

theorem qdist_conj (p q : Quat ℝ) : qdist p.conj q.conj = qdist p q := by
  unfold Geom.qdist
  rw [← qlen_conj ⟨p.w - q.w, p.i - q.i, p.j - q.j, p.k - q.k⟩]
  congr 1
  unfold Quat.conj
  ext <;> dsimp only <;> ring

theorem qlen_pure (v : Fin 3 → ℝ) : qlen (pureQ v) = len v := by
  unfold qlen len pureQ
  rw [Fin.sum_univ_three]
  congr 1
  ring

/-- Nearby unit quaternions turn a vector nearly alike. -/
theorem sandwich_dist (p q : Quat ℝ) (hp : qlen p = 1) (hq : qlen q = 1) (v : Fin 3 → ℝ) :
    Geom.dist (p.sandwich v) (q.sandwich v) ≤ 2 * qdist p q * len v := by
  have h : Geom.dist (p.sandwich v) (q.sandwich v) ≤ qdist ((p.conj.mul (pureQ v)).mul p) ((q.conj.mul (pureQ v)).mul q) := by
    unfold Geom.dist Geom.qdist len qlen
    refine Real.sqrt_le_sqrt ?_
    rw [Fin.sum_univ_three]
    simp only [sandwich_pure]
    have := sq_nonneg (((p.conj.mul (pureQ v)).mul p).w - ((q.conj.mul (pureQ v)).mul q).w)
    simp only [Matrix.cons_val_zero, Matrix.cons_val_one, Matrix.cons_val]
    linarith
  have h1 := qdist_mul (p.conj.mul (pureQ v)) p (q.conj.mul (pureQ v)) q
  rw [qdist_mul_right, qdist_conj, hp, Geom.qlen_mul, qlen_conj, hq, qlen_pure] at h1
  refine h.trans (h1.trans (le_of_eq ?_))
  ring

theorem rotate_dist (p q : Quat ℝ) (hp : 0 < qlen p) (hq : 0 < qlen q) (v : Fin 3 → ℝ) :
    Geom.dist (p.rotate v) (q.rotate v) ≤ 2 * (qdist p q + |qlen p - 1| + |qlen q - 1|) * len v := by
  have np : p ≠ ⟨0, 0, 0, 0⟩ := fun h => by rw [h] at hp; simp [qlen] at hp
  have nq : q ≠ ⟨0, 0, 0, 0⟩ := fun h => by rw [h] at hq; simp [qlen] at hq
  have h := sandwich_dist p.normalized q.normalized (Geom.normalized_qlen np) (Geom.normalized_qlen nq) v
  have t1 := Geom.qdist_triangle p.normalized p q.normalized
  have t2 := Geom.qdist_triangle p q q.normalized
  rw [qdist_self_div p hp] at t1
  have sym : qdist q q.normalized = |qlen q - 1| := by
    rw [← qdist_self_div q hq]
    unfold Geom.qdist qlen
    congr 1
    ring
  rw [sym] at t2
  refine h.trans (mul_le_mul_of_nonneg_right ?_ (Geom.len_nonneg v))
  linarith

theorem dist_tri {n : ℕ} (a b c : Fin n → ℝ) : Geom.dist a c ≤ Geom.dist a b + Geom.dist b c := by
  have := Geom.len_add_le (fun i => a i - b i) (fun i => b i - c i)
  unfold Geom.dist
  convert this using 3
  ring

/-- **C202**: orbiting by the given angles multiplies the orientation by the exact turn about the vertical and by the exact turn about
the unit vector of a right axis `r`, up to what the turns cost and `73 u`. This `r` is a right axis (`RightAxis`: unit, orthogonal and level, up to
rounding) for a direction `f` which is, up to rounding, that of the camera after the turn about the vertical. -/
theorem C202_orbit (hs : Small fl u) {e : ℝ} (hl : LibNear lib e) (he : e ≤ 1 / 2) {eps : ℝ} (h0 : 0 < eps) (h1 : eps ≤ 1 / 100)
    (c : Cam (CF fl lib)) (q : Quat ℝ) (hq : c.orientation = quatOf q) (hn : |qlen q - 1| ≤ 6 * u) (dyaw dpitch : ℝ) :
    ∃ (q' : Quat ℝ) (f r : Fin 3 → ℝ), (c.orbitAngles (CF.num eps) (CF.num dyaw) (CF.num dpitch)).orientation = quatOf q' ∧
      Geom.dist f (((turnBy ![0, 0, 1] dyaw).mul q).rotate ![1, 0, 0]) ≤ 3 * turnError u e dyaw + 250 * u ∧
      RightAxis u eps f r ∧
      qdist q' ((turnBy (fun i => r i / len r) dpitch).mul ((turnBy ![0, 0, 1] dyaw).mul q)) ≤
        101 / 100 * (turnError u e dyaw + turnError u e dpitch + 73 * u) := by
  have hu := hs.pos
  have hle := hs.le
  set o : Quat (Fl fl) := ⟨⟨q.w⟩, ⟨q.i⟩, ⟨q.j⟩, ⟨q.k⟩⟩ with ho
  have eo : c.orientation = embQ o := hq
  have no : NearUnit u o := hn
  have lz : len (![0, 0, 1] : Fin 3 → ℝ) = 1 := by simp [len, Fin.sum_univ_three]
  have ez : (![0, 0, 1] : Fin 3 → CF fl lib) = embV ![0, 0, 1] := by funext i; fin_cases i <;> rfl
  obtain ⟨x, x1, x2, x3⟩ := world_near hs hl he ![0, 0, 1] ![0, 0, 1] (by funext i; fin_cases i <;> rfl) lz dyaw
  obtain ⟨z, z1, z2, z3⟩ := quat_step (lib := lib) hs x2 no
  obtain ⟨f, f1, f2, f3⟩ := forward_step (lib := lib) hs z2
  obtain ⟨r, r1, r2⟩ := right_step (lib := lib) hs h0 h1 f f2
  obtain ⟨y, y1, y2, y3⟩ := turn_near hs hl he r (right_ne hs r2) dpitch
  obtain ⟨w, w1, w2, w3⟩ := quat_step (lib := lib) hs y2 z2
  have p1 := (qdist_nonneg _ _).trans x3
  have p2 := (qdist_nonneg _ _).trans y3
  obtain ⟨n3, n4⟩ := abs_le.1 hn
  have lZ := qlen_turnBy lz dyaw
  have lZq : qlen ((turnBy ![0, 0, 1] dyaw).mul q) = qlen q := by rw [Geom.qlen_mul, lZ, one_mul]
  have dz : qdist (qval z) ((turnBy ![0, 0, 1] dyaw).mul q) ≤ 36 * u + turnError u e dyaw * (1001 / 1000) := by
    have t1 := Geom.qdist_triangle (qval z) ((qval x).mul q) ((turnBy ![0, 0, 1] dyaw).mul q)
    rw [qdist_mul_right] at t1
    have d2 : qdist (qval x) (turnBy ![0, 0, 1] dyaw) * qlen q ≤ turnError u e dyaw * (1001 / 1000) :=
      mul_le_mul x3 (by linarith) (Geom.qlen_nonneg _) p1
    have z3' : qdist (qval z) ((qval x).mul q) ≤ 36 * u := z3
    linarith
  refine ⟨qval w, valV f, valV r, ?_, ?_, r2, ?_⟩
  · show (Cam.refresh _).orientation = _
    unfold Cam.refresh
    dsimp only
    rw [ez, x1, eo, z1, f1, r1, y1, w1]
    rfl
  · have hz : 0 < qlen (qval z) := by linarith [(abs_le.1 z2).1]
    have hz' : 0 < qlen ((turnBy ![0, 0, 1] dyaw).mul q) := by rw [lZq]; linarith
    have d := rotate_dist (qval z) ((turnBy ![0, 0, 1] dyaw).mul q) hz hz' ![1, 0, 0]
    have lx : len (![1, 0, 0] : Fin 3 → ℝ) = 1 := by simp [len, Fin.sum_univ_three]
    rw [lx, mul_one, lZq] at d
    have t := dist_tri (valV f) ((qval z).rotate ![1, 0, 0]) (((turnBy ![0, 0, 1] dyaw).mul q).rotate ![1, 0, 0])
    have z2' : |qlen (qval z) - 1| ≤ 6 * u := z2
    linarith
  · have lr := len_unit (right_ne hs r2)
    have lY := qlen_turnBy lr dpitch
    have d1 := qdist_mul (qval y) (qval z) (turnBy (fun i => valV r i / len (valV r)) dpitch) ((turnBy ![0, 0, 1] dyaw).mul q)
    rw [lY, one_mul] at d1
    have z4 := (abs_le.1 z2).2
    have d2 : qdist (qval y) (turnBy (fun i => valV r i / len (valV r)) dpitch) * qlen (qval z) ≤ turnError u e dpitch * (1001 / 1000) :=
      mul_le_mul y3 (by linarith) (Geom.qlen_nonneg _) p2
    have t2 := Geom.qdist_triangle (qval w) ((qval y).mul (qval z))
      ((turnBy (fun i => valV r i / len (valV r)) dpitch).mul ((turnBy ![0, 0, 1] dyaw).mul q))
    linarith

theorem sandwich_vertical (y : ℝ) : (turnBy ![0, 0, 1] y).rotate ![1, 0, 0] = ![Real.cos y, -Real.sin y, 0] := by
  have lz : len (![0, 0, 1] : Fin 3 → ℝ) = 1 := by simp [len, Fin.sum_univ_three]
  have h := qlen_turnBy lz y
  unfold Quat.rotate Quat.normalized
  rw [Geom.qlen_norm, h]
  simp only [div_one]
  have c : Real.cos y = Real.cos (y / 2) ^ 2 - Real.sin (y / 2) ^ 2 := by
    rw [← Real.cos_two_mul']
    congr 1
    ring
  have s : Real.sin y = 2 * Real.sin (y / 2) * Real.cos (y / 2) := by
    rw [← Real.sin_two_mul]
    congr 1
    ring
  rw [c, s]
  funext i
  fin_cases i <;> simp [Quat.sandwich, Quat.conj, turnBy] <;> ring

theorem len_two_le {x y a b : ℝ} : |x| ≤ a → |y| ≤ b → len ![x, y, 0] ≤ a + b := by
  intro hx hy
  have ha := (abs_nonneg _).trans hx
  have hb := (abs_nonneg _).trans hy
  unfold len
  rw [Fin.sum_univ_three]
  refine Real.sqrt_le_iff.2 ⟨by linarith, ?_⟩
  have h1 := sq_le_sq' (neg_le_of_abs_le hx) (le_of_abs_le hx)
  have h2 := sq_le_sq' (neg_le_of_abs_le hy) (le_of_abs_le hy)
  have := mul_nonneg ha hb
  simp
  nlinarith

theorem turnBy_dist (a b : Fin 3 → ℝ) (t : ℝ) : qdist (turnBy a t) (turnBy b t) ≤ Geom.dist a b := by
  have h := Real.sin_sq_le_one (t / 2)
  unfold Geom.qdist Geom.dist len qlen turnBy
  refine Real.sqrt_le_sqrt ?_
  rw [Fin.sum_univ_three]
  dsimp only
  have k : ∀ x y : ℝ, (x * Real.sin (t / 2) - y * Real.sin (t / 2)) ^ 2 ≤ (x - y) ^ 2 := fun x y => by
    rw [← sub_mul, mul_pow]
    exact mul_le_of_le_one_right (sq_nonneg _) h
  have := k (a 0) (b 0)
  have := k (a 1) (b 1)
  have := k (a 2) (b 2)
  rw [sub_self]
  linarith

/-- **C202**: setting the angles gives the product of the exact turn by the pitch about `(sin yaw, cos yaw, 0)` and the exact turn by the yaw
about the vertical, up to what the turns cost and `500 u`. What this orientation looks at is `C91`. -/
theorem C202_set (hs : Small fl u) {e : ℝ} (hl : LibNear lib e) (he : e ≤ 1 / 2) {eps : ℝ} (h0 : 0 < eps) (h1 : eps ≤ 1 / 100)
    (c : Cam (CF fl lib)) (yaw pitch : ℝ) (hy : turnError u e yaw ≤ 1 / 10) :
    ∃ q' : Quat ℝ, (c.setAngles (CF.num eps) (CF.num yaw) (CF.num pitch)).orientation = quatOf q' ∧
      qdist q' ((turnBy ![Real.sin yaw, Real.cos yaw, 0] pitch).mul (turnBy ![0, 0, 1] yaw)) ≤
        6 * turnError u e yaw + 2 * turnError u e pitch + 500 * u := by
  have hu := hs.pos
  have hle := hs.le
  have lz : len (![0, 0, 1] : Fin 3 → ℝ) = 1 := by simp [len, Fin.sum_univ_three]
  have lx : len (![1, 0, 0] : Fin 3 → ℝ) = 1 := by simp [len, Fin.sum_univ_three]
  have ez : (![0, 0, 1] : Fin 3 → CF fl lib) = embV ![0, 0, 1] := by funext i; fin_cases i <;> rfl
  obtain ⟨x, x1, x2, x3⟩ := world_near hs hl he ![0, 0, 1] ![0, 0, 1] (by funext i; fin_cases i <;> rfl) lz yaw
  obtain ⟨f, f1, f2, f3⟩ := forward_step (lib := lib) hs x2
  obtain ⟨r, r1, r2⟩ := right_step (lib := lib) hs h0 h1 f f2
  obtain ⟨y, y1, y2, y3⟩ := turn_near hs hl he r (right_ne hs r2) pitch
  obtain ⟨w, w1, w2, w3⟩ := quat_step (lib := lib) hs y2 x2
  have p1 := (qdist_nonneg _ _).trans x3
  have p2 := (qdist_nonneg _ _).trans y3
  have lZ := qlen_turnBy lz yaw
  have x4 := abs_le.1 x2
  have df : Geom.dist (valV f) ![Real.cos yaw, -Real.sin yaw, 0] ≤ 2 * turnError u e yaw + 162 * u := by
    have d := rotate_dist (qval x) (turnBy ![0, 0, 1] yaw) (by linarith [x4.1]) (by rw [lZ]; norm_num) ![1, 0, 0]
    rw [lx, mul_one, lZ, sub_self, abs_zero, sandwich_vertical] at d
    have t := dist_tri (valV f) ((qval x).rotate ![1, 0, 0]) ![Real.cos yaw, -Real.sin yaw, 0]
    have x2' : |qlen (qval x) - 1| ≤ 6 * u := x2
    linarith
  set F := valV f with hF
  set ε := 2 * turnError u e yaw + 162 * u with hε
  have hε1 : ε ≤ 1 / 4 := by linarith
  set H : Fin 3 → ℝ := ![F 0, F 1, 0] with hH
  set E : Fin 3 → ℝ := ![Real.cos yaw, -Real.sin yaw, 0] with hE
  have lE : len E = 1 := by
    unfold len
    rw [hE, Fin.sum_univ_three]
    simp
  have dH : Geom.dist H E ≤ ε := by
    refine le_trans ?_ df
    unfold Geom.dist len
    refine Real.sqrt_le_sqrt ?_
    rw [Fin.sum_univ_three, Fin.sum_univ_three]
    have := sq_nonneg (F 2)
    simp [hH, hE]
    exact this
  have lH : len H = √(F 0 ^ 2 + F 1 ^ 2) := by
    unfold len
    rw [hH, Fin.sum_univ_three]
    simp
  set h := √(F 0 ^ 2 + F 1 ^ 2) with hh
  have hlen : |h - 1| ≤ ε := by
    rw [← lH, ← lE]
    exact (Geom.len_sub_le H E).trans dH
  have h34 : 3 / 4 ≤ h := by linarith [(abs_le.1 hlen).1]
  have hsq : h ^ 2 = F 0 ^ 2 + F 1 ^ 2 := Real.sq_sqrt (by positivity)
  obtain ⟨k1, k2, k3⟩ := r2.level (by rw [← hsq]; nlinarith)
  have hpos : 0 < h := by linarith
  set G : Fin 3 → ℝ := ![-F 1 / h, F 0 / h, 0] with hG
  set T : Fin 3 → ℝ := ![Real.sin yaw, Real.cos yaw, 0] with hT
  have dG : Geom.dist G T ≤ 2 * ε := by
    have e1 : Geom.dist G T = Geom.dist (fun i => H i / h) E := by
      unfold Geom.dist len
      rw [Fin.sum_univ_three, Fin.sum_univ_three]
      congr 1
      simp [hG, hT, hH, hE]
      ring
    have e2 : Geom.dist (fun i => H i / h) H = |h - 1| := by
      have e3 : Geom.dist (fun i => H i / h) H ^ 2 = |h - 1| ^ 2 := by
        unfold Geom.dist
        rw [len_three, sq_abs]
        have e4 : ∀ a : ℝ, (a / h - a) ^ 2 = a ^ 2 * ((1 - h) / h) ^ 2 := fun a => by field_simp
        have e5 : H 0 ^ 2 + H 1 ^ 2 + H 2 ^ 2 = h ^ 2 := by rw [← len_three, lH]
        rw [e4, e4, e4, ← add_mul, ← add_mul, e5, div_pow]
        field_simp
        ring
      exact (pow_left_inj₀ (Geom.len_nonneg _) (abs_nonneg _) two_ne_zero).1 e3
    have t := dist_tri (fun i => H i / h) H E
    rw [e1]
    linarith
  have dr : Geom.dist (valV r) G ≤ 18 * u := by
    have : (fun i => valV r i - G i) = ![valV r 0 - -F 1 / h, valV r 1 - F 0 / h, 0] := by
      funext i
      fin_cases i
      · rfl
      · rfl
      · show valV r 2 - 0 = 0
        rw [k1, sub_zero]
    unfold Geom.dist
    rw [this]
    have := len_two_le k2 k3
    linarith
  have hr := right_ne hs r2
  have hp := len_pos hr
  have dn : Geom.dist (fun i => valV r i / len (valV r)) (valV r) ≤ 41 / 10 * u := by
    have e3 : Geom.dist (fun i => valV r i / len (valV r)) (valV r) ^ 2 = |len (valV r) - 1| ^ 2 := by
      unfold Geom.dist
      rw [len_three, sq_abs]
      have e4 : ∀ a : ℝ, (a / len (valV r) - a) ^ 2 = a ^ 2 * ((1 - len (valV r)) / len (valV r)) ^ 2 := fun a => by field_simp
      rw [e4, e4, e4, ← add_mul, ← add_mul, ← len_three, div_pow]
      field_simp
      ring
    have e5 : Geom.dist (fun i => valV r i / len (valV r)) (valV r) = |len (valV r) - 1| :=
      (pow_left_inj₀ (Geom.len_nonneg _) (abs_nonneg _) two_ne_zero).1 e3
    rw [e5]
    exact r2.unit
  have da : Geom.dist (fun i => valV r i / len (valV r)) T ≤ 2 * ε + 23 * u := by
    have t1 := dist_tri (fun i => valV r i / len (valV r)) (valV r) T
    have t2 := dist_tri (valV r) G T
    linarith
  refine ⟨qval w, ?_, ?_⟩
  · unfold Cam.setAngles
    dsimp only
    rw [ez, x1, f1, r1, y1, w1]
    rfl
  · have d0 : qdist (qval y) (turnBy T pitch) ≤ turnError u e pitch + (2 * ε + 23 * u) := by
      have t := Geom.qdist_triangle (qval y) (turnBy (fun i => valV r i / len (valV r)) pitch) (turnBy T pitch)
      have := turnBy_dist (fun i => valV r i / len (valV r)) T pitch
      linarith
    have lT : len T = 1 := by
      unfold len
      rw [hT, Fin.sum_univ_three]
      simp
    have d1 := qdist_mul (qval y) (qval x) (turnBy T pitch) (turnBy ![0, 0, 1] yaw)
    rw [qlen_turnBy lT, one_mul] at d1
    have d2 : qdist (qval y) (turnBy T pitch) * qlen (qval x) ≤ (turnError u e pitch + (2 * ε + 23 * u)) * (1001 / 1000) :=
      mul_le_mul d0 (by linarith [x4.2]) (Geom.qlen_nonneg _) ((qdist_nonneg _ _).trans d0)
    have t2 := Geom.qdist_triangle (qval w) ((qval y).mul (qval x)) ((turnBy T pitch).mul (turnBy ![0, 0, 1] yaw))
    linarith

/-- **C202**: dragging by pixels is orbiting by the angles that are the rounded products with the sensitivity, with the signs changed. -/
theorem C202_pixels (c : Cam (CF fl lib)) (eps : CF fl lib) {s : ℝ} (hc : c.orbitSens = CF.num s) (dx dy : ℝ) :
    c.orbitPixels eps (CF.num dx) (CF.num dy) = c.orbitAngles eps (CF.num (fl (-dx * s))) (CF.num (fl (-dy * s))) ∧
    c.orbitWorldPixels (CF.num dx) (CF.num dy) = c.orbitWorldAngles (CF.num (fl (-dy * s))) (CF.num (fl (-dx * s))) := by
  unfold Cam.orbitPixels Cam.orbitWorldPixels
  rw [hc, cf_neg, cf_neg, cf_mul, cf_mul]
  exact ⟨rfl, rfl⟩

/-- In `f64` with exact sine and cosine: the default camera set to a yaw of 1 and a pitch of 1/2. -/
example : ∃ q' : Quat ℝ, ((defaultCam (rnd 53) exactLib (1 / 100) (5 / 4) (11 / 10) 2000).setAngles (CF.num (1 / 10 ^ 16)) (CF.num 1)
    (CF.num (1 / 2))).orientation = quatOf q' ∧
    qdist q' ((turnBy ![Real.sin 1, Real.cos 1, 0] (1 / 2)).mul (turnBy ![0, 0, 1] 1)) ≤ 1000 * 2 ^ (-53 : ℤ) := by
  have h : turnError (2 ^ (-53 : ℤ)) 0 1 ≤ 1 / 10 := by
    unfold turnError
    norm_num
  obtain ⟨q', h1, h2⟩ := C202_set (nearest_small (p := 53) (by norm_num) (rnd_nearest (by norm_num))) (exactLib_near le_rfl) (by norm_num)
    (eps := 1 / 10 ^ 16) (by norm_num) (by norm_num) (defaultCam (rnd 53) exactLib (1 / 100) (5 / 4) (11 / 10) 2000) 1 (1 / 2) h
  refine ⟨q', h1, h2.trans ?_⟩
  unfold turnError
  norm_num

/-- In `f64` with exact sine and cosine: the default camera turned about the first two axes, and dragged. -/
example : (∃ q' : Quat ℝ, ((defaultCam (rnd 53) exactLib (1 / 100) (5 / 4) (11 / 10) 2000).orbitWorldAngles (CF.num 1)
    (CF.num (1 / 2))).orientation = quatOf q' ∧
    qdist q' (((turnBy ![1, 0, 0] 1).mul (turnBy ![0, 1, 0] (1 / 2))).mul ⟨1, 0, 0, 0⟩) ≤ 200 * 2 ^ (-53 : ℤ)) ∧
    ∃ (q' : Quat ℝ) (r : Fin 3 → ℝ), ((defaultCam (rnd 53) exactLib (1 / 100) (5 / 4) (11 / 10) 2000).orbitAngles (CF.num (1 / 10 ^ 16)) (CF.num 1)
    (CF.num (1 / 2))).orientation = quatOf q' ∧
    qdist q' ((turnBy (fun i => r i / len r) (1 / 2)).mul ((turnBy ![0, 0, 1] 1).mul ⟨1, 0, 0, 0⟩)) ≤ 200 * 2 ^ (-53 : ℤ) := by
  have hs := nearest_small (p := 53) (by norm_num) (rnd_nearest (by norm_num))
  have hq : |qlen (⟨1, 0, 0, 0⟩ : Quat ℝ) - 1| ≤ 6 * 2 ^ (-53 : ℤ) := by
    unfold qlen
    norm_num
  constructor
  · obtain ⟨q', h1, h2⟩ := C202_world hs (exactLib_near le_rfl) (by norm_num) (defaultCam (rnd 53) exactLib (1 / 100) (5 / 4) (11 / 10) 2000)
      ⟨1, 0, 0, 0⟩ rfl hq 1 (1 / 2)
    refine ⟨q', h1, h2.trans ?_⟩
    unfold turnError
    norm_num
  · obtain ⟨q', f, r, h1, -, -, h2⟩ := C202_orbit hs (exactLib_near le_rfl) (by norm_num) (eps := 1 / 10 ^ 16) (by norm_num) (by norm_num)
      (defaultCam (rnd 53) exactLib (1 / 100) (5 / 4) (11 / 10) 2000) ⟨1, 0, 0, 0⟩ rfl hq 1 (1 / 2)
    refine ⟨q', r, h1, h2.trans ?_⟩
    unfold turnError
    norm_num

end Verif.Float
