import Verif.Float.Camera
import Verif.Float.PropsView
import Verif.Geom.PropsRotate
import Verif.Geom.PropsHistory
import Verif.Round.PropsLu

/-!
# C201: the orbit camera in floating point, however long it is dragged
-/

namespace Verif.Float

open Verif.Mat (Mat)
open Verif.Att (Quat)
open Verif.Simd (Accurate Fl)
open Verif.Round (growth valV)
open Verif.Geom (qval qlen len flFns)

variable {fl : ℝ → ℝ} {lib : Libm} {u : ℝ} {n : Nat}

/-! ## Rounded numbers as checked ones -/

/-- A rounded number is a finite checked one. -/
def emb (x : Fl fl) : CF fl lib := CF.num x.val

def embQ (q : Quat (Fl fl)) : Quat (CF fl lib) := ⟨emb q.w, emb q.i, emb q.j, emb q.k⟩

def embV (v : Fin n → Fl fl) : Fin n → CF fl lib := fun i => emb (v i)

theorem emb_add (a b : Fl fl) : (emb a + emb b : CF fl lib) = emb (a + b) := cf_add _ _
theorem emb_sub (a b : Fl fl) : (emb a - emb b : CF fl lib) = emb (a - b) := cf_sub _ _
theorem emb_mul (a b : Fl fl) : (emb a * emb b : CF fl lib) = emb (a * b) := cf_mul _ _
theorem emb_neg (a : Fl fl) : (-emb a : CF fl lib) = emb (-a) := cf_neg _
theorem emb_div (a : Fl fl) {b : Fl fl} (hb : b.val ≠ 0) : (emb a / emb b : CF fl lib) = emb (a / b) := cf_div _ hb

theorem embQ_mul (p q : Quat (Fl fl)) : ((embQ p).mul (embQ q) : Quat (CF fl lib)) = embQ (p.mul q) := by
  unfold Quat.mul embQ
  simp only [emb_mul, emb_add, emb_sub]

theorem embQ_sandwich (q : Quat (Fl fl)) (v : Fin 3 → Fl fl) :
    ((embQ q).sandwich (embV v) : Fin 3 → CF fl lib) = embV (q.sandwich v) := by
  funext i
  unfold Quat.sandwich embQ embV Quat.conj
  simp only [emb_mul, emb_add, emb_sub, emb_neg]
  fin_cases i <;> rfl

theorem emb_dot (v w : Fin n → Fl fl) : Mat.dot (embV v : Fin n → CF fl lib) (embV w) = emb (Mat.dot v w) := by
  unfold Mat.dot
  have key : ∀ (l : List (Fin n)) (s : Fl fl),
      l.foldl (fun acc i => acc + (embV v i : CF fl lib) * embV w i) (emb s) = emb (l.foldl (fun acc i => acc + v i * w i) s) := by
    intro l
    induction l with
    | nil => exact fun s => rfl
    | cons i l ih =>
      intro s
      rw [List.foldl_cons, List.foldl_cons, ← ih]
      congr 1
      show emb s + emb (v i) * emb (w i) = _
      rw [emb_mul, emb_add]
  exact key _ 0

theorem growth_le (hs : Small fl u) {n : ℕ} (hn : n ≤ 20) : growth u n ≤ (n + 1 / 10) * u := by
  have hu := hs.pos
  have hl := hs.le
  have hn' : (n : ℝ) ≤ 20 := by exact_mod_cast hn
  have n0 : (0 : ℝ) ≤ n := by positivity
  have h1 : (n : ℝ) * u ≤ 20 * u := mul_le_mul_of_nonneg_right hn' hu.le
  refine (Verif.Round.C111_growth hs.acc (by linarith)).trans ?_
  rw [div_le_iff₀ (by linarith)]
  have h2 : (n : ℝ) * u * (n * u) ≤ 20 * u * (20 * u) := mul_le_mul h1 h1 (by positivity) (by positivity)
  have h3 : u * u ≤ u * (1 / 1000000) := mul_le_mul_of_nonneg_left hl hu.le
  nlinarith


theorem rel_pos {k : ℕ} {a x : ℝ} (h : Geom.Rel u k a x) (hx : 0 < x) : 0 < a := by
  obtain ⟨t, h0, -, -, rfl⟩ := h
  exact mul_pos hx h0

theorem rel_ne {k : ℕ} {a x : ℝ} (h : Geom.Rel u k a x) (hx : x ≠ 0) : a ≠ 0 := by
  obtain ⟨t, h0, -, -, rfl⟩ := h
  exact mul_ne_zero hx h0.ne'

theorem len_pos {v : Fin n → ℝ} (hv : v ≠ 0) : 0 < len v := by
  obtain ⟨i, hi⟩ := Function.ne_iff.1 hv
  exact lt_of_lt_of_le (abs_pos.2 hi) (Geom.abs_le_len v i)

theorem emb_norm (hs : Small fl u) (v : Fin n → Fl fl) :
    Mat.norm Scalar.sqrt (embV v : Fin n → CF fl lib) = emb (Mat.norm Geom.rsqrt v) := by
  have hu1 : u < 1 := by linarith [hs.le]
  have h2 := (Geom.dot_rel hs.acc hu1 v).nonneg (Finset.sum_nonneg fun _ _ => sq_nonneg _)
  show Scalar.sqrt (Mat.dot (embV v : Fin n → CF fl lib) (embV v)) = emb (Geom.rsqrt (Mat.dot v v))
  rw [emb_dot]
  exact cf_sqrt h2

/-- Dividing by the length. -/
theorem emb_normalize (hs : Small fl u) (v : Fin n → Fl fl) (hv : valV v ≠ 0) :
    Geom.normalize (fns (CF fl lib)) (embV v) = embV (Geom.normalize (flFns fl lib.sin lib.cos) v) := by
  have hu1 : u < 1 := by linarith [hs.le]
  have h1 := rel_pos (Geom.norm_rel hs.acc hu1 v) (len_pos hv)
  funext i
  show embV v i / Mat.norm Scalar.sqrt (embV v : Fin n → CF fl lib) = _
  rw [emb_norm hs]
  exact emb_div _ h1.ne'

theorem embQ_normalized (hs : Small fl u) (q : Quat (Fl fl)) (hq : qval q ≠ ⟨0, 0, 0, 0⟩) :
    Geom.normalized (fns (CF fl lib)) (embQ q) = embQ (Geom.normalized (flFns fl lib.sin lib.cos) q) := by
  have hu1 : u < 1 := by linarith [hs.le]
  have h1 := rel_pos (Geom.qnorm_rel hs.acc hu1 q) (Geom.qlen_pos hq)
  have h2 := (Geom.dot_rel hs.acc hu1 ![q.w, q.i, q.j, q.k]).nonneg (Finset.sum_nonneg fun _ _ => sq_nonneg _)
  have h3 : Scalar.sqrt (embQ q : Quat (CF fl lib)).norm2 = emb (Geom.rsqrt q.norm2) := by
    have : (embQ q : Quat (CF fl lib)).norm2 = emb q.norm2 := by
      have e : (![emb q.w, emb q.i, emb q.j, emb q.k] : Fin 4 → CF fl lib) = embV ![q.w, q.i, q.j, q.k] := by
        funext i
        fin_cases i <;> rfl
      show Mat.dot ![emb q.w, emb q.i, emb q.j, emb q.k] ![emb q.w, emb q.i, emb q.j, emb q.k] = _
      rw [e, emb_dot]
      rfl
    rw [this]
    exact cf_sqrt h2
  unfold Geom.normalized
  dsimp only
  show (⟨emb q.w / Scalar.sqrt _, emb q.i / Scalar.sqrt _, emb q.j / Scalar.sqrt _, emb q.k / Scalar.sqrt _⟩ : Quat (CF fl lib)) = _
  rw [h3, emb_div _ h1.ne', emb_div _ h1.ne', emb_div _ h1.ne', emb_div _ h1.ne']
  rfl

/-- A unit quaternion up to rounding. -/
def NearUnit (u : ℝ) (q : Quat (Fl fl)) : Prop := |qlen (qval q) - 1| ≤ 6 * u

theorem NearUnit.ne (hs : Small fl u) {q : Quat (Fl fl)} (h : NearUnit u q) : qval q ≠ ⟨0, 0, 0, 0⟩ := by
  intro h0
  unfold NearUnit at h
  have : qlen (qval q) = 0 := by rw [h0]; simp [qlen]
  rw [this] at h
  have := (abs_le.1 h).1
  linarith [hs.le]

theorem nearUnit_normalized (hs : Small fl u) (q : Quat (Fl fl)) (hq : qval q ≠ ⟨0, 0, 0, 0⟩) :
    NearUnit u (Geom.normalized (flFns fl lib.sin lib.cos) q) := by
  have hu1 : u < 1 := by linarith [hs.le]
  refine (Geom.C123_quaternion hs.acc hu1 rfl q hq).2.trans ((growth_le hs (by norm_num)).trans ?_)
  push_cast
  linarith [hs.pos]

theorem qdist_self_div (q : Quat ℝ) (hq : 0 < qlen q) : Geom.qdist q.normalized q = |qlen q - 1| := by
  have h : Geom.qdist q.normalized q ^ 2 = |qlen q - 1| ^ 2 := by
    unfold Geom.qdist Quat.normalized
    rw [Geom.qlen_sq, sq_abs, Geom.qlen_norm]
    have h1 := Geom.qlen_sq q
    have e : ∀ x : ℝ, (x / qlen q - x) ^ 2 = x ^ 2 * ((1 - qlen q) / qlen q) ^ 2 := fun x => by field_simp
    dsimp only
    rw [e, e, e, e, ← add_mul, ← add_mul, ← add_mul, ← h1, div_pow]
    field_simp
    ring
  exact (pow_left_inj₀ (Geom.qlen_nonneg _) (abs_nonneg _) two_ne_zero).1 h

/-- The product of two unit quaternions, normalised. -/
theorem quat_step (hs : Small fl u) {p q : Quat (Fl fl)} (hp : NearUnit u p) (hq : NearUnit u q) :
    ∃ r : Quat (Fl fl), Geom.normalized (fns (CF fl lib)) ((embQ p).mul (embQ q)) = embQ r ∧ NearUnit u r ∧
      Geom.qdist (qval r) ((qval p).mul (qval q)) ≤ 36 * u := by
  have hu := hs.pos
  have hl := hs.le
  have hu1 : u < 1 := by linarith
  have h1 := Geom.mul_near hs.acc hu1 p q
  have h2 := Geom.qlen_sub_le (qval (p.mul q)) ((qval p).mul (qval q))
  rw [Geom.qlen_mul] at h2
  have h3 := growth_le hs (n := 4) (by norm_num)
  push_cast at h3
  obtain ⟨p1, p2⟩ := abs_le.1 hp
  obtain ⟨q1, q2⟩ := abs_le.1 hq
  have h4 : 9 / 10 * (9 / 10) ≤ qlen (qval p) * qlen (qval q) := mul_le_mul (by linarith) (by linarith) (by norm_num) (by linarith)
  have hne : qval (p.mul q) ≠ ⟨0, 0, 0, 0⟩ := by
    intro h0
    have h5 : qlen (qval (p.mul q)) = 0 := by rw [h0]; simp [qlen]
    rw [h5] at h2
    have h6 := neg_le_of_abs_le (h2.trans h1)
    have h7 : growth u 4 * (qlen (qval p) * qlen (qval q)) ≤ 1 / 10 * (qlen (qval p) * qlen (qval q)) :=
      mul_le_mul_of_nonneg_right (by linarith) (by linarith)
    linarith
  refine ⟨_, by rw [embQ_mul, embQ_normalized hs _ hne], nearUnit_normalized hs _ hne, ?_⟩
  have h8 : qlen (qval p) * qlen (qval q) ≤ 1 + 121 / 10 * u := by
    have := mul_le_mul (by linarith : qlen (qval p) ≤ 1 + 6 * u) (by linarith : qlen (qval q) ≤ 1 + 6 * u) (Geom.qlen_nonneg _) (by linarith)
    nlinarith
  have h9 : 1 - 121 / 10 * u ≤ qlen (qval p) * qlen (qval q) := by
    have := mul_le_mul (by linarith : 1 - 6 * u ≤ qlen (qval p)) (by linarith : 1 - 6 * u ≤ qlen (qval q)) (by linarith) (Geom.qlen_nonneg _)
    nlinarith
  have h10 : 2 * (growth u 4 * (qlen (qval p) * qlen (qval q))) ≤ 83 / 10 * u := by
    have := mul_le_mul h3 h8 (by linarith) (by linarith)
    nlinarith
  have h11 := (abs_le.1 (h2.trans (h1.trans h10)))
  have g5 := growth_le hs (n := 5) (by norm_num)
  push_cast at g5
  have c1 := (Geom.C123_quaternion hs.acc hu1 (f := flFns fl lib.sin lib.cos) rfl (p.mul q) hne).1
  have c2 := qdist_self_div (qval (p.mul q)) (Geom.qlen_pos hne)
  have c3 : |qlen (qval (p.mul q)) - 1| ≤ 21 * u := abs_le.2 ⟨by linarith [h11.1], by linarith [h11.2]⟩
  have t1 := Geom.qdist_triangle (qval (Geom.normalized (flFns fl lib.sin lib.cos) (p.mul q))) (qval (p.mul q)).normalized ((qval p).mul (qval q))
  have t2 := Geom.qdist_triangle (qval (p.mul q)).normalized (qval (p.mul q)) ((qval p).mul (qval q))
  linarith

theorem fl_zero (hs : Small fl u) : fl 0 = 0 := by
  have := hs.acc 0
  rw [abs_zero, mul_zero, sub_zero] at this
  exact abs_nonpos_iff.1 this

theorem fl_ne (hs : Small fl u) {x : ℝ} (hx : x ≠ 0) : fl x ≠ 0 := by
  intro h
  have := hs.acc x
  rw [h, zero_sub, abs_neg] at this
  have h1 := abs_pos.2 hx
  nlinarith [hs.le]

/-- The rounded quaternion of a turn, before it is normalised. -/
noncomputable def preTurn (lib : Libm) (a : Fin 3 → Fl fl) (t : ℝ) : Quat (Fl fl) :=
  let half : Fl fl := ⟨t⟩ * (1 / (1 + 1))
  let w := Geom.normalize (flFns fl lib.sin lib.cos) a
  ⟨⟨lib.cos half.val⟩, w 0 * ⟨lib.sin half.val⟩, w 1 * ⟨lib.sin half.val⟩, w 2 * ⟨lib.sin half.val⟩⟩

/-- A rotation about an axis by an angle. -/
theorem turn_eq (hs : Small fl u) {e : ℝ} (hl : LibNear lib e) (he : e ≤ 1 / 2) (a : Fin 3 → Fl fl) (ha : valV a ≠ 0) (t : ℝ) :
    Geom.ofAxisAngle (fns (CF fl lib)) (embV a) (CF.num t) = embQ (Geom.normalized (flFns fl lib.sin lib.cos) (preTurn lib a t)) ∧
      qval (preTurn lib a t) ≠ ⟨0, 0, 0, 0⟩ := by
  have hu1 : u < 1 := by linarith [hs.le]
  have h2 : (1 + 1 : Fl fl).val ≠ 0 := fl_ne hs (by norm_num)
  have e1 : (CF.num t * (1 / (1 + 1)) : CF fl lib) = emb (⟨t⟩ * (1 / (1 + 1))) := by
    rw [show (1 : CF fl lib) = emb 1 from rfl, emb_add, emb_div _ h2]
    exact emb_mul ⟨t⟩ _
  set half : Fl fl := ⟨t⟩ * (1 / (1 + 1)) with hh
  set w := Geom.normalize (flFns fl lib.sin lib.cos) a with hw
  set q : Quat (Fl fl) := preTurn lib a t with hq
  have e2 : Geom.ofAxisAngle (fns (CF fl lib)) (embV a) (CF.num t) = Geom.normalized (fns (CF fl lib)) (embQ q) := by
    unfold Geom.ofAxisAngle
    dsimp only
    rw [e1, emb_normalize hs a ha]
    show Geom.normalized _ ⟨Scalar.cos (emb half), emb (w 0) * Scalar.sin (emb half), emb (w 1) * Scalar.sin (emb half), emb (w 2) * Scalar.sin (emb half)⟩ = _
    rw [show Scalar.cos (emb half : CF fl lib) = emb ⟨lib.cos half.val⟩ from cf_cos _,
      show Scalar.sin (emb half : CF fl lib) = emb ⟨lib.sin half.val⟩ from cf_sin _, emb_mul, emb_mul, emb_mul]
    rfl
  have hne : qval q ≠ ⟨0, 0, 0, 0⟩ := by
    intro h0
    have c0 : lib.cos half.val = 0 := congrArg Quat.w h0
    have k0 : ∀ i, (w i).val * lib.sin half.val = 0 := by
      have g : ∀ i, fl ((w i).val * lib.sin half.val) = 0 := by
        intro i
        fin_cases i
        · exact congrArg Quat.i h0
        · exact congrArg Quat.j h0
        · exact congrArg Quat.k h0
      intro i
      by_contra hc
      exact fl_ne hs hc (g i)
    have s0 : lib.sin half.val = 0 := by
      obtain ⟨i, hi⟩ := Function.ne_iff.1 ha
      have r := rel_ne (Geom.normalize_rel hs.acc hu1 (f := flFns fl lib.sin lib.cos) rfl a i)
        (div_ne_zero hi (len_pos ha).ne')
      exact (mul_eq_zero.1 (k0 i)).resolve_left r
    have a1 := hl.sin half.val
    have a2 := hl.cos half.val
    rw [s0, zero_sub, abs_neg] at a1
    rw [c0, zero_sub, abs_neg] at a2
    have a3 := Real.sin_sq_add_cos_sq half.val
    have a4 := sq_le_sq' (neg_le_of_abs_le (a1.trans he)) (le_of_abs_le (a1.trans he))
    have a5 := sq_le_sq' (neg_le_of_abs_le (a2.trans he)) (le_of_abs_le (a2.trans he))
    norm_num at a4 a5
    linarith
  exact ⟨by rw [e2, embQ_normalized hs _ hne], hne⟩

theorem turn_step (hs : Small fl u) {e : ℝ} (hl : LibNear lib e) (he : e ≤ 1 / 2) (a : Fin 3 → Fl fl) (ha : valV a ≠ 0) (t : ℝ) :
    ∃ r : Quat (Fl fl), Geom.ofAxisAngle (fns (CF fl lib)) (embV a) (CF.num t) = embQ r ∧ NearUnit u r := by
  obtain ⟨h1, h2⟩ := turn_eq hs hl he a ha t
  exact ⟨_, h1, nearUnit_normalized hs _ h2⟩

/-- The first axis turned, and divided by its length. -/
theorem forward_step (hs : Small fl u) {q : Quat (Fl fl)} (hq : NearUnit u q) :
    ∃ f : Fin 3 → Fl fl, Geom.normalize (fns (CF fl lib)) (Geom.rotate (fns (CF fl lib)) (embQ q) ![1, 0, 0]) = embV f ∧
      |len (valV f) - 1| ≤ 41 / 10 * u ∧ Geom.dist (valV f) ((qval q).rotate ![1, 0, 0]) ≤ 150 * u := by
  have hu := hs.pos
  have hle := hs.le
  have hu1 : u < 1 := by linarith
  have hne := hq.ne hs
  have e0 : (![1, 0, 0] : Fin 3 → CF fl lib) = embV ![1, 0, 0] := by
    funext i
    fin_cases i <;> rfl
  have e1 : Geom.rotate (fns (CF fl lib)) (embQ q) ![1, 0, 0] = embV (Geom.rotate (flFns fl lib.sin lib.cos) q ![1, 0, 0]) := by
    unfold Geom.rotate
    rw [embQ_normalized hs _ hne, e0, embQ_sandwich]
  have ev : valV (![1, 0, 0] : Fin 3 → Fl fl) = ![1, 0, 0] := by
    funext i
    fin_cases i <;> rfl
  have el : len (![1, 0, 0] : Fin 3 → ℝ) = 1 := by
    unfold len
    simp [Fin.sum_univ_three]
  have h1 := Geom.C124_rotate hs.acc hu1 (f := flFns fl lib.sin lib.cos) rfl q hne ![1, 0, 0]
  have h2 := Geom.C124_length hs.acc hu1 (f := flFns fl lib.sin lib.cos) rfl q hne ![1, 0, 0]
  rw [ev, el, mul_one] at h1 h2
  set g := Geom.rotate (flFns fl lib.sin lib.cos) q ![1, 0, 0] with hg
  have g17 := growth_le hs (n := 17) (by norm_num)
  push_cast at g17
  have h2' := abs_le.1 (h2.trans (mul_le_mul_of_nonneg_left g17 (by norm_num)))
  have gn : valV g ≠ 0 := by
    intro h0
    rw [h0] at h2'
    have : len (0 : Fin 3 → ℝ) = 0 := by simp [len]
    rw [this] at h2'
    linarith [h2'.1]
  have g4 := growth_le hs (n := 4) (by norm_num)
  push_cast at g4
  have h3 := Geom.C123_vector hs.acc hu1 (f := flFns fl lib.sin lib.cos) rfl g gn
  norm_num at h3
  refine ⟨Geom.normalize (flFns fl lib.sin lib.cos) g, by rw [e1, emb_normalize hs g gn], h3.trans (by linarith), ?_⟩
  have hpos := len_pos gn
  have h4 : Geom.dist (valV (Geom.normalize (flFns fl lib.sin lib.cos) g)) (fun i => valV g i / len (valV g)) ≤ 41 / 10 * u := by
    unfold Geom.dist
    have := Geom.len_le (v := fun i => valV (Geom.normalize (flFns fl lib.sin lib.cos) g) i - valV g i / len (valV g))
      (w := fun i => valV g i / len (valV g)) (Verif.Round.growth_nonneg hs.acc hu1 4)
      (fun i => by
        have := Geom.C123_components hs.acc hu1 (f := flFns fl lib.sin lib.cos) rfl g i
        norm_num at this
        exact this)
    have l1 : len (fun i => valV g i / len (valV g)) = 1 := by
      unfold len
      simp only [div_pow]
      rw [← Finset.sum_div, Real.sqrt_div' _ (sq_nonneg _), Real.sqrt_sq (Real.sqrt_nonneg _)]
      exact div_self hpos.ne'
    rw [l1, mul_one] at this
    exact this.trans (by linarith)
  have h5 : Geom.dist (fun i => valV g i / len (valV g)) (valV g) ≤ 4 * (171 / 10 * u) := by
    unfold Geom.dist
    have e : ∀ i, valV g i / len (valV g) - valV g i = (1 / len (valV g) - 1) * valV g i := fun i => by ring
    have := Geom.len_le (v := fun i => valV g i / len (valV g) - valV g i) (w := valV g) (abs_nonneg (1 / len (valV g) - 1))
      (fun i => by rw [e, abs_mul])
    refine this.trans ?_
    rw [← abs_of_pos hpos, ← abs_mul, abs_of_pos hpos, sub_mul, one_div, inv_mul_cancel₀ hpos.ne', one_mul, abs_sub_comm]
    exact h2.trans (by linarith)
  have tri : ∀ a b c : Fin 3 → ℝ, Geom.dist a c ≤ Geom.dist a b + Geom.dist b c := by
    intro a b c
    have := Geom.len_add_le (fun i => a i - b i) (fun i => b i - c i)
    unfold Geom.dist
    convert this using 3
    ring
  have h6 := tri (valV (Geom.normalize (flFns fl lib.sin lib.cos) g)) (fun i => valV g i / len (valV g)) ((qval q).rotate ![1, 0, 0])
  have h7 := tri (fun i => valV g i / len (valV g)) (valV g) ((qval q).rotate ![1, 0, 0])
  linarith

theorem rel_abs (hs : Small fl u) {k : ℕ} {a x : ℝ} (h : Geom.Rel u k a x) : |a - x| ≤ growth u k * |x| :=
  (h.near hs.acc (by linarith [hs.le])).2

theorem sum_le_len (a b : Fin n → ℝ) : ∑ i, |a i| * |b i| ≤ len a * len b := by
  have := Real.sum_mul_le_sqrt_mul_sqrt Finset.univ (fun i => |a i|) (fun i => |b i|)
  simp only [sq_abs] at this
  exact this

/-- A vector that is nearly orthogonal to another one still is when it is divided by its length. -/
theorem normalize_dot (hs : Small fl u) {v : Fin n → Fl fl} {g : ℕ} (hg : (n + 2) / 2 + 2 ≤ g) (hv : valV v ≠ 0) (a : Fin n → ℝ) :
    |∑ i, a i * valV (Geom.normalize (flFns fl lib.sin lib.cos) v) i - (∑ i, a i * valV v i) / len (valV v)| ≤ growth u g * len a := by
  have hu1 : u < 1 := by linarith [hs.le]
  have hp := len_pos hv
  rw [Finset.sum_div, ← Finset.sum_sub_distrib]
  refine (Finset.abs_sum_le_sum_abs _ _).trans ?_
  have h1 : ∀ i, |a i * valV (Geom.normalize (flFns fl lib.sin lib.cos) v) i - a i * valV v i / len (valV v)| ≤
      growth u g * (|a i| * |valV v i|) / len (valV v) := by
    intro i
    have := rel_abs hs ((Geom.normalize_rel hs.acc hu1 (f := flFns fl lib.sin lib.cos) rfl v i).mono hs.acc hu1 hg)
    rw [show a i * valV (Geom.normalize (flFns fl lib.sin lib.cos) v) i - a i * valV v i / len (valV v) =
      a i * ((Geom.normalize (flFns fl lib.sin lib.cos) v i).val - (v i).val / len (valV v)) by unfold valV; ring, abs_mul]
    refine (mul_le_mul_of_nonneg_left this (abs_nonneg _)).trans (le_of_eq ?_)
    rw [abs_div, abs_of_pos hp]
    unfold valV
    ring
  refine (Finset.sum_le_sum fun i _ => h1 i).trans ?_
  rw [← Finset.sum_div, ← Finset.mul_sum, div_le_iff₀ hp, mul_assoc]
  exact mul_le_mul_of_nonneg_left (sum_le_len a (valV v)) (Verif.Round.growth_nonneg hs.acc hu1 g)

theorem len_three (v : Fin 3 → ℝ) : len v ^ 2 = v 0 ^ 2 + v 1 ^ 2 + v 2 ^ 2 := by
  rw [Geom.len_sq, Fin.sum_univ_three]

/-- A vector of nearly exact components, divided by its length. -/
theorem exact_unit (hs : Small fl u) {v : Fin 3 → Fl fl} {R : Fin 3 → ℝ} (hv : ∀ i, Geom.Rel u 2 (v i).val (R i)) (hR : R ≠ 0) :
    valV v ≠ 0 ∧ |len (valV (Geom.normalize (flFns fl lib.sin lib.cos) v)) - 1| ≤ 41 / 10 * u ∧
      (∀ i, |valV (Geom.normalize (flFns fl lib.sin lib.cos) v) i - R i / len R| ≤ 9 * u * |R i / len R|) ∧
      ∀ a : Fin 3 → ℝ, len a ≤ 11 / 10 → ∑ i, a i * R i = 0 → |∑ i, a i * valV (Geom.normalize (flFns fl lib.sin lib.cos) v) i| ≤ 9 * u := by
  have hu := hs.pos
  have hle := hs.le
  have hu1 : u < 1 := by linarith
  have hne : valV v ≠ 0 := by
    obtain ⟨i, hi⟩ := Function.ne_iff.1 hR
    exact Function.ne_iff.2 ⟨i, rel_ne (hv i) hi⟩
  have g2 := growth_le hs (n := 2) (by norm_num)
  have g4 := growth_le hs (n := 4) (by norm_num)
  push_cast at g2 g4
  have hp := len_pos hne
  have hpR := len_pos hR
  have h3 := Geom.C123_vector hs.acc hu1 (f := flFns fl lib.sin lib.cos) rfl v hne
  norm_num at h3
  have d1 : |len (valV v) - len R| ≤ 21 / 10 * u * len R := by
    refine (Geom.len_sub_le _ _).trans ?_
    unfold Geom.dist
    exact (Geom.len_le (Verif.Round.growth_nonneg hs.acc hu1 2) fun i => rel_abs hs (hv i)).trans
      (mul_le_mul_of_nonneg_right (by linarith) hpR.le)
  obtain ⟨d2, d3⟩ := abs_le.1 d1
  have comp : ∀ i, |valV (Geom.normalize (flFns fl lib.sin lib.cos) v) i - R i / len R| ≤ 9 * u * |R i / len R| := by
    intro i
    have h4 := rel_abs hs (Geom.normalize_rel hs.acc hu1 (f := flFns fl lib.sin lib.cos) rfl v i)
    norm_num at h4
    have h5 := rel_abs hs (hv i)
    have h6 : |(v i).val / len (valV v) - R i / len R| ≤ 43 / 10 * u * |R i / len R| := by
      have e : (v i).val / len (valV v) - R i / len R = (((v i).val - R i) + R i * ((len R - len (valV v)) / len R)) / len (valV v) := by
        field_simp
        ring
      have h7 : |R i * ((len R - len (valV v)) / len R)| ≤ 21 / 10 * u * |R i| := by
        rw [abs_mul, abs_div, abs_of_pos hpR, mul_comm]
        refine mul_le_mul_of_nonneg_right ?_ (abs_nonneg _)
        rw [div_le_iff₀ hpR, abs_sub_comm]
        exact d1
      have h8 : |((v i).val - R i) + R i * ((len R - len (valV v)) / len R)| ≤ 42 / 10 * u * |R i| := by
        have := mul_le_mul_of_nonneg_right g2 (abs_nonneg (R i))
        exact (abs_add_le _ _).trans (by linarith)
      rw [e, abs_div, abs_of_pos hp, abs_div, abs_of_pos hpR, div_le_iff₀ hp]
      refine h8.trans ?_
      have h9 : 42 / 10 * len R ≤ 43 / 10 * len (valV v) := by
        have := mul_le_mul_of_nonneg_right hle hpR.le
        linarith
      have h10 := mul_le_mul_of_nonneg_left h9 (mul_nonneg hu.le (abs_nonneg (R i)))
      rw [show 43 / 10 * u * (|R i| / len R) * len (valV v) = 43 / 10 * u * |R i| * len (valV v) / len R by ring, le_div_iff₀ hpR]
      linarith
    have h11 : |(v i).val / len (valV v)| ≤ 101 / 100 * |R i / len R| := by
      have := abs_sub_abs_le_abs_sub ((v i).val / len (valV v)) (R i / len R)
      have h12 := mul_le_mul_of_nonneg_right hle (abs_nonneg (R i / len R))
      have := abs_nonneg (R i / len R)
      linarith
    have h13 : growth u 4 * |(v i).val / len (valV v)| ≤ 41 / 10 * u * (101 / 100 * |R i / len R|) :=
      mul_le_mul (by linarith) h11 (abs_nonneg _) (by linarith)
    have := abs_sub_le (valV (Geom.normalize (flFns fl lib.sin lib.cos) v) i) ((v i).val / len (valV v)) (R i / len R)
    have h14 : 0 ≤ u * |R i / len R| := mul_nonneg hu.le (abs_nonneg _)
    have h15 : |valV (Geom.normalize (flFns fl lib.sin lib.cos) v) i - (v i).val / len (valV v)| ≤ growth u 4 * |(v i).val / len (valV v)| := h4
    linarith
  refine ⟨hne, h3.trans (by linarith), comp, ?_⟩
  intro a ha h0
  have key : |∑ i, a i * valV (Geom.normalize (flFns fl lib.sin lib.cos) v) i - 0 / len (valV v)| ≤ 8 * u * (11 / 10) := by
    have := normalize_dot (lib := lib) hs (g := 4) (by norm_num) hne a
    have h1 : |∑ i, a i * valV v i| ≤ 21 / 10 * u * (11 / 10 * len R) := by
      rw [← sub_zero (∑ i, a i * valV v i), ← h0, ← Finset.sum_sub_distrib]
      refine (Finset.abs_sum_le_sum_abs _ _).trans ?_
      have h2 : ∀ i, |a i * valV v i - a i * R i| ≤ growth u 2 * (|a i| * |R i|) := by
        intro i
        rw [← mul_sub, abs_mul]
        have := mul_le_mul_of_nonneg_left (rel_abs hs (hv i)) (abs_nonneg (a i))
        unfold valV
        linarith
      refine (Finset.sum_le_sum fun i _ => h2 i).trans ?_
      rw [← Finset.mul_sum]
      refine mul_le_mul (by linarith) ((sum_le_len a R).trans (mul_le_mul_of_nonneg_right ha hpR.le)) (Finset.sum_nonneg fun _ _ => by positivity)
        (by linarith)
    have h2 : |(∑ i, a i * valV v i) / len (valV v)| ≤ 3 * u := by
      rw [abs_div, abs_of_pos hp, div_le_iff₀ hp]
      refine h1.trans ?_
      have h9 : 231 / 100 * len R ≤ 3 * len (valV v) := by
        have := mul_le_mul_of_nonneg_right hle hpR.le
        linarith
      have := mul_le_mul_of_nonneg_left h9 hu.le
      linarith
    have h3 : growth u 4 * len a ≤ 41 / 10 * u * (11 / 10) := mul_le_mul (by linarith) ha (Geom.len_nonneg _) (by linarith)
    rw [zero_div, sub_zero]
    have h4 := abs_sub_abs_le_abs_sub (∑ i, a i * valV (Geom.normalize (flFns fl lib.sin lib.cos) v) i) ((∑ i, a i * valV v i) / len (valV v))
    linarith
  rw [zero_div, sub_zero] at key
  linarith

theorem emb_lt (a : Fl fl) (x : ℝ) : Scalar.lt (emb a : CF fl lib) (CF.num x) ↔ a.val < x := cf_lt _ _

theorem embV_lt (v : Fin n → Fl fl) (i : Fin n) : Scalar.lt (embV v i : CF fl lib) 0 ↔ (v i).val < 0 := cf_lt _ _

theorem emb_cross (a b : Fin 3 → Fl fl) : (Mat.cross (embV a) (embV b) : Fin 3 → CF fl lib) = embV (Mat.cross a b) := by
  funext i
  fin_cases i
  · show emb (a 1) * emb (b 2) - emb (a 2) * emb (b 1) = _
    rw [emb_mul, emb_mul, emb_sub]
    rfl
  · show emb (a 2) * emb (b 0) - emb (a 0) * emb (b 2) = _
    rw [emb_mul, emb_mul, emb_sub]
    rfl
  · show emb (a 0) * emb (b 1) - emb (a 1) * emb (b 0) = _
    rw [emb_mul, emb_mul, emb_sub]
    rfl

theorem emb_sq (v : Fin 3 → Fl fl) : (embV v 0 * embV v 0 + embV v 1 * embV v 1 + embV v 2 * embV v 2 : CF fl lib) =
    emb (v 0 * v 0 + v 1 * v 1 + v 2 * v 2) := by
  unfold embV
  simp only [emb_mul, emb_add]

/-- A computed sum of three squares. -/
theorem sq_rel (hs : Small fl u) {k : ℕ} {v : Fin 3 → Fl fl} {R : Fin 3 → ℝ} (hv : ∀ i, Geom.Rel u k (v i).val (R i)) :
    Geom.Rel u (k + k + 3) (v 0 * v 0 + v 1 * v 1 + v 2 * v 2).val (R 0 ^ 2 + R 1 ^ 2 + R 2 ^ 2) := by
  have hu1 : u < 1 := by linarith [hs.le]
  have m : ∀ i, Geom.Rel u (k + k + 1) (v i * v i).val (R i ^ 2) := fun i => by
    rw [pow_two]
    exact ((hv i).mul hu1 (hv i)).round hs.acc hu1
  have s1 := ((m 0).add hu1 (sq_nonneg _) (sq_nonneg _) (m 1)).round hs.acc hu1
  exact (s1.add hu1 (by positivity) (sq_nonneg _) ((m 2).mono hs.acc hu1 (by omega))).round hs.acc hu1

/-- What the program knows of the right axis. -/
structure RightAxis (u eps : ℝ) (f r : Fin 3 → ℝ) : Prop where
  unit : |len r - 1| ≤ 41 / 10 * u
  orthogonal : |∑ i, f i * r i| ≤ 9 * u
  level : 2 * eps ≤ f 0 ^ 2 + f 1 ^ 2 → r 2 = 0 ∧ |r 0 - -f 1 / √(f 0 ^ 2 + f 1 ^ 2)| ≤ 9 * u ∧ |r 1 - f 0 / √(f 0 ^ 2 + f 1 ^ 2)| ≤ 9 * u

open Classical in
/-- The right axis. -/
theorem right_step (hs : Small fl u) {eps : ℝ} (h0 : 0 < eps) (h1 : eps ≤ 1 / 100) (f : Fin 3 → Fl fl) (hf : |len (valV f) - 1| ≤ 41 / 10 * u) :
    ∃ r : Fin 3 → Fl fl, rightOf (CF.num eps : CF fl lib) (embV f) = embV r ∧ RightAxis u eps (valV f) (valV r) := by
  have hu := hs.pos
  have hle := hs.le
  have hu1 : u < 1 := by linarith
  have z := fl_zero hs
  obtain ⟨f1, f2⟩ := abs_le.1 hf
  have fl3 := len_three (valV f)
  have fsq : 99 / 100 ≤ valV f 0 ^ 2 + valV f 1 ^ 2 + valV f 2 ^ 2 := by
    rw [← fl3]
    nlinarith
  have ez : (![0, 0, 1] : Fin 3 → CF fl lib) = embV ![0, 0, 1] := by
    funext i
    fin_cases i <;> rfl
  have ex : (![1, 0, 0] : Fin 3 → CF fl lib) = embV ![1, 0, 0] := by
    funext i
    fin_cases i <;> rfl
  have r0 : Geom.Rel u 2 (0 : ℝ) 0 := (Geom.Rel.refl 0).mono hs.acc hu1 (by norm_num)
  have rp : ∀ x : ℝ, Geom.Rel u 2 (fl (fl (1 * x) - fl (0 * 0))) x := fun x => by
    rw [zero_mul, z, one_mul, sub_zero]
    exact ((Geom.Rel.refl x).round hs.acc hu1).round hs.acc hu1
  have rn : ∀ x y : ℝ, Geom.Rel u 2 (fl (fl (0 * y) - fl (1 * x))) (-x) := fun x y => by
    rw [zero_mul, z, one_mul, zero_sub]
    obtain ⟨t, t0, t1, t2, t3⟩ := (Geom.Rel.refl (u := u) x).round hs.acc hu1
    refine Geom.Rel.round hs.acc hu1 ⟨t, t0, t1, t2, ?_⟩
    rw [t3]
    ring
  have rq : ∀ x y : ℝ, Geom.Rel u 2 (fl (fl (1 * x) - fl (0 * y))) x := fun x y => by
    rw [zero_mul, z, one_mul, sub_zero]
    exact ((Geom.Rel.refl x).round hs.acc hu1).round hs.acc hu1
  have rz : ∀ x y : ℝ, Geom.Rel u 2 (fl (fl (0 * x) - fl (0 * y))) 0 := fun x y => by
    rw [zero_mul, zero_mul, z, sub_zero, z]
    exact r0
  set v : Fin 3 → Fl fl := Mat.cross ![0, 0, 1] f with hv
  set w : Fin 3 → Fl fl := Mat.cross ![1, 0, 0] f with hw
  set R : Fin 3 → ℝ := ![-valV f 1, valV f 0, 0] with hR
  set S : Fin 3 → ℝ := ![0, -valV f 2, valV f 1] with hS
  have vR : ∀ i, Geom.Rel u 2 (v i).val (R i) := by
    intro i
    fin_cases i
    · exact rn _ _
    · exact rq _ _
    · exact rz _ _
  have wS : ∀ i, Geom.Rel u 2 (w i).val (S i) := by
    intro i
    fin_cases i
    · exact rz _ _
    · exact rn _ _
    · exact rq _ _
  have n2 := sq_rel hs vR
  have e2 : R 0 ^ 2 + R 1 ^ 2 + R 2 ^ 2 = valV f 0 ^ 2 + valV f 1 ^ 2 := by
    rw [hR]
    simp
    ring
  rw [e2] at n2
  have n2' := rel_abs hs n2
  have g7 := growth_le hs (n := 2 + 2 + 3) (by norm_num)
  push_cast at g7
  set N : ℝ := (v 0 * v 0 + v 1 * v 1 + v 2 * v 2).val with hN
  set h2 : ℝ := valV f 0 ^ 2 + valV f 1 ^ 2 with hh2
  have h2n : 0 ≤ h2 := by positivity
  rw [abs_of_nonneg h2n] at n2'
  have g7' : growth u (2 + 2 + 3) ≤ 1 / 1000 := by linarith
  have n3 := abs_le.1 (n2'.trans (mul_le_mul_of_nonneg_right g7' h2n))
  have la : len (valV f) ≤ 11 / 10 := by linarith
  have unfolded : rightOf (CF.num eps : CF fl lib) (embV f) =
      Geom.normalize (fns (CF fl lib)) (if Scalar.lt (emb (v 0 * v 0 + v 1 * v 1 + v 2 * v 2) : CF fl lib) (CF.num eps) then embV w else embV v) := by
    unfold rightOf
    dsimp only
    rw [ez, ex, emb_cross, emb_cross, emb_sq]
  rw [unfolded]
  by_cases c : N < eps
  · rw [if_pos ((emb_lt _ _).2 c)]
    have hS0 : S ≠ 0 := by
      intro h
      have s1 : -valV f 2 = 0 := congrFun h 1
      have s2 : valV f 2 = 0 := by linarith
      rw [s2] at fsq
      linarith
    obtain ⟨k1, k2, k3, k4⟩ := exact_unit (lib := lib) hs wS hS0
    refine ⟨_, emb_normalize hs w k1, k2, k4 _ la ?_, ?_⟩
    · rw [Fin.sum_univ_three]
      show valV f 0 * 0 + valV f 1 * -valV f 2 + valV f 2 * valV f 1 = 0
      ring
    · intro hlev
      linarith
  · rw [if_neg fun h => c ((emb_lt _ _).1 h)]
    have hR0 : R ≠ 0 := by
      intro h
      have s1 : -valV f 1 = 0 := congrFun h 0
      have s2 : valV f 0 = 0 := congrFun h 1
      have s3 : valV f 1 = 0 := by linarith
      have : h2 = 0 := by rw [hh2, s2, s3]; norm_num
      rw [this] at n3
      linarith [n3.2]
    obtain ⟨k1, k2, k3, k4⟩ := exact_unit (lib := lib) hs vR hR0
    refine ⟨_, emb_normalize hs v k1, k2, k4 _ la ?_, ?_⟩
    · rw [Fin.sum_univ_three]
      show valV f 0 * -valV f 1 + valV f 1 * valV f 0 + valV f 2 * 0 = 0
      ring
    · intro _
      have lR : len R = √h2 := by
        unfold len
        rw [Fin.sum_univ_three, e2]
      have le1 : ∀ i, |R i / len R| ≤ 1 := fun i => by
        rw [abs_div, abs_of_pos (len_pos hR0), div_le_one (len_pos hR0)]
        exact Geom.abs_le_len R i
      have bound : ∀ i, |valV (Geom.normalize (flFns fl lib.sin lib.cos) v) i - R i / len R| ≤ 9 * u := fun i =>
        (k3 i).trans ((mul_le_mul_of_nonneg_left (le1 i) (by linarith)).trans (by linarith))
      refine ⟨?_, ?_, ?_⟩
      · have := k3 2
        have r2 : R 2 = 0 := rfl
        rw [r2, zero_div, abs_zero, mul_zero, sub_zero] at this
        exact abs_nonpos_iff.1 this
      · rw [← lR]
        exact bound 0
      · rw [← lR]
        exact bound 1

theorem sum_cross_self (f r : Fin 3 → ℝ) : ∑ i, f i * Mat.cross f r i = 0 := by
  rw [Fin.sum_univ_three]
  show f 0 * (f 1 * r 2 - f 2 * r 1) + f 1 * (f 2 * r 0 - f 0 * r 2) + f 2 * (f 0 * r 1 - f 1 * r 0) = 0
  ring

theorem sum_cross_other (f r : Fin 3 → ℝ) : ∑ i, r i * Mat.cross f r i = 0 := by
  rw [Fin.sum_univ_three]
  show r 0 * (f 1 * r 2 - f 2 * r 1) + r 1 * (f 2 * r 0 - f 0 * r 2) + r 2 * (f 0 * r 1 - f 1 * r 0) = 0
  ring

theorem len_cross (f r : Fin 3 → ℝ) : len (Mat.cross f r) ^ 2 = len f ^ 2 * len r ^ 2 - (∑ i, f i * r i) ^ 2 := by
  rw [len_three, len_three, len_three, Fin.sum_univ_three]
  show (f 1 * r 2 - f 2 * r 1) ^ 2 + (f 2 * r 0 - f 0 * r 2) ^ 2 + (f 0 * r 1 - f 1 * r 0) ^ 2 = _
  ring

/-- A computed cross product. -/
theorem cross_dist (hs : Small fl u) (f r : Fin 3 → Fl fl) :
    Geom.dist (valV (Mat.cross f r)) (Mat.cross (valV f) (valV r)) ≤ 3 * u * (len (valV f) * len (valV r)) := by
  have hu := hs.pos
  have hu1 : u < 1 := by linarith [hs.le]
  have g2 := growth_le hs (n := 2) (by norm_num)
  push_cast at g2
  have one : ∀ a b c d : Fl fl, |(a * b - c * d).val - (a.val * b.val - c.val * d.val)| ≤ growth u 2 * (|a.val| * |b.val| + |c.val| * |d.val|) := by
    intro a b c d
    have m : ∀ x y : Fl fl, Geom.Near u 1 (|x.val| * |y.val|) (x * y).val (x.val * y.val) := fun x y =>
      (Geom.Near.refl x.val).rmul hs.acc hu1 (Geom.Near.refl y.val)
    exact ((m a b).rsub hs.acc hu1 (m c d) le_rfl).2
  set F := valV f with hF
  set G := valV r with hG
  set A : Fin 3 → ℝ := ![|F 1| * |G 2| + |F 2| * |G 1|, |F 2| * |G 0| + |F 0| * |G 2|, |F 0| * |G 1| + |F 1| * |G 0|] with hA
  have h1 : Geom.dist (valV (Mat.cross f r)) (Mat.cross F G) ≤ growth u 2 * len A := by
    unfold Geom.dist
    refine Geom.len_le (Verif.Round.growth_nonneg hs.acc hu1 2) fun i => ?_
    have nn : |A i| = A i := abs_of_nonneg (by
      have k : ∀ a b c d : ℝ, 0 ≤ |a| * |b| + |c| * |d| := fun a b c d => by positivity
      fin_cases i <;> exact k _ _ _ _)
    rw [nn]
    fin_cases i
    · exact one (f 1) (r 2) (f 2) (r 1)
    · exact one (f 2) (r 0) (f 0) (r 2)
    · exact one (f 0) (r 1) (f 1) (r 0)
  have h2 : len A ≤ 142 / 100 * (len F * len G) := by
    refine abs_le_of_sq_le_sq' ?_ (by have := Geom.len_nonneg F; have := Geom.len_nonneg G; positivity) |>.2
    rw [mul_pow, mul_pow, len_three, len_three, len_three]
    show (|F 1| * |G 2| + |F 2| * |G 1|) ^ 2 + (|F 2| * |G 0| + |F 0| * |G 2|) ^ 2 + (|F 0| * |G 1| + |F 1| * |G 0|) ^ 2 ≤ _
    rw [← sq_abs (F 0), ← sq_abs (F 1), ← sq_abs (F 2), ← sq_abs (G 0), ← sq_abs (G 1), ← sq_abs (G 2)]
    have k : ∀ x y : ℝ, (x + y) ^ 2 ≤ 2 * (x ^ 2 + y ^ 2) := fun x y => by nlinarith [sq_nonneg (x - y)]
    have k1 := k (|F 1| * |G 2|) (|F 2| * |G 1|)
    have k2 := k (|F 2| * |G 0|) (|F 0| * |G 2|)
    have k3 := k (|F 0| * |G 1|) (|F 1| * |G 0|)
    have p : ∀ i, 0 ≤ (|F i| * |G i|) ^ 2 := fun i => sq_nonneg _
    have q : ∀ i j, 0 ≤ (|F i| * |G j|) ^ 2 := fun i j => sq_nonneg _
    have p0 := p 0
    have p1 := p 1
    have p2 := p 2
    have q0 := q 0 1
    have q1 := q 1 0
    have q2 := q 1 2
    have q3 := q 2 1
    have q4 := q 0 2
    have q5 := q 2 0
    simp only [mul_pow] at *
    linarith
  have h3 := mul_le_mul g2 h2 (Geom.len_nonneg A) (by linarith)
  have h4 : 0 ≤ u * (len F * len G) := mul_nonneg hu.le (mul_nonneg (Geom.len_nonneg F) (Geom.len_nonneg G))
  linarith

/-- What the program knows of the upward axis. -/
structure UpAxis (u : ℝ) (f r w : Fin 3 → ℝ) : Prop where
  unit : |len w - 1| ≤ 6 * u
  forward : |∑ i, f i * w i| ≤ 10 * u
  right : |∑ i, r i * w i| ≤ 10 * u
  upward : 0 ≤ w 2

theorem dist_dot (a v x : Fin n → ℝ) (h : ∑ i, a i * x i = 0) : |∑ i, a i * v i| ≤ len a * Geom.dist v x := by
  rw [← sub_zero (∑ i, a i * v i), ← h, ← Finset.sum_sub_distrib]
  refine (Finset.abs_sum_le_sum_abs _ _).trans (le_trans (le_of_eq ?_) (sum_le_len a fun i => v i - x i))
  exact Finset.sum_congr rfl fun i _ => by rw [← mul_sub, abs_mul]

open Classical in
/-- The upward axis. -/
theorem up_step (hs : Small fl u) {eps : ℝ} (h1 : eps ≤ 1 / 100) (c : Cam (CF fl lib)) (f r : Fin 3 → Fl fl)
    (ef : c.forward = embV f) (er : c.right (CF.num eps) = embV r)
    (hf : |len (valV f) - 1| ≤ 41 / 10 * u) (hr : |len (valV r) - 1| ≤ 41 / 10 * u) (ho : |∑ i, valV f i * valV r i| ≤ 9 * u) :
    ∃ w : Fin 3 → Fl fl, c.up (CF.num eps) = embV w ∧ UpAxis u (valV f) (valV r) (valV w) := by
  have hu := hs.pos
  have hle := hs.le
  have hu1 : u < 1 := by linarith
  have g1 := growth_le hs (n := 1) (by norm_num)
  have g4 := growth_le hs (n := 4) (by norm_num)
  push_cast at g1 g4
  obtain ⟨f1, f2⟩ := abs_le.1 hf
  obtain ⟨r1, r2⟩ := abs_le.1 hr
  set v : Fin 3 → Fl fl := Mat.cross f r with hv
  set X : Fin 3 → ℝ := Mat.cross (valV f) (valV r) with hX
  have d := cross_dist hs f r
  have lf : len (valV f) ≤ 101 / 100 := by linarith
  have lr : len (valV r) ≤ 101 / 100 := by linarith
  have lfr : len (valV f) * len (valV r) ≤ 101 / 100 * (101 / 100) := mul_le_mul lf lr (Geom.len_nonneg _) (by norm_num)
  have d' : Geom.dist (valV v) X ≤ 32 / 10 * u := by
    have := mul_le_mul_of_nonneg_left lfr (by linarith : 0 ≤ 3 * u)
    linarith
  have lX : 98 / 100 ≤ len X := by
    have := len_cross (valV f) (valV r)
    have a1 : (99 / 100) ^ 2 ≤ len (valV f) ^ 2 := pow_le_pow_left₀ (by norm_num) (by linarith) 2
    have a2 : (99 / 100) ^ 2 ≤ len (valV r) ^ 2 := pow_le_pow_left₀ (by norm_num) (by linarith) 2
    have a3 : ((99 / 100) ^ 2 : ℝ) * (99 / 100) ^ 2 ≤ len (valV f) ^ 2 * len (valV r) ^ 2 := mul_le_mul a1 a2 (by norm_num) (sq_nonneg _)
    have a4 : (∑ i, valV f i * valV r i) ^ 2 ≤ (1 / 1000) ^ 2 := by
      rw [← sq_abs]
      exact pow_le_pow_left₀ (abs_nonneg _) (by linarith) 2
    norm_num at a3 a4
    by_contra hc
    have a5 : len X ^ 2 ≤ (98 / 100) ^ 2 := pow_le_pow_left₀ (Geom.len_nonneg X) (by linarith) 2
    norm_num at a5
    linarith
  have lv : 97 / 100 ≤ len (valV v) := by
    have := (abs_le.1 ((Geom.len_sub_le (valV v) X).trans d')).1
    linarith
  have vn : valV v ≠ 0 := by
    intro h
    rw [h] at lv
    have : len (0 : Fin 3 → ℝ) = 0 := by simp [len]
    rw [this] at lv
    norm_num at lv
  have lp := len_pos vn
  have nsq := sq_rel hs (v := v) (R := valV v) (k := 0) fun i => Geom.Rel.refl _
  have g3 := growth_le hs (n := 0 + 0 + 3) (by norm_num)
  push_cast at g3
  have nab := rel_abs hs nsq
  rw [← len_three] at nab
  have big : ¬ (v 0 * v 0 + v 1 * v 1 + v 2 * v 2).val < eps := by
    have b1 : (97 / 100) ^ 2 ≤ len (valV v) ^ 2 := pow_le_pow_left₀ (by norm_num) lv 2
    rw [abs_of_nonneg (sq_nonneg (len (valV v)))] at nab
    have g3' : growth u (0 + 0 + 3) ≤ 1 / 1000 := by linarith
    have b2 := (abs_le.1 (nab.trans (mul_le_mul_of_nonneg_right g3' (sq_nonneg (len (valV v)))))).1
    norm_num at b1
    intro h
    linarith
  set w := Geom.normalize (flFns fl lib.sin lib.cos) v with hw
  have wl : |len (valV w) - 1| ≤ 41 / 10 * u := by
    have h3 := Geom.C123_vector hs.acc hu1 (f := flFns fl lib.sin lib.cos) rfl v vn
    norm_num at h3
    exact h3.trans (by linarith)
  have dots : ∀ a : Fin 3 → ℝ, len a ≤ 101 / 100 → ∑ i, a i * X i = 0 → |∑ i, a i * valV w i| ≤ 8 * u := by
    intro a ha h0
    have k1 := normalize_dot (lib := lib) hs (g := 4) (by norm_num) vn a
    have k2 := dist_dot a (valV v) X h0
    have k3 : len a * Geom.dist (valV v) X ≤ 101 / 100 * (32 / 10 * u) := mul_le_mul ha d' (Geom.len_nonneg _) (by norm_num)
    have k4 : |(∑ i, a i * valV v i) / len (valV v)| ≤ 34 / 10 * u := by
      rw [abs_div, abs_of_pos lp, div_le_iff₀ lp]
      have := mul_le_mul_of_nonneg_left lv (by linarith : 0 ≤ 34 / 10 * u)
      linarith
    have k5 : growth u 4 * len a ≤ 41 / 10 * u * (101 / 100) := mul_le_mul (by linarith) ha (Geom.len_nonneg _) (by linarith)
    have k6 := abs_sub_abs_le_abs_sub (∑ i, a i * valV w i) ((∑ i, a i * valV v i) / len (valV v))
    linarith
  have df := dots _ lf (sum_cross_self _ _)
  have dr := dots _ lr (sum_cross_other _ _)
  have unfolded : c.up (CF.num eps) = if Scalar.lt (embV w 2 : CF fl lib) 0 then fun i => embV w i * -1 else embV w := by
    unfold Cam.up
    dsimp only
    rw [ef, er, emb_cross, emb_sq, if_neg fun h => big ((emb_lt _ _).1 h), emb_normalize hs v vn]
  rw [unfolded]
  by_cases neg : (w 2).val < 0
  · have em : (fun i => embV w i * -1 : Fin 3 → CF fl lib) = embV fun i => w i * -1 := by
      funext i
      show emb (w i) * -(emb 1) = _
      rw [emb_neg, emb_mul]
      rfl
    rw [if_pos ((embV_lt _ _).2 neg), em]
    have rel : ∀ i, Geom.Rel u 1 (w i * -1).val (-valV w i) := fun i => by
      have := (Geom.Rel.refl (u := u) (-valV w i)).round hs.acc hu1
      show Geom.Rel u 1 (fl ((w i).val * -1)) _
      rw [mul_neg_one]
      exact this
    have dd : Geom.dist (valV fun i => w i * -1) (fun i => -valV w i) ≤ 11 / 10 * u * (101 / 100) := by
      unfold Geom.dist
      refine (Geom.len_le (Verif.Round.growth_nonneg hs.acc hu1 1) fun i => rel_abs hs (rel i)).trans ?_
      have e : len (fun i => -valV w i) = len (valV w) := by
        unfold len
        simp only [neg_sq]
      rw [e]
      exact mul_le_mul (by linarith) (by linarith [(abs_le.1 wl).2]) (Geom.len_nonneg _) (by linarith)
    have e : len (fun i => -valV w i) = len (valV w) := by
      unfold len
      simp only [neg_sq]
    have dots2 : ∀ a : Fin 3 → ℝ, len a ≤ 101 / 100 → |∑ i, a i * valV w i| ≤ 8 * u → |∑ i, a i * valV (fun i => w i * -1) i| ≤ 10 * u := by
      intro a ha h0
      have k1 : |∑ i, a i * valV (fun i => w i * -1) i - ∑ i, a i * -valV w i| ≤ 101 / 100 * (11 / 10 * u * (101 / 100)) := by
        rw [← Finset.sum_sub_distrib]
        refine (Finset.abs_sum_le_sum_abs _ _).trans ?_
        refine le_trans (le_of_eq (Finset.sum_congr rfl fun i _ => ?_)) ((sum_le_len a fun i => valV (fun i => w i * -1) i - -valV w i).trans
          (mul_le_mul ha dd (Geom.len_nonneg _) (by norm_num)))
        rw [← mul_sub, abs_mul]
      have k2 : ∑ i, a i * -valV w i = -∑ i, a i * valV w i := by
        rw [← Finset.sum_neg_distrib]
        exact Finset.sum_congr rfl fun i _ => by ring
      rw [k2] at k1
      have k3 := abs_sub_abs_le_abs_sub (∑ i, a i * valV (fun i => w i * -1) i) (-∑ i, a i * valV w i)
      rw [abs_neg] at k3
      linarith
    refine ⟨_, rfl, ?_, dots2 _ lf df, dots2 _ lr dr, ?_⟩
    · have k1 := (Geom.len_sub_le (valV fun i => w i * -1) (fun i => -valV w i)).trans dd
      rw [e] at k1
      have := abs_sub_le (len (valV fun i => w i * -1)) (len (valV w)) 1
      linarith
    · refine (rel 2).nonneg ?_
      have : valV w 2 < 0 := neg
      linarith
  · rw [if_neg fun h => neg ((embV_lt _ _).1 h)]
    exact ⟨w, rfl, by linarith, by linarith, by linarith, not_lt.1 neg⟩

/-! ## What a program can do -/

/-- The fields of a camera, except its orientation, are numbers. -/
structure Finite (c : Cam (CF fl lib)) : Prop where
  target : ∃ t : Fin 3 → ℝ, c.target = fun i => CF.num (t i)
  distance : ∃ d : ℝ, c.distance = CF.num d
  yaw : ∃ y : ℝ, c.yaw = CF.num y
  pitch : ∃ y : ℝ, c.pitch = CF.num y
  orbitSens : ∃ s : ℝ, c.orbitSens = CF.num s

/-- What a program can do to a camera, with numbers that are finite: call its methods, and assign its public fields
(`fields`; the orientation is private). -/
inductive CamOp (fl : ℝ → ℝ) (lib : Libm) where
  | setAngles (yaw pitch : ℝ)
  | orbitAngles (dyaw dpitch : ℝ)
  | orbitPixels (dx dy : ℝ)
  | orbitWorldAngles (droll dpitch : ℝ)
  | orbitWorldPixels (dx dy : ℝ)
  | assign (fields : Cam (CF fl lib)) (finite : Finite fields)

/-- The effect of an operation; `eps` is the constant `1e-16` of the code. -/
noncomputable def CamOp.run (eps : ℝ) (c : Cam (CF fl lib)) : CamOp fl lib → Cam (CF fl lib)
  | .setAngles y p => c.setAngles (CF.num eps) (CF.num y) (CF.num p)
  | .orbitAngles y p => c.orbitAngles (CF.num eps) (CF.num y) (CF.num p)
  | .orbitPixels x y => c.orbitPixels (CF.num eps) (CF.num x) (CF.num y)
  | .orbitWorldAngles y p => c.orbitWorldAngles (CF.num y) (CF.num p)
  | .orbitWorldPixels x y => c.orbitWorldPixels (CF.num x) (CF.num y)
  | .assign f _ => { f with orientation := c.orientation }

/-- What every operation preserves. -/
structure Held (u : ℝ) (c : Cam (CF fl lib)) : Prop where
  finite : Finite c
  unit : ∃ q : Quat (Fl fl), c.orientation = embQ q ∧ NearUnit u q

theorem smin_smax (x : ℝ) : ∃ y : ℝ, smin (smax (CF.num x : CF fl lib) (-1)) 1 = CF.num y ∧ |y| ≤ 1 := by
  have e : (-1 : CF fl lib) = CF.num (-1) := cf_neg 1
  rw [e, cf_one]
  have h : ∃ z : ℝ, smax (CF.num x : CF fl lib) (CF.num (-1)) = CF.num z ∧ -1 ≤ z := by
    unfold smax
    by_cases h1 : x < -1
    · rw [if_pos ((cf_lt _ _).2 h1)]
      exact ⟨-1, rfl, le_rfl⟩
    · rw [if_neg fun h => h1 ((cf_lt _ _).1 h), if_pos ((cf_eq _ _).2 rfl)]
      exact ⟨x, rfl, not_lt.1 h1⟩
  obtain ⟨z, hz, hz1⟩ := h
  rw [hz]
  unfold smin
  by_cases h1 : 1 < z
  · rw [if_pos ((cf_lt _ _).2 h1)]
    exact ⟨1, rfl, by norm_num⟩
  · rw [if_neg fun h => h1 ((cf_lt _ _).1 h), if_pos ((cf_eq _ _).2 rfl)]
    exact ⟨z, rfl, abs_le.2 ⟨hz1, not_lt.1 h1⟩⟩

theorem held_refresh (hs : Small fl u) {c : Cam (CF fl lib)} (h : Held u c) : Held u c.refresh := by
  obtain ⟨q, hq, hn⟩ := h.unit
  obtain ⟨f, ef, -, -⟩ := forward_step (lib := lib) hs hn
  have ef' : c.forward = embV f := by
    unfold Cam.forward
    rw [hq, ef]
  obtain ⟨y, hy, hy1⟩ := smin_smax (fl := fl) (lib := lib) (f 2).val
  refine ⟨⟨h.finite.target, h.finite.distance, ⟨lib.atan2 (f 1).val (f 0).val, ?_⟩, ⟨lib.asin y, ?_⟩,
    h.finite.orbitSens⟩, h.unit⟩
  · show Scalar.atan2 (c.forward 1) (c.forward 0) = _
    rw [ef']
    exact cf_atan2 _ _
  · show Scalar.asin (smin (smax (c.forward 2) (-1)) 1) = _
    rw [ef', show (embV f 2 : CF fl lib) = CF.num (f 2).val from rfl, hy]
    exact cf_asin hy1

theorem unit_axis (i : Fin 3) : ∃ a : Fin 3 → Fl fl, (embV a : Fin 3 → CF fl lib) = Function.update (fun _ => 0) i 1 ∧ valV a ≠ 0 := by
  refine ⟨Function.update (fun _ => 0) i 1, ?_, ?_⟩
  · funext j
    unfold embV
    by_cases h : j = i
    · subst h
      rw [Function.update_self, Function.update_self]
      rfl
    · rw [Function.update_of_ne h, Function.update_of_ne h]
      rfl
  · refine Function.ne_iff.2 ⟨i, ?_⟩
    show (Function.update (fun _ => 0 : Fin 3 → Fl fl) i 1 i).val ≠ 0
    rw [Function.update_self]
    exact one_ne_zero (α := ℝ)

/-- Turning about a world axis. -/
theorem world_step (hs : Small fl u) {e : ℝ} (hl : LibNear lib e) (he : e ≤ 1 / 2) (i : Fin 3) (t : ℝ) {a : Fin 3 → CF fl lib}
    (ha : a = Function.update (fun _ => 0) i 1) : ∃ r : Quat (Fl fl), Geom.ofAxisAngle (fns (CF fl lib)) a (CF.num t) = embQ r ∧ NearUnit u r := by
  obtain ⟨b, hb, hb0⟩ := unit_axis (fl := fl) (lib := lib) i
  rw [ha, ← hb]
  exact turn_step hs hl he b hb0 t

theorem right_ne (hs : Small fl u) {eps : ℝ} {f r : Fin 3 → ℝ} (h : RightAxis u eps f r) : r ≠ 0 := by
  intro h0
  have := h.unit
  rw [h0] at this
  have e : len (0 : Fin 3 → ℝ) = 0 := by simp [len]
  rw [e] at this
  have := (abs_le.1 this).1
  linarith [hs.le]

section Held

variable (hs : Small fl u) {e : ℝ} (hl : LibNear lib e) (he : e ≤ 1 / 2) {eps : ℝ} (h0 : 0 < eps) (h1 : eps ≤ 1 / 100)
include hs hl he h0 h1

theorem held_setAngles {c : Cam (CF fl lib)} (h : Held u c) (y p : ℝ) : Held u (c.setAngles (CF.num eps) (CF.num y) (CF.num p)) := by
  obtain ⟨q, hq, hn⟩ := world_step hs hl he 2 y (a := ![0, 0, 1]) (by funext i; fin_cases i <;> rfl)
  obtain ⟨f, ef, lf, -⟩ := forward_step (lib := lib) hs hn
  obtain ⟨r, er, hr⟩ := right_step (lib := lib) hs h0 h1 f lf
  obtain ⟨p', hp, np⟩ := turn_step hs hl he r (right_ne hs hr) p
  obtain ⟨o, ho, no, -⟩ := quat_step (lib := lib) hs np hn
  refine ⟨⟨h.finite.target, h.finite.distance, ⟨y, rfl⟩, ⟨p, rfl⟩, h.finite.orbitSens⟩, o, ?_, no⟩
  unfold Cam.setAngles
  dsimp only
  rw [hq, ef, er, hp, ho]

theorem held_orbitAngles {c : Cam (CF fl lib)} (h : Held u c) (y p : ℝ) : Held u (c.orbitAngles (CF.num eps) (CF.num y) (CF.num p)) := by
  obtain ⟨k, hk, nk⟩ := h.unit
  obtain ⟨q, hq, hn⟩ := world_step hs hl he 2 y (a := ![0, 0, 1]) (by funext i; fin_cases i <;> rfl)
  obtain ⟨t, ht, nt, -⟩ := quat_step (lib := lib) hs hn nk
  obtain ⟨f, ef, lf, -⟩ := forward_step (lib := lib) hs nt
  obtain ⟨r, er, hr⟩ := right_step (lib := lib) hs h0 h1 f lf
  obtain ⟨p', hp, np⟩ := turn_step hs hl he r (right_ne hs hr) p
  obtain ⟨o, ho, no, -⟩ := quat_step (lib := lib) hs np nt
  refine held_refresh hs ⟨⟨h.finite.target, h.finite.distance, h.finite.yaw, h.finite.pitch, h.finite.orbitSens⟩, o, ?_, no⟩
  dsimp only
  rw [hq, hk, ht, ef, er, hp, ho]

omit h0 h1 in
theorem held_orbitWorldAngles {c : Cam (CF fl lib)} (h : Held u c) (y p : ℝ) : Held u (c.orbitWorldAngles (CF.num y) (CF.num p)) := by
  obtain ⟨k, hk, nk⟩ := h.unit
  obtain ⟨q, hq, hn⟩ := world_step hs hl he 0 y (a := ![1, 0, 0]) (by funext i; fin_cases i <;> rfl)
  obtain ⟨q', hq', hn'⟩ := world_step hs hl he 1 p (a := ![0, 1, 0]) (by funext i; fin_cases i <;> rfl)
  obtain ⟨t, ht, nt, -⟩ := quat_step (lib := lib) hs hn hn'
  obtain ⟨o, ho, no, -⟩ := quat_step (lib := lib) hs nt nk
  refine held_refresh hs ⟨⟨h.finite.target, h.finite.distance, h.finite.yaw, h.finite.pitch, h.finite.orbitSens⟩, o, ?_, no⟩
  dsimp only
  rw [hq, hq', hk, ht, ho]

theorem held_run {c : Cam (CF fl lib)} (h : Held u c) (op : CamOp fl lib) : Held u (op.run eps c) := by
  obtain ⟨s, es⟩ := h.finite.orbitSens
  have px : ∀ x : ℝ, (-CF.num x * c.orbitSens : CF fl lib) = CF.num (fl (-x * s)) := fun x => by
    rw [es, cf_neg, cf_mul]
  cases op with
  | setAngles y p => exact held_setAngles hs hl he h0 h1 h y p
  | orbitAngles y p => exact held_orbitAngles hs hl he h0 h1 h y p
  | orbitPixels x y =>
    show Held u (c.orbitAngles _ _ _)
    rw [px, px]
    exact held_orbitAngles hs hl he h0 h1 h _ _
  | orbitWorldAngles y p => exact held_orbitWorldAngles hs hl he h y p
  | orbitWorldPixels x y =>
    show Held u (c.orbitWorldAngles _ _)
    rw [px, px]
    exact held_orbitWorldAngles hs hl he h _ _
  | assign f hf => exact ⟨⟨hf.target, hf.distance, hf.yaw, hf.pitch, hf.orbitSens⟩, h.unit⟩

theorem held_foldl (ops : List (CamOp fl lib)) : ∀ {c : Cam (CF fl lib)}, Held u c → Held u (ops.foldl (CamOp.run eps) c) := by
  induction ops with
  | nil => exact fun h => h
  | cons op ops ih => exact fun h => ih (held_run hs hl he h0 h1 h op)

end Held

/-- The quaternion with the given components. -/
def quatOf (q : Quat ℝ) : Quat (CF fl lib) := ⟨CF.num q.w, CF.num q.i, CF.num q.j, CF.num q.k⟩

/-- **C201**: with numbers rounded to at least a millionth and a library whose sine and cosine are within a half of the exact ones,
a camera that starts from the identity (`default`) with finite fields, after any number of operations in any order:
* its orientation is finite and a unit quaternion up to `6 u`;
* the forward axis is finite, of unit length up to `5 u`, and within `150 u` of the first axis turned by the orientation;
* the right axis is finite, of unit length up to `5 u` and orthogonal to the forward axis up to `9 u`; unless the camera looks straight
  up or down it is level, and within `9 u` of the horizontal direction at a right angle to the view;
* the upward axis is finite, of unit length up to `6 u`, orthogonal to the two others up to `10 u`, and never points down;
* the position is finite, within `3 u (|target| + |distance|)` per coordinate of the target less the distance along the forward axis;
* the angles are finite.
The errors do not grow with the number of operations. -/
theorem C201_camera (hs : Small fl u) {e : ℝ} (hl : LibNear lib e) (he : e ≤ 1 / 2) {eps : ℝ} (h0 : 0 < eps) (h1 : eps ≤ 1 / 100)
    (start : Cam (CF fl lib)) (hid : start.orientation = quatOf ⟨1, 0, 0, 0⟩) (hfin : Finite start) (ops : List (CamOp fl lib))
    (c : Cam (CF fl lib)) (hc : c = ops.foldl (CamOp.run eps) start) :
    ∃ (q : Quat ℝ) (f r w p t : Fin 3 → ℝ) (d : ℝ),
      c.orientation = quatOf q ∧ |qlen q - 1| ≤ 6 * u ∧
      c.forward = (fun i => CF.num (f i)) ∧ |len f - 1| ≤ 5 * u ∧ Geom.dist f (q.rotate ![1, 0, 0]) ≤ 150 * u ∧
      c.right (CF.num eps) = (fun i => CF.num (r i)) ∧ |len r - 1| ≤ 5 * u ∧ |∑ i, f i * r i| ≤ 9 * u ∧
      (2 * eps ≤ f 0 ^ 2 + f 1 ^ 2 →
        r 2 = 0 ∧ |r 0 - -f 1 / √(f 0 ^ 2 + f 1 ^ 2)| ≤ 9 * u ∧ |r 1 - f 0 / √(f 0 ^ 2 + f 1 ^ 2)| ≤ 9 * u) ∧
      c.up (CF.num eps) = (fun i => CF.num (w i)) ∧ |len w - 1| ≤ 6 * u ∧ |∑ i, f i * w i| ≤ 10 * u ∧ |∑ i, r i * w i| ≤ 10 * u ∧
      0 ≤ w 2 ∧
      c.target = (fun i => CF.num (t i)) ∧ c.distance = CF.num d ∧ c.position = (fun i => CF.num (p i)) ∧
      (∀ i, |p i - (t i - f i * d)| ≤ 3 * u * (|t i| + |d|)) ∧ Finite c := by
  have hu := hs.pos
  have hle := hs.le
  have start_held : Held u start := by
    refine ⟨hfin, ⟨⟨1⟩, ⟨0⟩, ⟨0⟩, ⟨0⟩⟩, hid, ?_⟩
    unfold NearUnit qlen qval
    norm_num
    exact hu.le
  have h := held_foldl hs hl he h0 h1 ops start_held
  rw [← hc] at h
  obtain ⟨q, hq, nq⟩ := h.unit
  obtain ⟨f, ef, lf, df⟩ := forward_step (lib := lib) hs nq
  have ef' : c.forward = embV f := by
    unfold Cam.forward
    rw [hq, ef]
  obtain ⟨r, er, hr⟩ := right_step (lib := lib) hs h0 h1 f lf
  have er' : c.right (CF.num eps) = embV r := by
    unfold Cam.right
    rw [ef', er]
  obtain ⟨w, ew, hw⟩ := up_step hs h1 c f r ef' er' lf hr.unit hr.orthogonal
  obtain ⟨t, et⟩ := h.finite.target
  obtain ⟨d, ed⟩ := h.finite.distance
  refine ⟨qval q, valV f, valV r, valV w, fun i => fl (t i - fl (valV f i * d)), t, d, hq, nq, ef', by linarith, df, er', by linarith [hr.unit],
    hr.orthogonal, hr.level, ew, hw.unit, hw.forward, hw.right, hw.upward, et, ed, ?_, fun i => ?_, h.finite⟩
  · funext i
    show c.target i - c.forward i * c.distance = _
    rw [et, ef', ed]
    show CF.num (t i) - CF.num (f i).val * CF.num d = _
    rw [cf_mul, cf_sub]
    rfl
  · have a1 := hs.acc (valV f i * d)
    have a2 := hs.acc (t i - fl (valV f i * d))
    have a3 : |valV f i| ≤ 101 / 100 := (Geom.abs_le_len _ i).trans (by linarith [(abs_le.1 lf).2])
    have a4 : |valV f i * d| ≤ 101 / 100 * |d| := by
      rw [abs_mul]
      exact mul_le_mul_of_nonneg_right a3 (abs_nonneg d)
    have a5 := mul_le_mul_of_nonneg_left a4 hu.le
    have a6 : u * |d| ≤ 1 / 1000000 * |d| := mul_le_mul_of_nonneg_right hle (abs_nonneg d)
    have a7 : |fl (valV f i * d)| ≤ 102 / 100 * |d| := by
      have := abs_sub_abs_le_abs_sub (fl (valV f i * d)) (valV f i * d)
      have := abs_nonneg d
      linarith
    have a8 : |t i - fl (valV f i * d)| ≤ |t i| + 102 / 100 * |d| := (abs_sub _ _).trans (by linarith)
    have a9 := mul_le_mul_of_nonneg_left a8 hu.le
    have a10 := abs_sub (fl (t i - fl (valV f i * d)) - (t i - fl (valV f i * d))) (fl (valV f i * d) - valV f i * d)
    rw [show fl (t i - fl (valV f i * d)) - (t i - fl (valV f i * d)) - (fl (valV f i * d) - valV f i * d) =
      fl (t i - fl (valV f i * d)) - (t i - valV f i * d) by ring] at a10
    have a11 : 0 ≤ u * |t i| := mul_nonneg hu.le (abs_nonneg _)
    have a12 : 0 ≤ u * |d| := mul_nonneg hu.le (abs_nonneg _)
    refine a10.trans ?_
    linarith

/-- The default camera: the identity, with finite fields (`orbit_camera.rs:31-46`). -/
def defaultCam (fl : ℝ → ℝ) (lib : Libm) (sens pan zoom far : ℝ) : Cam (CF fl lib) where
  target := fun _ => CF.num 0
  distance := CF.num 0
  yaw := CF.num 0
  pitch := CF.num 0
  orientation := quatOf ⟨1, 0, 0, 0⟩
  minDist := CF.num 0
  maxDist := CF.num far
  orbitSens := CF.num sens
  panSens := CF.num pan
  zoomSens := CF.num zoom

theorem defaultCam_finite (fl : ℝ → ℝ) (lib : Libm) (sens pan zoom far : ℝ) : Finite (defaultCam fl lib sens pan zoom far) :=
  ⟨⟨_, rfl⟩, ⟨_, rfl⟩, ⟨_, rfl⟩, ⟨_, rfl⟩, ⟨_, rfl⟩⟩

/-- In `f64`, with exact sine and cosine: two angles, a world turn and a thousand drags. -/
example : ∃ w : Fin 3 → ℝ,
    (((CamOp.setAngles 1 (1 / 2) :: CamOp.orbitWorldAngles 2 3 :: List.replicate 1000 (CamOp.orbitPixels 17 (-5)) : List (CamOp (rnd 53) exactLib)).foldl
      (CamOp.run (1 / 10 ^ 16)) (defaultCam (rnd 53) exactLib (1 / 100) (5 / 4) (11 / 10) 2000)).up (CF.num (1 / 10 ^ 16))) =
      (fun i => CF.num (w i)) ∧ |len w - 1| ≤ 6 * 2 ^ (-53 : ℤ) ∧ 0 ≤ w 2 := by
  obtain ⟨q, f, r, w, p, t, d, -, -, -, -, -, -, -, -, -, h1, h2, -, -, h3, -⟩ :=
    C201_camera (nearest_small (p := 53) (by norm_num) (rnd_nearest (by norm_num))) (exactLib_near le_rfl) (by norm_num) (eps := 1 / 10 ^ 16) (by norm_num)
      (by norm_num) (defaultCam (rnd 53) exactLib (1 / 100) (5 / 4) (11 / 10) 2000) rfl (defaultCam_finite _ _ _ _ _ _)
      (CamOp.setAngles 1 (1 / 2) :: CamOp.orbitWorldAngles 2 3 :: List.replicate 1000 (CamOp.orbitPixels 17 (-5))) _ rfl
  exact ⟨w, h1, h2, h3⟩

/-! ## Agreement with the model over the reals -/

/-- The same camera in the model of the graphics crate. -/
def toCamera (c : Cam ℝ) : Graphics.Camera :=
  ⟨c.target, c.distance, c.yaw, c.pitch, c.orientation, c.minDist, c.maxDist, c.orbitSens, c.panSens, c.zoomSens⟩

theorem rightOf_agree (f : Fin 3 → ℝ) : rightOf (1.0e-16 : ℝ) f = Graphics.rightOf f := by
  unfold rightOf Graphics.rightOf
  dsimp only
  show Geom.normalize (fns ℝ) (if Mat.cross ![0, 0, 1] f 0 * Mat.cross ![0, 0, 1] f 0 + Mat.cross ![0, 0, 1] f 1 * Mat.cross ![0, 0, 1] f 1 +
    Mat.cross ![0, 0, 1] f 2 * Mat.cross ![0, 0, 1] f 2 < (1.0e-16 : ℝ) then _ else _) = _
  split_ifs <;> rfl

theorem forward_agree (c : Cam ℝ) : c.forward = (toCamera c).forward := rfl

theorem right_agree (c : Cam ℝ) : c.right 1.0e-16 = (toCamera c).right := rightOf_agree _

theorem position_agree (c : Cam ℝ) : c.position = (toCamera c).position := rfl

theorem setAngles_agree (c : Cam ℝ) (y p : ℝ) : toCamera (c.setAngles 1.0e-16 y p) = (toCamera c).setAngles y p := by
  unfold Cam.setAngles Graphics.Camera.setAngles
  dsimp only
  rw [rightOf_agree]
  rfl

theorem smin_smax_real (x : ℝ) : smin (smax x (-1)) 1 = min (max x (-1)) (1 : ℝ) := by
  have h : smax x (-1) = max x (-1) := by
    unfold smax
    show (if x < -1 then (-1 : ℝ) else if x = x then x else -1) = _
    split_ifs with h1 h2
    · rw [max_eq_right h1.le]
    · rw [max_eq_left (not_lt.1 h1)]
    · exact absurd rfl h2
  rw [h]
  unfold smin
  show (if 1 < max x (-1) then (1 : ℝ) else if max x (-1) = max x (-1) then max x (-1) else 1) = _
  split_ifs with h1 h2
  · rw [min_eq_right h1.le]
  · rw [min_eq_left (not_lt.1 h1)]
  · exact absurd rfl h2

theorem refresh_agree (c : Cam ℝ) : toCamera c.refresh = (toCamera c).refresh := by
  have := smin_smax_real (c.forward 2)
  unfold Cam.refresh Graphics.Camera.refresh
  dsimp only
  rw [this]
  rfl

theorem orbitAngles_agree (c : Cam ℝ) (y p : ℝ) : toCamera (c.orbitAngles 1.0e-16 y p) = (toCamera c).orbitAngles y p := by
  unfold Cam.orbitAngles Graphics.Camera.orbitAngles
  dsimp only
  rw [refresh_agree, rightOf_agree]
  rfl

theorem orbitWorldAngles_agree (c : Cam ℝ) (y p : ℝ) : toCamera (c.orbitWorldAngles y p) = (toCamera c).orbitWorldAngles y p := by
  unfold Cam.orbitWorldAngles Graphics.Camera.orbitWorldAngles
  dsimp only
  rw [refresh_agree]
  rfl

theorem up_agree (c : Cam ℝ) : c.up 1.0e-16 = (toCamera c).up := by
  unfold Cam.up Graphics.Camera.up
  dsimp only
  rw [right_agree, forward_agree]
  congr 1

end Verif.Float
