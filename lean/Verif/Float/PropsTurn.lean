import Verif.Float.Turn
import Verif.Float.Eval
import Verif.Float.Rel
import Verif.Float.PropsCoord
import Verif.Mat.PropsAlg

/-!
# C196: positions between inertial and rotating axes in floating point
-/

namespace Verif.Float

open Verif.Mat (Mat)
open Verif.Att (Quat dcmApply)
open Verif.Simd (Accurate)

variable {fl : ℝ → ℝ} {lib : Libm} {u e : ℝ}

/-- The coordinates of a point in axes that are turned by the angle `θ` about the third axis. -/
noncomputable def turned (θ : ℝ) (r : Fin 3 → ℝ) : Fin 3 → ℝ :=
  ![Real.cos θ * r 0 + Real.sin θ * r 1, -Real.sin θ * r 0 + Real.cos θ * r 1, r 2]

/-- The three stored coordinates are numbers, `v`, and differ from `s` by at most `α` times the distances of `r` in
the plane of the rotation, and `β` times its height. -/
def Turns (α β : ℝ) (out : Fin 3 → CF fl lib) (v s r : Fin 3 → ℝ) : Prop :=
  out = (fun i => CF.num (v i)) ∧ |v 0 - s 0| ≤ α * (|r 0| + |r 1|) ∧ |v 1 - s 1| ≤ α * (|r 0| + |r 1|) ∧
    |v 2 - s 2| ≤ β * |r 2|

/-- Adding one rounded product to a rounded sum. -/
theorem turn_add (h : Accurate fl u) (hu : 0 ≤ u) {α s S A t T : ℝ} (hα : u ≤ α) (hs : |s - S| ≤ α * A) (hS : |S| ≤ A)
    (ht : |t - T| ≤ u * |T|) :
    |fl (s + t) - (S + T)| ≤ (α + u * (1 + α)) * (A + |T|) ∧ |S + T| ≤ A + |T| := by
  have hA : 0 ≤ A := (abs_nonneg S).trans hS
  have hT := abs_nonneg T
  have h1 := h (s + t)
  have h2 : |S + T| ≤ A + |T| := (abs_add_le S T).trans (by linarith)
  have h3 : |(s + t) - (S + T)| ≤ α * (A + |T|) := by
    have e1 : (s + t) - (S + T) = (s - S) + (t - T) := by ring
    have := mul_le_mul_of_nonneg_right hα hT
    rw [e1]
    exact (abs_add_le _ _).trans (by linarith)
  have h4 : |s + t| ≤ (1 + α) * (A + |T|) := by
    have e1 : s + t = ((s + t) - (S + T)) + (S + T) := by ring
    rw [e1]
    exact (abs_add_le _ _).trans (by linarith)
  have h5 := mul_le_mul_of_nonneg_left h4 hu
  refine ⟨?_, h2⟩
  have e1 : fl (s + t) - (S + T) = (fl (s + t) - (s + t)) + ((s + t) - (S + T)) := by ring
  rw [e1]
  exact (abs_add_le _ _).trans (by linarith)

/-- One row of a matrix times a vector. -/
theorem row_err (h : Small fl u) (a b c x y z : ℝ) :
    |fl (fl (fl (0 + fl (a * x)) + fl (b * y)) + fl (c * z)) - (a * x + b * y + c * z)| ≤
      5 * u * (|a * x| + |b * y| + |c * z|) := by
  have hu := h.pos.le
  have hl := h.le
  obtain ⟨s1, t1⟩ := turn_add (A := 0) (s := 0) (S := 0) h.acc hu le_rfl (by simp) (by simp) (h.acc (a * x))
  have uu : u * u ≤ u * (1 / 1000000) := mul_le_mul_of_nonneg_left hl hu
  have u0 : 0 ≤ u * u := mul_nonneg hu hu
  obtain ⟨s2, t2⟩ := turn_add h.acc hu (by nlinarith) s1 t1 (h.acc (b * y))
  obtain ⟨s3, -⟩ := turn_add h.acc hu (by nlinarith) s2 t2 (h.acc (c * z))
  simp only [zero_add] at s3 ⊢
  refine s3.trans (mul_le_mul_of_nonneg_right ?_ (by positivity))
  nlinarith [mul_nonneg hu u0, mul_le_mul_of_nonneg_left uu hu]

/-- A matrix of numbers applied to a vector of numbers. -/
theorem apply_num (a : Fin 3 → Fin 3 → ℝ) (r : Fin 3 → ℝ) :
    dcmApply (fun i j => (CF.num (a i j) : CF fl lib)) (fun i => CF.num (r i)) =
      fun i => CF.num (fl (fl (fl (0 + fl (a i 0 * r 0)) + fl (a i 1 * r 1)) + fl (a i 2 * r 2))) := by
  funext i
  unfold dcmApply
  rw [Mat.C22_mulVec_entry]
  simp only [List.finRange_succ, List.finRange_zero, List.map_nil, List.map_cons, List.foldl_cons, List.foldl_nil,
    cf_zero, cf_mul, cf_add]
  rfl

/-- One row in the plane of the rotation. -/
theorem plane_row (h : Small fl u) {δ a b A B : ℝ} (a1 : |a| ≤ 6 / 5) (b1 : |b| ≤ 6 / 5)
    (ha : |a - A| ≤ δ) (hb : |b - B| ≤ δ) (x y z : ℝ) :
    |fl (fl (fl (0 + fl (a * x)) + fl (b * y)) + fl (0 * z)) - (A * x + B * y)| ≤ (δ + 6 * u) * (|x| + |y|) := by
  have h1 := row_err h a b 0 x y z
  have hx := abs_nonneg x
  have hy := abs_nonneg y
  have e1 : |a * x| ≤ 6 / 5 * |x| := by rw [abs_mul]; exact mul_le_mul_of_nonneg_right a1 hx
  have e2 : |b * y| ≤ 6 / 5 * |y| := by rw [abs_mul]; exact mul_le_mul_of_nonneg_right b1 hy
  have e3 : |(a - A) * x| ≤ δ * |x| := by rw [abs_mul]; exact mul_le_mul_of_nonneg_right ha hx
  have e4 : |(b - B) * y| ≤ δ * |y| := by rw [abs_mul]; exact mul_le_mul_of_nonneg_right hb hy
  rw [zero_mul, abs_zero, add_zero, add_zero] at h1
  rw [zero_mul]
  have h2 : 5 * u * (|a * x| + |b * y|) ≤ 5 * u * (6 / 5 * |x| + 6 / 5 * |y|) :=
    mul_le_mul_of_nonneg_left (by linarith) (by linarith [h.pos])
  generalize fl (fl (fl (0 + fl (a * x)) + fl (b * y)) + fl 0) = g at h1 ⊢
  have e5 : g - (A * x + B * y) = (g - (a * x + b * y)) + ((a - A) * x + (b - B) * y) := by ring
  rw [e5]
  refine (abs_add_le _ _).trans ?_
  have := abs_add_le ((a - A) * x) ((b - B) * y)
  linarith

/-- The product with a matrix whose entries are near the cosine and the sine of an angle. -/
theorem turn_err (h : Small fl u) {φ δ c s n : ℝ} (c1 : |c| ≤ 6 / 5) (s1 : |s| ≤ 6 / 5) (n1 : |n| ≤ 6 / 5)
    (hc : |c - Real.cos φ| ≤ δ) (hs : |s - Real.sin φ| ≤ δ) (hn : |n - -Real.sin φ| ≤ δ) (r : Fin 3 → ℝ) :
    ∃ v, Turns (δ + 6 * u) (5 * u)
      (dcmApply ![![CF.num c, CF.num s, 0], ![CF.num n, CF.num c, 0], ![0, 0, (1 : CF fl lib)]]
        fun i => CF.num (r i)) v (turned φ r) r := by
  have hm : (![![CF.num c, CF.num s, 0], ![CF.num n, CF.num c, 0], ![0, 0, (1 : CF fl lib)]] : Mat (CF fl lib) 3 3) =
      fun i j => CF.num ((![![c, s, 0], ![n, c, 0], ![0, 0, 1]] : Fin 3 → Fin 3 → ℝ) i j) := by
    funext i j
    fin_cases i <;> fin_cases j <;> rfl
  rw [hm, apply_num]
  refine ⟨_, rfl, plane_row h c1 s1 hc hs (r 0) (r 1) (r 2), plane_row h n1 c1 hn hc (r 0) (r 1) (r 2), ?_⟩
  have h1 := row_err h 0 0 1 (r 0) (r 1) (r 2)
  simp only [zero_mul, one_mul, abs_zero, zero_add] at h1
  show |fl (fl (fl (0 + fl (0 * r 0)) + fl (0 * r 1)) + fl (1 * r 2)) - r 2| ≤ _
  simp only [zero_mul, one_mul, zero_add]
  exact h1

/-- The library functions near one. -/
theorem lib_le (hl : LibNear lib e) (he : e ≤ 1 / 5) (x : ℝ) : |lib.cos x| ≤ 6 / 5 ∧ |lib.sin x| ≤ 6 / 5 := by
  constructor
  · have h1 := hl.cos x
    have h2 := Real.abs_cos_le_one x
    have := abs_sub_abs_le_abs_sub (lib.cos x) (Real.cos x)
    linarith
  · have h1 := hl.sin x
    have h2 := Real.abs_sin_le_one x
    have := abs_sub_abs_le_abs_sub (lib.sin x) (Real.sin x)
    linarith

/-- The library functions at a rounded angle. -/
theorem lib_near (hl : LibNear lib e) {a b d : ℝ} (hd : |a - b| ≤ d) :
    |lib.cos a - Real.cos b| ≤ d + e ∧ |lib.sin a - Real.sin b| ≤ d + e := by
  constructor
  · have h1 := hl.cos a
    have h2 := Real.abs_cos_sub_cos_le a b
    have := abs_sub_le (lib.cos a) (Real.cos a) (Real.cos b)
    linarith
  · have h1 := hl.sin a
    have h2 := Real.abs_sin_sub_sin_le a b
    have := abs_sub_le (lib.sin a) (Real.sin a) (Real.sin b)
    linarith

/-- The matrix to the Earth-fixed axes. -/
theorem itrf_num (t : ℝ) (w : Fin 3 → ℝ) :
    icrfToItrf (CF.num t : CF fl lib) (fun i => CF.num (w i)) =
      ![![CF.num (lib.cos (fl (w 2 * t))), CF.num (lib.sin (fl (w 2 * t))), 0],
        ![CF.num (lib.sin (fl (-w 2 * t))), CF.num (lib.cos (fl (w 2 * t))), 0], ![0, 0, 1]] ∧
    itrfToIcrf (CF.num t : CF fl lib) (fun i => CF.num (w i)) =
      ![![CF.num (lib.cos (fl (w 2 * t))), CF.num (lib.sin (fl (-w 2 * t))), 0],
        ![CF.num (lib.sin (fl (w 2 * t))), CF.num (lib.cos (fl (w 2 * t))), 0], ![0, 0, 1]] := by
  unfold icrfToItrf itrfToIcrf
  simp only [cf_neg, cf_mul, cf_cos, cf_sin]
  exact ⟨trivial, trivial⟩

/-- The matrices of the Moon. -/
theorem ltrf_num (ω t : ℝ) :
    lirfToLtrf (CF.num ω : CF fl lib) (CF.num t) =
      ![![CF.num (lib.cos (fl (ω * t))), CF.num (lib.sin (fl (ω * t))), 0],
        ![CF.num (-lib.sin (fl (ω * t))), CF.num (lib.cos (fl (ω * t))), 0], ![0, 0, 1]] ∧
    ltrfToLirf (CF.num ω : CF fl lib) (CF.num t) =
      ![![CF.num (lib.cos (fl (ω * t))), CF.num (-lib.sin (fl (ω * t))), 0],
        ![CF.num (lib.sin (fl (ω * t))), CF.num (lib.cos (fl (ω * t))), 0], ![0, 0, 1]] := by
  unfold lirfToLtrf ltrfToLirf
  simp only [cf_neg, cf_mul, cf_cos, cf_sin]
  exact ⟨trivial, trivial⟩

/-- The negated product. -/
theorem neg_angle (h : Small fl u) (w t : ℝ) : |fl (-w * t) - -(w * t)| ≤ u * |w * t| := by
  have := h.acc (-w * t)
  rw [show |-w * t| = |w * t| by rw [neg_mul, abs_neg]] at this
  rwa [show -(w * t) = -w * t by ring]

/-- Turning about the third axis does not lengthen a vector by more than a factor two in the sum of the sizes. -/
theorem turned_le (θ : ℝ) (r : Fin 3 → ℝ) :
    |turned θ r 0| ≤ |r 0| + |r 1| ∧ |turned θ r 1| ≤ |r 0| + |r 1| := by
  have c := Real.abs_cos_le_one θ
  have s := Real.abs_sin_le_one θ
  have h0 := abs_nonneg (r 0)
  have h1 := abs_nonneg (r 1)
  have key : ∀ a b : ℝ, |a| ≤ 1 → |b| ≤ 1 → |a * r 0 + b * r 1| ≤ |r 0| + |r 1| := by
    intro a b ha hb
    refine (abs_add_le _ _).trans ?_
    rw [abs_mul, abs_mul]
    have := mul_le_mul_of_nonneg_right ha h0
    have := mul_le_mul_of_nonneg_right hb h1
    linarith
  exact ⟨key _ _ c s, key _ _ (by rwa [abs_neg]) c⟩

theorem turned_back (θ : ℝ) (r : Fin 3 → ℝ) : turned (-θ) (turned θ r) = r := by
  have h := Real.sin_sq_add_cos_sq θ
  funext i
  fin_cases i
  · show Real.cos (-θ) * (Real.cos θ * r 0 + Real.sin θ * r 1) +
      Real.sin (-θ) * (-Real.sin θ * r 0 + Real.cos θ * r 1) = r 0
    rw [Real.cos_neg, Real.sin_neg]
    linear_combination r 0 * h
  · show -Real.sin (-θ) * (Real.cos θ * r 0 + Real.sin θ * r 1) +
      Real.cos (-θ) * (-Real.sin θ * r 0 + Real.cos θ * r 1) = r 1
    rw [Real.cos_neg, Real.sin_neg]
    linear_combination r 1 * h
  · rfl

theorem turned_sub (θ : ℝ) (a b : Fin 3 → ℝ) : turned θ (fun i => a i - b i) = fun i => turned θ a i - turned θ b i := by
  funext i
  fin_cases i
  · show Real.cos θ * (a 0 - b 0) + Real.sin θ * (a 1 - b 1) =
      (Real.cos θ * a 0 + Real.sin θ * a 1) - (Real.cos θ * b 0 + Real.sin θ * b 1)
    ring
  · show -Real.sin θ * (a 0 - b 0) + Real.cos θ * (a 1 - b 1) =
      (-Real.sin θ * a 0 + Real.cos θ * a 1) - (-Real.sin θ * b 0 + Real.cos θ * b 1)
    ring
  · rfl

/-- There and back with two errors. -/
theorem there_back {α β : ℝ} {θ : ℝ} (ha : 0 ≤ α) (hα : α ≤ 1 / 4) (hb : 0 ≤ β) (hβ : β ≤ 1 / 4) {m m' : Mat (CF fl lib) 3 3}
    {r v : Fin 3 → ℝ}
    (h1 : Turns α β (dcmApply m fun i => CF.num (r i)) v (turned θ r) r)
    (h2 : ∀ r, ∃ v, Turns α β (dcmApply m' fun i => CF.num (r i)) v (turned (-θ) r) r) :
    ∃ v', Turns (5 * α) (3 * β) (dcmApply m' (dcmApply m fun i => CF.num (r i))) v' r r := by
  obtain ⟨o1, a0, a1, a2⟩ := h1
  obtain ⟨v', o2, b0, b1, b2⟩ := h2 v
  rw [o1]
  obtain ⟨l0, l1⟩ := turned_le θ r
  have hr : 0 ≤ |r 0| + |r 1| := by positivity
  have hr2 := abs_nonneg (r 2)
  have d : (fun i => turned (-θ) v i - r i) = turned (-θ) fun i => v i - turned θ r i := by
    rw [turned_sub, turned_back]
  obtain ⟨k0, k1⟩ := turned_le (-θ) fun i => v i - turned θ r i
  rw [← d] at k0 k1
  have v0 : |v 0| ≤ (1 + α) * (|r 0| + |r 1|) := by
    have := abs_sub_abs_le_abs_sub (v 0) (turned θ r 0); linarith
  have v1 : |v 1| ≤ (1 + α) * (|r 0| + |r 1|) := by
    have := abs_sub_abs_le_abs_sub (v 1) (turned θ r 1); linarith
  have v2 : |v 2| ≤ (1 + β) * |r 2| := by
    have := abs_sub_abs_le_abs_sub (v 2) (turned θ r 2)
    have e : turned θ r 2 = r 2 := rfl
    rw [e] at this a2
    linarith
  have w : α * (|v 0| + |v 1|) ≤ α * (5 / 2 * (|r 0| + |r 1|)) := by
    refine mul_le_mul_of_nonneg_left ?_ ha
    have := mul_le_mul_of_nonneg_right hα hr
    linarith
  have w2 : β * |v 2| ≤ β * (5 / 4 * |r 2|) := by
    refine mul_le_mul_of_nonneg_left ?_ hb
    have := mul_le_mul_of_nonneg_right hβ hr2
    linarith
  have p1 := mul_nonneg ha hr
  have p2 := mul_nonneg hb hr2
  refine ⟨v', o2, ?_, ?_, ?_⟩
  · have := abs_sub_le (v' 0) (turned (-θ) v 0) (r 0)
    linarith
  · have := abs_sub_le (v' 1) (turned (-θ) v 1) (r 1)
    linarith
  · have := abs_sub_le (v' 2) (turned (-θ) v 2) (r 2)
    have e1 : turned (-θ) v 2 = v 2 := rfl
    have e2 : turned θ r 2 = r 2 := rfl
    rw [e1] at this b2
    rw [e2] at a2
    linarith

variable (h : Small fl u) (hl : LibNear lib e) (he : e ≤ 1 / 5)
include h hl he

/-- **C196**: a position turned between the inertial and the Earth-fixed axes in floating point. In the plane of the
equator it is off by at most `e` (the error of sine and cosine), six roundings, and one rounding of the whole angle
turned since time zero; along the axis by at most five roundings. -/
theorem C196_earth (t : ℝ) (w r : Fin 3 → ℝ) :
    (∃ v, Turns (u * |w 2 * t| + e + 6 * u) (5 * u)
      (dcmApply (icrfToItrf (CF.num t : CF fl lib) fun i => CF.num (w i)) fun i => CF.num (r i)) v
      (turned (w 2 * t) r) r) ∧
    ∃ v, Turns (u * |w 2 * t| + e + 6 * u) (5 * u)
      (dcmApply (itrfToIcrf (CF.num t : CF fl lib) fun i => CF.num (w i)) fun i => CF.num (r i)) v
      (turned (-(w 2 * t)) r) r := by
  obtain ⟨m1, m2⟩ := itrf_num (fl := fl) (lib := lib) t w
  rw [m1, m2]
  obtain ⟨c1, s1⟩ := lib_near hl (h.acc (w 2 * t))
  obtain ⟨c2, s2⟩ := lib_near hl (neg_angle h (w 2) t)
  have n1 := (lib_le hl he (fl (w 2 * t)))
  have n2 := (lib_le hl he (fl (-w 2 * t)))
  refine ⟨turn_err h n1.1 n1.2 n2.2 c1 s1 (by rwa [Real.sin_neg] at s2) r,
    turn_err h n1.1 n2.2 n1.2 (by rwa [Real.cos_neg]) s2 (by rwa [Real.sin_neg, neg_neg]) r⟩

/-- **C196**: the same for the Moon. -/
theorem C196_moon (ω t : ℝ) (r : Fin 3 → ℝ) :
    (∃ v, Turns (u * |ω * t| + e + 6 * u) (5 * u)
      (dcmApply (lirfToLtrf (CF.num ω : CF fl lib) (CF.num t)) fun i => CF.num (r i)) v (turned (ω * t) r) r) ∧
    ∃ v, Turns (u * |ω * t| + e + 6 * u) (5 * u)
      (dcmApply (ltrfToLirf (CF.num ω : CF fl lib) (CF.num t)) fun i => CF.num (r i)) v
      (turned (-(ω * t)) r) r := by
  obtain ⟨m1, m2⟩ := ltrf_num (fl := fl) (lib := lib) ω t
  rw [m1, m2]
  obtain ⟨c1, s1⟩ := lib_near hl (h.acc (ω * t))
  have n1 := (lib_le hl he (fl (ω * t)))
  have s2 : |-lib.sin (fl (ω * t)) - -Real.sin (ω * t)| ≤ u * |ω * t| + e := by
    rw [← neg_sub', abs_neg]; exact s1
  exact ⟨turn_err h n1.1 n1.2 (by rw [abs_neg]; exact n1.2) c1 s1 s2 r,
    turn_err h n1.1 (by rw [abs_neg]; exact n1.2) n1.2 (by rwa [Real.cos_neg]) (by rwa [Real.sin_neg])
      (by rwa [Real.sin_neg, neg_neg]) r⟩

/-- **C196**: to the Earth-fixed axes and back at one time. The error does not depend on the time, however long: both
directions use the same rounded angle. Rounding must treat numbers of either sign alike, as IEEE rounding does. -/
theorem C196_earth_round_trip (odd : ∀ x, fl (-x) = -fl x) (t : ℝ) (w r : Fin 3 → ℝ) :
    ∃ v, Turns (5 * (e + 6 * u)) (15 * u)
      (dcmApply (itrfToIcrf (CF.num t : CF fl lib) fun i => CF.num (w i))
        (dcmApply (icrfToItrf (CF.num t : CF fl lib) fun i => CF.num (w i)) fun i => CF.num (r i))) v r r := by
  obtain ⟨m1, m2⟩ := itrf_num (fl := fl) (lib := lib) t w
  have hu := h.pos
  have hle := h.le
  have h0 : 0 ≤ e := (abs_nonneg _).trans (hl.sin 0)
  have ho : fl (-w 2 * t) = -fl (w 2 * t) := by rw [neg_mul, odd]
  generalize fl (w 2 * t) = θ at m1 m2 ho
  rw [ho] at m1 m2
  rw [m1, m2]
  have z : |θ - θ| ≤ 0 := by simp
  have z' : |-θ - -θ| ≤ 0 := by simp
  obtain ⟨c1, s1⟩ := lib_near hl z
  obtain ⟨c2, s2⟩ := lib_near hl z'
  rw [zero_add] at c1 s1 c2 s2
  have n1 := (lib_le hl he θ)
  have n2 := (lib_le hl he (-θ))
  obtain ⟨v, hv⟩ := turn_err (fl := fl) (lib := lib) h n1.1 n1.2 n2.2 c1 s1 (by rwa [Real.sin_neg] at s2) r
  obtain ⟨v', hv'⟩ := there_back (by linarith) (by linarith) (by linarith) (by linarith) hv
    (fun r => turn_err (fl := fl) (lib := lib) h n1.1 n2.2 n1.2 (by rwa [Real.cos_neg]) s2
      (by rwa [Real.sin_neg, neg_neg]) r)
  exact ⟨v', by rwa [show 15 * u = 3 * (5 * u) by ring]⟩

/-- **C196**: to the Moon-fixed axes and back at one time. -/
theorem C196_moon_round_trip (ω t : ℝ) (r : Fin 3 → ℝ) :
    ∃ v, Turns (5 * (e + 6 * u)) (15 * u)
      (dcmApply (ltrfToLirf (CF.num ω : CF fl lib) (CF.num t))
        (dcmApply (lirfToLtrf (CF.num ω : CF fl lib) (CF.num t)) fun i => CF.num (r i))) v r r := by
  obtain ⟨m1, m2⟩ := ltrf_num (fl := fl) (lib := lib) ω t
  have hu := h.pos
  have hle := h.le
  have h0 : 0 ≤ e := (abs_nonneg _).trans (hl.sin 0)
  generalize fl (ω * t) = θ at m1 m2
  rw [m1, m2]
  have z : |θ - θ| ≤ 0 := by simp
  obtain ⟨c1, s1⟩ := lib_near hl z
  rw [zero_add] at c1 s1
  have s2 : |-lib.sin θ - -Real.sin θ| ≤ e := by rw [← neg_sub', abs_neg]; exact s1
  have n1 := (lib_le hl he θ)
  obtain ⟨v, hv⟩ := turn_err (fl := fl) (lib := lib) h n1.1 n1.2 (by rw [abs_neg]; exact n1.2) c1 s1 s2 r
  obtain ⟨v', hv'⟩ := there_back (by linarith) (by linarith) (by linarith) (by linarith) hv
    (fun r => turn_err (fl := fl) (lib := lib) h n1.1 (by rw [abs_neg]; exact n1.2) n1.2 (by rwa [Real.cos_neg])
      (by rwa [Real.sin_neg]) (by rwa [Real.sin_neg, neg_neg]) r)
  exact ⟨v', by rwa [show 15 * u = 3 * (5 * u) by ring]⟩

omit he in
/-- **C196**: the orientation of the Earth-fixed axes at a time, as a quaternion. Its components are off by at most the
error of sine and cosine and four roundings of half the angle turned since the epoch. -/
theorem C196_orientation (ω epoch t : ℝ) :
    ∃ c s : ℝ, orientationAt (CF.num ω : CF fl lib) (CF.num (1 / 2)) (CF.num epoch) (CF.num t) =
        ⟨CF.num c, CF.num 0, CF.num 0, CF.num s⟩ ∧
      |c - Real.cos ((t - epoch) * ω / 2)| ≤ 4 * u * |(t - epoch) * ω / 2| + e ∧
      |s - Real.sin ((t - epoch) * ω / 2)| ≤ 4 * u * |(t - epoch) * ω / 2| + e := by
  unfold orientationAt
  simp only [cf_sub, cf_mul, cf_cos, cf_sin]
  refine ⟨_, _, rfl, ?_⟩
  have r1 := h.rel (t - epoch)
  have r2 := ((r1.mul h (by norm_num) (by norm_num) le_rfl (by norm_num) (Rel.refl u ω)).round h (by norm_num)
    (by norm_num))
  have r3 := ((r2.mul h (by norm_num) (by norm_num) le_rfl (by norm_num) (Rel.refl u (1 / 2))).round h (by norm_num)
    (by norm_num)).mono h (m := 4) (by norm_num)
  unfold Rel at r3
  rw [show (t - epoch) * ω * (1 / 2) = (t - epoch) * ω / 2 by ring] at r3
  exact lib_near hl r3

omit h hl he

/-- Rounding to nearest that treats both signs alike. -/
noncomputable def rndOdd (p : ℕ) (x : ℝ) : ℝ := if x < 0 then -rnd p (-x) else rnd p x

theorem rndOdd_odd (p : ℕ) (x : ℝ) : rndOdd p (-x) = -rndOdd p x := by
  have z : rnd p 0 = 0 := by unfold rnd; simp
  unfold rndOdd
  rcases lt_trichotomy x 0 with hx | hx | hx
  · rw [if_neg (by linarith), if_pos hx, neg_neg]
  · subst hx
    simp [z]
  · rw [if_pos (by linarith), if_neg (by linarith), neg_neg]

theorem rndOdd_nearest {p : ℕ} (hp : 1 ≤ p) : Nearest p (rndOdd p) := by
  intro x
  unfold rndOdd
  split_ifs with hx
  · obtain ⟨h1, h2⟩ := rnd_nearest hp (-x)
    refine ⟨h1.neg, fun y hy => ?_⟩
    have := h2 (-y) hy.neg
    rw [show -rnd p (-x) - x = -(rnd p (-x) - -x) by ring, abs_neg]
    rwa [show -y - -x = -(y - x) by ring, abs_neg] at this
  · exact rnd_nearest hp x

/-- The hypotheses of `C196_earth_round_trip`: double precision with a library that is exact. -/
example : Small (rndOdd 53) (2 ^ (-53 : ℤ)) ∧ LibNear exactLib (2 ^ (-50 : ℤ)) ∧ (2 : ℝ) ^ (-50 : ℤ) ≤ 1 / 5 ∧
    ∀ x, rndOdd 53 (-x) = -rndOdd 53 x :=
  ⟨nearest_small (by norm_num) (rndOdd_nearest (by norm_num)), exactLib_near (by positivity), by norm_num, rndOdd_odd 53⟩

/-- **C197** (double precision): positions up to 200 000 km from the axis and from the equator, turned to the
Earth-fixed axes at any time within three centuries of the epoch, are correct to three centimetres. The rate may be
any up to 0.0001 radians per second. -/
theorem C197_double_partial (hn : Nearest 53 fl) (hl : LibNear lib (2 ^ (-50 : ℤ))) (t : ℝ) (w r : Fin 3 → ℝ)
    (ht : |t| ≤ 10 ^ 10) (hw : |w 2| ≤ 1 / 10000) (hr : |r 0| + |r 1| ≤ 2 * 10 ^ 8) (hz : |r 2| ≤ 2 * 10 ^ 8) :
    ∃ v : Fin 3 → ℝ, dcmApply (icrfToItrf (CF.num t : CF fl lib) fun i => CF.num (w i)) (fun i => CF.num (r i)) =
        (fun i => CF.num (v i)) ∧ ∀ i, |v i - turned (w 2 * t) r i| ≤ 3 / 100 := by
  have h := nearest_small (by norm_num) hn
  obtain ⟨⟨v, o, a0, a1, a2⟩, -⟩ := C196_earth h hl (by norm_num) t w r
  have hθ : |w 2 * t| ≤ 10 ^ 6 := by
    rw [abs_mul]
    have := mul_le_mul hw ht (abs_nonneg _) (by norm_num)
    norm_num at this ⊢
    linarith
  have hα : (2 : ℝ) ^ (-(53 : ℕ) : ℤ) * |w 2 * t| + 2 ^ (-50 : ℤ) + 6 * 2 ^ (-(53 : ℕ) : ℤ) ≤ 15 / 10 ^ 11 := by
    have := mul_le_mul_of_nonneg_left hθ (show (0 : ℝ) ≤ 2 ^ (-(53 : ℕ) : ℤ) by positivity)
    norm_num at this ⊢
    linarith
  have hb : ((2 : ℝ) ^ (-(53 : ℕ) : ℤ) * |w 2 * t| + 2 ^ (-50 : ℤ) + 6 * 2 ^ (-(53 : ℕ) : ℤ)) * (|r 0| + |r 1|) ≤
      3 / 100 :=
    (mul_le_mul hα hr (by positivity) (by norm_num)).trans (by norm_num)
  have hc : 5 * (2 : ℝ) ^ (-(53 : ℕ) : ℤ) * |r 2| ≤ 3 / 100 :=
    (mul_le_mul_of_nonneg_left hz (by positivity)).trans (by norm_num)
  refine ⟨v, o, fun i => ?_⟩
  fin_cases i
  · exact a0.trans hb
  · exact a1.trans hb
  · exact a2.trans hc

/-- The hypotheses of `C197_double_partial`: a geostationary satellite in the year 2026 of Unix time. -/
example : |(1800000000 : ℝ)| ≤ 10 ^ 10 ∧ |(![0, 0, 7.2921150e-5] : Fin 3 → ℝ) 2| ≤ 1 / 10000 ∧
    |(42164000 : ℝ)| + |(0 : ℝ)| ≤ 2 * 10 ^ 8 := by
  refine ⟨by norm_num, ?_, by norm_num⟩
  show |(7.2921150e-5 : ℝ)| ≤ _
  rw [abs_of_pos (by norm_num)]
  norm_num

/-- The Earth rate in single precision: the number nearest to 7.2921150e-5. -/
noncomputable def rate32 : ℝ := 10022207 / 2 ^ 37

/-- It is the single-precision number nearest to the constant. -/
theorem rate32_nearest : IsFloat 24 rate32 ∧ |rate32 - 7.2921150e-5| ≤ 1 / 2 ^ 38 :=
  ⟨⟨10022207, -37, by norm_num, by unfold rate32; norm_num⟩, by unfold rate32; rw [abs_le]; norm_num⟩

/-- The angle turned by 7 January 2001, counted from 1970, falls between two single-precision numbers. -/
theorem angle_lost (hn : Nearest 24 fl) :
    39 / 10000 ≤ |fl (rate32 * 978875072) - rate32 * 978875072| ∧
      |fl (rate32 * 978875072) - rate32 * 978875072| ≤ 43 / 10000 := by
  constructor
  · by_contra hc
    push Not at hc
    obtain ⟨⟨m, k, hm, hk⟩, -⟩ := hn (rate32 * 978875072)
    obtain ⟨l1, l2⟩ := abs_lt.1 hc
    have hm' : ((|m| : ℤ) : ℝ) < 2 ^ 24 := by exact_mod_cast hm
    have hx : rate32 * 978875072 * 128 = 9136729 + (1 / 2 - 704 / 2 ^ 30) := by unfold rate32; norm_num
    have hp : (0 : ℝ) < 2 ^ k := by positivity
    have big : (2 : ℝ) ^ (16 : ℤ) < (m : ℝ) * 2 ^ k := by
      rw [← hk]
      norm_num at hx ⊢
      linarith
    have hk7 : -8 < k := by
      have h1 : (m : ℝ) * 2 ^ k < 2 ^ (24 : ℤ) * 2 ^ k := by
        refine mul_lt_mul_of_pos_right ?_ hp
        have : (m : ℝ) ≤ ((|m| : ℤ) : ℝ) := by exact_mod_cast le_abs_self m
        exact_mod_cast this.trans_lt hm'
      have h2 := big.trans h1
      rw [← zpow_add₀ (by norm_num), zpow_lt_zpow_iff_right₀ (by norm_num)] at h2
      omega
    obtain ⟨j, hj⟩ : ∃ j : ℕ, k = (j : ℤ) - 7 := ⟨(k + 7).toNat, by omega⟩
    have hN : fl (rate32 * 978875072) * 128 = ((m * 2 ^ j : ℤ) : ℝ) := by
      rw [hk, hj, zpow_sub₀ (by norm_num)]
      push_cast
      norm_num
      ring
    have n1 : (9136729 : ℝ) < ((m * 2 ^ j : ℤ) : ℝ) := by
      rw [← hN]
      norm_num at hx ⊢
      linarith
    have n2 : ((m * 2 ^ j : ℤ) : ℝ) < 9136730 := by
      rw [← hN]
      norm_num at hx ⊢
      linarith
    have i1 : (9136729 : ℤ) < m * 2 ^ j := by exact_mod_cast n1
    have i2 : m * 2 ^ j < (9136730 : ℤ) := by exact_mod_cast n2
    omega
  · refine (hn.accurate (by norm_num) _).trans ?_
    unfold rate32
    rw [abs_of_pos (by norm_num)]
    norm_num

/-- Points of a circle at two angles. -/
theorem chord (a b : ℝ) :
    (Real.cos a - Real.cos b) ^ 2 + (Real.sin a - Real.sin b) ^ 2 = 4 * Real.sin (|a - b| / 2) ^ 2 := by
  have h1 := Real.cos_sub a b
  have h2 : Real.cos (a - b) = 1 - 2 * Real.sin (|a - b| / 2) ^ 2 := by
    rw [← Real.cos_abs (a - b), show |a - b| = 2 * (|a - b| / 2) by ring, Real.cos_two_mul']
    have := Real.sin_sq_add_cos_sq (|a - b| / 2)
    rw [show 2 * (|a - b| / 2) / 2 = |a - b| / 2 by ring]
    linarith
  have s1 := Real.sin_sq_add_cos_sq a
  have s2 := Real.sin_sq_add_cos_sq b
  linarith

/-- **C197**: in single precision it is not so. A point on the equator of the inertial axes, turned to the Earth-fixed
axes at 978875072 seconds (7 January 2001, counted from 1970), comes out more than seventeen kilometres away in one of
its coordinates. Rate, time and position are exact single-precision numbers, and sine and cosine may be exact: the
angle alone loses this. -/
theorem C197_single_fails (hn : Nearest 24 fl) (odd : ∀ x, fl (-x) = -fl x) (hl : LibNear lib (1 / 10 ^ 6)) :
    ∃ v : Fin 3 → ℝ,
      dcmApply (icrfToItrf (CF.num 978875072 : CF fl lib) fun i => CF.num ((![0, 0, rate32] : Fin 3 → ℝ) i))
        (fun i => CF.num ((![6378137, 0, 0] : Fin 3 → ℝ) i)) = (fun i => CF.num (v i)) ∧
      ∃ i, 17000 < |v i - turned (rate32 * 978875072) ![6378137, 0, 0] i| := by
  have h := nearest_small le_rfl hn
  obtain ⟨g1, g2⟩ := angle_lost hn
  obtain ⟨m1, -⟩ := itrf_num (fl := fl) (lib := lib) 978875072 ![0, 0, rate32]
  have ew : (![0, 0, rate32] : Fin 3 → ℝ) 2 = rate32 := rfl
  rw [ew] at m1
  rw [neg_mul, odd] at m1
  rw [m1]
  generalize rate32 * 978875072 = x at g1 g2 ⊢
  generalize fl x = θ at g1 g2 ⊢
  have z : |θ - θ| ≤ 0 := by simp
  have z' : |-θ - -θ| ≤ 0 := by simp
  obtain ⟨c1, s1⟩ := lib_near hl z
  obtain ⟨-, s2⟩ := lib_near hl z'
  rw [zero_add] at c1 s1 s2
  rw [Real.sin_neg] at s2
  have he : (1 : ℝ) / 10 ^ 6 ≤ 1 / 5 := by norm_num
  obtain ⟨v, o, a0, a1, -⟩ := turn_err (fl := fl) (lib := lib) h (lib_le hl he θ).1 (lib_le hl he θ).2
    (lib_le hl he (-θ)).2 c1 s1 s2 ![6378137, 0, 0]
  refine ⟨v, o, ?_⟩
  by_contra hc
  push Not at hc
  have b0 := hc 0
  have b1 := hc 1
  have e0 : ∀ φ, turned φ ![6378137, 0, 0] 0 = 6378137 * Real.cos φ := fun φ => by
    show Real.cos φ * 6378137 + Real.sin φ * 0 = _
    ring
  have e1 : ∀ φ, turned φ ![6378137, 0, 0] 1 = -(6378137 * Real.sin φ) := fun φ => by
    show -Real.sin φ * 6378137 + Real.cos φ * 0 = _
    ring
  have er : |(![6378137, 0, 0] : Fin 3 → ℝ) 0| + |(![6378137, 0, 0] : Fin 3 → ℝ) 1| = 6378137 := by
    show |(6378137 : ℝ)| + |(0 : ℝ)| = _
    norm_num
  rw [e0, er] at a0
  rw [e1, er] at a1
  rw [e0] at b0
  rw [e1] at b1
  have hα : (1 / 10 ^ 6 + 6 * (2 : ℝ) ^ (-(24 : ℕ) : ℤ)) * 6378137 ≤ 9 := by norm_num
  obtain ⟨p1, p2⟩ := abs_le.1 (a0.trans hα)
  obtain ⟨p3, p4⟩ := abs_le.1 (a1.trans hα)
  obtain ⟨q1, q2⟩ := abs_le.1 b0
  obtain ⟨q3, q4⟩ := abs_le.1 b1
  have d0 : |Real.cos θ - Real.cos x| ≤ 17009 / 6378137 := abs_le.2 ⟨by linarith, by linarith⟩
  have d1 : |Real.sin θ - Real.sin x| ≤ 17009 / 6378137 := abs_le.2 ⟨by linarith, by linarith⟩
  have hs : 19 / 10000 + 4 / 100000 ≤ Real.sin (|θ - x| / 2) := by
    have l := Real.sin_gt_sub_cube (x := |θ - x| / 2) (by linarith)
    have c3 : (|θ - x| / 2) ^ 3 ≤ (3 / 1000) ^ 3 := pow_le_pow_left₀ (by positivity) (by linarith) 3
    norm_num at c3 l ⊢
    linarith
  have hsq : ((19 : ℝ) / 10000 + 4 / 100000) ^ 2 ≤ Real.sin (|θ - x| / 2) ^ 2 := pow_le_pow_left₀ (by norm_num) hs 2
  have w0 : (Real.cos θ - Real.cos x) ^ 2 ≤ (17009 / 6378137) ^ 2 := sq_le_sq' (abs_le.1 d0).1 (abs_le.1 d0).2
  have w1 : (Real.sin θ - Real.sin x) ^ 2 ≤ (17009 / 6378137) ^ 2 := sq_le_sq' (abs_le.1 d1).1 (abs_le.1 d1).2
  have := chord θ x
  norm_num at w0 w1 hsq
  linarith

/-- The hypotheses of `C197_single_fails`. -/
example : Nearest 24 (rndOdd 24) ∧ (∀ x, rndOdd 24 (-x) = -rndOdd 24 x) ∧ LibNear exactLib (1 / 10 ^ 6) ∧
    IsFloat 24 978875072 ∧ IsFloat 24 6378137 :=
  ⟨rndOdd_nearest (by norm_num), rndOdd_odd 24, exactLib_near (by norm_num), ⟨15294923, 6, by norm_num, by norm_num⟩,
    ⟨6378137, 0, by norm_num, by norm_num⟩⟩

/-- Over the reals these are the matrices of `Verif/Frames/Model.lean`. -/
theorem turn_agree (time : ℝ) (w : Fin 3 → ℝ) (epoch t : ℝ) :
    icrfToItrf time w = Frames.icrfToItrf time w ∧ itrfToIcrf time w = Frames.itrfToIcrf time w ∧
      lirfToLtrf Frames.moonRate time = Frames.lirfToLtrf time ∧
      ltrfToLirf Frames.moonRate time = Frames.ltrfToLirf time ∧
      orientationAt Frames.earthRate (1 / 2) epoch t = Frames.orientationAt epoch t :=
  ⟨rfl, rfl, rfl, rfl, rfl⟩

end Verif.Float
