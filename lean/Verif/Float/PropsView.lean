import Verif.Float.View
import Verif.Float.PropsTurn
import Verif.Graphics.PropsView
import Mathlib.LinearAlgebra.CrossProduct

/-!
# C199: the view matrix in floating point
-/

namespace Verif.Float

open Verif.Mat (Mat)
open Verif.Simd (Accurate)

variable {fl : ℝ → ℝ} {lib : Libm} {u : ℝ}

theorem dot_num (a b : Fin 3 → ℝ) :
    Mat.dot (fun i => (CF.num (a i) : CF fl lib)) (fun i => CF.num (b i)) =
      CF.num (fl (fl (fl (0 + fl (a 0 * b 0)) + fl (a 1 * b 1)) + fl (a 2 * b 2))) := by
  rw [Mat.C22_dot]
  simp only [List.finRange_succ, List.finRange_zero, List.map_nil, List.map_cons, List.foldl_cons, List.foldl_nil,
    cf_zero, cf_mul, cf_add]
  rfl

theorem norm_num3 (a : Fin 3 → ℝ) (h : 0 ≤ fl (fl (fl (0 + fl (a 0 * a 0)) + fl (a 1 * a 1)) + fl (a 2 * a 2))) :
    Mat.norm Scalar.sqrt (fun i => (CF.num (a i) : CF fl lib)) =
      CF.num (fl √(fl (fl (fl (0 + fl (a 0 * a 0)) + fl (a 1 * a 1)) + fl (a 2 * a 2)))) := by
  have := dot_num (fl := fl) (lib := lib) a a
  unfold Mat.norm
  unfold Mat.dot at this
  rw [this, cf_sqrt h]

theorem cross_num (a b : Fin 3 → ℝ) :
    Mat.cross (fun i => (CF.num (a i) : CF fl lib)) (fun i => CF.num (b i)) = fun i => CF.num
      ((![fl (fl (a 1 * b 2) - fl (a 2 * b 1)), fl (fl (a 2 * b 0) - fl (a 0 * b 2)),
        fl (fl (a 0 * b 1) - fl (a 1 * b 0))] : Fin 3 → ℝ) i) := by
  funext i
  unfold Mat.cross
  simp only [cf_mul, cf_sub]
  fin_cases i <;> rfl

/-- The rounded sum of the squares of three coordinates. -/
theorem sum_sq_rel (hs : Small fl u) {v V : Fin 3 → ℝ} (hv : ∀ i, Rel u 1 (v i) (V i)) :
    Rel u (121 / 20) (fl (fl (fl (0 + fl (v 0 * v 0)) + fl (v 1 * v 1)) + fl (v 2 * v 2)))
      (V 0 * V 0 + V 1 * V 1 + V 2 * V 2) := by
  have sq : ∀ i, Rel u (302 / 100) (fl (v i * v i)) (V i * V i) := fun i =>
    (((hv i).mul hs (by norm_num) (by norm_num) (by norm_num) (by norm_num) (hv i)).round hs (by norm_num)
      (by norm_num)).mono hs (by norm_num)
  have p : ∀ i, 0 ≤ V i * V i := fun i => mul_self_nonneg _
  have s0 : Rel u (403 / 100) (fl (0 + fl (v 0 * v 0))) (V 0 * V 0) := by
    rw [zero_add]
    exact ((sq 0).round hs (by norm_num) (by norm_num)).mono hs (by norm_num)
  have s1 : Rel u (504 / 100) (fl (fl (0 + fl (v 0 * v 0)) + fl (v 1 * v 1))) (V 0 * V 0 + V 1 * V 1) :=
    ((s0.add ((sq 1).mono hs (by norm_num)) (p 0) (p 1)).round hs (by norm_num) (by norm_num)).mono hs (by norm_num)
  exact ((s1.add ((sq 2).mono hs (by norm_num)) (add_nonneg (p 0) (p 1)) (p 2)).round hs (by norm_num)
    (by norm_num)).mono hs (by norm_num)

/-- Dividing a vector by its length. -/
theorem unit_rel (hs : Small fl u) {v V : Fin 3 → ℝ} (hv : ∀ i, Rel u 1 (v i) (V i)) {n : ℝ} (hn : 0 < n)
    (hV : V 0 ^ 2 + V 1 ^ 2 + V 2 ^ 2 = n ^ 2) :
    ∃ q : Fin 3 → ℝ, unitOf (fun i => (CF.num (v i) : CF fl lib)) = (fun i => CF.num (q i)) ∧
      ∀ i, Rel u 10 (q i) (V i / n) := by
  have h1 := sum_sq_rel hs hv
  rw [show V 0 * V 0 + V 1 * V 1 + V 2 * V 2 = n ^ 2 by rw [← hV]; ring] at h1
  have p1 := h1.nonneg hs (by norm_num) (by norm_num) (sq_nonneg n)
  have h2 := ((h1.sqrt (sq_nonneg n) p1).round hs (by norm_num) (by norm_num))
  rw [Real.sqrt_sq hn.le] at h2
  have p2 := h2.pos hs (by norm_num) (by norm_num) hn
  refine ⟨fun i => fl (v i / fl √(fl (fl (fl (0 + fl (v 0 * v 0)) + fl (v 1 * v 1)) + fl (v 2 * v 2)))), ?_, fun i => ?_⟩
  · funext i
    unfold unitOf
    dsimp only
    rw [norm_num3 v p1, cf_div _ p2.ne']
  · exact (((hv i).div hs (by norm_num) (by norm_num) (by norm_num) (by norm_num) h2 hn.ne').round hs (by norm_num)
      (by norm_num)).mono hs (by norm_num)

/-- A rounded difference of two nearly exact products. -/
theorem diff_err (hs : Small fl u) {x y X Y κ : ℝ} (hκ : κ ≤ 1 / 10) (hx : |x - X| ≤ κ * |X|)
    (hy : |y - Y| ≤ κ * |Y|) : |fl (x - y) - (X - Y)| ≤ (κ + 11 / 10 * u) * (|X| + |Y|) := by
  have h1 := hs.acc (x - y)
  have h2 : |(x - y) - (X - Y)| ≤ κ * (|X| + |Y|) := by
    rw [show (x - y) - (X - Y) = (x - X) - (y - Y) by ring]
    exact (abs_sub _ _).trans (by linarith)
  have h3 : |x - y| ≤ 11 / 10 * (|X| + |Y|) := by
    rw [show x - y = ((x - y) - (X - Y)) + (X - Y) by ring]
    have h4 := abs_sub X Y
    have h5 := mul_le_mul_of_nonneg_right hκ (add_nonneg (abs_nonneg X) (abs_nonneg Y))
    exact (abs_add_le _ _).trans (by linarith)
  have h6 := mul_le_mul_of_nonneg_left h3 hs.pos.le
  rw [show fl (x - y) - (X - Y) = (fl (x - y) - (x - y)) + ((x - y) - (X - Y)) by ring]
  exact (abs_add_le _ _).trans (by linarith)

/-- One component of a cross product of a vector and a nearly exact one. -/
theorem cross_rel (hs : Small fl u) {x y X Y : ℝ} (hx : Rel u 10 x X) (hy : Rel u 10 y Y) (a b : ℝ) :
    |fl (fl (a * x) - fl (b * y)) - (a * X - b * Y)| ≤ 13 * u * (|a * X| + |b * Y|) := by
  have r1 : Rel u (1102 / 100) (fl (a * x)) (a * X) :=
    (((Rel.refl u a).mul hs (by norm_num) (by norm_num) (by norm_num) (by norm_num) hx).round hs (by norm_num)
      (by norm_num)).mono hs (by norm_num)
  have r2 : Rel u (1102 / 100) (fl (b * y)) (b * Y) :=
    (((Rel.refl u b).mul hs (by norm_num) (by norm_num) (by norm_num) (by norm_num) hy).round hs (by norm_num)
      (by norm_num)).mono hs (by norm_num)
  have hu := hs.pos
  have hl := hs.le
  refine (diff_err hs (by linarith) r1 r2).trans (mul_le_mul_of_nonneg_right ?_ (by positivity))
  linarith

/-- A coordinate is at most the length. -/
theorem coord_le {v : Fin 3 → ℝ} {n : ℝ} (hn : 0 ≤ n) (h : v 0 ^ 2 + v 1 ^ 2 + v 2 ^ 2 ≤ n ^ 2) (i : Fin 3) : |v i| ≤ n := by
  refine abs_le_of_sq_le_sq ?_ hn
  have h0 := sq_nonneg (v 0)
  have h1 := sq_nonneg (v 1)
  have h2 := sq_nonneg (v 2)
  match i with
  | 0 => linarith
  | 1 => linarith
  | 2 => linarith

/-- A vector near a multiple of a unit vector has about that length, and its direction is near. -/
theorem direction_err {c R : Fin 3 → ℝ} {k ε : ℝ} (hk : 0 < k) (hR : R 0 ^ 2 + R 1 ^ 2 + R 2 ^ 2 = 1)
    (hε : 0 ≤ ε) (hεk : 50 * ε ≤ k)
    (hc : (c 0 - k * R 0) ^ 2 + (c 1 - k * R 1) ^ 2 + (c 2 - k * R 2) ^ 2 ≤ ε ^ 2) :
    ∃ n, 0 < n ∧ c 0 ^ 2 + c 1 ^ 2 + c 2 ^ 2 = n ^ 2 ∧ ∀ i, |c i / n - R i| ≤ 21 / 10 * ε / k := by
  obtain ⟨d0, e0⟩ : ∃ d, c 0 - k * R 0 = d := ⟨_, rfl⟩
  obtain ⟨d1, e1⟩ : ∃ d, c 1 - k * R 1 = d := ⟨_, rfl⟩
  obtain ⟨d2, e2⟩ : ∃ d, c 2 - k * R 2 = d := ⟨_, rfl⟩
  rw [e0, e1, e2] at hc
  have c0 : c 0 = k * R 0 + d0 := by linarith
  have c1 : c 1 = k * R 1 + d1 := by linarith
  have c2 : c 2 = k * R 2 + d2 := by linarith
  have hq0 : 0 ≤ d0 ^ 2 + d1 ^ 2 + d2 ^ 2 := by positivity
  obtain ⟨q, hq, hq2⟩ : ∃ q, 0 ≤ q ∧ q ^ 2 = d0 ^ 2 + d1 ^ 2 + d2 ^ 2 := ⟨_, Real.sqrt_nonneg _, Real.sq_sqrt hq0⟩
  have hqε : q ≤ ε := abs_le_of_sq_le_sq' (by rw [hq2]; exact hc) hε |>.2
  obtain ⟨t, ht⟩ : ∃ t, t = R 0 * d0 + R 1 * d1 + R 2 * d2 := ⟨_, rfl⟩
  have hcs : t ^ 2 ≤ q ^ 2 := by
    have : q ^ 2 = (R 0 ^ 2 + R 1 ^ 2 + R 2 ^ 2) * (d0 ^ 2 + d1 ^ 2 + d2 ^ 2) := by rw [hR, one_mul, hq2]
    rw [this, ht]
    nlinarith [sq_nonneg (R 0 * d1 - R 1 * d0), sq_nonneg (R 0 * d2 - R 2 * d0), sq_nonneg (R 1 * d2 - R 2 * d1)]
  obtain ⟨t1, t2⟩ := abs_le_of_sq_le_sq' hcs hq
  have hsum : c 0 ^ 2 + c 1 ^ 2 + c 2 ^ 2 = k ^ 2 + 2 * k * t + q ^ 2 := by
    rw [c0, c1, c2, hq2, ht]
    linear_combination k ^ 2 * hR
  obtain ⟨n, hn, hn2⟩ : ∃ n, 0 ≤ n ∧ n ^ 2 = c 0 ^ 2 + c 1 ^ 2 + c 2 ^ 2 :=
    ⟨_, Real.sqrt_nonneg _, Real.sq_sqrt (by positivity)⟩
  have n1 : n ≤ k + q := by
    refine abs_le_of_sq_le_sq' ?_ (by linarith) |>.2
    rw [hn2, hsum]
    nlinarith
  have n2 : k - q ≤ n := by
    refine abs_le_of_sq_le_sq' ?_ hn |>.2
    rw [hn2, hsum]
    nlinarith
  have npos : 0 < n := by linarith
  refine ⟨n, npos, hn2.symm, fun i => ?_⟩
  have hRi : |R i| ≤ 1 := coord_le zero_le_one (by rw [hR, one_pow]) i
  have hdi : |c i - k * R i| ≤ q :=
    coord_le (v := fun i => c i - k * R i) hq (by rw [e0, e1, e2, hq2]) i
  rw [show c i / n - R i = ((c i - k * R i) + (k - n) * R i) / n by field_simp; ring, abs_div, abs_of_pos npos,
    div_le_div_iff₀ npos hk]
  have h1 : |(k - n) * R i| ≤ q := by
    rw [abs_mul]
    have : |k - n| ≤ q := by rw [abs_le]; constructor <;> linarith
    calc |k - n| * |R i| ≤ q * 1 := mul_le_mul this hRi (abs_nonneg _) hq
      _ = q := mul_one q
  have h2 : |(c i - k * R i) + (k - n) * R i| ≤ 2 * ε := (abs_add_le _ _).trans (by linarith)
  have h3 : 49 / 50 * k ≤ n := by linarith
  calc |(c i - k * R i) + (k - n) * R i| * k ≤ 2 * ε * k := mul_le_mul_of_nonneg_right h2 hk.le
    _ ≤ 21 / 10 * ε * n := by nlinarith [mul_le_mul_of_nonneg_left h3 hε]

/-- The product of one row and a point. -/
theorem column_err (h : Small fl u) {a A : Fin 3 → ℝ} {δ : ℝ} (ha : ∀ i, |a i - A i| ≤ δ) (h1 : ∀ i, |a i| ≤ 6 / 5)
    (x : Fin 3 → ℝ) :
    |fl (fl (fl (0 + fl (a 0 * x 0)) + fl (a 1 * x 1)) + fl (a 2 * x 2)) - (A 0 * x 0 + A 1 * x 1 + A 2 * x 2)| ≤
      (δ + 6 * u) * (|x 0| + |x 1| + |x 2|) := by
  have h2 := row_err h (a 0) (a 1) (a 2) (x 0) (x 1) (x 2)
  have e1 : ∀ i, |a i * x i| ≤ 6 / 5 * |x i| := fun i => by
    rw [abs_mul]; exact mul_le_mul_of_nonneg_right (h1 i) (abs_nonneg _)
  have e2 : ∀ i, |(a i - A i) * x i| ≤ δ * |x i| := fun i => by
    rw [abs_mul]; exact mul_le_mul_of_nonneg_right (ha i) (abs_nonneg _)
  have h3 : 5 * u * (|a 0 * x 0| + |a 1 * x 1| + |a 2 * x 2|) ≤
      5 * u * (6 / 5 * |x 0| + 6 / 5 * |x 1| + 6 / 5 * |x 2|) :=
    mul_le_mul_of_nonneg_left (by linarith [e1 0, e1 1, e1 2]) (by linarith [h.pos])
  generalize fl (fl (fl (0 + fl (a 0 * x 0)) + fl (a 1 * x 1)) + fl (a 2 * x 2)) = g at h2 ⊢
  rw [show g - (A 0 * x 0 + A 1 * x 1 + A 2 * x 2) = (g - (a 0 * x 0 + a 1 * x 1 + a 2 * x 2)) +
    ((a 0 - A 0) * x 0 + (a 1 - A 1) * x 1 + (a 2 - A 2) * x 2) by ring]
  refine (abs_add_le _ _).trans ?_
  have h4 := abs_add_three ((a 0 - A 0) * x 0) ((a 1 - A 1) * x 1) ((a 2 - A 2) * x 2)
  linarith [e2 0, e2 1, e2 2]

/-- One component of a cross product of two nearly exact unit vectors. -/
theorem upward_err (hs : Small fl u) {x y X Y r t R T η : ℝ} (hx : Rel u 10 x X) (hy : Rel u 10 y Y)
    (hr : |r - R| ≤ η) (ht : |t - T| ≤ η) (r1 : |r| ≤ 21 / 20) (t1 : |t| ≤ 21 / 20)
    (hXY : X ^ 2 + Y ^ 2 ≤ 1) :
    |fl (fl (x * r) - fl (y * t)) - (X * R - Y * T)| ≤ 3 / 2 * (η + 14 * u) := by
  have hu := hs.pos
  have hl := hs.le
  have key : ∀ {x X r R : ℝ}, Rel u 10 x X → |r - R| ≤ η → |r| ≤ 21 / 20 →
      |fl (x * r) - X * R| ≤ (η + 12 * u) * |X| ∧ |fl (x * r)| ≤ 11 / 10 * |X| := by
    intro x X r R hx hr r1
    have hX := abs_nonneg X
    unfold Float.Rel at hx
    have hxa : |x| ≤ (1 + 10 * u) * |X| := by
      have := abs_sub_abs_le_abs_sub x X
      linarith
    have hp : |x * r| ≤ (1 + 10 * u) * |X| * (21 / 20) := by
      rw [abs_mul]
      exact mul_le_mul hxa r1 (abs_nonneg _) (by positivity)
    have h0 := hs.acc (x * r)
    have hp' : |x * r| ≤ 106 / 100 * |X| := by
      refine hp.trans ?_
      rw [show (1 + 10 * u) * |X| * (21 / 20) = (1 + 10 * u) * (21 / 20) * |X| by ring]
      exact mul_le_mul_of_nonneg_right (by linarith) hX
    have hp'' := mul_le_mul_of_nonneg_left hp' hu.le
    have h1 : |(x - X) * r| ≤ 10 * u * |X| * (21 / 20) := by
      rw [abs_mul]
      exact mul_le_mul hx r1 (abs_nonneg _) (by positivity)
    have h2 : |X * (r - R)| ≤ |X| * η := by
      rw [abs_mul]
      exact mul_le_mul_of_nonneg_left hr hX
    have uX := mul_nonneg hu.le hX
    constructor
    · rw [show fl (x * r) - X * R = (fl (x * r) - x * r) + ((x - X) * r + X * (r - R)) by ring]
      refine (abs_add_le _ _).trans ?_
      have := abs_add_le ((x - X) * r) (X * (r - R))
      linarith
    · rw [show fl (x * r) = (fl (x * r) - x * r) + x * r by ring]
      refine (abs_add_le _ _).trans ?_
      have : u * |X| ≤ 1 / 1000000 * |X| := mul_le_mul_of_nonneg_right hl hX
      linarith
  obtain ⟨a1, a2⟩ := key hx hr r1
  obtain ⟨b1, b2⟩ := key hy ht t1
  have hη0 : 0 ≤ η := (abs_nonneg _).trans hr
  have hS : |X| + |Y| ≤ 3 / 2 := by
    have h1 := sq_abs X
    have h2 := sq_abs Y
    nlinarith [sq_nonneg (|X| - |Y|), sq_nonneg (|X| + |Y| - 3 / 2)]
  have h0 := hs.acc (fl (x * r) - fl (y * t))
  generalize fl (x * r) = P at *
  generalize fl (y * t) = Q at *
  have h3 : |P - Q| ≤ 11 / 10 * (|X| + |Y|) := (abs_sub P Q).trans (by linarith)
  have h4 := mul_le_mul_of_nonneg_left h3 hu.le
  have h5 : |(P - Q) - (X * R - Y * T)| ≤ (η + 12 * u) * (|X| + |Y|) := by
    rw [show (P - Q) - (X * R - Y * T) = (P - X * R) - (Q - Y * T) by ring]
    exact (abs_sub _ _).trans (by linarith)
  rw [show fl (P - Q) - (X * R - Y * T) = (fl (P - Q) - (P - Q)) + ((P - Q) - (X * R - Y * T)) by ring]
  refine (abs_add_le _ _).trans ?_
  have h6 : (η + 14 * u) * (|X| + |Y|) ≤ (η + 14 * u) * (3 / 2) := mul_le_mul_of_nonneg_left hS (by linarith)
  have h7 : 0 ≤ u * (|X| + |Y|) := by positivity
  linarith

/-- The part of the up direction across the line of sight is not longer than the up direction. -/
theorem across_le {up F R : Fin 3 → ℝ} {k : ℝ} (hF1 : F 0 ^ 2 + F 1 ^ 2 + F 2 ^ 2 = 1)
    (hR : ∀ i, Mat.cross up F i = k * R i) (hR1 : R 0 ^ 2 + R 1 ^ 2 + R 2 ^ 2 = 1) :
    k ≤ √(up 0 ^ 2 + up 1 ^ 2 + up 2 ^ 2) := by
  refine Real.le_sqrt_of_sq_le ?_
  have k0 : up 1 * F 2 - up 2 * F 1 = k * R 0 := hR 0
  have k1 : up 2 * F 0 - up 0 * F 2 = k * R 1 := hR 1
  have k2 : up 0 * F 1 - up 1 * F 0 = k * R 2 := hR 2
  have e : k ^ 2 = (k * R 0) ^ 2 + (k * R 1) ^ 2 + (k * R 2) ^ 2 := by linear_combination -k ^ 2 * hR1
  rw [e, ← k0, ← k1, ← k2]
  have e2 : up 0 ^ 2 + up 1 ^ 2 + up 2 ^ 2 = (up 0 ^ 2 + up 1 ^ 2 + up 2 ^ 2) * (F 0 ^ 2 + F 1 ^ 2 + F 2 ^ 2) := by
    rw [hF1, mul_one]
  rw [e2]
  nlinarith [sq_nonneg (up 0 * F 0 + up 1 * F 1 + up 2 * F 2)]

/-- The computed cross product of the up direction and the line of sight. -/
theorem right_err (hs : Small fl u) {up F R f : Fin 3 → ℝ} {k : ℝ} (hF1 : F 0 ^ 2 + F 1 ^ 2 + F 2 ^ 2 = 1)
    (hR : ∀ i, Mat.cross up F i = k * R i) (hf : ∀ i, Rel u 10 (f i) (F i)) :
    ∃ c : Fin 3 → ℝ, Mat.cross (fun i => (CF.num (up i) : CF fl lib)) (fun i => CF.num (f i)) = (fun i => CF.num (c i)) ∧
      (c 0 - k * R 0) ^ 2 + (c 1 - k * R 1) ^ 2 + (c 2 - k * R 2) ^ 2 ≤
        (19 * (u * √(up 0 ^ 2 + up 1 ^ 2 + up 2 ^ 2))) ^ 2 := by
  refine ⟨_, cross_num up f, ?_⟩
  have k0 : up 1 * F 2 - up 2 * F 1 = k * R 0 := hR 0
  have k1 : up 2 * F 0 - up 0 * F 2 = k * R 1 := hR 1
  have k2 : up 0 * F 1 - up 1 * F 0 = k * R 2 := hR 2
  have b0 := cross_rel hs (hf 2) (hf 1) (up 1) (up 2)
  have b1 := cross_rel hs (hf 0) (hf 2) (up 2) (up 0)
  have b2 := cross_rel hs (hf 1) (hf 0) (up 0) (up 1)
  rw [k0] at b0
  rw [k1] at b1
  rw [k2] at b2
  show (fl (fl (up 1 * f 2) - fl (up 2 * f 1)) - k * R 0) ^ 2 + (fl (fl (up 2 * f 0) - fl (up 0 * f 2)) - k * R 1) ^ 2 +
    (fl (fl (up 0 * f 1) - fl (up 1 * f 0)) - k * R 2) ^ 2 ≤ _
  generalize fl (fl (up 1 * f 2) - fl (up 2 * f 1)) - k * R 0 = x at *
  generalize fl (fl (up 2 * f 0) - fl (up 0 * f 2)) - k * R 1 = y at *
  generalize fl (fl (up 0 * f 1) - fl (up 1 * f 0)) - k * R 2 = z at *
  have sq : ∀ {x a b : ℝ}, |x| ≤ 13 * u * (|a| + |b|) → x ^ 2 ≤ 338 * u ^ 2 * (a ^ 2 + b ^ 2) := by
    intro x a b h
    have h1 : x ^ 2 ≤ (13 * u * (|a| + |b|)) ^ 2 := by
      rw [← sq_abs x]
      exact pow_le_pow_left₀ (abs_nonneg _) h 2
    have h2 : (|a| + |b|) ^ 2 ≤ 2 * (a ^ 2 + b ^ 2) := by
      rw [← sq_abs a, ← sq_abs b]
      nlinarith [sq_nonneg (|a| - |b|)]
    have h3 := mul_le_mul_of_nonneg_left h2 (by positivity : 0 ≤ 169 * u ^ 2)
    rw [mul_pow, mul_pow] at h1
    linarith
  have h0 := sq b0
  have h1 := sq b1
  have h2 := sq b2
  have e1 : (19 * (u * √(up 0 ^ 2 + up 1 ^ 2 + up 2 ^ 2))) ^ 2 =
      361 * u ^ 2 * ((up 0 ^ 2 + up 1 ^ 2 + up 2 ^ 2) * (F 0 ^ 2 + F 1 ^ 2 + F 2 ^ 2)) := by
    rw [mul_pow, mul_pow, Real.sq_sqrt (by positivity), hF1]
    ring
  rw [e1]
  have h3 : (up 1 * F 2) ^ 2 + (up 2 * F 1) ^ 2 + ((up 2 * F 0) ^ 2 + (up 0 * F 2) ^ 2) +
      ((up 0 * F 1) ^ 2 + (up 1 * F 0) ^ 2) ≤ (up 0 ^ 2 + up 1 ^ 2 + up 2 ^ 2) * (F 0 ^ 2 + F 1 ^ 2 + F 2 ^ 2) := by
    have := sq_nonneg (up 0 * F 0)
    have := sq_nonneg (up 1 * F 1)
    have := sq_nonneg (up 2 * F 2)
    linarith
  have h4 := mul_le_mul_of_nonneg_left h3 (by positivity : 0 ≤ 338 * u ^ 2)
  have h5 : 0 ≤ u ^ 2 * ((up 0 ^ 2 + up 1 ^ 2 + up 2 ^ 2) * (F 0 ^ 2 + F 1 ^ 2 + F 2 ^ 2)) := by positivity
  linarith

open Matrix in
/-- **C199**: the view matrix in floating point. `F` is the direction from the eye to the look-at point, `R` the unit
vector along the cross product of the up direction and `F`, whose length is `k`, and `U` completes the axes. If the
part of the up direction across the line of sight is at least a thousand rounding errors of the up direction, then the
computed matrix has only numbers, its third row is right to ten rounding errors, and its first two rows to 110 rounding
errors over the sine of the angle between up direction and line of sight, wherever the eye is; the translation is right
to the same multiples of the coordinates of the eye. -/
theorem C199_look_at (hs : Small fl u) (eye center up F R U : Fin 3 → ℝ) {d k : ℝ} (hd : 0 < d)
    (hF : center - eye = d • F) (hF1 : F ⬝ᵥ F = 1) (hk : 0 < k) (hR : crossProduct up F = k • R) (hR1 : R ⬝ᵥ R = 1)
    (hU : U = crossProduct F R) (hang : 1000 * (u * √(up ⬝ᵥ up)) ≤ k) :
    ∃ m : Fin 4 → Fin 4 → ℝ,
      lookAt (fun i => (CF.num (eye i) : CF fl lib)) (fun i => CF.num (center i)) (fun i => CF.num (up i)) =
        (fun i j => CF.num (m i j)) ∧
      (∀ j : Fin 3, |m 0 j.castSucc - R j| ≤ 110 * (u * √(up ⬝ᵥ up)) / k ∧
        |m 1 j.castSucc - U j| ≤ 110 * (u * √(up ⬝ᵥ up)) / k ∧ |m 2 j.castSucc - -F j| ≤ 10 * u) ∧
      |m 0 3 - -(R ⬝ᵥ eye)| ≤ 110 * (u * √(up ⬝ᵥ up)) / k * (|eye 0| + |eye 1| + |eye 2|) ∧
      |m 1 3 - -(U ⬝ᵥ eye)| ≤ 110 * (u * √(up ⬝ᵥ up)) / k * (|eye 0| + |eye 1| + |eye 2|) ∧
      |m 2 3 - F ⬝ᵥ eye| ≤ 16 * u * (|eye 0| + |eye 1| + |eye 2|) ∧ m 3 = ![0, 0, 0, 1] := by
  have hu := hs.pos
  have hl := hs.le
  simp only [dotProduct, Fin.sum_univ_three, ← pow_two] at *
  have hF' : ∀ i, center i - eye i = d * F i := fun i => congrFun hF i
  have hR' : ∀ i, Mat.cross up F i = k * R i := fun i => by
    have := congrFun hR i
    rw [cross_apply] at this
    exact this
  have hL := across_le hF1 hR' hR1
  obtain ⟨f, ef, hf⟩ := unit_rel (lib := lib) hs (v := fun i => fl (center i - eye i)) (V := fun i => center i - eye i)
    (fun i => hs.rel _) hd (by simp only [hF']; linear_combination d ^ 2 * hF1)
  have hf : ∀ i, Rel u 10 (f i) (F i) := fun i => by
    have := hf i
    rwa [hF', mul_div_cancel_left₀ _ hd.ne'] at this
  obtain ⟨c, ec, hc⟩ := right_err (lib := lib) hs hF1 hR' hf
  generalize √(up 0 ^ 2 + up 1 ^ 2 + up 2 ^ 2) = L at *
  have hL0 : 0 < L := hk.trans_le hL
  obtain ⟨w, hw⟩ : ∃ w, w = u * L / k := ⟨_, rfl⟩
  have hwu : u ≤ w := by rw [hw, le_div_iff₀ hk]; exact mul_le_mul_of_nonneg_left hL hu.le
  have hw1 : w ≤ 1 / 1000 := by rw [hw, div_le_iff₀ hk]; linarith
  have hwk : 110 * (u * L) / k = 110 * w := by rw [hw]; ring
  have uL : 0 ≤ u * L := by positivity
  obtain ⟨n, hn, hn2, hdir⟩ := direction_err hk hR1 (by positivity) (by linarith) hc
  have hdir : ∀ i, |c i / n - R i| ≤ 40 * w := fun i => (hdir i).trans (by
    rw [show 21 / 10 * (19 * (u * L)) / k = 399 / 10 * w by rw [hw]; ring]; linarith)
  obtain ⟨r, er, hr⟩ := unit_rel (lib := lib) hs (v := c) (V := c) (fun i => (Rel.refl u (c i)).mono hs (by norm_num)) hn hn2
  have hcn : ∀ i, |c i / n| ≤ 1 := fun i => by
    rw [abs_div, abs_of_pos hn, div_le_one hn]
    exact coord_le hn.le hn2.le i
  have hrR : ∀ i, |r i - R i| ≤ 50 * w := fun i => by
    have h1 := hr i
    unfold Float.Rel at h1
    have h2 := mul_le_mul_of_nonneg_left (hcn i) (by positivity : 0 ≤ 10 * u)
    have := abs_sub_le (r i) (c i / n) (R i)
    linarith [hdir i]
  have hR1' : ∀ i, |R i| ≤ 1 := coord_le zero_le_one (by rw [hR1, one_pow])
  have hr1 : ∀ i, |r i| ≤ 21 / 20 := fun i => by
    have := abs_sub_abs_le_abs_sub (r i) (R i)
    linarith [hrR i, hR1' i]
  have hF1' : ∀ i, |F i| ≤ 1 := coord_le zero_le_one (by rw [hF1, one_pow])
  have hfF : ∀ i, |f i - F i| ≤ 10 * u := fun i => by
    have h1 := hf i
    unfold Float.Rel at h1
    have h2 := mul_le_mul_of_nonneg_left (hF1' i) (by positivity : 0 ≤ 10 * u)
    linarith
  have hf1 : ∀ i, |f i| ≤ 6 / 5 := fun i => by
    have := abs_sub_abs_le_abs_sub (f i) (F i)
    linarith [hfF i, hF1' i]
  obtain ⟨t, et⟩ : ∃ t : Fin 3 → ℝ, t = ![fl (fl (f 1 * r 2) - fl (f 2 * r 1)), fl (fl (f 2 * r 0) - fl (f 0 * r 2)),
      fl (fl (f 0 * r 1) - fl (f 1 * r 0))] := ⟨_, rfl⟩
  have U0 : U 0 = F 1 * R 2 - F 2 * R 1 := by rw [hU, cross_apply]; rfl
  have U1 : U 1 = F 2 * R 0 - F 0 * R 2 := by rw [hU, cross_apply]; rfl
  have U2 : U 2 = F 0 * R 1 - F 1 * R 0 := by rw [hU, cross_apply]; rfl
  have q0 := sq_nonneg (F 0)
  have q1 := sq_nonneg (F 1)
  have q2 := sq_nonneg (F 2)
  have htU : ∀ i, |t i - U i| ≤ 96 * w := by
    have key : 3 / 2 * (50 * w + 14 * u) ≤ 96 * w := by linarith
    intro i
    rw [et]
    match i with
    | 0 =>
      rw [U0]
      exact (upward_err hs (hf 1) (hf 2) (hrR 2) (hrR 1) (hr1 2) (hr1 1) (by linarith)).trans key
    | 1 =>
      rw [U1]
      exact (upward_err hs (hf 2) (hf 0) (hrR 0) (hrR 2) (hr1 0) (hr1 2) (by linarith)).trans key
    | 2 =>
      rw [U2]
      exact (upward_err hs (hf 0) (hf 1) (hrR 1) (hrR 0) (hr1 1) (hr1 0) (by linarith)).trans key
  have hUU : U 0 ^ 2 + U 1 ^ 2 + U 2 ^ 2 ≤ 1 ^ 2 := by
    rw [U0, U1, U2]
    have : (1 : ℝ) ^ 2 = (F 0 ^ 2 + F 1 ^ 2 + F 2 ^ 2) * (R 0 ^ 2 + R 1 ^ 2 + R 2 ^ 2) := by rw [hF1, hR1]; norm_num
    rw [this]
    nlinarith [sq_nonneg (F 0 * R 0 + F 1 * R 1 + F 2 * R 2)]
  have hU1' : ∀ i, |U i| ≤ 1 := coord_le zero_le_one hUU
  have ht1 : ∀ i, |t i| ≤ 6 / 5 := fun i => by
    have := abs_sub_abs_le_abs_sub (t i) (U i)
    linarith [htU i, hU1' i]
  have hE : 0 ≤ |eye 0| + |eye 1| + |eye 2| := by positivity
  rw [hwk]
  refine ⟨![![r 0, r 1, r 2, -fl (fl (fl (0 + fl (r 0 * eye 0)) + fl (r 1 * eye 1)) + fl (r 2 * eye 2))],
    ![t 0, t 1, t 2, -fl (fl (fl (0 + fl (t 0 * eye 0)) + fl (t 1 * eye 1)) + fl (t 2 * eye 2))],
    ![-f 0, -f 1, -f 2, fl (fl (fl (0 + fl (f 0 * eye 0)) + fl (f 1 * eye 1)) + fl (f 2 * eye 2))],
    ![0, 0, 0, 1]], ?_, fun j => ⟨?_, ?_, ?_⟩, ?_, ?_, ?_, rfl⟩
  · unfold lookAt
    simp only [cf_sub]
    rw [ef, ec, er, cross_num, ← et]
    simp only [dot_num, cf_neg]
    funext i j
    fin_cases i <;> fin_cases j <;> rfl
  · have := hrR j
    have e : (![![r 0, r 1, r 2, -fl (fl (fl (0 + fl (r 0 * eye 0)) + fl (r 1 * eye 1)) + fl (r 2 * eye 2))],
      ![t 0, t 1, t 2, -fl (fl (fl (0 + fl (t 0 * eye 0)) + fl (t 1 * eye 1)) + fl (t 2 * eye 2))],
      ![-f 0, -f 1, -f 2, fl (fl (fl (0 + fl (f 0 * eye 0)) + fl (f 1 * eye 1)) + fl (f 2 * eye 2))],
      ![0, 0, 0, 1]] : Fin 4 → Fin 4 → ℝ) 0 j.castSucc = r j := by fin_cases j <;> rfl
    rw [e]
    linarith
  · have := htU j
    have e : (![![r 0, r 1, r 2, -fl (fl (fl (0 + fl (r 0 * eye 0)) + fl (r 1 * eye 1)) + fl (r 2 * eye 2))],
      ![t 0, t 1, t 2, -fl (fl (fl (0 + fl (t 0 * eye 0)) + fl (t 1 * eye 1)) + fl (t 2 * eye 2))],
      ![-f 0, -f 1, -f 2, fl (fl (fl (0 + fl (f 0 * eye 0)) + fl (f 1 * eye 1)) + fl (f 2 * eye 2))],
      ![0, 0, 0, 1]] : Fin 4 → Fin 4 → ℝ) 1 j.castSucc = t j := by fin_cases j <;> rfl
    rw [e]
    linarith
  · have := hfF j
    have e : (![![r 0, r 1, r 2, -fl (fl (fl (0 + fl (r 0 * eye 0)) + fl (r 1 * eye 1)) + fl (r 2 * eye 2))],
      ![t 0, t 1, t 2, -fl (fl (fl (0 + fl (t 0 * eye 0)) + fl (t 1 * eye 1)) + fl (t 2 * eye 2))],
      ![-f 0, -f 1, -f 2, fl (fl (fl (0 + fl (f 0 * eye 0)) + fl (f 1 * eye 1)) + fl (f 2 * eye 2))],
      ![0, 0, 0, 1]] : Fin 4 → Fin 4 → ℝ) 2 j.castSucc = -f j := by fin_cases j <;> rfl
    rw [e, show -f j - -F j = -(f j - F j) by ring, abs_neg]
    exact this
  · have := column_err hs hrR (fun i => (hr1 i).trans (by norm_num)) eye
    show |-fl (fl (fl (0 + fl (r 0 * eye 0)) + fl (r 1 * eye 1)) + fl (r 2 * eye 2)) - _| ≤ _
    rw [show ∀ a b : ℝ, -a - -b = -(a - b) from fun a b => by ring, abs_neg]
    exact this.trans (mul_le_mul_of_nonneg_right (by linarith) hE)
  · have := column_err hs htU ht1 eye
    show |-fl (fl (fl (0 + fl (t 0 * eye 0)) + fl (t 1 * eye 1)) + fl (t 2 * eye 2)) - _| ≤ _
    rw [show ∀ a b : ℝ, -a - -b = -(a - b) from fun a b => by ring, abs_neg]
    exact this.trans (mul_le_mul_of_nonneg_right (by linarith) hE)
  · have := column_err hs hfF hf1 eye
    exact this.trans (mul_le_mul_of_nonneg_right (by linarith) hE)

/-- The eye at (3, -2, 1), looking at (3, 4, 9), with the third axis up, in single precision. -/
example : ∃ m : Fin 4 → Fin 4 → ℝ,
    lookAt (fun i => (CF.num ((![3, -2, 1] : Fin 3 → ℝ) i) : CF (rnd 24) exactLib))
        (fun i => CF.num ((![3, 4, 9] : Fin 3 → ℝ) i)) (fun i => CF.num ((![0, 0, 1] : Fin 3 → ℝ) i)) =
      (fun i j => CF.num (m i j)) ∧ |m 0 0 - -1| ≤ 110 * (2 ^ (-24 : ℤ) * √1) / (3 / 5) := by
  have hs := nearest_small (le_refl 24) (rnd_nearest (by norm_num))
  have e1 : (![0, 0, 1] : Fin 3 → ℝ) ⬝ᵥ ![0, 0, 1] = 1 := by simp [dotProduct, Fin.sum_univ_three]
  obtain ⟨m, h1, h2, -⟩ := C199_look_at (lib := exactLib) hs ![3, -2, 1] ![3, 4, 9] ![0, 0, 1] ![0, 3 / 5, 4 / 5] ![-1, 0, 0] _
    (d := 10) (k := 3 / 5) (by norm_num)
    (by funext i; fin_cases i <;> norm_num) (by simp [dotProduct, Fin.sum_univ_three]; norm_num) (by norm_num)
    (by rw [cross_apply]; funext i; fin_cases i <;> simp) (by simp [dotProduct, Fin.sum_univ_three]) rfl
    (by rw [e1, Real.sqrt_one]; norm_num)
  rw [e1] at h2
  exact ⟨m, h1, (h2 0).1⟩

/-- Products of rows near unit vectors. -/
theorem gram_err {a b A B : Fin 3 → ℝ} {δ : ℝ} (ha : ∀ i, |a i - A i| ≤ δ) (hb : ∀ i, |b i - B i| ≤ δ)
    (hA : ∀ i, |A i| ≤ 1) (hB : ∀ i, |B i| ≤ 1) (hδ : δ ≤ 1 / 5) :
    |(a 0 * b 0 + a 1 * b 1 + a 2 * b 2) - (A 0 * B 0 + A 1 * B 1 + A 2 * B 2)| ≤ 33 / 5 * δ := by
  have hδ0 : 0 ≤ δ := (abs_nonneg _).trans (ha 0)
  have one : ∀ i, |a i * b i - A i * B i| ≤ 11 / 5 * δ := fun i => by
    have h1 : |b i| ≤ 6 / 5 := by
      have := abs_sub_abs_le_abs_sub (b i) (B i)
      linarith [hb i, hB i]
    have h2 : |(a i - A i) * b i| ≤ δ * (6 / 5) := by
      rw [abs_mul]; exact mul_le_mul (ha i) h1 (abs_nonneg _) hδ0
    have h3 : |A i * (b i - B i)| ≤ 1 * δ := by
      rw [abs_mul]; exact mul_le_mul (hA i) (hb i) (abs_nonneg _) zero_le_one
    rw [show a i * b i - A i * B i = (a i - A i) * b i + A i * (b i - B i) by ring]
    exact (abs_add_le _ _).trans (by linarith)
  rw [show (a 0 * b 0 + a 1 * b 1 + a 2 * b 2) - (A 0 * B 0 + A 1 * B 1 + A 2 * B 2) =
    (a 0 * b 0 - A 0 * B 0) + (a 1 * b 1 - A 1 * B 1) + (a 2 * b 2 - A 2 * B 2) by ring]
  refine (abs_add_three _ _ _).trans ?_
  linarith [one 0, one 1, one 2]

open Matrix in
/-- **C200, partial**: for every eye, point to look at and up direction for which the sine of the angle between the up
direction and the line of sight is at least a thousand rounding errors, the view matrix has only numbers, and its axes
are unit vectors at right angles up to 750 rounding errors over that sine. (Missing: smaller angles, see
`C200_fails`.) -/
theorem C200_partial (hs : Small fl u) (eye center up : Fin 3 → ℝ) (hc : crossProduct up (center - eye) ≠ 0)
    (hang : 1000 * (u * √(up ⬝ᵥ up) * √((center - eye) ⬝ᵥ (center - eye))) ≤
      √(crossProduct up (center - eye) ⬝ᵥ crossProduct up (center - eye))) :
    ∃ m : Fin 4 → Fin 4 → ℝ,
      lookAt (fun i => (CF.num (eye i) : CF fl lib)) (fun i => CF.num (center i)) (fun i => CF.num (up i)) =
        (fun i j => CF.num (m i j)) ∧ m 3 = ![0, 0, 0, 1] ∧
      ∀ i j : Fin 3, |∑ l : Fin 3, m i.castSucc l.castSucc * m j.castSucc l.castSucc - if i = j then 1 else 0| ≤
        750 * (u * √(up ⬝ᵥ up) * √((center - eye) ⬝ᵥ (center - eye))) /
          √(crossProduct up (center - eye) ⬝ᵥ crossProduct up (center - eye)) := by
  have hu := hs.pos
  have hD : center - eye ≠ 0 := fun h => hc (by rw [h, map_zero])
  generalize hDD : center - eye = D at *
  have hd0 : 0 < D ⬝ᵥ D := by
    have := Graphics.sumsq_pos hD
    simp only [dotProduct, Fin.sum_univ_three]
    linarith
  generalize hC : crossProduct up D = C at *
  have hc0 : 0 < C ⬝ᵥ C := by
    have := Graphics.sumsq_pos hc
    simp only [dotProduct, Fin.sum_univ_three]
    linarith
  have hd := Real.sqrt_pos.2 hd0
  have hk := Real.sqrt_pos.2 hc0
  have d2 := Real.mul_self_sqrt hd0.le
  have c2 := Real.mul_self_sqrt hc0.le
  generalize √(D ⬝ᵥ D) = d at *
  generalize √(C ⬝ᵥ C) = k at *
  have F1 : (d⁻¹ • D) ⬝ᵥ (d⁻¹ • D) = 1 := by
    rw [smul_dotProduct, dotProduct_smul, ← d2, smul_eq_mul, smul_eq_mul]
    field_simp
  have R1 : (k⁻¹ • C) ⬝ᵥ (k⁻¹ • C) = 1 := by
    rw [smul_dotProduct, dotProduct_smul, ← c2, smul_eq_mul, smul_eq_mul]
    field_simp
  have hR : crossProduct up (d⁻¹ • D) = (k / d) • k⁻¹ • C := by
    rw [map_smul, hC, smul_smul, show k / d * k⁻¹ = d⁻¹ by field_simp]
  obtain ⟨m, e, h1, -, -, -, h3⟩ := C199_look_at (lib := lib) hs eye center up (d⁻¹ • D) (k⁻¹ • C) _ hd
    (by rw [hDD, smul_smul, mul_inv_cancel₀ hd.ne', one_smul]) F1 (div_pos hk hd) hR R1 rfl
    (by rw [le_div_iff₀ hd]; linarith)
  refine ⟨m, e, h3, ?_⟩
  have FR : (d⁻¹ • D) ⬝ᵥ (k⁻¹ • C) = 0 := by
    rw [smul_dotProduct, dotProduct_smul, ← hC, dot_cross_self, smul_zero, smul_zero]
  generalize d⁻¹ • D = F at *
  generalize k⁻¹ • C = R at *
  generalize hL : √(up ⬝ᵥ up) = L at *
  obtain ⟨w, hw⟩ : ∃ w, w = u * L * d / k := ⟨_, rfl⟩
  have e110 : 110 * (u * L) / (k / d) = 110 * w := by rw [hw]; field_simp
  have e750 : 750 * (u * L * d) / k = 750 * w := by rw [hw]; ring
  have hwu : u ≤ w := by
    have := across_le (up := up) (F := F) (R := R) (k := k / d)
      (by simp only [dotProduct, Fin.sum_univ_three] at F1; linarith)
      (fun i => by have := congrFun hR i; rw [cross_apply] at this; exact this)
      (by simp only [dotProduct, Fin.sum_univ_three] at R1; linarith)
    rw [show up 0 ^ 2 + up 1 ^ 2 + up 2 ^ 2 = up ⬝ᵥ up by simp only [dotProduct, Fin.sum_univ_three]; ring, hL,
      div_le_iff₀ hd] at this
    rw [hw, le_div_iff₀ hk]
    have := mul_le_mul_of_nonneg_left this hu.le
    linarith
  have hw1 : w ≤ 1 / 1000 := by rw [hw, div_le_iff₀ hk]; linarith
  rw [e110] at h1
  rw [e750]
  have a0 : ∀ j : Fin 3, |m 0 j.castSucc - R j| ≤ 110 * w := fun j => (h1 j).1
  have a1 : ∀ j : Fin 3, |m 1 j.castSucc - (crossProduct F R) j| ≤ 110 * w := fun j => (h1 j).2.1
  have a2 : ∀ j : Fin 3, |m 2 j.castSucc - (-F) j| ≤ 110 * w := fun j => (h1 j).2.2.trans (by linarith)
  have UU : crossProduct F R ⬝ᵥ crossProduct F R = 1 := by
    rw [cross_dot_cross, F1, R1, FR, dotProduct_comm R F, FR]
    norm_num
  have RU : R ⬝ᵥ crossProduct F R = 0 := dot_cross_self F R
  have FU : F ⬝ᵥ crossProduct F R = 0 := dot_self_cross F R
  generalize crossProduct F R = U at *
  have unit_le : ∀ {v : Fin 3 → ℝ}, v ⬝ᵥ v = 1 → ∀ i, |v i| ≤ 1 := fun {v} h =>
    coord_le zero_le_one (by simp only [dotProduct, Fin.sum_univ_three] at h; linarith)
  have b0 := unit_le R1
  have b1 := unit_le UU
  have b2 : ∀ i, |(-F) i| ≤ 1 := unit_le (by rw [neg_dotProduct_neg, F1])
  have hδ : 110 * w ≤ 1 / 5 := by linarith
  have fin : 33 / 5 * (110 * w) ≤ 750 * w := by linarith
  have g : ∀ {x A : Fin 3 → ℝ} {y B : Fin 3 → ℝ} {z : ℝ}, (∀ i, |x i - A i| ≤ 110 * w) → (∀ i, |y i - B i| ≤ 110 * w) →
      (∀ i, |A i| ≤ 1) → (∀ i, |B i| ≤ 1) → A ⬝ᵥ B = z → |∑ l : Fin 3, x l * y l - z| ≤ 750 * w := by
    intro x A y B z hx hy hA hB hz
    have := gram_err hx hy hA hB hδ
    rw [dotProduct, Fin.sum_univ_three] at hz
    rw [hz] at this
    rw [Fin.sum_univ_three]
    exact this.trans fin
  intro i j
  match i, j with
  | 0, 0 => exact g a0 a0 b0 b0 R1
  | 0, 1 => exact g a0 a1 b0 b1 RU
  | 0, 2 => exact g a0 a2 b0 b2 (by rw [dotProduct_neg, dotProduct_comm, FR, neg_zero]; rfl)
  | 1, 0 => exact g a1 a0 b1 b0 (by rw [dotProduct_comm]; exact RU)
  | 1, 1 => exact g a1 a1 b1 b1 UU
  | 1, 2 => exact g a1 a2 b1 b2 (by rw [dotProduct_neg, dotProduct_comm, FU, neg_zero]; rfl)
  | 2, 0 => exact g a2 a0 b2 b0 (by rw [neg_dotProduct, FR, neg_zero]; rfl)
  | 2, 1 => exact g a2 a1 b2 b1 (by rw [neg_dotProduct, FU, neg_zero]; rfl)
  | 2, 2 => exact g a2 a2 b2 b2 (by rw [neg_dotProduct_neg]; exact F1)

/-- Its hypotheses hold in single precision for a camera on the first axis that looks at the origin. -/
example : crossProduct (![0, 0, 1] : Fin 3 → ℝ) (![0, 0, 0] - ![5, 0, 0]) ≠ 0 ∧
    1000 * ((2 : ℝ) ^ (-24 : ℤ) * √((![0, 0, 1] : Fin 3 → ℝ) ⬝ᵥ ![0, 0, 1]) *
        √((![0, 0, 0] - ![5, 0, 0] : Fin 3 → ℝ) ⬝ᵥ (![0, 0, 0] - ![5, 0, 0]))) ≤
      √(crossProduct (![0, 0, 1] : Fin 3 → ℝ) (![0, 0, 0] - ![5, 0, 0]) ⬝ᵥ
        crossProduct (![0, 0, 1] : Fin 3 → ℝ) (![0, 0, 0] - ![5, 0, 0])) := by
  have e : crossProduct (![0, 0, 1] : Fin 3 → ℝ) (![0, 0, 0] - ![5, 0, 0]) = ![0, -5, 0] := by
    rw [cross_apply]; funext i; fin_cases i <;> simp
  have e2 : (![0, 0, 0] - ![5, 0, 0] : Fin 3 → ℝ) = ![-5, 0, 0] := by funext i; fin_cases i <;> simp
  rw [e, e2]
  refine ⟨fun h => by have := congrFun h 1; simp at this, ?_⟩
  simp only [dotProduct, Fin.sum_univ_three]
  have : √(25 : ℝ) = 5 := by rw [show (25 : ℝ) = 5 ^ 2 by norm_num]; exact Real.sqrt_sq (by norm_num)
  simp
  norm_num [this]

/-- A number is rounded to the only floating-point number within half a unit. -/
theorem nearest_eq (hn : Nearest 24 fl) {x : ℝ} {M s : ℤ} (h1 : 2 ^ 23 < M) (h2 : M < 2 ^ 24)
    (hx : |(M : ℝ) * 2 ^ s - x| < 2 ^ s / 2) : fl x = M * 2 ^ s := by
  obtain ⟨⟨m, e, hm, he⟩, hc⟩ := hn x
  have hy := hc _ ⟨M, s, by rw [abs_of_pos (by omega)]; exact h2, rfl⟩
  have hp : (0 : ℝ) < 2 ^ s := by positivity
  have hpe : (0 : ℝ) < 2 ^ e := by positivity
  have hd : |fl x - M * 2 ^ s| < 2 ^ s := by
    have := abs_sub_le (fl x) x (M * 2 ^ s)
    rw [abs_sub_comm x] at this
    linarith
  obtain ⟨d1, d2⟩ := abs_lt.1 hd
  have hM : ((2 ^ 23 + 1 : ℤ) : ℝ) ≤ M := by exact_mod_cast h1
  have big : (2 : ℝ) ^ (23 + s) < (m : ℝ) * 2 ^ e := by
    rw [← he, zpow_add₀ (by norm_num)]
    have := mul_le_mul_of_nonneg_right hM hp.le
    push_cast at this
    norm_num at this ⊢
    linarith
  have hes : s ≤ e := by
    have hm' : (m : ℝ) < 2 ^ (24 : ℤ) := by
      have : m < 2 ^ 24 := (le_abs_self m).trans_lt hm
      exact_mod_cast this
    have h3 := big.trans (mul_lt_mul_of_pos_right hm' hpe)
    rw [← zpow_add₀ (by norm_num), zpow_lt_zpow_iff_right₀ (by norm_num)] at h3
    omega
  obtain ⟨j, hj⟩ : ∃ j : ℕ, e = s + j := ⟨(e - s).toNat, by omega⟩
  have hN : fl x = ((m * 2 ^ j : ℤ) : ℝ) * 2 ^ s := by
    rw [he, hj, zpow_add₀ (by norm_num)]
    push_cast
    rw [zpow_natCast]
    ring
  rw [hN] at d1 d2 ⊢
  have i1 : (M : ℝ) - 1 < ((m * 2 ^ j : ℤ) : ℝ) := by
    refine lt_of_mul_lt_mul_right ?_ hp.le
    linarith
  have i2 : ((m * 2 ^ j : ℤ) : ℝ) < M + 1 := by
    refine lt_of_mul_lt_mul_right ?_ hp.le
    linarith
  have j1 : M - 1 < m * 2 ^ j := by exact_mod_cast i1
  have j2 : m * 2 ^ j < M + 1 := by exact_mod_cast i2
  rw [show m * 2 ^ j = M by omega]

theorem nan_div (a : CF fl lib) : a / CF.num 0 = CF.nan := by
  show CF.op2 (fun _ y => y ≠ 0) _ a (CF.num 0) = _
  cases a with
  | none => rfl
  | some x => exact if_neg (by simp)

/-- The point at which the code is asked to look. -/
noncomputable def skew : Fin 3 → ℝ := ![1, 16777215 * 2 ^ (-24 : ℤ), 0]

/-- The direction to it, as the code computes it, has two equal coordinates. -/
theorem skew_unit (hn : Nearest 24 fl) :
    unitOf (fun i => (CF.num (skew i) : CF fl lib) - CF.num ((0 : Fin 3 → ℝ) i)) =
      fun i => CF.num ((![11863283 * 2 ^ (-24 : ℤ), 11863283 * 2 ^ (-24 : ℤ), 0] : Fin 3 → ℝ) i) := by
  have f0 : fl 0 = 0 := hn.fix isFloat_zero
  have f1 : fl 1 = 1 := hn.fix (isFloat_one (by norm_num))
  have fb : fl (16777215 * 2 ^ (-24 : ℤ)) = 16777215 * 2 ^ (-24 : ℤ) :=
    hn.fix ⟨16777215, -24, by norm_num, by norm_num⟩
  have hv : (fun i => (CF.num (skew i) : CF fl lib) - CF.num ((0 : Fin 3 → ℝ) i)) = fun i => CF.num (skew i) := by
    funext i
    rw [cf_sub, Pi.zero_apply, sub_zero]
    unfold skew
    fin_cases i
    · exact congrArg CF.num f1
    · exact congrArg CF.num fb
    · exact congrArg CF.num f0
  rw [hv]
  have s1 : fl (skew 1 * skew 1) = 16777214 * 2 ^ (-24 : ℤ) := by
    have := nearest_eq hn (x := skew 1 * skew 1) (M := 16777214) (s := -24) (by norm_num) (by norm_num) (by
      show |_ - (16777215 * 2 ^ (-24 : ℤ)) * (16777215 * 2 ^ (-24 : ℤ))| < _
      rw [abs_lt]
      norm_num)
    exact_mod_cast this
  have s0 : fl (skew 0 * skew 0) = 1 := by
    show fl (1 * 1) = 1
    rw [one_mul, f1]
  have s2 : fl (skew 2 * skew 2) = 0 := by
    show fl (0 * 0) = 0
    rw [mul_zero, f0]
  have sum : fl (1 + 16777214 * 2 ^ (-24 : ℤ)) = 16777215 * 2 ^ (-23 : ℤ) := by
    rw [show (1 + 16777214 * 2 ^ (-24 : ℤ) : ℝ) = 16777215 * 2 ^ (-23 : ℤ) by norm_num]
    exact hn.fix ⟨16777215, -23, by norm_num, by norm_num⟩
  have all : fl (fl (fl (0 + fl (skew 0 * skew 0)) + fl (skew 1 * skew 1)) + fl (skew 2 * skew 2)) =
      16777215 * 2 ^ (-23 : ℤ) := by
    rw [s0, s1, s2, zero_add, f1, sum, add_zero]
    exact hn.fix ⟨16777215, -23, by norm_num, by norm_num⟩
  have root : fl √(16777215 * 2 ^ (-23 : ℤ)) = 11863283 * 2 ^ (-23 : ℤ) := by
    have := nearest_eq hn (x := √(16777215 * 2 ^ (-23 : ℤ))) (M := 11863283) (s := -23) (by norm_num) (by norm_num) (by
      have h1 : √(16777215 * 2 ^ (-23 : ℤ)) < 23726567 * 2 ^ (-24 : ℤ) := by
        rw [Real.sqrt_lt' (by norm_num)]
        norm_num
      have h2 : 23726565 * 2 ^ (-24 : ℤ) < √(16777215 * 2 ^ (-23 : ℤ)) := by
        refine Real.lt_sqrt_of_sq_lt ?_
        norm_num
      rw [abs_lt]
      norm_num at h1 h2 ⊢
      constructor <;> linarith)
    exact_mod_cast this
  have q0 : fl (1 / (11863283 * 2 ^ (-23 : ℤ))) = 11863283 * 2 ^ (-24 : ℤ) := by
    have := nearest_eq hn (x := 1 / (11863283 * 2 ^ (-23 : ℤ))) (M := 11863283) (s := -24) (by norm_num) (by norm_num) (by
      rw [abs_lt]
      norm_num)
    exact_mod_cast this
  have q1 : fl (16777215 * 2 ^ (-24 : ℤ) / (11863283 * 2 ^ (-23 : ℤ))) = 11863283 * 2 ^ (-24 : ℤ) := by
    have := nearest_eq hn (x := 16777215 * 2 ^ (-24 : ℤ) / (11863283 * 2 ^ (-23 : ℤ))) (M := 11863283) (s := -24)
      (by norm_num) (by norm_num) (by
      rw [abs_lt]
      norm_num)
    exact_mod_cast this
  have hnorm : Mat.norm Scalar.sqrt (fun i => (CF.num (skew i) : CF fl lib)) = CF.num (11863283 * 2 ^ (-23 : ℤ)) := by
    rw [norm_num3 skew (by rw [all]; positivity), all, root]
  funext i
  unfold unitOf
  dsimp only
  rw [hnorm, cf_div _ (by positivity)]
  fin_cases i
  · exact congrArg CF.num q0
  · exact congrArg CF.num q1
  · show CF.num (fl (0 / _)) = CF.num 0
    rw [zero_div, f0]

open Matrix in
/-- **C200 fails**: in single precision there are an eye, another point to look at and an up direction that is not along
the line of sight, all exactly representable, for which the right axis and the up axis of the view matrix are not
numbers. -/
theorem C200_fails (hn : Nearest 24 fl) (lib : Libm) :
    ∃ eye center up : Fin 3 → ℝ, (∀ i, IsFloat 24 (eye i) ∧ IsFloat 24 (center i) ∧ IsFloat 24 (up i)) ∧
      crossProduct up (center - eye) ≠ 0 ∧
      ∀ j, lookAt (fun i => (CF.num (eye i) : CF fl lib)) (fun i => CF.num (center i)) (fun i => CF.num (up i)) 0 j = CF.nan ∧
        lookAt (fun i => (CF.num (eye i) : CF fl lib)) (fun i => CF.num (center i)) (fun i => CF.num (up i)) 1 j = CF.nan := by
  have one : IsFloat 24 1 := isFloat_one (by norm_num)
  refine ⟨0, skew, ![1, 1, 0], fun i => ⟨isFloat_zero, ?_, ?_⟩, fun h => ?_, ?_⟩
  · unfold skew
    fin_cases i
    · exact one
    · exact ⟨16777215, -24, by norm_num, by norm_num⟩
    · exact isFloat_zero
  · fin_cases i
    · exact one
    · exact one
    · exact isFloat_zero
  · have := congrFun h 2
    rw [cross_apply] at this
    have : (1 : ℝ) * (16777215 * 2 ^ (-24 : ℤ) - 0) - 1 * (1 - 0) = 0 := this
    norm_num at this
  · have f0 : fl 0 = 0 := hn.fix isFloat_zero
    have hc : (fun i => CF.num ((![fl (fl ((![1, 1, 0] : Fin 3 → ℝ) 1 * (![11863283 * 2 ^ (-24 : ℤ), 11863283 * 2 ^ (-24 : ℤ), 0] : Fin 3 → ℝ) 2) - fl ((![1, 1, 0] : Fin 3 → ℝ) 2 * (![11863283 * 2 ^ (-24 : ℤ), 11863283 * 2 ^ (-24 : ℤ), 0] : Fin 3 → ℝ) 1)), fl (fl ((![1, 1, 0] : Fin 3 → ℝ) 2 * (![11863283 * 2 ^ (-24 : ℤ), 11863283 * 2 ^ (-24 : ℤ), 0] : Fin 3 → ℝ) 0) - fl ((![1, 1, 0] : Fin 3 → ℝ) 0 * (![11863283 * 2 ^ (-24 : ℤ), 11863283 * 2 ^ (-24 : ℤ), 0] : Fin 3 → ℝ) 2)),
        fl (fl ((![1, 1, 0] : Fin 3 → ℝ) 0 * (![11863283 * 2 ^ (-24 : ℤ), 11863283 * 2 ^ (-24 : ℤ), 0] : Fin 3 → ℝ) 1) - fl ((![1, 1, 0] : Fin 3 → ℝ) 1 * (![11863283 * 2 ^ (-24 : ℤ), 11863283 * 2 ^ (-24 : ℤ), 0] : Fin 3 → ℝ) 0))] : Fin 3 → ℝ) i)) = fun _ => (CF.num 0 : CF fl lib) := by
      funext i
      congr 1
      fin_cases i <;> simp [f0]
    have hr : unitOf (fun _ => (CF.num 0 : CF fl lib)) = fun _ => CF.nan := by
      have e : fl (fl (fl (0 + fl ((0 : Fin 3 → ℝ) 0 * (0 : Fin 3 → ℝ) 0)) + fl ((0 : Fin 3 → ℝ) 1 * (0 : Fin 3 → ℝ) 1)) +
          fl ((0 : Fin 3 → ℝ) 2 * (0 : Fin 3 → ℝ) 2)) = 0 := by simp [f0]
      have := norm_num3 (lib := lib) (0 : Fin 3 → ℝ) e.ge
      rw [e, Real.sqrt_zero, f0] at this
      funext i
      unfold unitOf
      dsimp only
      refine Eq.trans ?_ (nan_div (CF.num 0))
      congr 1
    intro j
    unfold lookAt
    rw [skew_unit hn, cross_num, hc, hr]
    fin_cases j <;> exact ⟨rfl, rfl⟩

/-- Over the reals this is the matrix of `Verif/Graphics/Model.lean`. -/
theorem lookAt_agree (eye center up : Fin 3 → ℝ) : lookAt eye center up = Graphics.lookAt eye center up := rfl

end Verif.Float
