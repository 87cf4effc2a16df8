import Verif.Float.Eval

/-!
# C114: angles computed in floating point are numbers
-/

namespace Verif.Float

open Verif.Mat (Mat)
open Verif.Att (Quat)

variable {fl : ℝ → ℝ} {p : ℕ} {n : Nat}

/-- No component is NaN or infinite. -/
def Numbers {lib : Libm} (v : Fin n → CF fl lib) : Prop := ∀ i, v i ≠ CF.nan

/-- **C114**, spherical coordinates of a point given in Cartesian coordinates. -/
theorem C114_spherical (hp : 1 ≤ p) (h : Nearest p fl) (lib : Libm) (c : Fin 3 → ℝ) (hc : ∀ i, IsFloat p (c i)) :
    Numbers (sphericalOfCartesian fun i => (CF.num (c i) : CF fl lib)) := by
  have h0 : 0 ≤ fl (fl (c 0 * c 0) + fl (c 1 * c 1)) :=
    h.nonneg (add_nonneg (h.nonneg (mul_self_nonneg _)) (h.nonneg (mul_self_nonneg _)))
  have h1 : fl (c 2 * c 2) ≤ fl (fl (fl (c 0 * c 0) + fl (c 1 * c 1)) + fl (c 2 * c 2)) := h.le_add h0 (h.float _)
  have h2 := (h.nonneg (mul_self_nonneg (c 2))).trans h1
  unfold sphericalOfCartesian
  dsimp only
  simp only [cf_mul, cf_add, cf_sqrt h2, cf_atan2, cf_zero, cf_eq]
  intro i
  fin_cases i
  · exact num_ne_nan _
  · exact num_ne_nan _
  · show (if _ then _ else _) ≠ _
    split_ifs with hr
    · exact num_ne_nan _
    · rw [cf_div _ hr, cf_acos (h.ratio hp (hc 2) h1 hr)]
      exact num_ne_nan _

/-- **C114**, spherical coordinates of a point given in cylindrical coordinates. -/
theorem C114_cylindrical (hp : 1 ≤ p) (h : Nearest p fl) (lib : Libm) (c : Fin 3 → ℝ) (hc : ∀ i, IsFloat p (c i)) :
    Numbers (sphericalOfCylindrical fun i => (CF.num (c i) : CF fl lib)) := by
  have h1 : fl (c 2 * c 2) ≤ fl (fl (c 0 * c 0) + fl (c 2 * c 2)) :=
    h.le_add (h.nonneg (mul_self_nonneg _)) (h.float _)
  have h2 := (h.nonneg (mul_self_nonneg (c 2))).trans h1
  unfold sphericalOfCylindrical
  dsimp only
  simp only [cf_mul, cf_add, cf_sqrt h2, cf_zero, cf_eq]
  intro i
  fin_cases i
  · exact num_ne_nan _
  · exact num_ne_nan _
  · show (if _ then _ else _) ≠ _
    split_ifs with hr
    · exact num_ne_nan _
    · rw [cf_div _ hr, cf_acos (h.ratio hp (hc 2) h1 hr)]
      exact num_ne_nan _

/-- **C114**, the angle between two vectors of any dimension. -/
theorem C114_angle (h : Nearest p fl) (lib : Libm) (a b : Fin n → ℝ) :
    angle (fun i => (CF.num (a i) : CF fl lib)) (fun i => CF.num (b i)) ≠ CF.nan := by
  obtain ⟨d, hd⟩ := cf_dot (fl := fl) (lib := lib) a b
  obtain ⟨s, hs, -⟩ := cf_norm (lib := lib) h a
  obtain ⟨t, ht, -⟩ := cf_norm (lib := lib) h b
  unfold angle
  dsimp only
  rw [hd, hs, ht, cf_mul, cf_zero, cf_one, cf_neg]
  by_cases hr : fl (s * t) = 0
  · rw [if_pos ((cf_eq _ _).2 hr)]
    exact num_ne_nan _
  rw [if_neg (mt (cf_eq _ _).1 hr), cf_div _ hr]
  generalize fl (d / fl (s * t)) = c
  by_cases h1 : 1 < c
  · rw [if_pos ((cf_lt _ _).2 h1), if_neg (mt (cf_lt _ _).1 (by norm_num)), cf_acos (by norm_num)]
    exact num_ne_nan _
  rw [if_neg (mt (cf_lt _ _).1 h1)]
  by_cases h2 : c < -1
  · rw [if_pos ((cf_lt _ _).2 h2), cf_acos (by norm_num)]
    exact num_ne_nan _
  rw [if_neg (mt (cf_lt _ _).1 h2), cf_acos (abs_le.2 ⟨not_lt.1 h2, not_lt.1 h1⟩)]
  exact num_ne_nan _

/-- **C114**, Euler angles of a quaternion, of unit length or not. -/
theorem C114_euler (lib : Libm) (w x y z : ℝ) :
    Numbers (eulerOfQuat ⟨(CF.num w : CF fl lib), CF.num x, CF.num y, CF.num z⟩) := by
  unfold eulerOfQuat
  dsimp only
  simp only [cf_mul, cf_add, cf_sub, cf_one, cf_atan2, cf_abs, cf_signum, cf_pi, cf_le]
  intro i
  fin_cases i
  · exact num_ne_nan _
  · show (if _ then _ else _) ≠ _
    by_cases hr : 1 ≤ |fl (fl (1 + 1) * fl (fl (w * y) - fl (z * x)))|
    · rw [if_pos hr]
      exact num_ne_nan _
    · rw [if_neg hr, cf_asin (not_le.1 hr).le]
      exact num_ne_nan _
  · exact num_ne_nan _

/-- **C114**, the geocentric radius and latitude used by the magnetic model: for an ellipsoid with flattening below a
quarter, at any latitude, above a depth of half the major axis. The library's sine must not exceed one and its sine and
cosine must not both vanish. -/
theorem C114_geocentric (hp : 1 ≤ p) (h : Nearest p fl) (lib : Libm) {a f lat height : ℝ} (ha : IsFloat p a)
    (ha0 : 0 < a) (hf0 : 0 ≤ f) (hf1 : f ≤ 1 / 4) (hh : -(a / 2) < height)
    (hs : |lib.sin lat| ≤ 1) (hsc : lib.sin lat ≠ 0 ∨ lib.cos lat ≠ 0) :
    Numbers (toGeocentric (CF.num a : CF fl lib) (CF.num f) (CF.num lat) (CF.num height)) := by
  obtain ⟨hs1, hs2⟩ := abs_le.1 hs
  set s := lib.sin lat with hsdef
  set c := lib.cos lat with hcdef
  set e := fl (f * fl (2 - f)) with he
  have two : IsFloat p (2 : ℝ) := by simpa using isFloat_zpow hp 1
  have half : IsFloat p (1 / 2 : ℝ) := by simpa using isFloat_zpow hp (-1)
  have g1 : fl (2 - f) ≤ 2 := h.le_float two (by linarith)
  have g0 : 0 ≤ fl (2 - f) := h.nonneg (by linarith)
  have e0 : 0 ≤ e := h.nonneg (mul_nonneg hf0 g0)
  have e1 : e ≤ 1 / 2 := h.le_float half (by nlinarith)
  have half' : IsFloat p (-(1 / 2) : ℝ) := half.neg
  have t1 : fl (e * s) ≤ 1 / 2 := h.le_float half (by nlinarith)
  have t2 : -(1 / 2) ≤ fl (e * s) := h.float_le half' (by nlinarith)
  have q1 : fl (fl (e * s) * s) ≤ 1 / 2 := h.le_float half (by nlinarith [abs_le.2 ⟨t2, t1⟩, abs_le.2 ⟨hs1, hs2⟩])
  have q0 : 0 ≤ fl (fl (e * s) * s) := by
    apply h.nonneg
    rcases le_total 0 s with hs0 | hs0
    · exact mul_nonneg (h.nonneg (mul_nonneg e0 hs0)) hs0
    · exact mul_nonneg_of_nonpos_of_nonpos (h.le_float isFloat_zero (mul_nonpos_of_nonneg_of_nonpos e0 hs0)) hs0
  have r0 : 0 < fl (1 - fl (fl (e * s) * s)) := h.pos hp (by linarith)
  have r1 : fl (1 - fl (fl (e * s) * s)) ≤ 1 := h.le_float (isFloat_one hp) (by linarith)
  set r := fl √(fl (1 - fl (fl (e * s) * s))) with hr
  have r2 : 0 < r := h.pos hp (Real.sqrt_pos.2 r0)
  have r3 : r ≤ 1 := h.le_float (isFloat_one hp) (Real.sqrt_le_one.2 r1)
  set v := fl (a / r) with hv
  have v0 : a ≤ v := h.float_le ha (by rw [le_div_iff₀ r2]; nlinarith)
  have k0 : 1 / 2 ≤ fl (1 - e) := h.float_le half (by linarith)
  have a2 : IsFloat p (a / 2) := by
    have := ha.scale (-1)
    rwa [show a * 2 ^ (-1 : ℤ) = a / 2 by rw [zpow_neg_one]; rfl] at this
  have w0 : a / 2 ≤ fl (v * fl (1 - e)) := h.float_le a2 (by nlinarith)
  have A : 0 < fl (v + height) := h.pos hp (by linarith)
  have B : 0 < fl (fl (v * fl (1 - e)) + height) := h.pos hp (by linarith)
  set P := fl (fl (v + height) * c) with hP
  set Z := fl (fl (fl (v * fl (1 - e)) + height) * s) with hZ
  have u0 : fl (Z * Z) ≤ fl (fl (P * P) + fl (Z * Z)) := h.le_add (h.nonneg (mul_self_nonneg _)) (h.float _)
  have u2 : fl (P * P) ≤ fl (fl (P * P) + fl (Z * Z)) :=
    h.float_le (h.float _) (by linarith [h.nonneg (mul_self_nonneg Z)])
  have u1 := (h.nonneg (mul_self_nonneg Z)).trans u0
  have zpos : ∀ {x y : ℝ}, 0 < x → y ≠ 0 → fl (x * y) ≠ 0 := by
    intro x y hx hy h0
    have := h.accurate hp (x * y)
    rw [h0, zero_sub, abs_neg] at this
    have h2 : (2 : ℝ) ^ (-p : ℤ) ≤ 1 / 2 := by
      calc (2 : ℝ) ^ (-p : ℤ) ≤ 2 ^ (-1 : ℤ) := zpow_le_zpow_right₀ (by norm_num) (by omega)
        _ = _ := by norm_num
    have : 0 < |x * y| := abs_pos.2 (mul_ne_zero hx.ne' hy)
    nlinarith
  have upos : 0 < fl (fl (P * P) + fl (Z * Z)) := by
    rcases hsc with hc | hc
    · exact lt_of_lt_of_le (h.pos hp (mul_self_pos.2 (zpos B hc))) u0
    · exact lt_of_lt_of_le (h.pos hp (mul_self_pos.2 (zpos A hc))) u2
  have rne := (h.pos hp (Real.sqrt_pos.2 upos)).ne'
  unfold toGeocentric
  dsimp only
  simp only [cf_one, cf_add, h.two hp, cf_sub, cf_mul, cf_sin, cf_cos, ← hsdef, ← hcdef, ← he, cf_sqrt r0.le, ← hr,
    cf_div _ r2.ne', ← hv, ← hP, ← hZ, cf_sqrt u1]
  intro i
  fin_cases i
  · exact num_ne_nan _
  · show Scalar.asin (_ / _) ≠ _
    rw [cf_div _ rne, cf_asin (h.ratio hp (h.float _) u0 rne)]
    exact num_ne_nan _

/-- The hypotheses are satisfiable: rounding to 53 bits, and the point (1, 2, 3). -/
example : Nearest 53 (rnd 53) ∧ ∀ i, IsFloat 53 ((![1, 2, 3] : Fin 3 → ℝ) i) := by
  refine ⟨rnd_nearest (by norm_num), fun i => ?_⟩
  fin_cases i
  · exact ⟨1, 0, by norm_num, by norm_num⟩
  · exact ⟨2, 0, by norm_num, by norm_num⟩
  · exact ⟨3, 0, by norm_num, by norm_num⟩

/-- The Earth's ellipsoid, to the bit: `6378137` and `1 / 298.257223563` rounded to 53 bits. -/
example : IsFloat 53 (6378137 : ℝ) ∧
    ((7731055032525096 : ℤ) * 2 ^ (-61 : ℤ) : ℝ) ≤ 1 / 4 := by
  refine ⟨⟨6378137, 0, by norm_num, by norm_num⟩, by norm_num⟩

/-- A library whose sine and cosine are the real ones meets the condition of `C114_geocentric` at every latitude. -/
example (lat : ℝ) : |Real.sin lat| ≤ 1 ∧ (Real.sin lat ≠ 0 ∨ Real.cos lat ≠ 0) := by
  refine ⟨Real.abs_sin_le_one lat, ?_⟩
  by_contra hc
  rw [not_or, not_not, not_not] at hc
  have := Real.sin_sq_add_cos_sq lat
  rw [hc.1, hc.2] at this
  norm_num at this

end Verif.Float
