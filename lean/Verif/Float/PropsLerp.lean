import Verif.Float.Eval
import Verif.Float.Lerp
import Verif.Round.Spec

/-!
# C117, C119: linear interpolation in floating point
-/

namespace Verif.Float

open Verif.Simd (Fl Accurate)

variable {fl : ℝ → ℝ} {p : ℕ}

/-- **C117**: `t = 0` gives the first endpoint, exactly. -/
theorem C117_start (h : Nearest p fl) (a b : Fl fl) (ha : IsFloat p a.val) : (lerp a b 0).val = a.val := by
  show fl (a.val + fl (fl (b.val - a.val) * 0)) = a.val
  rw [mul_zero, h.fix isFloat_zero, add_zero, h.fix ha]

/-- **C117**: rounded interpolation is monotone in the parameter. -/
theorem C117_monotone (h : Nearest p fl) (a b s t : Fl fl) (hst : s.val ≤ t.val) :
    (a.val ≤ b.val → (lerp a b s).val ≤ (lerp a b t).val) ∧
      (b.val ≤ a.val → (lerp a b t).val ≤ (lerp a b s).val) := by
  show (_ → fl (a.val + fl (fl (b.val - a.val) * s.val)) ≤ fl (a.val + fl (fl (b.val - a.val) * t.val))) ∧
    (_ → fl (a.val + fl (fl (b.val - a.val) * t.val)) ≤ fl (a.val + fl (fl (b.val - a.val) * s.val)))
  constructor
  · intro hab
    have : 0 ≤ fl (b.val - a.val) := h.nonneg (by linarith)
    have := h.mono (mul_le_mul_of_nonneg_left hst this)
    exact h.mono (by linarith)
  · intro hab
    have : fl (b.val - a.val) ≤ 0 := h.le_float isFloat_zero (by linarith)
    have := h.mono (mul_le_mul_of_nonpos_left hst this)
    exact h.mono (by linarith)

/-- **C119** (partial): if the endpoints are positive and within a factor of two of each other, `t = 1` gives the second
endpoint exactly, and values for parameters between 0 and 1 lie between the endpoints. Missing: endpoints further apart, where both claims
fail (`C119_end_fails`, `C119_range_fails`). -/
theorem C119_end_partial (h : Nearest p fl) (a b : Fl fl) (ha : IsFloat p a.val) (hb : IsFloat p b.val)
    (h0 : 0 < a.val) (h1 : a.val ≤ 2 * b.val) (h2 : b.val ≤ 2 * a.val) :
    (lerp a b ⟨1⟩).val = b.val ∧
      ∀ t : Fl fl, 0 ≤ t.val → t.val ≤ 1 →
        min a.val b.val ≤ (lerp a b t).val ∧ (lerp a b t).val ≤ max a.val b.val := by
  have hd : IsFloat p (b.val - a.val) := by
    have hb0 : 0 < b.val := by linarith
    apply hb.sub_exact ha
    · rw [abs_of_pos hb0, abs_le]
      constructor <;> linarith
    · rw [abs_of_pos h0, abs_le]
      constructor <;> linarith
  have e1 : (lerp a b ⟨1⟩).val = b.val := by
    show fl (a.val + fl (fl (b.val - a.val) * 1)) = b.val
    rw [mul_one, h.fix (h.float _), h.fix hd, add_sub_cancel, h.fix hb]
  refine ⟨e1, fun t t0 t1 => ?_⟩
  have s0 := C117_monotone h a b 0 t t0
  have s1 := C117_monotone h a b t ⟨1⟩ t1
  rw [e1] at s1
  rw [C117_start h a b ha] at s0
  rcases le_total a.val b.val with hab | hab
  · exact ⟨min_le_of_left_le (s0.1 hab), le_max_of_le_right (s1.1 hab)⟩
  · exact ⟨min_le_of_right_le (s1.2 hab), le_max_of_le_left (s0.2 hab)⟩

/-- **C117**: the error against exact interpolation. It is relative to the size of the endpoints, not to the
result. -/
theorem C117_error {u : ℝ} (hu0 : 0 ≤ u) (hu1 : u ≤ 1) (hf : Accurate fl u) (a b t : Fl fl) (ht0 : 0 ≤ t.val)
    (ht1 : t.val ≤ 1) :
    |(lerp a b t).val - (a.val + (b.val - a.val) * t.val)| ≤ u * |a.val| + 8 * u * |b.val - a.val| := by
  show |fl (a.val + fl (fl (b.val - a.val) * t.val)) - _| ≤ _
  have e1 := hf (b.val - a.val)
  set d := b.val - a.val
  set D := fl d
  have e2 := hf (D * t.val)
  set E := fl (D * t.val)
  have e3 := hf (a.val + E)
  set R := fl (a.val + E)
  have t1 : |t.val| ≤ 1 := by rw [abs_of_nonneg ht0]; exact ht1
  have hD : |D| ≤ (1 + u) * |d| := by
    calc |D| = |(D - d) + d| := by ring_nf
      _ ≤ |D - d| + |d| := abs_add_le _ _
      _ ≤ _ := by linarith
  have hd0 := abs_nonneg d
  have hDt : |D * t.val| ≤ (1 + u) * |d| := by
    rw [abs_mul]
    calc |D| * |t.val| ≤ |D| * 1 := mul_le_mul_of_nonneg_left t1 (abs_nonneg _)
      _ ≤ _ := by linarith
  have hE1 : |E - d * t.val| ≤ u * ((1 + u) * |d|) + u * |d| := by
    calc |E - d * t.val| = |(E - D * t.val) + (D - d) * t.val| := by ring_nf
      _ ≤ |E - D * t.val| + |(D - d) * t.val| := abs_add_le _ _
      _ ≤ u * |D * t.val| + |D - d| * 1 := by
          rw [abs_mul]
          exact add_le_add e2 (mul_le_mul_of_nonneg_left t1 (abs_nonneg _))
      _ ≤ _ := by nlinarith
  have hdt : |d * t.val| ≤ |d| := by
    rw [abs_mul]
    calc |d| * |t.val| ≤ |d| * 1 := mul_le_mul_of_nonneg_left t1 (abs_nonneg _)
      _ = _ := mul_one _
  have hE : |E| ≤ |d| + (u * ((1 + u) * |d|) + u * |d|) := by
    calc |E| = |(E - d * t.val) + d * t.val| := by ring_nf
      _ ≤ |E - d * t.val| + |d * t.val| := abs_add_le _ _
      _ ≤ _ := by linarith
  have hs : |a.val + E| ≤ |a.val| + |E| := abs_add_le _ _
  calc |R - (a.val + d * t.val)| = |(R - (a.val + E)) + (E - d * t.val)| := by ring_nf
    _ ≤ |R - (a.val + E)| + |E - d * t.val| := abs_add_le _ _
    _ ≤ u * (|a.val| + |E|) + (u * ((1 + u) * |d|) + u * |d|) := by nlinarith
    _ ≤ u * (|a.val| + (|d| + (u * ((1 + u) * |d|) + u * |d|))) + (u * ((1 + u) * |d|) + u * |d|) := by nlinarith
    _ ≤ _ := by
      have h1 : u * (u * |d|) ≤ u * |d| := mul_le_of_le_one_left (by positivity) hu1 |>.trans_eq' (by ring)
      have h2 : u * (u * (u * |d|)) ≤ u * |d| := le_trans (mul_le_of_le_one_left (by positivity) hu1) h1
      nlinarith

/-- **C119** fails at `t = 1`: from `2⁶⁰` to `1` in `f64` the interpolation ends at `0`. -/
theorem C119_end_fails (h : Nearest 53 fl) :
    IsFloat 53 ((2 : ℝ) ^ (60 : ℤ)) ∧ IsFloat 53 (1 : ℝ) ∧ (lerp (⟨2 ^ (60 : ℤ)⟩ : Fl fl) ⟨1⟩ ⟨1⟩).val = 0 := by
  have f60 := isFloat_zpow (p := 53) (by norm_num) 60
  refine ⟨f60, isFloat_one (by norm_num), ?_⟩
  show fl (2 ^ (60 : ℤ) + fl (fl (1 - 2 ^ (60 : ℤ)) * 1)) = 0
  have e : fl (1 - 2 ^ (60 : ℤ)) = -2 ^ (60 : ℤ) := by
    apply h.eq_of f60.neg
    intro z hz hne
    by_contra hc
    have hc := not_lt.1 hc
    rw [show (-2 ^ (60 : ℤ) - (1 - 2 ^ (60 : ℤ)) : ℝ) = -1 by ring, abs_neg, abs_one] at hc
    obtain ⟨c1, c2⟩ := abs_le.1 hc
    have e60 : (2 : ℝ) ^ (60 : ℤ) = 1152921504606846976 := by norm_num
    rw [e60] at c1 c2 hne
    have hk : (2 : ℝ) ^ (59 : ℤ) ≤ |z| := by
      rw [abs_of_neg (by linarith), show (2 : ℝ) ^ (59 : ℤ) = 576460752303423488 by norm_num]
      linarith
    obtain ⟨m, hm⟩ := hz.grid hk
    rw [show (59 + 1 - ((53 : ℕ) : ℤ)) = (7 : ℤ) by norm_num, show (2 : ℝ) ^ (7 : ℤ) = 128 by norm_num] at hm
    have l1 : ((-1152921504606846976 : ℤ) : ℝ) ≤ ((m * 128 : ℤ) : ℝ) := by push_cast; linarith
    have l2 : ((m * 128 : ℤ) : ℝ) ≤ ((2 - 1152921504606846976 : ℤ) : ℝ) := by push_cast; linarith
    have l1 : (-1152921504606846976 : ℤ) ≤ m * 128 := by exact_mod_cast l1
    have l2 : m * 128 ≤ (2 - 1152921504606846976 : ℤ) := by exact_mod_cast l2
    have : m = -9007199254740992 := by omega
    apply hne
    rw [hm, this]
    norm_num
  rw [e, mul_one, h.fix f60.neg, add_neg_cancel, h.fix isFloat_zero]

/-- **C119** fails to stay between the endpoints: from `-2⁵⁴` to `3` in `f64` the interpolation ends at `4`. -/
theorem C119_range_fails (h : Nearest 53 fl) :
    IsFloat 53 (-(2 : ℝ) ^ (54 : ℤ)) ∧ IsFloat 53 (3 : ℝ) ∧ (lerp (⟨-2 ^ (54 : ℤ)⟩ : Fl fl) ⟨3⟩ ⟨1⟩).val = 4 := by
  have f54 := isFloat_zpow (p := 53) (by norm_num) 54
  refine ⟨f54.neg, ⟨3, 0, by norm_num, by norm_num⟩, ?_⟩
  show fl (-2 ^ (54 : ℤ) + fl (fl (3 - -2 ^ (54 : ℤ)) * 1)) = 4
  have e : fl (3 - -2 ^ (54 : ℤ)) = (4503599627370497 : ℤ) * 2 ^ (54 + 1 - ((53 : ℕ) : ℤ)) := by
    apply h.eq_grid (by norm_num)
    · norm_num
    · norm_num
    · rw [abs_lt]
      constructor <;> norm_num
  have f4 : IsFloat 53 (4 : ℝ) := ⟨4, 0, by norm_num, by norm_num⟩
  rw [mul_one, h.fix (h.float _), e]
  rw [show (-2 ^ (54 : ℤ) + (4503599627370497 : ℤ) * 2 ^ (54 + 1 - ((53 : ℕ) : ℤ)) : ℝ) = 4 by norm_num, h.fix f4]

/-- The hypotheses are satisfiable: rounding exists, it is accurate, and 2 and 3 are within a factor of two. -/
example : Nearest 53 (rnd 53) ∧ Accurate (rnd 53) (2 ^ (-(53 : ℕ) : ℤ)) ∧ IsFloat 53 (2 : ℝ) ∧ IsFloat 53 (3 : ℝ) ∧
    (2 : ℝ) ≤ 2 * 3 ∧ (3 : ℝ) ≤ 2 * 2 :=
  ⟨rnd_nearest (by norm_num), (rnd_nearest (by norm_num)).accurate (by norm_num), ⟨2, 0, by norm_num, by norm_num⟩,
    ⟨3, 0, by norm_num, by norm_num⟩, by norm_num, by norm_num⟩

end Verif.Float
