import Verif.Float.Eval
import Verif.Float.Lerp
import Verif.Round.Spec

/-!
# C118: the interpolation parameter in floating point
-/

namespace Verif.Float

open Verif.Simd (Fl)
open Verif.Mat (absV)

variable {fl : ℝ → ℝ} {p : ℕ}

/-- `inverse_lerp` on numbers. -/
theorem inverseLerp_val (eps a b v : Fl fl) :
    (inverseLerp eps a b v).val =
      if |fl (b.val - a.val)| ≤ eps.val then 0 else fl (fl (v.val - a.val) / fl (b.val - a.val)) := by
  unfold inverseLerp
  dsimp only
  by_cases hc : |fl (b.val - a.val)| ≤ eps.val
  · rw [if_pos hc, if_pos (show absV (b - a) ≤ eps from hc)]
    rfl
  · rw [if_neg hc, if_neg (show ¬ absV (b - a) ≤ eps from hc)]
    rfl

/-- **C118**: the parameter of the first endpoint is exactly 0. -/
theorem C118_first (h : Nearest p fl) (eps a b : Fl fl) : (inverseLerp eps a b a).val = 0 := by
  rw [inverseLerp_val, sub_self, h.fix isFloat_zero, zero_div, h.fix isFloat_zero]
  split_ifs <;> rfl

/-- **C118**: the parameter of the second endpoint is exactly 1, unless the endpoints are within the tolerance. -/
theorem C118_second (hp : 1 ≤ p) (h : Nearest p fl) (eps a b : Fl fl) (he : 0 ≤ eps.val)
    (hab : eps.val < |fl (b.val - a.val)|) : (inverseLerp eps a b b).val = 1 := by
  have h0 : fl (b.val - a.val) ≠ 0 := by
    intro h0
    rw [h0, abs_zero] at hab
    linarith
  rw [inverseLerp_val, if_neg (not_le.2 hab), div_self h0, h.fix (isFloat_one hp)]

/-- **C118**: the parameter of a value between the endpoints is within `[0, 1]`, in floating point as well. -/
theorem C118_range (hp : 1 ≤ p) (h : Nearest p fl) (eps a b v : Fl fl) (h1 : min a.val b.val ≤ v.val)
    (h2 : v.val ≤ max a.val b.val) : 0 ≤ (inverseLerp eps a b v).val ∧ (inverseLerp eps a b v).val ≤ 1 := by
  rw [inverseLerp_val]
  by_cases hc : |fl (b.val - a.val)| ≤ eps.val
  · rw [if_pos hc]
    norm_num
  rw [if_neg hc]
  rcases le_total a.val b.val with hab | hab
  · rw [min_eq_left hab] at h1
    rw [max_eq_right hab] at h2
    have n1 : 0 ≤ fl (v.val - a.val) := h.nonneg (by linarith)
    have n2 : fl (v.val - a.val) ≤ fl (b.val - a.val) := h.mono (by linarith)
    refine ⟨h.nonneg (div_nonneg n1 (n1.trans n2)), h.le_float (isFloat_one hp) (div_le_one_of_le₀ n2 (n1.trans n2))⟩
  · rw [min_eq_right hab] at h1
    rw [max_eq_left hab] at h2
    have n1 : fl (v.val - a.val) ≤ 0 := h.le_float isFloat_zero (by linarith)
    have n2 : fl (b.val - a.val) ≤ fl (v.val - a.val) := h.mono (by linarith)
    refine ⟨h.nonneg (div_nonneg_of_nonpos n1 (n2.trans n1)), h.le_float (isFloat_one hp) ?_⟩
    rw [← neg_div_neg_eq]
    exact div_le_one_of_le₀ (by linarith) (by linarith)

/-- **C118**: the parameter is monotone in the value, for endpoints in increasing order. -/
theorem C118_monotone (h : Nearest p fl) (eps a b v w : Fl fl) (hab : a.val ≤ b.val) (hvw : v.val ≤ w.val) :
    (inverseLerp eps a b v).val ≤ (inverseLerp eps a b w).val := by
  rw [inverseLerp_val, inverseLerp_val]
  by_cases hc : |fl (b.val - a.val)| ≤ eps.val
  · rw [if_pos hc, if_pos hc]
  rw [if_neg hc, if_neg hc]
  have h0 : 0 ≤ fl (b.val - a.val) := h.nonneg (by linarith)
  have h1 := h.mono (sub_le_sub_right hvw a.val)
  exact h.mono (div_le_div_of_nonneg_right h1 h0)

/-- **C118**: remapping the start of the input range gives the start of the output range, exactly. -/
theorem C118_remap_first (h : Nearest p fl) (eps inA inB outA outB : Fl fl) (ho : IsFloat p outA.val) :
    (remap eps inA inA inB outA outB).val = outA.val := by
  show fl (outA.val + fl (fl (outB.val - outA.val) * (inverseLerp eps inA inB inA).val)) = outA.val
  rw [C118_first h, mul_zero, h.fix isFloat_zero, add_zero, h.fix ho]

/-- The hypotheses are satisfiable: rounding to 53 bits, and endpoints 1 and 3 with the value 2. -/
example : Nearest 53 (rnd 53) ∧ min (1 : ℝ) 3 ≤ 2 ∧ (2 : ℝ) ≤ max 1 3 ∧ (2 : ℝ) ^ (-52 : ℤ) < |rnd 53 (3 - 1)| := by
  refine ⟨rnd_nearest (by norm_num), by norm_num, by norm_num, ?_⟩
  rw [show (3 - 1 : ℝ) = 2 by norm_num, (rnd_nearest (by norm_num)).fix ⟨2, 0, by norm_num, by norm_num⟩]
  norm_num

end Verif.Float
