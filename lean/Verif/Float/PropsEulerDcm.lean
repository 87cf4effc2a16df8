import Verif.Float.Eval

/-!
# C115: Euler angles of a rotation matrix in floating point
-/

namespace Verif.Float

open Verif.Mat (Mat)
open Verif.Att (Quat)

variable {fl : ℝ → ℝ} {p : ℕ}

/-- **C115** (partial): the Euler angles of a matrix are numbers if the entry whose inverse sine is taken is within
`[-1, 1]`. Missing: this is not so for every matrix the library computes from a unit quaternion, see `C115_fails`. -/
theorem C115_in_range_partial (lib : Libm) (m : Fin 3 → Fin 3 → ℝ) (hm : |m 0 2| ≤ 1) :
    ∀ i, eulerOfDcm (fun r c => (CF.num (m r c) : CF fl lib)) i ≠ CF.nan := by
  unfold eulerOfDcm
  dsimp only
  rw [cf_asin hm, cf_neg, cf_atan2, cf_atan2]
  intro i
  fin_cases i <;> exact num_ne_nan _

/-- The `f64` nearest to the square root of one half, `core::f64::consts::FRAC_1_SQRT_2`. -/
noncomputable def rootHalf : ℝ := (6369051672525773 : ℤ) * 2 ^ (-53 : ℤ)

/-- `rootHalf` is what rounding gives for the square root of one half. -/
theorem rootHalf_eq (h : Nearest 53 fl) : fl √(1 / 2) = rootHalf := by
  have e : (-53 : ℤ) = -1 + 1 - ((53 : ℕ) : ℤ) := by norm_num
  unfold rootHalf
  rw [e]
  apply h.eq_grid (by norm_num)
  · rw [show (2 : ℝ) ^ (-1 : ℤ) = 1 / 2 by norm_num]
    exact Real.le_sqrt_of_sq_le (by norm_num)
  · norm_num
  · rw [← e]
    have h1 : √(1 / 2 : ℝ) < (6369051672525773 : ℤ) * 2 ^ (-53 : ℤ) :=
      (Real.sqrt_lt' (by norm_num)).2 (by norm_num)
    have h2 : (6369051672525773 : ℤ) * 2 ^ (-53 : ℤ) - 2 ^ (-53 : ℤ) / 2 < √(1 / 2 : ℝ) :=
      Real.lt_sqrt_of_sq_lt (by norm_num)
    rw [abs_of_pos (by linarith)]
    linarith

/-- **C115** fails: the quaternion of a turn by a right angle about the second axis, with both its components rounded
to the nearest `f64`, converts to a matrix with an entry beyond one, so that the pitch is NaN. It does so for every way
to break ties and every mathematics library. -/
theorem C115_fails (h : Nearest 53 fl) (lib : Libm) :
    rootHalf = fl √(1 / 2) ∧
      eulerOfDcm (dcmOfQuat ⟨(CF.num rootHalf : CF fl lib), CF.num 0, CF.num rootHalf, CF.num 0⟩) 1 = CF.nan := by
  refine ⟨(rootHalf_eq h).symm, ?_⟩
  have hp : 1 ≤ 53 := by norm_num
  have e1 : fl (rootHalf * rootHalf) = (4503599627370497 : ℤ) * 2 ^ (-53 : ℤ) := by
    have e : (-53 : ℤ) = -1 + 1 - ((53 : ℕ) : ℤ) := by norm_num
    rw [e]
    apply h.eq_grid hp
    · unfold rootHalf; norm_num
    · norm_num
    · rw [← e, abs_lt]
      unfold rootHalf
      constructor <;> norm_num
  have f1 : IsFloat 53 ((4503599627370497 : ℤ) * 2 ^ (-53 : ℤ) : ℝ) := ⟨_, _, by norm_num, rfl⟩
  have e2 : fl (fl (0 * 0) - fl (rootHalf * rootHalf)) = -((4503599627370497 : ℤ) * 2 ^ (-53 : ℤ)) := by
    rw [e1, zero_mul, h.fix isFloat_zero, zero_sub, h.fix f1.neg]
  have e3 : fl (2 * -((4503599627370497 : ℤ) * 2 ^ (-53 : ℤ))) = -(4503599627370497 * 2 ^ (-52 : ℤ)) := by
    have : IsFloat 53 (2 * -((4503599627370497 : ℤ) * 2 ^ (-53 : ℤ)) : ℝ) := by
      have := f1.neg.scale 1
      rwa [zpow_one, mul_comm] at this
    rw [h.fix this]
    norm_num
  unfold eulerOfDcm dcmOfQuat
  dsimp only [Matrix.cons_val_zero, Matrix.cons_val_one, Matrix.cons_val]
  simp only [cf_one, cf_add, h.two hp, cf_mul, cf_sub, e2, e3]
  rw [cf_asin_nan]
  · rfl
  · norm_num

/-- Rounding to nearest exists, and `C115_in_range_partial` applies to the identity matrix. -/
example : Nearest 53 (rnd 53) ∧ |(![![1, 0, 0], ![0, 1, 0], ![0, 0, 1]] : Fin 3 → Fin 3 → ℝ) 0 2| ≤ 1 :=
  ⟨rnd_nearest (by norm_num), by simp⟩

end Verif.Float
