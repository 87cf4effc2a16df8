import Verif.Stats.PropsCovIeee
import Verif.Units.PropsUnitsIeee

/-!
# Covariances from correlations in machine arithmetic (C241)
-/

namespace Verif.Stats.Ie

open Verif.Ieee Verif.Mat Verif.ML.Ie Verif.Units

variable {F : Format} {fl : ℝ → ℝ} {n : ℕ}

/-- A number of the format that is not below `2 ^ (p - 1 + e)` is a multiple of `2 ^ e`. -/
theorem grid_multiple {y : ℝ} {e : ℤ} (hy : OnGrid F y) (h1 : 2 ^ (F.p - 1 + e) ≤ y) : ∃ k : ℤ, y = k * 2 ^ e := by
  obtain ⟨m, e', hm, -, rfl⟩ := hy
  have hpos : (0 : ℝ) < 2 ^ e' := by positivity
  have hm' : (m : ℝ) < 2 ^ (F.p : ℤ) := by
    have := (abs_lt.1 hm).2
    rw [zpow_natCast]
    exact_mod_cast this
  have hlt : (2 : ℝ) ^ (F.p - 1 + e) < 2 ^ (F.p + e') := by
    rw [zpow_add₀ (by norm_num : (2 : ℝ) ≠ 0) (F.p : ℤ)]
    exact lt_of_le_of_lt h1 (mul_lt_mul_of_pos_right hm' hpos)
  have he : e ≤ e' := by
    have := (zpow_lt_zpow_iff_right₀ (by norm_num : (1 : ℝ) < 2)).1 hlt
    omega
  obtain ⟨j, hj⟩ := Int.eq_ofNat_of_zero_le (show 0 ≤ e' - e by omega)
  refine ⟨m * 2 ^ j, ?_⟩
  rw [show e' = j + e by omega, zpow_add₀ (by norm_num), zpow_natCast]
  push_cast
  ring

/-- A value that is nearer to one number than half the distance to the next is rounded to it. -/
theorem rounds_to (hp : 1 ≤ F.p) (h : Rounds F fl) {x : ℝ} {m e : ℤ} (he : F.emin ≤ e) (hm : |m| ≤ 2 ^ F.p) (h1 : 2 ^ (F.p - 1 + e) ≤ x) (h2 : |x - m * 2 ^ e| < 2 ^ e / 2) :
    fl x = m * 2 ^ e := by
  have hlow : (2 : ℝ) ^ (F.p - 1 + e) ≤ fl x := by
    have := h.mono h1
    rwa [h.fix (onGrid_pow hp (by omega))] at this
  obtain ⟨k, hk⟩ := grid_multiple (h x).1 hlow
  have hnear := (h x).2 _ (onGrid_of_le hp hm he)
  rw [hk] at hnear ⊢
  have hpos : (0 : ℝ) < 2 ^ e := by positivity
  have hd : |((k - m : ℤ) : ℝ)| < 1 := by
    have : |((k - m : ℤ) : ℝ) * 2 ^ e| < 1 * 2 ^ e := by
      have e1 : ((k - m : ℤ) : ℝ) * 2 ^ e = (k * 2 ^ e - x) + (x - m * 2 ^ e) := by push_cast; ring
      rw [e1]
      have := abs_add_le (k * 2 ^ e - x) (x - m * 2 ^ e)
      rw [abs_sub_comm] at h2
      rw [abs_sub_comm x] at this
      linarith
    rw [abs_mul, abs_of_pos hpos] at this
    exact lt_of_mul_lt_mul_right this hpos.le
  have : |k - m| < 1 := by exact_mod_cast hd
  have : k = m := by rw [Int.abs_lt_one_iff] at this; omega
  rw [this]

theorem cov_zero : Finite F 0 := ⟨onGrid_zero, by rw [abs_zero]; positivity⟩

/-- The entries, in any arithmetic. -/
theorem covOf_entry {α : Type} [Zero α] [Mul α] (corr : Mat α n n) (sd : Fin n → α) (i j : Fin n) : covarianceOf corr sd i j = corr i j * sd i * sd j := by
  unfold covarianceOf
  rw [fillLoop_apply]

/-! ## Properties -/

/-- **C241, exact arithmetic**: the covariance of a symmetric matrix of correlations is symmetric. -/
theorem C241_exact (corr : Mat ℝ n n) (sd : Fin n → ℝ) (hs : ∀ i j, corr i j = corr j i) (i j : Fin n) : covarianceOf corr sd i j = covarianceOf corr sd j i := by
  rw [covOf_entry, covOf_entry, hs]
  ring

/-- **C241** does not hold in `f64`: for two axes with the standard deviations 5 and 7 and the correlation 0.1, the computed covariance is 3.5 above the diagonal and
`3.5 + 2 ^ -51` below it. -/
theorem C241_fails (h : Rounds binary64 fl) :
    covarianceOf (fun i j : Fin 2 => if i = j then 1 else IE.ofReal 0.1) ![IE.num 5, IE.num 7] 0 1 = (IE.num 3.5 : IE binary64 fl) ∧
      covarianceOf (fun i j : Fin 2 => if i = j then 1 else IE.ofReal 0.1) ![IE.num 5, IE.num 7] 1 0 = (IE.num (3.5 + 2 ^ (-51 : ℤ)) : IE binary64 fl) := by
  have key : ∀ {x : ℝ} (m e : ℤ), -1074 ≤ e → e ≤ 0 → |m| ≤ 2 ^ 53 → 2 ^ (52 + e) ≤ x → |x - m * 2 ^ e| < 2 ^ e / 2 → (IE.ofReal x : IE binary64 fl) = IE.num (m * 2 ^ e) := by
    intro x m e he he' hm h1 h2
    have := rounds_to (F := binary64) (by decide) h (x := x) (m := m) (e := e) he hm (by simpa [binary64] using h1) h2
    rw [← this]
    refine ofReal_num ?_
    rw [this, abs_mul, abs_of_pos (by positivity : (0 : ℝ) < 2 ^ e)]
    have hm' : |(m : ℝ)| ≤ 2 ^ 53 := by exact_mod_cast hm
    have he2 : (2 : ℝ) ^ e ≤ 1 := zpow_le_one_of_nonpos₀ (by norm_num) he'
    calc |(m : ℝ)| * 2 ^ e ≤ 2 ^ 53 * 1 := mul_le_mul hm' he2 (by positivity) (by positivity)
      _ < 2 ^ binary64.emax := by
        rw [mul_one, ← zpow_natCast]
        exact zpow_lt_zpow_right₀ (by norm_num) (by decide)
  have e1 : (IE.ofReal 0.1 : IE binary64 fl) = IE.num (7205759403792794 * 2 ^ (-56 : ℤ)) := by
    have := key (x := 0.1) 7205759403792794 (-56) (by norm_num) (by norm_num) (by norm_num) (by norm_num) (by rw [abs_lt]; norm_num)
    exact_mod_cast this
  have e2 : (IE.ofReal (7205759403792794 * 2 ^ (-56 : ℤ) * 5) : IE binary64 fl) = IE.num (1 / 2) := by
    have := key (x := 7205759403792794 * 2 ^ (-56 : ℤ) * 5) 4503599627370496 (-53) (by norm_num) (by norm_num) (by norm_num) (by norm_num) (by rw [abs_lt]; norm_num)
    rw [this]
    norm_num
  have e3 : (IE.ofReal (1 / 2 * 7) : IE binary64 fl) = IE.num 3.5 := by
    have := key (x := 1 / 2 * 7) 7881299347898368 (-51) (by norm_num) (by norm_num) (by norm_num) (by norm_num) (by rw [abs_lt]; norm_num)
    rw [this]
    norm_num
  have e4 : (IE.ofReal (7205759403792794 * 2 ^ (-56 : ℤ) * 7) : IE binary64 fl) = IE.num (6305039478318695 * 2 ^ (-53 : ℤ)) := by
    have := key (x := 7205759403792794 * 2 ^ (-56 : ℤ) * 7) 6305039478318695 (-53) (by norm_num) (by norm_num) (by norm_num) (by norm_num) (by rw [abs_lt]; norm_num)
    exact_mod_cast this
  have e5 : (IE.ofReal (6305039478318695 * 2 ^ (-53 : ℤ) * 5) : IE binary64 fl) = IE.num (3.5 + 2 ^ (-51 : ℤ)) := by
    have := key (x := 6305039478318695 * 2 ^ (-53 : ℤ) * 5) 7881299347898369 (-51) (by norm_num) (by norm_num) (by norm_num) (by norm_num) (by rw [abs_lt]; norm_num)
    rw [this]
    norm_num
  refine ⟨?_, ?_⟩
  · rw [covOf_entry, if_neg (by decide), e1]
    change IE.num _ * IE.num 5 * IE.num 7 = (_ : IE binary64 fl)
    rw [mul_num, e2, mul_num, e3]
  · rw [covOf_entry, if_neg (by decide), e1]
    change IE.num _ * IE.num 7 * IE.num 5 = (_ : IE binary64 fl)
    rw [mul_num, e4, mul_num, e5]

/-- **C241**, the proved part: `f32` or `f64`, correlations that are zero or of size `2 ^ -40` to 1, standard deviations of `2 ^ -40` to `2 ^ 40`. Every computed entry is a finite
number within three roundings of the product, so that entries across the diagonal agree up to six roundings.
Missing: that they are equal, which `C241_fails` refutes. -/
theorem C241_partial (hF : Single F) (h : Rounds F fl) (corr : Mat ℝ n n) (sd : Fin n → ℝ) (hs : ∀ i j, corr i j = corr j i)
    (hc : ∀ i j, corr i j = 0 ∨ 2 ^ (-40 : ℤ) ≤ |corr i j| ∧ |corr i j| ≤ 1) (hd : ∀ i, 2 ^ (-40 : ℤ) ≤ sd i ∧ sd i ≤ 2 ^ (40 : ℤ)) :
    ∃ S : Mat ℝ n n, (∀ i j, covarianceOf (fun i j => (IE.num (corr i j) : IE F fl)) (fun i => IE.num (sd i)) i j = IE.num (S i j)) ∧ ∀ i j, Finite F (S i j) ∧
      |S i j - corr i j * sd i * sd j| ≤ 3 * unit F * |corr i j * sd i * sd j| ∧ |S i j - S j i| ≤ 6 * unit F * |corr i j * sd i * sd j| := by
  have hu := unit_single hF
  have hu0 := unit_pos (F := F)
  have main : ∀ i j, ∃ s, covarianceOf (fun i j => (IE.num (corr i j) : IE F fl)) (fun i => IE.num (sd i)) i j = IE.num s ∧ Finite F s ∧
      |s - corr i j * sd i * sd j| ≤ 3 * unit F * |corr i j * sd i * sd j| := by
    intro i j
    rw [covOf_entry]
    obtain ⟨a1, a2⟩ := hd i
    obtain ⟨b1, b2⟩ := hd j
    rcases hc i j with h0 | ⟨c1, c2⟩
    · rw [h0, mul_num, zero_mul]
      have z : (IE.ofReal 0 : IE F fl) = IE.num 0 := ofReal_finite h cov_zero
      rw [z, mul_num, zero_mul, z]
      exact ⟨0, rfl, cov_zero, by simp⟩
    · have a0 : 0 < sd i := lt_of_lt_of_le (by positivity) a1
      have b0 : 0 < sd j := lt_of_lt_of_le (by positivity) b1
      have hx : |corr i j * sd i| = |corr i j| * sd i := by rw [abs_mul, abs_of_pos a0]
      have x1 : (2 : ℝ) ^ (-80 : ℤ) ≤ |corr i j * sd i| := by
        rw [hx, show (-80 : ℤ) = -40 + -40 by norm_num, zpow_add₀ (by norm_num)]
        exact mul_le_mul c1 a1 (by positivity) (abs_nonneg _)
      have x2 : |corr i j * sd i| ≤ 2 ^ (40 : ℤ) := by
        rw [hx, ← one_mul ((2 : ℝ) ^ (40 : ℤ))]
        exact mul_le_mul c2 a2 a0.le zero_le_one
      obtain ⟨p1, -, p3⟩ := op_normal hF h (x := corr i j * sd i) ((zpow_le_zpow_right₀ (by norm_num) (by norm_num)).trans x1)
        (x2.trans (zpow_le_zpow_right₀ (by norm_num) (by norm_num)))
      set y := fl (corr i j * sd i) with hy
      have hu2 : unit F ≤ 1 / 100 := hu.trans (by norm_num)
      have yb : |y - corr i j * sd i| ≤ 1 / 100 * |corr i j * sd i| := p3.trans (mul_le_mul_of_nonneg_right hu2 (abs_nonneg _))
      have y1 : |corr i j * sd i| / 2 ≤ |y| := by
        have := abs_sub_abs_le_abs_sub (corr i j * sd i) y
        rw [abs_sub_comm] at this
        have := abs_nonneg (corr i j * sd i)
        linarith
      have y2 : |y| ≤ 2 * |corr i j * sd i| := by
        have := abs_sub_abs_le_abs_sub y (corr i j * sd i)
        have := abs_nonneg (corr i j * sd i)
        linarith
      have hyj : |y * sd j| = |y| * sd j := by rw [abs_mul, abs_of_pos b0]
      obtain ⟨q1, q2, q3⟩ := op_normal hF h (x := y * sd j)
        (by
          rw [hyj]
          calc (2 : ℝ) ^ (-126 : ℤ) ≤ 2 ^ (-81 : ℤ) * 2 ^ (-40 : ℤ) := by rw [← zpow_add₀ (by norm_num)]; exact zpow_le_zpow_right₀ (by norm_num) (by norm_num)
            _ ≤ |y| * sd j := by
              refine mul_le_mul (le_trans ?_ y1) b1 (by positivity) (abs_nonneg _)
              rw [show (-81 : ℤ) = -80 - 1 by norm_num, zpow_sub_one₀ (by norm_num), ← div_eq_mul_inv]
              exact div_le_div_of_nonneg_right x1 (by norm_num))
        (by
          rw [hyj]
          calc |y| * sd j ≤ 2 ^ (41 : ℤ) * 2 ^ (40 : ℤ) := by
                refine mul_le_mul (y2.trans ?_) b2 b0.le (by positivity)
                rw [show (41 : ℤ) = 40 + 1 by norm_num, zpow_add_one₀ (by norm_num)]
                linarith
            _ ≤ 2 ^ (126 : ℤ) := by rw [← zpow_add₀ (by norm_num)]; exact zpow_le_zpow_right₀ (by norm_num) (by norm_num))
      refine ⟨fl (y * sd j), by rw [mul_num, p1, mul_num, q1], q2, ?_⟩
      have t : |corr i j * sd i * sd j| = |corr i j * sd i| * sd j := by rw [abs_mul, abs_of_pos b0]
      have e1 : |y * sd j - corr i j * sd i * sd j| ≤ unit F * (|corr i j * sd i| * sd j) := by
        rw [← sub_mul, abs_mul, abs_of_pos b0, ← mul_assoc]
        exact mul_le_mul_of_nonneg_right p3 b0.le
      have e2 : |fl (y * sd j) - y * sd j| ≤ unit F * (2 * |corr i j * sd i| * sd j) := by
        refine q3.trans (mul_le_mul_of_nonneg_left ?_ hu0.le)
        rw [hyj]
        exact mul_le_mul_of_nonneg_right y2 b0.le
      rw [t]
      have := abs_sub_le (fl (y * sd j)) (y * sd j) (corr i j * sd i * sd j)
      nlinarith
  choose S h1 h2 h3 using main
  refine ⟨S, h1, fun i j => ⟨h2 i j, h3 i j, ?_⟩⟩
  have e : corr j i * sd j * sd i = corr i j * sd i * sd j := by rw [hs j i]; ring
  have a := h3 i j
  have b := h3 j i
  rw [e, abs_sub_comm] at b
  have := abs_sub_le (S i j) (corr i j * sd i * sd j) (S j i)
  linarith

/-- Two axes with the correlation one half. -/
example : (∀ i j : Fin 2, (fun i j : Fin 2 => if i = j then (1 : ℝ) else 1 / 2) i j = 0 ∨ 2 ^ (-40 : ℤ) ≤ |(fun i j : Fin 2 => if i = j then (1 : ℝ) else 1 / 2) i j| ∧
    |(fun i j : Fin 2 => if i = j then (1 : ℝ) else 1 / 2) i j| ≤ 1) ∧ ∀ i : Fin 2, (2 : ℝ) ^ (-40 : ℤ) ≤ ![(5 : ℝ), 7] i ∧ ![(5 : ℝ), 7] i ≤ 2 ^ (40 : ℤ) := by
  refine ⟨fun i j => .inr ?_, fun i => ?_⟩
  · fin_cases i <;> fin_cases j <;> norm_num
  · fin_cases i <;> norm_num

end Verif.Stats.Ie
