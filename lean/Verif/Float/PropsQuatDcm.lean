import Verif.Float.Eval

/-!
# C116: the quaternion of a matrix in floating point
-/

namespace Verif.Float

open Verif.Mat (Mat)
open Verif.Att (Quat)

variable {fl : ℝ → ℝ} {p : ℕ}

/-- No component is NaN or infinite. -/
def QuatNumbers {lib : Libm} (q : Quat (CF fl lib)) : Prop :=
  q.w ≠ CF.nan ∧ q.i ≠ CF.nan ∧ q.j ≠ CF.nan ∧ q.k ≠ CF.nan

/-- Rounding three additions or subtractions of numbers of size at most two. -/
theorem three_sums (hp : 8 ≤ p) (h : Nearest p fl) {a b c : ℝ} (ha : |a| ≤ 2) (hb : |b| ≤ 2) (hc : |c| ≤ 2) :
    1 + a + b + c - 1 / 8 ≤ fl (fl (fl (1 + a) + b) + c) := by
  have hδ : (2 : ℝ) ^ (-p : ℤ) ≤ 1 / 256 := by
    calc (2 : ℝ) ^ (-p : ℤ) ≤ 2 ^ (-8 : ℤ) := zpow_le_zpow_right₀ (by norm_num) (by omega)
      _ = _ := by norm_num
  have acc : ∀ x B : ℝ, |x| ≤ B → |fl x - x| ≤ B / 256 := by
    intro x B hx
    refine (h.accurate (by omega) x).trans ?_
    have := mul_le_mul hδ hx (abs_nonneg _) (by norm_num)
    linarith
  obtain ⟨a1, a2⟩ := abs_le.1 ha
  obtain ⟨b1, b2⟩ := abs_le.1 hb
  obtain ⟨c1, c2⟩ := abs_le.1 hc
  obtain ⟨s1, s2⟩ := abs_le.1 (acc (1 + a) 3 (abs_le.2 ⟨by linarith, by linarith⟩))
  obtain ⟨t1, t2⟩ := abs_le.1 (acc (fl (1 + a) + b) 6 (abs_le.2 ⟨by linarith, by linarith⟩))
  obtain ⟨r1, r2⟩ := abs_le.1 (acc (fl (fl (1 + a) + b) + c) 9 (abs_le.2 ⟨by linarith, by linarith⟩))
  linarith

/-- The four components computed from one accepted pivot are numbers. -/
theorem pivot_numbers (hp : 1 ≤ p) (h : Nearest p fl) (lib : Libm) {c : ℝ} (hc : 1 / 4 < c) :
    ∃ q q4 : ℝ, Scalar.sqrt (CF.num c / CF.num 4 : CF fl lib) = CF.num q ∧
      (CF.num q * CF.num 4 : CF fl lib) = CF.num q4 ∧ q4 ≠ 0 := by
  have h1 : 0 < fl (c / 4) := h.pos hp (by linarith)
  have h2 : 0 < fl √(fl (c / 4)) := h.pos hp (Real.sqrt_pos.2 h1)
  refine ⟨fl √(fl (c / 4)), fl (fl √(fl (c / 4)) * 4), ?_, ?_, (h.pos hp (by linarith)).ne'⟩
  · rw [cf_div _ (by norm_num), cf_sqrt h1.le]
  · rw [cf_mul]

/-- **C116**: with at least eight significant bits, the conversion of a matrix whose diagonal entries are at most two
in size does not fail, and all components of the quaternion are numbers. -/
theorem C116_total (hp : 8 ≤ p) (h : Nearest p fl) (lib : Libm) (m : Fin 3 → Fin 3 → ℝ) (hm : ∀ i, |m i i| ≤ 2) :
    ∃ q, quatOfDcm (fun r c => (CF.num (m r c) : CF fl lib)) = some q ∧ QuatNumbers q := by
  have hp1 : 1 ≤ p := by omega
  have quarter : fl (1 / 4) = 1 / 4 := by
    rw [show (1 / 4 : ℝ) = 2 ^ (-2 : ℤ) by norm_num]
    exact h.fix (isFloat_zpow hp1 _)
  have d1 := three_sums hp h (hm 0) (hm 1) (hm 2)
  have d2 := three_sums (a := m 0 0) (b := -m 1 1) (c := -m 2 2) hp h (hm 0) (by rw [abs_neg]; exact hm 1)
    (by rw [abs_neg]; exact hm 2)
  have d3 := three_sums (a := -m 0 0) (b := m 1 1) (c := -m 2 2) hp h (by rw [abs_neg]; exact hm 0) (hm 1)
    (by rw [abs_neg]; exact hm 2)
  have d4 := three_sums (a := -m 0 0) (b := -m 1 1) (c := m 2 2) hp h (by rw [abs_neg]; exact hm 0)
    (by rw [abs_neg]; exact hm 1) (hm 2)
  simp only [← sub_eq_add_neg] at d2 d3 d4
  unfold quatOfDcm
  dsimp only
  rw [cf_one, cf_add, h.two hp1, cf_add, h.four hp1, cf_div 1 (by norm_num : (4 : ℝ) ≠ 0), quarter]
  have E1 : (CF.num 1 + CF.num (m 0 0) + CF.num (m 1 1) + CF.num (m 2 2) : CF fl lib) =
      CF.num (fl (fl (fl (1 + m 0 0) + m 1 1) + m 2 2)) := by simp only [cf_add]
  have E2 : (CF.num 1 + CF.num (m 0 0) - CF.num (m 1 1) - CF.num (m 2 2) : CF fl lib) =
      CF.num (fl (fl (fl (1 + m 0 0) - m 1 1) - m 2 2)) := by simp only [cf_add, cf_sub]
  have E3 : (CF.num 1 - CF.num (m 0 0) + CF.num (m 1 1) - CF.num (m 2 2) : CF fl lib) =
      CF.num (fl (fl (fl (1 - m 0 0) + m 1 1) - m 2 2)) := by simp only [cf_add, cf_sub]
  have E4 : (CF.num 1 - CF.num (m 0 0) - CF.num (m 1 1) + CF.num (m 2 2) : CF fl lib) =
      CF.num (fl (fl (fl (1 - m 0 0) - m 1 1) + m 2 2)) := by simp only [cf_add, cf_sub]
  rw [E1, E2, E3, E4]
  clear E1 E2 E3 E4
  generalize fl (fl (fl (1 + m 0 0) + m 1 1) + m 2 2) = c1 at *
  generalize fl (fl (fl (1 + m 0 0) - m 1 1) - m 2 2) = c2 at *
  generalize fl (fl (fl (1 - m 0 0) + m 1 1) - m 2 2) = c3 at *
  generalize fl (fl (fl (1 - m 0 0) - m 1 1) + m 2 2) = c4 at *
  by_cases h1 : 1 / 4 < c1
  · obtain ⟨q, q4, e1, e2, e3⟩ := pivot_numbers hp1 h lib h1
    rw [if_pos ((cf_lt _ _).2 h1), e1, e2]
    simp only [cf_add, cf_sub, cf_div _ e3]
    exact ⟨_, rfl, num_ne_nan _, num_ne_nan _, num_ne_nan _, num_ne_nan _⟩
  rw [if_neg (mt (cf_lt _ _).1 h1)]
  by_cases h2 : 1 / 4 < c2
  · obtain ⟨q, q4, e1, e2, e3⟩ := pivot_numbers hp1 h lib h2
    rw [if_pos ((cf_lt _ _).2 h2), e1, e2]
    simp only [cf_add, cf_sub, cf_div _ e3]
    exact ⟨_, rfl, num_ne_nan _, num_ne_nan _, num_ne_nan _, num_ne_nan _⟩
  rw [if_neg (mt (cf_lt _ _).1 h2)]
  by_cases h3 : 1 / 4 < c3
  · obtain ⟨q, q4, e1, e2, e3⟩ := pivot_numbers hp1 h lib h3
    rw [if_pos ((cf_lt _ _).2 h3), e1, e2]
    simp only [cf_add, cf_sub, cf_div _ e3]
    exact ⟨_, rfl, num_ne_nan _, num_ne_nan _, num_ne_nan _, num_ne_nan _⟩
  rw [if_neg (mt (cf_lt _ _).1 h3)]
  by_cases h4 : 1 / 4 < c4
  · obtain ⟨q, q4, e1, e2, e3⟩ := pivot_numbers hp1 h lib h4
    rw [if_pos ((cf_lt _ _).2 h4), e1, e2]
    simp only [cf_add, cf_sub, cf_div _ e3]
    exact ⟨_, rfl, num_ne_nan _, num_ne_nan _, num_ne_nan _, num_ne_nan _⟩
  exfalso
  linarith

/-- The hypotheses are satisfiable, and the matrix of a half turn about the third axis is one where the first three
pivots are rejected. -/
example : Nearest 53 (rnd 53) ∧ ∀ i, |(![![-1, 0, 0], ![0, -1, 0], ![0, 0, 1]] : Fin 3 → Fin 3 → ℝ) i i| ≤ 2 := by
  refine ⟨rnd_nearest (by norm_num), fun i => ?_⟩
  fin_cases i <;> norm_num

end Verif.Float
