import Verif.Float.PropsCoord

/-!
# Relative errors that are small multiples of the rounding error
-/

namespace Verif.Float

open Verif.Simd (Accurate)

variable {fl : ℝ → ℝ}

/-- `b` is `a` up to the relative error `k u`. -/
def Rel (u k b a : ℝ) : Prop := |b - a| ≤ k * u * |a|

/-- Roundings of relative size at most a millionth. -/
structure Small (fl : ℝ → ℝ) (u : ℝ) : Prop where
  acc : Accurate fl u
  pos : 0 < u
  le : u ≤ 1 / 1000000

/-- Rounding to `p ≥ 24` significant bits is rounding of relative size below a millionth. -/
theorem nearest_small {p : ℕ} (hp : 24 ≤ p) (h : Nearest p fl) : Small fl (2 ^ (-p : ℤ)) := by
  refine ⟨h.accurate (by omega), by positivity, ?_⟩
  calc (2 : ℝ) ^ (-p : ℤ) ≤ 2 ^ (-24 : ℤ) := zpow_le_zpow_right₀ (by norm_num) (by omega)
    _ ≤ _ := by norm_num

variable {u k m a b a' b' : ℝ}

theorem Rel.refl (u a : ℝ) : Rel u 0 a a := by
  unfold Rel
  simp

theorem Rel.mono (hs : Small fl u) (h : Rel u k b a) (hk : k ≤ m) : Rel u m b a :=
  h.trans (mul_le_mul_of_nonneg_right (mul_le_mul_of_nonneg_right hk hs.pos.le) (abs_nonneg _))

theorem Small.rel (hs : Small fl u) (a : ℝ) : Rel u 1 (fl a) a := by
  have := hs.acc a
  unfold Rel
  rwa [one_mul]

/-- As a factor. -/
theorem Rel.factor (hs : Small fl u) (h : Rel u k b a) (hk0 : 0 ≤ k) : ∃ δ, |δ| ≤ k * u ∧ b = a * (1 + δ) := by
  unfold Rel at h
  by_cases ha : a = 0
  · refine ⟨0, by rw [abs_zero]; exact mul_nonneg hk0 hs.pos.le, ?_⟩
    rw [ha] at h ⊢
    rw [abs_zero, mul_zero, sub_zero] at h
    rw [zero_mul]
    exact abs_eq_zero.1 (le_antisymm h (abs_nonneg _))
  · refine ⟨(b - a) / a, ?_, by field_simp; ring⟩
    rw [abs_div, div_le_iff₀ (abs_pos.2 ha)]
    exact h

theorem Rel.of_factor {δ : ℝ} (hd : |δ| ≤ k * u) (e : b = a * (1 + δ)) : Rel u k b a := by
  unfold Rel
  rw [e, show a * (1 + δ) - a = δ * a by ring, abs_mul]
  exact mul_le_mul_of_nonneg_right hd (abs_nonneg _)

theorem Small.ku (hs : Small fl u) (hk : k ≤ 50) : k * u ≤ 1 / 20000 := by
  have := mul_le_mul hk hs.le hs.pos.le (by norm_num)
  linarith

theorem Rel.mul (hs : Small fl u) (hk0 : 0 ≤ k) (hk : k ≤ 50) (hm0 : 0 ≤ m) (hm : m ≤ 50) (h : Rel u k b a)
    (h' : Rel u m b' a') : Rel u (k + m + 1 / 100) (b * b') (a * a') := by
  obtain ⟨δ, h1, rfl⟩ := h.factor hs hk0
  obtain ⟨ε, h2, rfl⟩ := h'.factor hs hm0
  refine Rel.of_factor (δ := δ + ε + δ * ε) ?_ (by ring)
  have h3 : |δ * ε| ≤ 1 / 20000 * (50 * u) := by
    rw [abs_mul]
    refine mul_le_mul (h1.trans (hs.ku hk)) (h2.trans ?_) (abs_nonneg _) (by norm_num)
    exact mul_le_mul_of_nonneg_right hm hs.pos.le
  have h4 := abs_add_le (δ + ε) (δ * ε)
  have h5 := abs_add_le δ ε
  have := hs.pos
  linarith

theorem Rel.round (hs : Small fl u) (hk0 : 0 ≤ k) (hk : k ≤ 50) (h : Rel u k b a) : Rel u (k + 101 / 100) (fl b) a := by
  obtain ⟨δ, h1, e1⟩ := h.factor hs hk0
  obtain ⟨ε, h2, e2⟩ := (hs.rel b).factor hs zero_le_one
  refine Rel.of_factor (δ := δ + ε + δ * ε) ?_ (by rw [e2, e1]; ring)
  have h3 : |δ * ε| ≤ 1 / 20000 * (1 * u) := by
    rw [abs_mul]
    exact mul_le_mul (h1.trans (hs.ku hk)) h2 (abs_nonneg _) (by norm_num)
  have h4 := abs_add_le (δ + ε) (δ * ε)
  have h5 := abs_add_le δ ε
  have := hs.pos
  linarith

theorem Rel.pos (hs : Small fl u) (hk0 : 0 ≤ k) (hk : k ≤ 50) (h : Rel u k b a) (ha : 0 < a) : 0 < b := by
  obtain ⟨δ, h1, rfl⟩ := h.factor hs hk0
  have := (abs_le.1 (h1.trans (hs.ku hk))).1
  exact mul_pos ha (by linarith)

theorem Rel.nonneg (hs : Small fl u) (hk0 : 0 ≤ k) (hk : k ≤ 50) (h : Rel u k b a) (ha : 0 ≤ a) : 0 ≤ b := by
  obtain ⟨δ, h1, rfl⟩ := h.factor hs hk0
  have := (abs_le.1 (h1.trans (hs.ku hk))).1
  exact mul_nonneg ha (by linarith)

theorem Rel.div (hs : Small fl u) (hk0 : 0 ≤ k) (hk : k ≤ 50) (hm0 : 0 ≤ m) (hm : m ≤ 50) (h : Rel u k b a)
    (h' : Rel u m b' a') (ha' : a' ≠ 0) : Rel u (k + m + 1 / 100) (b / b') (a / a') := by
  obtain ⟨δ, h1, rfl⟩ := h.factor hs hk0
  obtain ⟨ε, h2, rfl⟩ := h'.factor hs hm0
  have h6 := abs_le.1 (h2.trans (hs.ku hm))
  have hp : 0 < 1 + ε := by linarith [h6.1]
  refine Rel.of_factor (δ := (δ - ε) / (1 + ε)) ?_ (by field_simp; ring)
  rw [abs_div, abs_of_pos hp, div_le_iff₀ hp]
  have h5 := abs_sub δ ε
  have hu := hs.pos
  have h7 : (k + m + 1 / 100) * u * (1 - 1 / 20000) ≤ (k + m + 1 / 100) * u * (1 + ε) :=
    mul_le_mul_of_nonneg_left (by linarith [h6.1]) (by positivity)
  have h8 : (k + m) * u ≤ 100 * u := mul_le_mul_of_nonneg_right (by linarith) hu.le
  linarith

/-- Sums of non-negative terms. -/
theorem Rel.add (h : Rel u k b a) (h' : Rel u k b' a') (ha : 0 ≤ a) (ha' : 0 ≤ a') :
    Rel u k (b + b') (a + a') := by
  unfold Rel at *
  rw [abs_of_nonneg ha] at h
  rw [abs_of_nonneg ha'] at h'
  rw [abs_of_nonneg (add_nonneg ha ha'), show b + b' - (a + a') = (b - a) + (b' - a') by ring]
  have := abs_add_le (b - a) (b' - a')
  linarith

theorem Rel.sqrt (h : Rel u k b a) (ha : 0 ≤ a) (hb : 0 ≤ b) : Rel u k √b √a := by
  unfold Rel at *
  rw [abs_of_nonneg ha] at h
  rw [abs_of_nonneg (Real.sqrt_nonneg _)]
  rcases ha.eq_or_lt with h0 | h0
  · rw [← h0] at h ⊢
    rw [mul_zero, sub_zero] at h
    rw [abs_eq_zero.1 (le_antisymm h (abs_nonneg _))]
    simp
  · have hs : 0 < √a := Real.sqrt_pos.2 h0
    have e : (√b - √a) * (√b + √a) = b - a := by
      have := Real.mul_self_sqrt ha
      have := Real.mul_self_sqrt hb
      linarith
    have h2 : |√b - √a| * √a ≤ |b - a| := by
      rw [← e, abs_mul]
      refine mul_le_mul_of_nonneg_left ?_ (abs_nonneg _)
      exact (le_add_of_nonneg_left (Real.sqrt_nonneg _)).trans (le_abs_self _)
    have h3 : |√b - √a| * √a ≤ k * u * √a * √a := by
      rw [mul_assoc, Real.mul_self_sqrt ha]
      exact h2.trans h
    exact le_of_mul_le_mul_right h3 hs

end Verif.Float
