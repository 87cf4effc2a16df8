import Verif.Ieee.Spec
import Verif.Float.Lemmas

/-! # Rounding in a format with subnormal numbers -/

namespace Verif.Ieee

variable {F : Format} {fl : ℝ → ℝ}

theorem onGrid_zero : OnGrid F 0 := ⟨0, F.emin, by simp, le_refl _, by simp⟩

theorem OnGrid.neg {x : ℝ} (h : OnGrid F x) : OnGrid F (-x) := by
  obtain ⟨m, e, h1, h2, h3⟩ := h
  exact ⟨-m, e, by simpa using h1, h2, by rw [h3]; push_cast; ring⟩

theorem OnGrid.isFloat {x : ℝ} (h : OnGrid F x) : Float.IsFloat F.p x := by
  obtain ⟨m, e, h1, _, h3⟩ := h
  exact ⟨m, e, h1, h3⟩

/-- Every number is a multiple of the least one. -/
theorem OnGrid.multiple {x : ℝ} (h : OnGrid F x) : ∃ k : ℤ, x = k * 2 ^ F.emin := by
  obtain ⟨m, e, _, h2, h3⟩ := h
  obtain ⟨j, hj⟩ := Int.eq_ofNat_of_zero_le (show 0 ≤ e - F.emin by omega)
  refine ⟨m * 2 ^ j, ?_⟩
  rw [h3, show e = j + F.emin by omega, zpow_add₀ (by norm_num), zpow_natCast]
  push_cast
  ring

theorem onGrid_of_le (hp : 1 ≤ F.p) {m e : ℤ} (h : |m| ≤ 2 ^ F.p) (he : F.emin ≤ e) : OnGrid F (m * 2 ^ e) := by
  rcases h.lt_or_eq with h | h
  · exact ⟨m, e, h, he, rfl⟩
  · have e2 : (2 : ℤ) ^ F.p = 2 ^ (F.p - 1) * 2 := by rw [← pow_succ]; congr 1; omega
    have hlt : (2 : ℤ) ^ (F.p - 1) < 2 ^ F.p := by
      have : (0 : ℤ) < 2 ^ (F.p - 1) := by positivity
      omega
    have hpos : (0 : ℤ) ≤ 2 ^ (F.p - 1) := by positivity
    rcases abs_eq (by positivity : (0 : ℤ) ≤ 2 ^ F.p) |>.1 h with h' | h'
    · refine ⟨2 ^ (F.p - 1), e + 1, by rwa [abs_of_nonneg hpos], by omega, ?_⟩
      rw [h', e2, zpow_add₀ (by norm_num), zpow_one]; push_cast; ring
    · refine ⟨-2 ^ (F.p - 1), e + 1, by rwa [abs_neg, abs_of_nonneg hpos], by omega, ?_⟩
      rw [h', e2, zpow_add₀ (by norm_num), zpow_one]; push_cast; ring

theorem step_pos (x : ℝ) : 0 < step F x := zpow_pos (by norm_num) _

theorem rnd_half (x : ℝ) : |rnd F x - x| ≤ step F x / 2 := by
  have hu := step_pos (F := F) x
  have := abs_sub_round (x / step F x)
  have e : rnd F x - x = -((x / step F x - round (x / step F x)) * step F x) := by
    unfold rnd; field_simp; ring
  rw [e, abs_neg, abs_mul, abs_of_pos hu]
  calc _ ≤ 1 / 2 * step F x := mul_le_mul_of_nonneg_right this hu.le
    _ = _ := by ring

theorem rnd_onGrid (hp : 1 ≤ F.p) (x : ℝ) : OnGrid F (rnd F x) := by
  by_cases hx : x = 0
  · subst hx
    simpa [rnd] using onGrid_zero
  unfold rnd
  rw [show step F x = 2 ^ max F.emin (Int.log 2 |x| + 1 - F.p) from rfl]
  apply onGrid_of_le hp _ (le_max_left _ _)
  have hs : |x / 2 ^ max F.emin (Int.log 2 |x| + 1 - F.p)| ≤ (2 : ℝ) ^ F.p := by
    have hpos : (0 : ℝ) < 2 ^ max F.emin (Int.log 2 |x| + 1 - F.p) := zpow_pos (by norm_num) _
    rw [abs_div, abs_of_pos hpos, div_le_iff₀ hpos]
    refine (Float.binade hx).2.le.trans ?_
    rw [← zpow_natCast, ← zpow_add₀ (by norm_num)]
    apply zpow_le_zpow_right₀ (by norm_num)
    have := le_max_right F.emin (Int.log 2 |x| + 1 - F.p)
    omega
  rw [abs_le] at hs ⊢
  constructor
  · have := Float.round_mono hs.1
    rwa [show (-(2 : ℝ) ^ F.p) = ((-(2 ^ F.p) : ℤ) : ℝ) by push_cast; ring, round_intCast] at this
  · have := Float.round_mono hs.2
    rwa [show ((2 : ℝ) ^ F.p) = ((2 ^ F.p : ℤ) : ℝ) by push_cast; ring, round_intCast] at this

/-- Rounding to nearest exists. -/
theorem rnd_rounds (hp : 1 ≤ F.p) : Rounds F (rnd F) := by
  intro x
  refine ⟨rnd_onGrid hp x, ?_⟩
  intro y hy
  by_cases hx : x = 0
  · subst hx
    have : rnd F 0 = 0 := by simp [rnd]
    rw [this]; simp
  have hu := step_pos (F := F) x
  have mult : ∀ m : ℤ, |rnd F x - x| ≤ |m * step F x - x| := by
    intro m
    have h1 := round_le (x / step F x) m
    have e1 : rnd F x - x = -((x / step F x - round (x / step F x)) * step F x) := by
      unfold rnd; field_simp; ring
    have e2 : m * step F x - x = -((x / step F x - m) * step F x) := by field_simp; ring
    rw [e1, e2, abs_neg, abs_neg, abs_mul, abs_mul]
    exact mul_le_mul_of_nonneg_right h1 (abs_nonneg _)
  by_cases hc : Int.log 2 |x| + 1 - F.p ≤ F.emin
  · obtain ⟨k, hk⟩ := hy.multiple
    have : step F x = 2 ^ F.emin := by unfold step; rw [max_eq_left hc]
    rw [hk, ← this]
    exact mult k
  have hst : step F x = Float.ulp F.p x := by
    unfold step Float.ulp; rw [max_eq_right (by omega)]
  have : rnd F x = Float.rnd F.p x := by unfold rnd Float.rnd; rw [hst]
  rw [this]
  exact (Float.rnd_nearest hp x).2 y hy.isFloat

section

variable (h : Rounds F fl)
include h

theorem Rounds.fix {x : ℝ} (hx : OnGrid F x) : fl x = x := by
  have := (h x).2 x hx
  simp only [sub_self, abs_zero] at this
  exact sub_eq_zero.1 (abs_nonpos_iff.1 this)

theorem Rounds.zero : fl 0 = 0 := h.fix onGrid_zero

theorem Rounds.mono {x y : ℝ} (hxy : x ≤ y) : fl x ≤ fl y := by
  by_contra hc
  have hc := not_le.1 hc
  have hne : x < y := lt_of_le_of_ne hxy fun e => by subst e; exact lt_irrefl _ hc
  have h1 := (h x).2 (fl y) (h y).1
  have h2 := (h y).2 (fl x) (h x).1
  have h1 := sq_le_sq.2 h1
  have h2 := sq_le_sq.2 h2
  nlinarith

theorem Rounds.half (hp : 1 ≤ F.p) (x : ℝ) : |fl x - x| ≤ step F x / 2 :=
  ((h x).2 _ (rnd_onGrid hp x)).trans (rnd_half x)

/-- Away from the subnormal numbers the error is relative. -/
theorem Rounds.normal (hp : 1 ≤ F.p) {x : ℝ} (hx : 2 ^ (F.emin + F.p - 1) ≤ |x|) : |fl x - x| ≤ unit F * |x| := by
  have hpos : (0 : ℝ) < 2 ^ (F.emin + F.p - 1) := zpow_pos (by norm_num) _
  have hx0 : x ≠ 0 := fun e => by rw [e, abs_zero] at hx; linarith
  refine (h.half hp x).trans ?_
  have hlog : F.emin + F.p - 1 ≤ Int.log 2 |x| := by
    have := (Float.binade hx0).2
    have h3 := (zpow_lt_zpow_iff_right₀ (by norm_num : (1 : ℝ) < 2)).1 (hx.trans_lt this)
    omega
  have : step F x = Float.ulp F.p x := by
    unfold step Float.ulp; rw [max_eq_right (by omega)]
  rw [this]
  exact Float.ulp_le x hx0

/-- The error of one rounding. -/
theorem Rounds.err (hp : 1 ≤ F.p) (x : ℝ) : |fl x - x| ≤ unit F * |x| + tiny F := by
  have ht : (0 : ℝ) < tiny F := zpow_pos (by norm_num) _
  have hu : (0 : ℝ) < unit F := zpow_pos (by norm_num) _
  by_cases hx : 2 ^ (F.emin + F.p - 1) ≤ |x|
  · exact (h.normal hp hx).trans (by linarith)
  by_cases hx0 : x = 0
  · subst hx0
    rw [h.zero]; simp; exact ht.le
  refine (h.half hp x).trans ?_
  have hlog : Int.log 2 |x| < F.emin + F.p - 1 := by
    have := (Float.binade hx0).1.trans_lt (not_le.1 hx)
    exact (zpow_lt_zpow_iff_right₀ (by norm_num : (1 : ℝ) < 2)).1 this
  have e : step F x / 2 = tiny F := by
    unfold step tiny
    rw [max_eq_left (by omega), zpow_sub₀ (by norm_num), zpow_one]
  rw [e]
  have := mul_nonneg hu.le (abs_nonneg x)
  linarith

/-- Sums and differences never underflow. -/
theorem Rounds.add (hp : 1 ≤ F.p) {x y : ℝ} (hx : OnGrid F x) (hy : OnGrid F y) :
    |fl (x + y) - (x + y)| ≤ unit F * |x + y| := by
  have hu : (0 : ℝ) < unit F := zpow_pos (by norm_num) _
  obtain ⟨k, hk⟩ := hx.multiple
  obtain ⟨l, hl⟩ := hy.multiple
  have e : x + y = ((k + l : ℤ) : ℝ) * 2 ^ F.emin := by rw [hk, hl]; push_cast; ring
  by_cases hs : |k + l| ≤ 2 ^ F.p
  · have : OnGrid F (x + y) := by rw [e]; exact onGrid_of_le hp hs (le_refl _)
    rw [h.fix this, sub_self, abs_zero]
    positivity
  · apply h.normal hp
    have hpos : (0 : ℝ) < 2 ^ F.emin := zpow_pos (by norm_num) _
    rw [e, abs_mul, abs_of_pos hpos]
    have h1 : ((2 ^ F.p : ℤ) : ℝ) ≤ ((|k + l| : ℤ) : ℝ) := by exact_mod_cast (not_le.1 hs).le
    have h2 : (2 : ℝ) ^ (F.emin + F.p - 1) ≤ 2 ^ (F.p : ℤ) * 2 ^ F.emin := by
      rw [← zpow_add₀ (by norm_num)]
      apply zpow_le_zpow_right₀ (by norm_num)
      omega
    rw [zpow_natCast] at h2
    push_cast at h1 ⊢
    exact h2.trans (mul_le_mul_of_nonneg_right h1 hpos.le)

end

theorem add_num (x y : ℝ) : (IE.num x + IE.num y : IE F fl) = IE.ofReal (x + y) := rfl

theorem mul_num (x y : ℝ) : (IE.num x * IE.num y : IE F fl) = IE.ofReal (x * y) := rfl

theorem sub_num (x y : ℝ) : (IE.num x - IE.num y : IE F fl) = IE.ofReal (x + -y) := rfl

theorem ie_zero : (0 : IE F fl) = IE.num 0 := rfl

theorem ofReal_num {x : ℝ} (h : |fl x| < 2 ^ F.emax) : (IE.ofReal x : IE F fl) = IE.num (fl x) := if_pos h

theorem ofReal_inf {x : ℝ} (h : ¬ |fl x| < 2 ^ F.emax) : ∃ s, (IE.ofReal x : IE F fl) = IE.inf s := ⟨_, if_neg h⟩

theorem num_inj {x y : ℝ} : (IE.num x : IE F fl) = IE.num y ↔ x = y := by
  constructor
  · intro e
    have := congrArg IE.real e
    exact this
  · intro e; rw [e]

theorem div_num (x : ℝ) {y : ℝ} (h : y ≠ 0) : (IE.num x / IE.num y : IE F fl) = IE.ofReal (x / y) := if_neg h

theorem sqrt_num {x : ℝ} (h : 0 ≤ x) : (IE.sqrt (IE.num x) : IE F fl) = IE.ofReal √x := if_neg (not_lt.2 h)

end Verif.Ieee
