import Verif.Float.Spec
import Verif.Simd.Spec
import Mathlib.Analysis.SpecialFunctions.Pow.NNReal
import Mathlib.Tactic.Linarith
import Mathlib.Tactic.Positivity
import Mathlib.Tactic.Ring
import Mathlib.Tactic.FieldSimp
import Mathlib.Tactic.GCongr

/-! # Lemmas about rounding to nearest -/

namespace Verif.Float

open Verif.Simd (Accurate)

variable {p : ℕ} {fl : ℝ → ℝ}

theorem isFloat_zero : IsFloat p 0 := ⟨0, 0, by simp, by simp⟩

theorem IsFloat.neg {x : ℝ} (h : IsFloat p x) : IsFloat p (-x) := by
  obtain ⟨m, e, h1, h2⟩ := h
  exact ⟨-m, e, by simpa using h1, by rw [h2]; push_cast; ring⟩

theorem IsFloat.abs {x : ℝ} (h : IsFloat p x) : IsFloat p |x| := by
  rcases abs_choice x with e | e <;> rw [e]
  exacts [h, h.neg]

/-- Scaling by a power of two. -/
theorem IsFloat.scale {x : ℝ} (h : IsFloat p x) (k : ℤ) : IsFloat p (x * 2 ^ k) := by
  obtain ⟨m, e, h1, h2⟩ := h
  exact ⟨m, e + k, h1, by rw [h2, zpow_add₀ (by norm_num)]; ring⟩

theorem isFloat_zpow (hp : 1 ≤ p) (k : ℤ) : IsFloat p (2 ^ k) :=
  ⟨1, k, by rw [abs_one]; exact one_lt_pow₀ (by norm_num) (by omega), by simp⟩

theorem isFloat_one (hp : 1 ≤ p) : IsFloat p 1 := by
  have := isFloat_zpow hp 0
  simpa using this

/-- An integer of at most `p` bits, scaled; `2 ^ p` itself included. -/
theorem isFloat_of_le (hp : 1 ≤ p) {m e : ℤ} (h : |m| ≤ 2 ^ p) : IsFloat p (m * 2 ^ e) := by
  rcases lt_or_eq_of_le h with h | h
  · exact ⟨m, e, h, rfl⟩
  · have : (m : ℝ) * 2 ^ e = 2 ^ (p + e : ℤ) ∨ (m : ℝ) * 2 ^ e = -2 ^ (p + e : ℤ) := by
      rw [zpow_add₀ (by norm_num), zpow_natCast]
      rcases abs_choice m with c | c
      · left
        rw [c] at h
        rw [h]; push_cast; ring
      · right
        rw [c] at h
        have : m = -2 ^ p := by omega
        rw [this]; push_cast; ring
    rcases this with e' | e' <;> rw [e']
    · exact isFloat_zpow hp _
    · exact (isFloat_zpow hp _).neg

/-- A floating-point number of size at least `2 ^ k` is a multiple of `2 ^ (k + 1 - p)`. -/
theorem IsFloat.grid {x : ℝ} (h : IsFloat p x) {k : ℤ} (hk : 2 ^ k ≤ |x|) : ∃ m : ℤ, x = m * 2 ^ (k + 1 - p) := by
  obtain ⟨m, e, h1, h2⟩ := h
  have h3 : (2 : ℝ) ^ k < 2 ^ (p + e : ℤ) := by
    refine lt_of_le_of_lt hk ?_
    rw [h2, abs_mul, abs_of_pos (zpow_pos (by norm_num : (0 : ℝ) < 2) e), zpow_add₀ (by norm_num), zpow_natCast]
    apply mul_lt_mul_of_pos_right _ (zpow_pos (by norm_num) e)
    have : ((|m| : ℤ) : ℝ) < ((2 ^ p : ℤ) : ℝ) := by exact_mod_cast h1
    push_cast at this
    exact this
  have h4 : k < p + e := (zpow_lt_zpow_iff_right₀ (by norm_num : (1 : ℝ) < 2)).1 h3
  obtain ⟨j, hj⟩ := Int.eq_ofNat_of_zero_le (show 0 ≤ e - (k + 1 - p) by omega)
  refine ⟨m * 2 ^ j, ?_⟩
  have : e = j + (k + 1 - p) := by omega
  rw [h2, this, zpow_add₀ (by norm_num), zpow_natCast]
  push_cast
  ring

theorem ulp_pos (p : ℕ) (x : ℝ) : 0 < ulp p x := zpow_pos (by norm_num) _

/-- The binade of a number. -/
theorem binade {x : ℝ} (hx : x ≠ 0) : (2 : ℝ) ^ Int.log 2 |x| ≤ |x| ∧ |x| < 2 ^ (Int.log 2 |x| + 1) := by
  have := Int.zpow_log_le_self (b := 2) (by norm_num) (abs_pos.2 hx)
  have h2 := Int.lt_zpow_succ_log_self (b := 2) (by norm_num) |x|
  exact ⟨by exact_mod_cast this, by exact_mod_cast h2⟩

theorem rnd_half (p : ℕ) (x : ℝ) : |rnd p x - x| ≤ ulp p x / 2 := by
  have hu := ulp_pos p x
  have := abs_sub_round (x / ulp p x)
  have e : rnd p x - x = -((x / ulp p x - round (x / ulp p x)) * ulp p x) := by
    unfold rnd; field_simp; ring
  rw [e, abs_neg, abs_mul, abs_of_pos hu]
  calc _ ≤ 1 / 2 * ulp p x := mul_le_mul_of_nonneg_right this hu.le
    _ = _ := by ring

theorem ulp_le (x : ℝ) (hx : x ≠ 0) : ulp p x / 2 ≤ 2 ^ (-p : ℤ) * |x| := by
  unfold ulp
  have h := (binade hx).1
  have e : (2 : ℝ) ^ (Int.log 2 |x| + 1 - p) = 2 * (2 ^ (-p : ℤ) * 2 ^ Int.log 2 |x|) := by
    rw [show Int.log 2 |x| + 1 - (p : ℤ) = 1 + (-p + Int.log 2 |x|) by ring, zpow_add₀ (by norm_num),
      zpow_add₀ (by norm_num), zpow_one]
  rw [e]
  have : (0 : ℝ) < 2 ^ (-p : ℤ) := zpow_pos (by norm_num) _
  nlinarith

theorem round_mono {x y : ℝ} (h : x ≤ y) : round x ≤ round y := by
  rw [round_eq, round_eq]
  exact Int.floor_le_floor (by linarith)

theorem rnd_float (hp : 1 ≤ p) (x : ℝ) : IsFloat p (rnd p x) := by
  by_cases hx : x = 0
  · subst hx
    simpa [rnd] using isFloat_zero
  unfold rnd ulp
  apply isFloat_of_le hp
  have h1 : |x / ulp p x| ≤ (2 : ℝ) ^ p := by
    rw [abs_div, abs_of_pos (ulp_pos p x), div_le_iff₀ (ulp_pos p x)]
    refine (binade hx).2.le.trans ?_
    unfold ulp
    rw [← zpow_natCast, ← zpow_add₀ (by norm_num)]
    exact le_of_eq (by congr 1; ring)
  have h2 : |round (x / ulp p x)| ≤ (2 : ℤ) ^ p := by
    rw [abs_le] at h1 ⊢
    constructor
    · have := round_mono h1.1
      rwa [show (-(2 : ℝ) ^ p) = ((-(2 ^ p) : ℤ) : ℝ) by push_cast; ring, round_intCast] at this
    · have := round_mono h1.2
      rwa [show ((2 : ℝ) ^ p) = ((2 ^ p : ℤ) : ℝ) by push_cast; ring, round_intCast] at this
  exact h2

/-- Rounding to nearest exists. -/
theorem rnd_nearest (hp : 1 ≤ p) : Nearest p (rnd p) := by
  intro x
  refine ⟨rnd_float hp x, ?_⟩
  intro y hy
  by_cases hx : x = 0
  · subst hx
    have : rnd p 0 = 0 := by simp [rnd]
    rw [this]; simp
  have hu := ulp_pos p x
  -- multiples of the unit in the last place are no nearer
  have mult : ∀ m : ℤ, |rnd p x - x| ≤ |m * ulp p x - x| := by
    intro m
    have h1 := round_le (x / ulp p x) m
    have e1 : rnd p x - x = -((x / ulp p x - round (x / ulp p x)) * ulp p x) := by
      unfold rnd; field_simp; ring
    have e2 : m * ulp p x - x = -((x / ulp p x - m) * ulp p x) := by field_simp; ring
    rw [e1, e2, abs_neg, abs_neg, abs_mul, abs_mul]
    exact mul_le_mul_of_nonneg_right h1 (abs_nonneg _)
  set k := Int.log 2 |x| with hk
  have b1 := (binade hx).1
  rw [← hk] at b1
  by_cases hyk : (2 : ℝ) ^ k ≤ |y|
  · obtain ⟨m, hm⟩ := hy.grid hyk
    rw [hm]
    exact mult m
  · have hyk : |y| ≤ 2 ^ k := (not_le.1 hyk).le
    -- the power of two of the binade, with the sign of `x`, is nearer than `y`
    have e : (2 : ℝ) ^ k = ((2 ^ (p - 1) : ℤ) : ℝ) * ulp p x := by
      unfold ulp
      rw [← hk]
      push_cast
      rw [← zpow_natCast, ← zpow_add₀ (by norm_num)]
      congr 1
      push_cast [Nat.cast_sub hp]
      ring
    rcases lt_or_gt_of_ne hx with h | h
    · have h1 := mult (-2 ^ (p - 1))
      have e' : ((-2 ^ (p - 1) : ℤ) : ℝ) * ulp p x = -2 ^ k := by rw [e]; push_cast; ring
      rw [e'] at h1
      refine h1.trans ?_
      have b1 : 2 ^ k ≤ -x := b1.trans_eq (abs_of_neg h)
      rw [abs_of_nonneg (by linarith), abs_of_nonneg (by linarith [(abs_le.1 hyk).1])]
      linarith [(abs_le.1 hyk).1]
    · have h1 := mult (2 ^ (p - 1))
      rw [← e] at h1
      refine h1.trans ?_
      have b1 : 2 ^ k ≤ x := b1.trans_eq (abs_of_pos h)
      rw [abs_of_nonpos (by linarith), abs_of_nonpos (by linarith [(abs_le.1 hyk).2])]
      linarith [(abs_le.1 hyk).2]

/-- Floating-point numbers are rounded to themselves. -/
theorem Nearest.fix (h : Nearest p fl) {x : ℝ} (hx : IsFloat p x) : fl x = x := by
  have := (h x).2 x hx
  simp only [sub_self, abs_zero] at this
  have := abs_nonpos_iff.1 this
  linarith

theorem Nearest.mono (h : Nearest p fl) {x y : ℝ} (hxy : x ≤ y) : fl x ≤ fl y := by
  rcases eq_or_lt_of_le hxy with e | hlt
  · rw [e]
  by_contra hc
  have hc := not_le.1 hc
  have h1 := (h x).2 _ (h y).1
  have h2 := (h y).2 _ (h x).1
  have key1 : (fl x - x) ^ 2 ≤ (fl y - x) ^ 2 := sq_le_sq.2 h1
  have key2 : (fl y - y) ^ 2 ≤ (fl x - y) ^ 2 := sq_le_sq.2 h2
  nlinarith

theorem Nearest.float (h : Nearest p fl) (x : ℝ) : IsFloat p (fl x) := (h x).1

/-- Rounding to nearest satisfies the standard model of floating-point arithmetic with unit roundoff `2⁻ᵖ`. -/
theorem Nearest.accurate (h : Nearest p fl) (hp : 1 ≤ p) : Accurate fl (2 ^ (-p : ℤ)) := by
  intro x
  by_cases hx : x = 0
  · subst hx
    rw [h.fix isFloat_zero]; simp
  exact ((h x).2 _ (rnd_float hp x)).trans ((rnd_half p x).trans (ulp_le x hx))

/-- The number to which `x` is rounded is `y` if `x` is strictly nearer to `y` than half the spacing around `y`. -/
theorem Nearest.eq_of (h : Nearest p fl) {x y : ℝ} (hy : IsFloat p y)
    (hu : ∀ z, IsFloat p z → z ≠ y → |y - x| < |z - x|) : fl x = y := by
  by_contra hne
  exact absurd ((h x).2 y hy) (not_le.2 (hu _ (h x).1 hne))

/-- Rounding within a binade. -/
theorem Nearest.eq_grid (h : Nearest p fl) (hp : 1 ≤ p) {x : ℝ} {k m : ℤ} (hk : 2 ^ k ≤ x) (hm : |m| ≤ 2 ^ p)
    (hd : |m * 2 ^ (k + 1 - p) - x| < 2 ^ (k + 1 - p) / 2) : fl x = m * 2 ^ (k + 1 - p) := by
  have hg0 : (0 : ℝ) < 2 ^ (k + 1 - p : ℤ) := zpow_pos (by norm_num) _
  have h1 := (h x).2 _ (isFloat_of_le hp (e := k + 1 - p) hm)
  have hle : (2 : ℝ) ^ k ≤ fl x := by
    have := h.mono hk
    rwa [h.fix (isFloat_zpow hp k)] at this
  obtain ⟨m', hm'⟩ := (h x).1.grid (hle.trans (le_abs_self _))
  generalize (2 : ℝ) ^ (k + 1 - p : ℤ) = g at *
  rw [hm'] at h1 ⊢
  have h2 : |(m' - m : ℝ)| * g < 1 * g := by
    rw [← abs_of_pos hg0, ← abs_mul, abs_of_pos hg0]
    calc |((m' : ℝ) - m) * g| = |(m' * g - x) - (m * g - x)| := by congr 1; ring
      _ ≤ |m' * g - x| + |m * g - x| := abs_sub _ _
      _ < _ := by linarith
  have h3 : |(m' - m : ℝ)| < 1 := lt_of_mul_lt_mul_right h2 hg0.le
  have h4 : |m' - m| < 1 := by exact_mod_cast h3
  have : m' = m := by
    have := abs_lt.1 h4
    omega
  rw [this]

/-- The difference of two floating-point numbers is exact if it is no larger than either (Sterbenz). -/
theorem IsFloat.sub_exact {x y : ℝ} (hx : IsFloat p x) (hy : IsFloat p y) (h1 : |x - y| ≤ |x|) (h2 : |x - y| ≤ |y|) :
    IsFloat p (x - y) := by
  obtain ⟨m, e, hm, rfl⟩ := hx
  obtain ⟨n, f, hn, rfl⟩ := hy
  rcases le_total e f with hef | hef
  · obtain ⟨j, hj⟩ := Int.eq_ofNat_of_zero_le (sub_nonneg.2 hef)
    have he : (0 : ℝ) < 2 ^ e := zpow_pos (by norm_num) e
    have hf : f = j + e := by omega
    have E : (m : ℝ) * 2 ^ e - n * 2 ^ f = ((m - n * 2 ^ j : ℤ) : ℝ) * 2 ^ e := by
      rw [hf, zpow_add₀ (by norm_num), zpow_natCast]; push_cast; ring
    rw [E, abs_mul, abs_mul] at h1
    have := le_of_mul_le_mul_right h1 (abs_pos.2 he.ne')
    have : |m - n * 2 ^ j| ≤ |m| := by exact_mod_cast this
    exact ⟨_, e, lt_of_le_of_lt this hm, E⟩
  · obtain ⟨j, hj⟩ := Int.eq_ofNat_of_zero_le (sub_nonneg.2 hef)
    have hf : (0 : ℝ) < 2 ^ f := zpow_pos (by norm_num) f
    have he : e = j + f := by omega
    have E : (m : ℝ) * 2 ^ e - n * 2 ^ f = ((m * 2 ^ j - n : ℤ) : ℝ) * 2 ^ f := by
      rw [he, zpow_add₀ (by norm_num), zpow_natCast]; push_cast; ring
    rw [E, abs_mul, abs_mul] at h2
    have := le_of_mul_le_mul_right h2 (abs_pos.2 hf.ne')
    have : |m * 2 ^ j - n| ≤ |n| := by exact_mod_cast this
    exact ⟨_, f, lt_of_le_of_lt this hn, E⟩

/-- The square root of a rounded square is rounded to at least the number squared. -/
theorem Nearest.sqrt_sq (h : Nearest p fl) (hp : 1 ≤ p) {z t : ℝ} (hz : IsFloat p z) (ht : fl (z * z) ≤ t) :
    |z| ≤ fl (√t) := by
  by_cases hz0 : z = 0
  · subst hz0
    rw [abs_zero, ← h.fix isFloat_zero]
    exact h.mono (Real.sqrt_nonneg _)
  have hpos : 0 < |z| := abs_pos.2 hz0
  refine le_trans ?_ (h.mono (Real.sqrt_le_sqrt ht))
  rw [← abs_mul_abs_self z]
  generalize hw : |z| = w at *
  have hwf : IsFloat p w := hw ▸ hz.abs
  clear ht hw hz hz0
  set k := Int.log 2 |w| with hk
  obtain ⟨b1, b2⟩ := binade (ne_of_gt hpos)
  rw [← hk] at b1 b2
  rw [abs_of_pos hpos] at b1 b2
  rcases eq_or_lt_of_le b1 with e | b1'
  · have : IsFloat p (w * w) := by
      rw [← e, ← zpow_add₀ (by norm_num)]
      exact isFloat_zpow hp _
    rw [h.fix this, Real.sqrt_mul_self hpos.le, h.fix hwf]
  set g : ℝ := 2 ^ (k + 1 - p) with hg
  have hg0 : 0 < g := zpow_pos (by norm_num) _
  obtain ⟨m, hm⟩ := hwf.grid (k := k) (by rwa [abs_of_pos hpos])
  rw [← hg] at hm
  set δ : ℝ := 2 ^ (-p : ℤ) with hδ
  have hδ0 : 0 < δ := zpow_pos (by norm_num) _
  have etop : δ * 2 ^ (k + 1) = g := by
    rw [hδ, hg, ← zpow_add₀ (by norm_num)]; congr 1; ring
  -- `w` is at least one unit below the top of its binade and above its bottom
  have etop' : (2 : ℝ) ^ (k + 1) = ((2 ^ p : ℤ) : ℝ) * g := by
    rw [hg]; push_cast
    rw [← zpow_natCast, ← zpow_add₀ (by norm_num)]; congr 1; ring
  have ebot : (2 : ℝ) ^ k = ((2 ^ (p - 1) : ℤ) : ℝ) * g := by
    rw [hg]; push_cast
    rw [← zpow_natCast, ← zpow_add₀ (by norm_num)]; congr 1
    push_cast [Nat.cast_sub hp]; ring
  have hm1 : m + 1 ≤ 2 ^ p := by
    rw [hm, etop'] at b2
    have := lt_of_mul_lt_mul_right b2 hg0.le
    exact_mod_cast this
  have hm2 : 2 ^ (p - 1) + 1 ≤ m := by
    rw [hm, ebot] at b1'
    have := lt_of_mul_lt_mul_right b1' hg0.le
    exact_mod_cast this
  have top : w + g ≤ 2 ^ (k + 1) := by
    rw [hm, etop']
    have : ((m + 1 : ℤ) : ℝ) ≤ ((2 ^ p : ℤ) : ℝ) := by exact_mod_cast hm1
    push_cast at this ⊢
    nlinarith
  have bot : 2 ^ k + g ≤ w := by
    rw [hm, ebot]
    have : ((2 ^ (p - 1) + 1 : ℤ) : ℝ) ≤ (m : ℝ) := by exact_mod_cast hm2
    push_cast at this ⊢
    nlinarith
  have acc := h.accurate hp (w * w)
  rw [abs_of_pos (mul_pos hpos hpos), ← hδ] at acc
  have hlow : w * w - δ * (w * w) ≤ fl (w * w) := by linarith [(abs_le.1 acc).1]
  -- the root lies above the midpoint of `w` and its predecessor
  have hmid : w - g / 2 < √(fl (w * w)) := by
    apply Real.lt_sqrt_of_sq_lt
    have h1 : δ * w ≤ g - δ * g := by
      have := mul_le_mul_of_nonneg_left top hδ0.le
      rw [etop] at this
      linarith
    have h2 : g ≤ 2 * (δ * w) := by
      have e2 : δ * 2 ^ k = g / 2 := by
        rw [← etop, zpow_add₀ (by norm_num), zpow_one]; ring
      have := mul_le_mul_of_nonneg_left (le_trans (le_add_of_nonneg_right hg0.le) bot) hδ0.le
      linarith
    have h3 : δ * (w * w) ≤ w * g - δ * w * g := by nlinarith
    have h4 : g / 2 * g ≤ δ * w * g := by nlinarith
    nlinarith
  by_contra hc
  have hc := not_le.1 hc
  set s := √(fl (w * w)) with hs
  have hsw : s < w := by
    by_contra hge
    have := h.mono (not_lt.1 hge)
    rw [h.fix hwf] at this
    linarith
  have hy := h.float s
  -- no floating-point number strictly between the predecessor and `w`
  have hpred : fl s ≤ w - g := by
    by_cases hyk : (2 : ℝ) ^ k ≤ fl s
    · obtain ⟨m', hm'⟩ := hy.grid (k := k) (hyk.trans (le_abs_self _))
      rw [← hg] at hm'
      rw [hm', hm] at hc ⊢
      have : (m' : ℝ) < m := lt_of_mul_lt_mul_right hc hg0.le
      have : m' + 1 ≤ m := by exact_mod_cast this
      have : ((m' + 1 : ℤ) : ℝ) ≤ (m : ℝ) := by exact_mod_cast this
      push_cast at this
      nlinarith
    · have := not_le.1 hyk
      linarith
  have hn := (h s).2 w hwf
  rw [abs_of_neg (by linarith), abs_of_pos (by linarith)] at hn
  linarith

end Verif.Float
