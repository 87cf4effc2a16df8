import Verif.Ieee.Cast
import Verif.Ieee.Special
import Verif.Ieee.PropsNorm

/-!
# Casts between scalar types (C163)
-/

namespace Verif.Ieee

variable {F G : Format} {fl gl : ℝ → ℝ}

/-- Every number of `F` is one of `G`. -/
def Wider (F G : Format) : Prop := F.p ≤ G.p ∧ G.emin ≤ F.emin ∧ F.emax ≤ G.emax

theorem Wider.onGrid (w : Wider F G) {x : ℝ} (h : OnGrid F x) : OnGrid G x := by
  obtain ⟨m, e, h1, h2, h3⟩ := h
  exact ⟨m, e, h1.trans_le (pow_le_pow_right₀ (by norm_num) w.1), w.2.1.trans h2, h3⟩

theorem Wider.finite (w : Wider F G) {x : ℝ} (h : Finite F x) : Finite G x :=
  ⟨w.onGrid h.1, h.2.trans_le (zpow_le_zpow_right₀ (by norm_num) w.2.2)⟩

theorem cast_num (x : ℝ) : ((IE.num x : IE F fl).cast : IE G gl) = IE.ofReal x := rfl

theorem finite_ofReal (h : Rounds F fl) {x : ℝ} (hx : Finite F x) : (IE.ofReal x : IE F fl) = IE.num x := by
  have := h.fix hx.1
  rw [ofReal_num (by rw [this]; exact hx.2), this]

/-- **C163**: a cast to a wider format is exact. -/
theorem C163_widen (w : Wider F G) (hg : Rounds G gl) {x : ℝ} (hx : Finite F x) : ((IE.num x : IE F fl).cast : IE G gl) = IE.num x := by
  rw [cast_num, finite_ofReal hg (w.finite hx)]

/-- **C163**: a cast to a wider format and back gives the same value, be it a number, an infinity or NaN. -/
theorem C163_back (w : Wider F G) (hf : Rounds F fl) (hg : Rounds G gl) (a : IE F fl) (ha : ∀ x, a = IE.num x → Finite F x) :
    ((a.cast : IE G gl).cast : IE F fl) = a := by
  rcases a with ⟨_ | s | x⟩
  · rfl
  · rfl
  · have hx := ha x rfl
    change ((IE.num x : IE F fl).cast : IE G gl).cast = IE.num x
    rw [C163_widen w hg hx, cast_num, finite_ofReal hf hx]

/-- The wider formats of the crate. -/
example : Wider binary32 binary64 ∧ Finite binary32 (3 / 2) := by
  refine ⟨⟨by decide, by decide, by decide⟩, ⟨3, -1, by decide, by decide, by norm_num⟩, ?_⟩
  rw [abs_of_pos (by norm_num)]
  calc (3 / 2 : ℝ) < 2 ^ (1 : ℤ) := by norm_num
    _ ≤ 2 ^ binary32.emax := zpow_le_zpow_right₀ (by norm_num) (by decide)

/-- **C163**: a cast never changes the order. -/
theorem C163_order (hg : Rounds G gl) (a b : IE F fl) (h : a ≤ b) : (a.cast : IE G gl) ≤ b.cast := by
  rcases a with ⟨_ | s | x⟩ <;> rcases b with ⟨_ | t | y⟩
  · exact h
  · exact h
  · exact h
  · exact h
  · exact h
  · -- an infinity and a number: it is the negative one
    have hs : s = true := h
    subst hs
    change (IE.inf true : IE G gl) ≤ IE.ofReal y
    by_cases hb : |gl y| < 2 ^ G.emax
    · rw [ofReal_num hb]; exact rfl
    · obtain ⟨t, e⟩ := ofReal_inf (fl := gl) hb
      rw [e]; exact Or.inl rfl
  · exact False.elim h
  · have ht : t = false := h
    subst ht
    change (IE.ofReal x : IE G gl) ≤ IE.inf false
    by_cases hb : |gl x| < 2 ^ G.emax
    · rw [ofReal_num hb]; exact rfl
    · obtain ⟨t, e⟩ := ofReal_inf (fl := gl) hb
      rw [e]; exact Or.inr rfl
  · have hxy : x ≤ y := h
    have hm := hg.mono hxy
    change (IE.ofReal x : IE G gl) ≤ IE.ofReal y
    by_cases hx : |gl x| < 2 ^ G.emax
    · rw [ofReal_num hx]
      by_cases hy : |gl y| < 2 ^ G.emax
      · rw [ofReal_num hy]; exact hm
      · unfold IE.ofReal
        rw [if_neg hy]
        change decide (y < 0) = false
        refine decide_eq_false fun hneg => hy ?_
        have h0 : gl y ≤ 0 := by rw [← hg.zero]; exact hg.mono hneg.le
        rw [abs_of_nonpos h0]
        have := neg_abs_le (gl x)
        linarith
    · unfold IE.ofReal
      rw [if_neg hx]
      by_cases hy : |gl y| < 2 ^ G.emax
      · rw [if_pos hy]
        change decide (x < 0) = true
        refine decide_eq_true (not_le.1 fun hpos => hx ?_)
        have h0 : 0 ≤ gl x := by rw [← hg.zero]; exact hg.mono hpos
        rw [abs_of_nonneg h0]
        have := le_abs_self (gl y)
        linarith
      · rw [if_neg hy]
        change decide (x < 0) = true ∨ decide (y < 0) = false
        by_cases hneg : x < 0
        · exact Or.inl (decide_eq_true hneg)
        · exact Or.inr (decide_eq_false (by linarith))

/-- Rounding stays below the overflow threshold. -/
theorem round_lt (hg : Rounds G gl) (he : G.emin + G.p ≤ G.emax) {x : ℝ} (hx : x < 2 ^ G.emax - 2 ^ (G.emax - G.p - 1)) :
    gl x < 2 ^ G.emax := by
  have hM : OnGrid G (2 ^ G.emax - 2 ^ (G.emax - G.p)) := by
    refine ⟨2 ^ G.p - 1, G.emax - G.p, ?_, by omega, ?_⟩
    · have : (1 : ℤ) ≤ 2 ^ G.p := one_le_pow₀ (by norm_num)
      rw [abs_of_nonneg (by omega)]; omega
    · push_cast
      rw [sub_mul, one_mul, ← zpow_natCast, ← zpow_add₀ (by norm_num)]
      congr 2; omega
  have hpos : (0 : ℝ) < 2 ^ (G.emax - G.p) := by positivity
  by_cases h : x ≤ 2 ^ G.emax - 2 ^ (G.emax - G.p)
  · have := hg.mono h
    rw [hg.fix hM] at this
    linarith
  · have h1 := (hg x).2 _ hM
    rw [abs_of_neg (show 2 ^ G.emax - 2 ^ (G.emax - G.p) - x < 0 by linarith)] at h1
    have h2 := le_abs_self (gl x - x)
    have h3 : (2 : ℝ) ^ (G.emax - G.p) = 2 * 2 ^ (G.emax - G.p - 1) := by
      rw [zpow_sub_one₀ (by norm_num)]; ring
    linarith

theorem Rounds.negate (hg : Rounds G gl) : Rounds G fun x => -gl (-x) := by
  intro x
  refine ⟨(hg (-x)).1.neg, fun y hy => ?_⟩
  have := (hg (-x)).2 (-y) hy.neg
  rwa [show -y - -x = -(y - x) by ring, abs_neg, show gl (-x) - -x = -(-gl (-x) - x) by ring, abs_neg] at this

/-- **C163**: a cast to any format is accurate: a number below the overflow threshold becomes a number that differs by half a unit in the last
place, or by half the least positive number. -/
theorem C163_narrow (hp : 1 ≤ G.p) (he : G.emin + G.p ≤ G.emax) (hg : Rounds G gl) {x : ℝ} (hx : |x| < 2 ^ G.emax - 2 ^ (G.emax - G.p - 1)) :
    ∃ y, ((IE.num x : IE F fl).cast : IE G gl) = IE.num y ∧ Finite G y ∧ |y - x| ≤ unit G * |x| + tiny G := by
  have h1 := round_lt hg he ((le_abs_self x).trans_lt hx)
  have h2 := round_lt hg.negate he ((neg_le_abs x).trans_lt hx)
  simp only [neg_neg] at h2
  have hb : |gl x| < 2 ^ G.emax := abs_lt.2 ⟨by linarith, h1⟩
  exact ⟨gl x, by rw [cast_num, ofReal_num hb], ⟨(hg x).1, hb⟩, hg.err hp x⟩

/-- **C163**: above the threshold the result is the infinity of the same sign: never a wrong number. -/
theorem C163_overflow (hp : 1 ≤ G.p) (he : G.emin + G.p ≤ G.emax) (hg : Rounds G gl) {x : ℝ} (hx : 2 ^ G.emax - 2 ^ (G.emax - G.p - 1) < |x|) :
    ((IE.num x : IE F fl).cast : IE G gl) = IE.inf (decide (x < 0)) := by
  have hT : OnGrid G (2 ^ G.emax) := onGrid_pow hp (by omega)
  -- nothing on the grid lies between the largest number and `2 ^ emax`
  have key : ∀ {g : ℝ → ℝ}, Rounds G g → ∀ {z : ℝ}, 2 ^ G.emax - 2 ^ (G.emax - G.p - 1) < z → 2 ^ G.emax ≤ g z := by
    intro g hg z hz
    by_contra hc
    have hc := not_le.1 hc
    have hz2 : z < 2 ^ G.emax := by
      by_contra h
      have := hg.mono (not_lt.1 h)
      rw [hg.fix hT] at this
      linarith
    have h1 := (hg z).2 _ hT
    rw [abs_of_pos (show 0 < 2 ^ G.emax - z by linarith)] at h1
    have h2 := neg_abs_le (g z - z)
    have h3 : (2 : ℝ) ^ (G.emax - G.p) = 2 * 2 ^ (G.emax - G.p - 1) := by
      rw [zpow_sub_one₀ (by norm_num)]; ring
    have hlow : 2 ^ G.emax - 2 ^ (G.emax - G.p) < g z := by linarith
    obtain ⟨m, e, hm, hge, hv⟩ := (hg z).1
    have hpe : (0 : ℝ) < 2 ^ e := by positivity
    -- the exponent is at least `emax - p`
    have hM : (2 : ℝ) ^ G.emax - 2 ^ (G.emax - G.p) = (2 ^ G.p - 1) * 2 ^ (G.emax - G.p) := by
      rw [sub_mul, one_mul, ← zpow_natCast, ← zpow_add₀ (by norm_num)]
      congr 2; omega
    have hm' : (m : ℝ) ≤ 2 ^ G.p - 1 := by
      have : m ≤ 2 ^ G.p - 1 := by have := (abs_lt.1 hm).2; omega
      calc (m : ℝ) ≤ ((2 ^ G.p - 1 : ℤ) : ℝ) := by exact_mod_cast this
        _ = _ := by push_cast; ring
    have hp1 : (1 : ℝ) ≤ 2 ^ G.p - 1 := by
      have : (2 : ℝ) ^ 1 ≤ 2 ^ G.p := pow_le_pow_right₀ (by norm_num) hp
      linarith
    have hE : G.emax - G.p < e := by
      by_contra h
      have hle : (2 : ℝ) ^ e ≤ 2 ^ (G.emax - G.p) := zpow_le_zpow_right₀ (by norm_num) (by omega)
      rw [hM, hv] at hlow
      have a1 : (m : ℝ) * 2 ^ e ≤ (2 ^ G.p - 1) * 2 ^ e := mul_le_mul_of_nonneg_right hm' hpe.le
      have a2 : (2 ^ G.p - 1 : ℝ) * 2 ^ e ≤ (2 ^ G.p - 1) * 2 ^ (G.emax - G.p) := mul_le_mul_of_nonneg_left hle (by linarith)
      linarith
    -- so it is a multiple of `2 ^ (emax - p)` strictly between two successive ones
    obtain ⟨j, hj⟩ := Int.eq_ofNat_of_zero_le (show 0 ≤ e - (G.emax - G.p) by omega)
    have hv2 : g z = ((m * 2 ^ j : ℤ) : ℝ) * 2 ^ (G.emax - G.p) := by
      rw [hv, show e = j + (G.emax - G.p) by omega, zpow_add₀ (by norm_num), zpow_natCast]
      push_cast; ring
    have hq : (0 : ℝ) < 2 ^ (G.emax - G.p) := by positivity
    have hT2 : (2 : ℝ) ^ G.emax = 2 ^ G.p * 2 ^ (G.emax - G.p) := by
      rw [← zpow_natCast, ← zpow_add₀ (by norm_num)]; congr 1; omega
    rw [hM, hv2] at hlow
    rw [hT2, hv2] at hc
    have b1 := lt_of_mul_lt_mul_right hlow hq.le
    have b2 := lt_of_mul_lt_mul_right hc hq.le
    have c1 : (2 : ℤ) ^ G.p - 1 < m * 2 ^ j := by exact_mod_cast b1
    have c2 : m * 2 ^ j < (2 : ℤ) ^ G.p := by exact_mod_cast b2
    omega
  have hb : ¬ |gl x| < 2 ^ G.emax := by
    rcases lt_abs.1 hx with h | h
    · exact not_lt.2 ((key hg h).trans (le_abs_self _))
    · have := key hg.negate h
      simp only [neg_neg] at this
      exact not_lt.2 (this.trans (neg_le_abs _))
  rw [cast_num]
  unfold IE.ofReal
  rw [if_neg hb]

/-- Casting `f64` to `f32`: the threshold is `2 ^ 128 - 2 ^ 103`, and 1/10 is below it. -/
example : 1 ≤ binary32.p ∧ binary32.emin + binary32.p ≤ binary32.emax ∧
    |(1 / 10 : ℝ)| < 2 ^ binary32.emax - 2 ^ (binary32.emax - binary32.p - 1) := by
  refine ⟨by decide, by decide, ?_⟩
  rw [abs_of_pos (by norm_num)]
  norm_num [binary32]

/-- **C163**: counts up to `2 ^ p` are exact, and every count of the machine is within a relative error of `2 ^ (-p)`. -/
theorem C163_count (hp : 1 ≤ F.p) (hlo : F.emin ≤ 0) (hhi : 64 < F.emax) (h : Rounds F fl) {n : ℕ} (hn : n < 2 ^ 64) :
    ∃ y, (IE.ofCount n : IE F fl) = IE.num y ∧ Finite F y ∧ |y - n| ≤ unit F * n ∧ (n ≤ 2 ^ F.p → y = n) := by
  have hfix : n ≤ 2 ^ F.p → fl n = n := by
    intro hle
    have := onGrid_of_le hp (m := n) (by rw [abs_of_nonneg (by omega)]; exact_mod_cast hle) hlo
    exact h.fix (by simpa using this)
  have h64 : fl n ≤ 2 ^ (64 : ℤ) := by
    rw [← h.fix (onGrid_pow hp (e := 64) (by omega))]
    refine h.mono ?_
    exact_mod_cast hn.le
  have h0 : 0 ≤ fl n := by
    rw [← h.zero]; exact h.mono (Nat.cast_nonneg n)
  have hb : |fl n| < 2 ^ F.emax := by
    rw [abs_of_nonneg h0]
    exact h64.trans_lt (zpow_lt_zpow_right₀ (by norm_num) hhi)
  refine ⟨fl n, ofReal_num hb, ⟨(h _).1, hb⟩, ?_, hfix⟩
  by_cases hle : n ≤ 2 ^ F.p
  · rw [hfix hle, sub_self, abs_zero]
    exact mul_nonneg (zpow_nonneg (by norm_num) _) (Nat.cast_nonneg n)
  · have hbig : (2 : ℝ) ^ (F.emin + F.p - 1) ≤ |(n : ℝ)| := by
      rw [abs_of_nonneg (Nat.cast_nonneg n)]
      calc (2 : ℝ) ^ (F.emin + F.p - 1) ≤ 2 ^ (F.p : ℤ) := zpow_le_zpow_right₀ (by norm_num) (by omega)
        _ = ((2 ^ F.p : ℕ) : ℝ) := by push_cast; rw [zpow_natCast]
        _ ≤ n := by exact_mod_cast (not_le.1 hle).le
    have := h.normal hp hbig
    rwa [abs_of_nonneg (show (0 : ℝ) ≤ n from Nat.cast_nonneg n)] at this

/-- Both formats of the crate hold every count; `f32` has the exact ones up to 16 777 216. -/
example : 64 < binary32.emax ∧ 64 < binary64.emax ∧ 2 ^ binary32.p = 16777216 ∧ (10 : ℕ) < 2 ^ 64 := by decide

end Verif.Ieee
