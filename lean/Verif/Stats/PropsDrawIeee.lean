import Verif.Stats.DrawIeee
import Verif.Stats.PropsDiscreteIeee
import Verif.Ieee.PropsLu
import Verif.Rand.Props
import Mathlib.Analysis.SpecialFunctions.Log.Basic
import Mathlib.Analysis.Complex.ExponentialBounds
import Mathlib.Analysis.SpecialFunctions.Trigonometric.Basic

/-!
# Uniform and normal draws in machine arithmetic (C236)
-/

namespace Verif.Stats.Ie

open Verif.Ieee

variable {F : Format} {fl dl : ℝ → ℝ}

/-- What is supposed of the logarithm of the platform, on the numbers from `2 ^ -53` to 1: it is within a thousandth and not positive. -/
def LnDraw (ln : IE F fl → IE F fl) : Prop :=
  ∀ x, Finite F x → 2 ^ (-53 : ℤ) ≤ x → x ≤ 1 → ∃ y, ln (IE.num x) = IE.num y ∧ Finite F y ∧ y ≤ 0 ∧ |y - Real.log x| ≤ 1 / 1000

/-- What is supposed of the cosine of the platform: a number from −1 to 1. -/
def CosDraw (cos : IE F fl → IE F fl) : Prop := ∀ x, Finite F x → ∃ y, cos (IE.num x) = IE.num y ∧ Finite F y ∧ |y| ≤ 1

theorem draw_range (h : Rounds F fl) {lo hi x : ℝ} (hlo : Finite F lo) (hhi : Finite F hi) (h1 : lo ≤ x) (h2 : x ≤ hi) :
    (IE.ofReal x : IE F fl) = IE.num (fl x) ∧ Finite F (fl x) ∧ lo ≤ fl x ∧ fl x ≤ hi := by
  have a1 : lo ≤ fl x := by rw [← h.fix hlo.1]; exact h.mono h1
  have a2 : fl x ≤ hi := by rw [← h.fix hhi.1]; exact h.mono h2
  have hb : |fl x| < 2 ^ F.emax := by
    have := (abs_lt.1 hlo.2).1
    have := (abs_lt.1 hhi.2).2
    rw [abs_lt]
    constructor <;> linarith
  exact ⟨ofReal_num hb, ⟨(h x).1, hb⟩, a1, a2⟩

/-- Small multiples of powers of two are numbers of the format. -/
theorem draw_fin (hF : Holds F) {m e : ℤ} (hm : |m| ≤ 2 ^ 24) (he : -64 ≤ e) (he2 : e ≤ 0) : Finite F (m * 2 ^ e) := by
  have hb := hF.bits
  have hl := hF.low
  refine ⟨onGrid_of_le (by omega) (hm.trans (pow_le_pow_right₀ (by norm_num) hb)) (by omega), ?_⟩
  rw [abs_mul, abs_of_pos (show (0 : ℝ) < 2 ^ e by positivity)]
  have hm' : |(m : ℝ)| ≤ 2 ^ 24 := by exact_mod_cast hm
  calc |(m : ℝ)| * 2 ^ e ≤ 2 ^ 24 * 2 ^ (0 : ℤ) := mul_le_mul hm' (zpow_le_zpow_right₀ (by norm_num) he2) (by positivity) (by positivity)
    _ = 2 ^ (24 : ℤ) := by norm_num
    _ < 2 ^ F.emax := zpow_lt_zpow_right₀ (by norm_num) (by have := hF.high; omega)

theorem holds64 : Holds binary64 := ⟨by decide, by decide, by decide⟩

theorem draw_zero : Finite F 0 := ⟨onGrid_zero, by rw [abs_zero]; positivity⟩

theorem draw_one (hF : Holds F) : Finite F 1 := by simpa using draw_fin hF (m := 1) (e := 0) (by norm_num) (by norm_num) (by norm_num)

/-- The generator's number, before it is converted. -/
theorem unit_num (hd : Rounds binary64 dl) {k : ℕ} (hk : k < 2 ^ 53) :
    (IE.ofCount k / IE.ofCount (2 ^ 53) : IE binary64 dl) = IE.num ((k : ℝ) / 2 ^ 53) ∧ Finite binary64 ((k : ℝ) / 2 ^ 53) := by
  have g : ∀ e : ℤ, -1074 ≤ e → e ≤ 0 → Finite binary64 ((k : ℤ) * 2 ^ e : ℝ) := by
    intro e he he2
    refine ⟨onGrid_of_le (by decide) ?_ he, ?_⟩
    · rw [abs_of_nonneg (by positivity)]
      have : k ≤ 2 ^ 53 := hk.le
      exact_mod_cast this
    · have hk' : (k : ℝ) < 2 ^ (53 : ℤ) := by exact_mod_cast hk
      rw [abs_of_nonneg (by positivity), Int.cast_natCast]
      calc (k : ℝ) * 2 ^ e ≤ k * 2 ^ (0 : ℤ) := mul_le_mul_of_nonneg_left (zpow_le_zpow_right₀ (by norm_num) he2) (by positivity)
        _ = k := by simp
        _ < 2 ^ (53 : ℤ) := hk'
        _ ≤ 2 ^ binary64.emax := zpow_le_zpow_right₀ (by norm_num) (by decide)
  have f0 : Finite binary64 (k : ℝ) := by simpa using g 0 (by norm_num) le_rfl
  have f1 : Finite binary64 ((k : ℝ) / 2 ^ 53) := by
    have := g (-53) (by norm_num) (by norm_num)
    rw [Int.cast_natCast, zpow_neg, ← div_eq_mul_inv] at this
    exact_mod_cast this
  have f2 : Finite binary64 (((2 ^ 53 : ℕ) : ℝ)) := by
    have := pow_finite (e := 53) (by norm_num) (by norm_num)
    have e : ((2 : ℝ) ^ (53 : ℤ)) = ((2 ^ 53 : ℕ) : ℝ) := by norm_num
    rwa [e] at this
  refine ⟨?_, f1⟩
  unfold IE.ofCount
  rw [ofReal_finite hd f0, ofReal_finite hd f2, div_num _ (by positivity)]
  have e : (k : ℝ) / ((2 ^ 53 : ℕ) : ℝ) = (k : ℝ) / 2 ^ 53 := by norm_num
  rw [e, ofReal_finite hd f1]

/-- **C236, uniform draws**: a number from 0 to 1 of the caller's format, the multiple of `2 ^ -53` that the generator gave, rounded; it is zero only if
that is, and otherwise at least `2 ^ -53`. In `f64` it is exact and below 1. -/
theorem C236_uniform (hF : Holds F) (h : Rounds F fl) (hd : Rounds binary64 dl) (g : Rand.Gen) :
    ∃ u, (nextReal dl g : IE F fl × Rand.Gen) = (IE.num u, g.nextUnit.2) ∧ Finite F u ∧ 0 ≤ u ∧ u ≤ 1 ∧ (u = 0 ↔ g.nextUnit.1 = 0) ∧
      (u ≠ 0 → 2 ^ (-53 : ℤ) ≤ u) ∧ |u - g.nextUnit.1| ≤ unit F * g.nextUnit.1 ∧ (F = binary64 → u = g.nextUnit.1 ∧ u < 1) := by
  set k := (g.nextU64.1 >>> 11).toNat with hk
  have hk53 : k < 2 ^ 53 := by
    rw [hk, BitVec.toNat_ushiftRight, Nat.shiftRight_eq_div_pow]
    have := g.nextU64.1.isLt
    omega
  have eu : ((g.nextUnit.1 : ℚ) : ℝ) = (k : ℝ) / 2 ^ 53 := by
    have : g.nextUnit.1 = (k : ℚ) / 2 ^ 53 := rfl
    rw [this]
    push_cast
    rfl
  obtain ⟨e1, f1⟩ := unit_num hd hk53
  have hk' : (k : ℝ) < 2 ^ 53 := by exact_mod_cast hk53
  have hq0 : (0 : ℝ) ≤ (k : ℝ) / 2 ^ 53 := by positivity
  have hq1 : (k : ℝ) / 2 ^ 53 < 1 := by rw [div_lt_one (by positivity)]; exact hk'
  obtain ⟨a1, a2, a3, a4⟩ := draw_range h draw_zero (draw_one hF) hq0 hq1.le
  have hlow : 0 < k → (2 : ℝ) ^ (-53 : ℤ) ≤ (k : ℝ) / 2 ^ 53 := by
    intro hk0
    have : (1 : ℝ) ≤ k := by exact_mod_cast hk0
    rw [zpow_neg, ← one_div]
    exact div_le_div_of_nonneg_right this (by positivity)
  have hg : OnGrid F ((2 : ℝ) ^ (-53 : ℤ)) := onGrid_pow (by have := hF.bits; omega) (by have := hF.low; have := hF.bits; omega)
  have hlow' : 0 < k → (2 : ℝ) ^ (-53 : ℤ) ≤ fl ((k : ℝ) / 2 ^ 53) := fun hk0 => by
    rw [← h.fix hg]
    exact h.mono (hlow hk0)
  have hz : k = 0 → fl ((k : ℝ) / 2 ^ 53) = 0 := fun e => by rw [e, Nat.cast_zero, zero_div, h.zero]
  refine ⟨fl ((k : ℝ) / 2 ^ 53), ?_, a2, a3, a4, ?_, ?_, ?_, ?_⟩
  · have : (nextReal dl g : IE F fl × Rand.Gen) = ((IE.ofCount k / IE.ofCount (2 ^ 53) : IE binary64 dl).cast, g.nextUnit.2) := rfl
    rw [this, e1]
    exact congrArg (·, g.nextUnit.2) a1
  · have : g.nextUnit.1 = 0 ↔ k = 0 := by
      have : g.nextUnit.1 = (k : ℚ) / 2 ^ 53 := rfl
      rw [this]
      simp
    rw [this]
    refine ⟨fun e => ?_, hz⟩
    by_contra hc
    have := hlow' (Nat.pos_of_ne_zero hc)
    have : (0 : ℝ) < 2 ^ (-53 : ℤ) := by positivity
    linarith
  · intro hu
    exact hlow' (Nat.pos_of_ne_zero fun e => hu (hz e))
  · rw [eu]
    rcases Nat.eq_zero_or_pos k with e | hk0
    · rw [hz e, e]; simp
    · have := h.normal (by have := hF.bits; omega) (x := (k : ℝ) / 2 ^ 53) (by
        rw [abs_of_nonneg hq0]
        exact (zpow_le_zpow_right₀ (by norm_num) (by have := hF.low; omega)).trans (hlow hk0))
      rwa [abs_of_nonneg hq0] at this
  · intro e
    subst e
    rw [h.fix f1.1, eu]
    exact ⟨rfl, hq1⟩

theorem log_unit {u : ℝ} (hu0 : 2 ^ (-53 : ℤ) ≤ u) (hu1 : u ≤ 1) : -(36.738 : ℝ) ≤ Real.log u ∧ Real.log u ≤ 0 := by
  have hpos : (0 : ℝ) < 2 ^ (-53 : ℤ) := by positivity
  refine ⟨?_, Real.log_nonpos (hpos.le.trans hu0) hu1⟩
  have := Real.log_le_log hpos hu0
  rw [Real.log_zpow] at this
  have := Real.log_two_lt_d9
  push_cast at *
  linarith

/-- The radius of Box–Muller. -/
theorem radius (hF : Holds F) (h : Rounds F fl) {ln : IE F fl → IE F fl} (hln : LnDraw ln) {u : ℝ} (hu : Finite F u) (hu0 : 2 ^ (-53 : ℤ) ≤ u) (hu1 : u ≤ 1) :
    ∃ y r, ln (IE.num u) = IE.num y ∧ Finite F (2 * y) ∧ IE.sqrt (IE.num (-(2 * y)) : IE F fl) = IE.num r ∧ 0 ≤ r ∧ r ≤ 69 / 8 := by
  obtain ⟨y, e, hf, hy0, hy⟩ := hln u hu hu0 hu1
  obtain ⟨l1, l2⟩ := log_unit hu0 hu1
  have hy1 : -(37 : ℝ) ≤ y := by
    have := (abs_le.1 hy).1
    linarith
  have hfin : Finite F (2 * y) := by
    obtain ⟨m, e, hm, he, ey⟩ := hf.1
    refine ⟨⟨m, e + 1, hm, by omega, by rw [ey, zpow_add₀ (by norm_num)]; ring⟩, ?_⟩
    have : (2 : ℝ) ^ (64 : ℤ) < 2 ^ F.emax := zpow_lt_zpow_right₀ (by norm_num) hF.high
    rw [abs_of_nonpos (by linarith)]
    norm_num at this
    linarith
  have hr : Real.sqrt (-(2 * y)) ≤ 69 / 8 := by
    rw [Real.sqrt_le_left (by norm_num)]
    have := (abs_le.1 hy).1
    norm_num
    linarith
  obtain ⟨a1, -, a3, a4⟩ := draw_range h (draw_zero (F := F)) (show Finite F (69 / 8) by
    have := draw_fin hF (m := 69) (e := -3) (by norm_num) (by norm_num) (by norm_num)
    norm_num [zpow_neg] at this
    norm_num
    exact this) (Real.sqrt_nonneg (-(2 * y))) hr
  refine ⟨y, fl √(-(2 * y)), e, hfin, ?_, a3, a4⟩
  rw [sqrt_num (by linarith), a1]

/-- The angle of Box–Muller. -/
theorem angle (hF : Holds F) (h : Rounds F fl) {cos : IE F fl → IE F fl} (hcos : CosDraw cos) {u : ℝ} (hu : Finite F u) (hu0 : 0 ≤ u) (hu1 : u ≤ 1) :
    ∃ c, cos (IE.num 2 * IE.ofReal Real.pi * IE.num u) = IE.num c ∧ Finite F c ∧ |c| ≤ 1 := by
  have hp : 1 ≤ F.p := by have := hF.bits; omega
  have hlo : F.emin ≤ 0 := by have := hF.low; omega
  have hhi := hF.high
  have b1 : Below 1 (IE.num 2 : IE F fl) := ⟨2, rfl, by simpa using draw_fin hF (m := 2) (e := 0) (by norm_num) (by norm_num) (by norm_num), by norm_num⟩
  have b2 : Below 2 (IE.ofReal Real.pi : IE F fl) := ofReal_below hp hlo h (by push_cast; omega) (by
    rw [abs_of_pos Real.pi_pos]
    have := Real.pi_lt_four
    linarith)
  have b3 : Below 0 (IE.num u : IE F fl) := ⟨u, rfl, hu, by rw [abs_of_nonneg hu0]; simpa using hu1⟩
  obtain ⟨t, et, ht, -⟩ := Below.mul hp hlo h (Below.mul hp hlo h b1 b2 (by push_cast; omega)) b3 (by push_cast; omega)
  rw [et]
  exact hcos t ht

/-- Radius times cosine. -/
theorem polar (hF : Holds F) (h : Rounds F fl) {r c : ℝ} (hr0 : 0 ≤ r) (hr : r ≤ 69 / 8) (hc : |c| ≤ 1) :
    ∃ z, (IE.num r * IE.num c : IE F fl) = IE.num z ∧ Finite F z ∧ |z| ≤ 69 / 8 := by
  have f : Finite F (69 / 8) := by
    have := draw_fin hF (m := 69) (e := -3) (by norm_num) (by norm_num) (by norm_num)
    norm_num [zpow_neg] at this
    norm_num
    exact this
  obtain ⟨c1, c2⟩ := abs_le.1 hc
  obtain ⟨a1, a2, a3, a4⟩ := draw_range h (x := r * c) ⟨f.1.neg, by rw [abs_neg]; exact f.2⟩ f (by nlinarith) (by nlinarith)
  exact ⟨_, by rw [mul_num, a1], a2, abs_le.2 ⟨a3, a4⟩⟩

/-- The uniform number that the logarithm is taken of. -/
theorem positive_unit {u eps : ℝ} (he : Finite F eps) (he0 : 2 ^ (-53 : ℤ) ≤ eps) (he1 : eps ≤ 1) (hu : Finite F u) (hu1 : u ≤ 1)
    (hl : u ≠ 0 → 2 ^ (-53 : ℤ) ≤ u) :
    ∃ v, (if (IE.num u : IE F fl) ≤ 0 then IE.num eps else IE.num u : IE F fl) = IE.num v ∧ Finite F v ∧ 2 ^ (-53 : ℤ) ≤ v ∧ v ≤ 1 := by
  by_cases hz : u ≤ 0
  · exact ⟨eps, if_pos ((le_num _ _).2 hz), he, he0, he1⟩
  · exact ⟨u, if_neg fun hc => hz ((le_num _ _).1 hc), hu, hl fun e => hz e.le, hu1⟩

/-! ## Properties -/

/-- **C236, standard normal draws**: whatever the state of the generator, a finite number of absolute value at most 8.625; two numbers of the generator are used. -/
theorem C236_normal01 (hF : Holds F) (hp : F.p ≤ 53) (h : Rounds F fl) (hd : Rounds binary64 dl) {ln cos : IE F fl → IE F fl} (hln : LnDraw ln) (hcos : CosDraw cos)
    (g : Rand.Gen) : ∃ z, normal01 dl ln cos g = (IE.num z, (g.draws 2).2) ∧ Finite F z ∧ |z| ≤ 8.625 := by
  obtain ⟨u, eu, fu, u0, u1, -, ul, -⟩ := C236_uniform hF h hd g
  obtain ⟨w, ew, fw, w0, w1, -⟩ := C236_uniform hF h hd g.nextUnit.2
  have feps : Finite F ((2 : ℝ) ^ (1 - F.p : ℤ)) := by
    have := draw_fin hF (m := 1) (e := 1 - F.p) (by norm_num) (by omega) (by have := hF.bits; omega)
    simpa using this
  obtain ⟨v, ev, fv, v0, v1⟩ := positive_unit (fl := fl) feps (zpow_le_zpow_right₀ (by norm_num) (by omega))
    (zpow_le_one_of_nonpos₀ (by norm_num) (by have := hF.bits; omega)) fu u1 ul
  obtain ⟨y, r, ey, fy, er, r0, r1⟩ := radius hF h hln fv v0 v1
  obtain ⟨c, ec, -, hc⟩ := angle hF h hcos fw w0 w1
  obtain ⟨z, ez, fz, hz⟩ := polar (fl := fl) hF h r0 r1 hc
  refine ⟨z, ?_, fz, by norm_num at hz ⊢; exact hz⟩
  have e2 : (1 + 1 : IE F fl) = IE.num 2 := by
    change (IE.num 1 + IE.num 1 : IE F fl) = _
    rw [add_num, one_add_one_eq_two]
    exact ofReal_finite h (by simpa using draw_fin hF (m := 2) (e := 0) (by norm_num) (by norm_num) (by norm_num))
  unfold normal01
  rw [eu]
  dsimp only
  rw [ew, ev, e2]
  dsimp only
  rw [ey, mul_num, ofReal_finite h fy, ec]
  change (IE.sqrt (IE.num (-(2 * y))) * IE.num c, _) = _
  rw [er, ez]
  rfl

/-- **C236, normal draws**, a mean of at most a quarter and a standard deviation of at most 1/64 of the largest power of two: whatever the state of the generator,
the sample is a finite number, within nine standard deviations and a rounding of the mean; two numbers of the generator are used. -/
theorem C236_sample (hF : Holds F) (h : Rounds F fl) (hd : Rounds binary64 dl) {ln cos : IE binary64 dl → IE binary64 dl} (hln : LnDraw ln) (hcos : CosDraw cos)
    {mu sigma : ℝ} (hmu : Finite F mu) (hm : |mu| ≤ 2 ^ (F.emax - 2)) (hs : |sigma| ≤ 2 ^ (F.emax - 6)) (g : Rand.Gen) :
    ∃ x, draw ln cos (IE.num mu : IE F fl) (IE.num sigma) g = (IE.num x, (g.draws 2).2) ∧ Finite F x ∧ |x - mu| ≤ 9 * |sigma| + unit F * |mu| + 2 ^ F.emin := by
  obtain ⟨u, eu, fu, u0, u1, -, ul, -⟩ := C236_uniform holds64 hd hd g
  obtain ⟨w, ew, fw, w0, w1, -⟩ := C236_uniform holds64 hd hd g.nextUnit.2
  obtain ⟨v, ev, fv, v0, v1⟩ := positive_unit (fl := dl) (pow_finite (e := -52) (by norm_num) (by norm_num)) (zpow_le_zpow_right₀ (by norm_num) (by norm_num))
    (zpow_le_one_of_nonpos₀ (by norm_num) (by norm_num)) fu u1 ul
  obtain ⟨y, r, ey, fy, er, r0, r1⟩ := radius holds64 hd hln fv v0 v1
  obtain ⟨c, ec, -, hc⟩ := angle holds64 hd hcos fw w0 w1
  obtain ⟨z, ez, fz, hz⟩ := polar (fl := dl) holds64 hd r0 r1 hc
  have fb : Finite F (69 / 8) := by
    have := draw_fin hF (m := 69) (e := -3) (by norm_num) (by norm_num) (by norm_num)
    norm_num [zpow_neg] at this
    norm_num
    exact this
  obtain ⟨z1, z2⟩ := abs_le.1 hz
  obtain ⟨a1, -, a3, a4⟩ := draw_range h ⟨fb.1.neg, by rw [abs_neg]; exact fb.2⟩ fb z1 z2
  set q := fl z with hq
  have hq : |q| ≤ 69 / 8 := abs_le.2 ⟨a3, a4⟩
  have hp : 1 ≤ F.p := by have := hF.bits; omega
  have hhi := hF.high
  have hlo := hF.low
  have hsq : |sigma * q| ≤ 69 / 8 * |sigma| := by
    rw [abs_mul, mul_comm]
    exact mul_le_mul_of_nonneg_right hq (abs_nonneg _)
  have pw : ∀ e : ℤ, 0 ≤ e → e < F.emax → Finite F (2 ^ e) := fun e he he2 =>
    ⟨onGrid_pow hp (by omega), by rw [abs_of_pos (by positivity)]; exact zpow_lt_zpow_right₀ (by norm_num) he2⟩
  have ng : ∀ x, Finite F x → Finite F (-x) := fun x hx => ⟨hx.1.neg, by rw [abs_neg]; exact hx.2⟩
  have hb1 : |sigma * q| ≤ 2 ^ (F.emax - 2) := by
    have e : (2 : ℝ) ^ (F.emax - 2) = 16 * 2 ^ (F.emax - 6) := by
      rw [show F.emax - 2 = 4 + (F.emax - 6) by ring, zpow_add₀ (by norm_num)]
      norm_num
    rw [e]
    have : (0 : ℝ) < 2 ^ (F.emax - 6) := by positivity
    linarith
  obtain ⟨s1, s2⟩ := abs_le.1 hb1
  obtain ⟨b1, b2, b3, b4⟩ := draw_range h (ng _ (pw (F.emax - 2) (by omega) (by omega))) (pw (F.emax - 2) (by omega) (by omega)) s1 s2
  set t := fl (sigma * q) with ht
  have hb2 : |t + mu| ≤ 2 ^ (F.emax - 1) := by
    have e : (2 : ℝ) ^ (F.emax - 1) = 2 * 2 ^ (F.emax - 2) := by
      rw [show F.emax - 1 = 1 + (F.emax - 2) by ring, zpow_add₀ (by norm_num)]
      norm_num
    rw [e]
    have := abs_add_le t mu
    have := abs_le.2 ⟨b3, b4⟩
    linarith
  obtain ⟨t1, t2⟩ := abs_le.1 hb2
  obtain ⟨d1, d2, -, -⟩ := draw_range h (ng _ (pw (F.emax - 1) (by omega) (by omega))) (pw (F.emax - 1) (by omega) (by omega)) t1 t2
  refine ⟨fl (t + mu), ?_, d2, ?_⟩
  · unfold draw
    rw [eu]
    dsimp only
    rw [ew, ev]
    dsimp only
    rw [ey, mul_num, neg_mul, ofReal_finite hd ⟨fy.1.neg, by rw [abs_neg]; exact fy.2⟩, ec, er, ez]
    change (IE.num sigma * IE.ofReal z + IE.num mu, _) = _
    rw [a1, mul_num, b1, add_num, d1]
    rfl
  · have hu := unit_small hF
    have hup := unit_pos (F := F)
    have g1 := h.err hp (sigma * q)
    have g2 := h.add hp b2.1 hmu.1
    have ets : 2 ^ F.emin = 2 * tiny F := by
      unfold tiny
      rw [zpow_sub₀ (by norm_num)]
      norm_num
      ring
    have htp : 0 < tiny F := zpow_pos (by norm_num) _
    have hu24 : unit F ≤ 1 / 100 := hu
    have ht1 : |t| ≤ (1 + unit F) * (69 / 8 * |sigma|) + tiny F := by
      have e1 : |t| ≤ |t - sigma * q| + |sigma * q| := by
        have := abs_add_le (t - sigma * q) (sigma * q)
        rwa [sub_add_cancel] at this
      have e2 : unit F * |sigma * q| ≤ unit F * (69 / 8 * |sigma|) := mul_le_mul_of_nonneg_left hsq hup.le
      linarith
    have e3 : |fl (t + mu) - mu| ≤ |fl (t + mu) - (t + mu)| + |t| := by
      have := abs_add_le (fl (t + mu) - (t + mu)) t
      rwa [show fl (t + mu) - (t + mu) + t = fl (t + mu) - mu by ring] at this
    have e4 : unit F * |t + mu| ≤ unit F * |t| + unit F * |mu| := by
      rw [← mul_add]
      exact mul_le_mul_of_nonneg_left (abs_add_le t mu) hup.le
    have e5 : (1 + unit F) * |t| ≤ 9 * |sigma| + 2 * tiny F := by
      have e6 : (1 + unit F) * |t| ≤ (1 + unit F) * ((1 + unit F) * (69 / 8 * |sigma|) + tiny F) := mul_le_mul_of_nonneg_left ht1 (by linarith)
      have e7 : (1 + unit F) * (1 + unit F) * (69 / 8) ≤ 9 := by nlinarith
      have e8 := mul_le_mul_of_nonneg_right e7 (abs_nonneg sigma)
      have e9 : unit F * tiny F ≤ tiny F := by nlinarith
      nlinarith
    rw [ets]
    linarith

/-- The standard normal distribution in `f32` meets the hypotheses on the parameters. -/
example : Finite binary32 0 ∧ |(0 : ℝ)| ≤ 2 ^ (binary32.emax - 2) ∧ |(1 : ℝ)| ≤ 2 ^ (binary32.emax - 6) :=
  ⟨draw_zero, by rw [abs_zero]; positivity, by rw [abs_one]; exact one_le_zpow₀ (by norm_num) (by decide)⟩

/-- The exact logarithm and cosine, rounded, are as supposed. -/
example (hF : Holds F) (h : Rounds F fl) : ∃ ln cos : IE F fl → IE F fl, LnDraw ln ∧ CosDraw cos := by
  refine ⟨fun a => IE.ofReal (Real.log a.real), fun a => IE.ofReal (Real.cos a.real), fun x hx hx0 hx1 => ?_, fun x _ => ?_⟩
  · obtain ⟨l1, l2⟩ := log_unit hx0 hx1
    obtain ⟨a1, a2, a3, a4⟩ := draw_range h (lo := -37) (x := Real.log x) (by
      simpa using draw_fin hF (m := -37) (e := 0) (by norm_num) (by norm_num) (by norm_num)) draw_zero (by linarith) l2
    refine ⟨_, a1, a2, a4, ?_⟩
    have he := h.err (by have := hF.bits; omega) (Real.log x)
    have hu : unit F ≤ 2 ^ (-24 : ℤ) := zpow_le_zpow_right₀ (by norm_num) (by have := hF.bits; omega)
    have ht : tiny F ≤ 2 ^ (-24 : ℤ) := zpow_le_zpow_right₀ (by norm_num) (by have := hF.low; omega)
    have hl : |Real.log x| ≤ 37 := abs_le.2 ⟨by linarith, by linarith⟩
    have hm : unit F * |Real.log x| ≤ 2 ^ (-24 : ℤ) * 37 := mul_le_mul hu hl (abs_nonneg _) (by positivity)
    have : (2 : ℝ) ^ (-24 : ℤ) * 38 ≤ 1 / 1000 := by norm_num [zpow_neg]
    generalize (2 : ℝ) ^ (-24 : ℤ) = t at *
    linarith
  · obtain ⟨a1, a2, a3, a4⟩ := draw_range h (lo := -1) (hi := 1) (x := Real.cos x) ⟨(draw_one hF).1.neg, by rw [abs_neg]; exact (draw_one hF).2⟩ (draw_one hF)
      (Real.neg_one_le_cos x) (Real.cos_le_one x)
    exact ⟨_, a1, a2, abs_le.2 ⟨a3, a4⟩⟩

end Verif.Stats.Ie
