import Verif.Units.UnitsIeee
import Verif.Units.Props
import Verif.Ieee.PropsLu
import Verif.Ieee.PropsCast
import Verif.Ieee.PropsDot

/-!
# Unit conversions in machine arithmetic (C237)
-/

namespace Verif.Units

open Verif.Ieee

variable {F : Format} {fl : ℝ → ℝ}

/-- At least the precision and range of `f32`. -/
structure Single (F : Format) : Prop where
  bits : 24 ≤ F.p
  low : F.emin + F.p ≤ -125
  high : 128 ≤ F.emax

/-- Both formats of the crate. -/
example : Single binary32 ∧ Single binary64 := ⟨⟨by decide, by decide, by decide⟩, ⟨by decide, by decide, by decide⟩⟩

/-- A constant of type `f32` is a number of the format. -/
theorem f32_onGrid (hF : Single F) {x : ℚ} (hx : 2 ^ (-100 : ℤ) ≤ x) : OnGrid F ((f32 x : ℚ) : ℝ) := by
  have hx0 : 0 < x := lt_of_lt_of_le (by positivity) hx
  have hlog : -100 ≤ Int.log 2 x := (Int.zpow_le_iff_le_log (by norm_num) hx0).1 (by exact_mod_cast hx)
  unfold f32 roundTo
  simp only
  set e : ℤ := Int.log 2 x - (((24 : ℕ) : ℤ) - 1) with he
  have hb := hF.bits
  have hl := hF.low
  have hu : (0 : ℚ) < 2 ^ e := by positivity
  have hq : x / 2 ^ e < 2 ^ 24 := by
    rw [div_lt_iff₀ hu]
    have h1 := Int.lt_zpow_succ_log_self (b := 2) (by norm_num) x
    have e1 : (2 : ℚ) ^ 24 * 2 ^ e = 2 ^ (Int.log 2 x + 1) := by
      rw [← zpow_natCast, ← zpow_add₀ (by norm_num), he]
      congr 1
      push_cast
      ring
    rw [e1]
    exact_mod_cast h1
  have hq0 : 0 < x / 2 ^ e := by positivity
  have hn := abs_le.1 (roundEven_near (x / 2 ^ e))
  have hm : |roundEven (x / 2 ^ e)| ≤ 2 ^ 24 := by
    rw [abs_le]
    constructor
    · have : (-1 : ℚ) < roundEven (x / 2 ^ e) := by linarith [hn.1]
      have : (-1 : ℤ) < roundEven (x / 2 ^ e) := by exact_mod_cast this
      omega
    · have : (roundEven (x / 2 ^ e) : ℚ) < 2 ^ 24 + 1 := by linarith [hn.2]
      have : roundEven (x / 2 ^ e) < 2 ^ 24 + 1 := by exact_mod_cast this
      omega
  have := onGrid_of_le (F := F) (m := roundEven (x / 2 ^ e)) (e := e) (by omega) (hm.trans (pow_le_pow_right₀ (by norm_num) hb)) (by omega)
  push_cast
  exact this


theorem power_range (p : Prefix) : -24 ≤ p.power ∧ p.power ≤ 24 := by cases p <;> decide

theorem si_range (u : Unit) : (10 : ℚ) ^ (-27 : ℤ) ≤ u.si ∧ u.si ≤ 10 ^ (24 : ℤ) := by
  have key : ∀ e : ℤ, -27 ≤ e → e ≤ 24 → (10 : ℚ) ^ (-27 : ℤ) ≤ 10 ^ e ∧ (10 : ℚ) ^ e ≤ 10 ^ (24 : ℤ) := fun e h1 h2 =>
    ⟨zpow_le_zpow_right₀ (by norm_num) h1, zpow_le_zpow_right₀ (by norm_num) h2⟩
  cases u with
  | metre p => exact key _ (by have := power_range p; omega) (by have := power_range p; omega)
  | second p => exact key _ (by have := power_range p; omega) (by have := power_range p; omega)
  | gram p _ => exact key _ (by have := power_range p; omega) (by have := power_range p; omega)

theorem f32_low {x : ℚ} (hx : 0 < x) : x / 2 ≤ f32 x := by
  have h := roundTo_near 24 hx
  unfold Near at h
  rw [abs_of_pos hx] at h
  have h1 := (abs_le.1 h).1
  have h2 : (2 : ℚ) ^ (-((24 : ℕ) : ℤ)) ≤ 1 / 2 := by norm_num
  have h3 := mul_le_mul_of_nonneg_right h2 hx.le
  unfold f32
  generalize (2 : ℚ) ^ (-((24 : ℕ) : ℤ)) = t at *
  linarith

theorem factor_onGrid (hF : Single F) (u : Unit) : OnGrid F ((u.factor : ℚ) : ℝ) := by
  have low : ∀ p : Prefix, (10 : ℚ) ^ (-24 : ℤ) ≤ 10 ^ p.power := fun p => zpow_le_zpow_right₀ (by norm_num) (power_range p).1
  have one : ∀ p : Prefix, OnGrid F ((factor p : ℚ) : ℝ) := by
    intro p
    rw [factor_eq]
    refine f32_onGrid hF (le_trans ?_ (low p))
    norm_num
  cases u with
  | metre p => exact one p
  | second p => exact one p
  | gram p _ =>
    refine f32_onGrid hF ?_
    have h1 : (10 : ℚ) ^ (-24 : ℤ) / 2 ≤ factor p := by
      rw [factor_eq]
      exact le_trans (div_le_div_of_nonneg_right (low p) (by norm_num)) (f32_low (by positivity))
    have h2 : (1 / 10 ^ 3 : ℚ) / 2 ≤ f32 (1 / 10 ^ 3) := f32_low (by norm_num)
    refine le_trans ?_ (mul_le_mul h1 h2 (by norm_num) (le_trans (by norm_num) h1))
    norm_num

theorem factor_range (u : Unit) : |((u.factor : ℚ) : ℝ) - ((u.si : ℚ) : ℝ)| ≤ 2 ^ (-22 : ℤ) * ((u.si : ℚ) : ℝ) ∧ (0 : ℝ) < ((u.si : ℚ) : ℝ) ∧
    (2 : ℝ) ^ (-90 : ℤ) ≤ ((u.factor : ℚ) : ℝ) ∧ ((u.factor : ℚ) : ℝ) ≤ 2 ^ (80 : ℤ) := by
  obtain ⟨s1, s2⟩ := si_range u
  have hn := (C52_factor u).1
  have hs : 0 < u.si := lt_of_lt_of_le (by positivity) s1
  unfold Near at hn
  rw [abs_of_pos hs] at hn
  obtain ⟨n1, n2⟩ := abs_le.1 hn
  have l : (2 : ℚ) ^ (-90 : ℤ) ≤ u.factor := by
    norm_num at s1 n1 ⊢
    linarith
  have r : u.factor ≤ (2 : ℚ) ^ (80 : ℤ) := by
    norm_num at s2 n2 ⊢
    linarith
  refine ⟨?_, by exact_mod_cast hs, ?_, ?_⟩
  · have e : (2 : ℝ) ^ (-22 : ℤ) = ((1 / 2 ^ 22 : ℚ) : ℝ) := by norm_num
    rw [e]
    exact_mod_cast hn
  · have := (Rat.cast_le (K := ℝ)).2 l
    push_cast at this
    exact this
  · have := (Rat.cast_le (K := ℝ)).2 r
    rw [Rat.cast_zpow] at this
    exact_mod_cast this

theorem factorIe_num (hF : Single F) (h : Rounds F fl) (u : Unit) : (factorIe u : IE F fl) = IE.num ((u.factor : ℚ) : ℝ) := by
  obtain ⟨-, -, h1, h2⟩ := factor_range u
  refine ofReal_finite h ⟨factor_onGrid hF u, ?_⟩
  rw [abs_of_nonneg (le_trans (by positivity) h1)]
  exact lt_of_le_of_lt h2 (zpow_lt_zpow_right₀ (by norm_num) (by have := hF.high; omega))

theorem scaled_error {e d q k s b : ℝ} (hd : 0 ≤ d) (hs : 0 ≤ s) (hk : |k - s| ≤ e * s) (hb : |b - q * k| ≤ d * |q * k|) :
    |b - q * s| ≤ (d * (1 + e) + e) * |q * s| := by
  have h1 : |k| ≤ (1 + e) * s := by
    have := abs_add_le (k - s) s
    rw [sub_add_cancel, abs_of_nonneg hs] at this
    linarith
  have h2 : |b - q * s| ≤ |b - q * k| + |q| * |k - s| := by
    have := abs_add_le (b - q * k) (q * (k - s))
    rw [abs_mul, show b - q * k + q * (k - s) = b - q * s by ring] at this
    exact this
  rw [abs_mul] at hb
  rw [abs_mul, abs_of_nonneg hs]
  have h3 : d * (|q| * |k|) ≤ d * (|q| * ((1 + e) * s)) := mul_le_mul_of_nonneg_left (mul_le_mul_of_nonneg_left h1 (abs_nonneg q)) hd
  have h4 : |q| * |k - s| ≤ |q| * (e * s) := mul_le_mul_of_nonneg_left hk (abs_nonneg q)
  nlinarith

theorem inverse_error {e k s : ℝ} (he : e ≤ 1 / 100) (he0 : 0 ≤ e) (hs : 0 < s) (hk : |k - s| ≤ e * s) : |k⁻¹ - s⁻¹| ≤ 51 / 50 * e * s⁻¹ := by
  obtain ⟨k1, k2⟩ := abs_le.1 hk
  have hk0 : 99 / 100 * s ≤ k := by nlinarith
  have hkp : 0 < k := by nlinarith
  have e1 : k⁻¹ - s⁻¹ = (s - k) / (k * s) := by field_simp
  rw [e1, abs_div, abs_of_pos (by positivity : 0 < k * s), abs_sub_comm, div_le_iff₀ (by positivity)]
  have e2 : 51 / 50 * e * s⁻¹ * (k * s) = 51 / 50 * e * k := by field_simp
  rw [e2]
  nlinarith

theorem roundtrip_error {d q p c : ℝ} (hd0 : 0 ≤ d) (hd : d ≤ 1) (hp : |p - q| ≤ d * |q|) (hc : |c - p| ≤ d * |p|) : |c - q| ≤ 3 * d * |q| := by
  have h1 : |p| ≤ (1 + d) * |q| := by
    have := abs_add_le (p - q) q
    rw [sub_add_cancel] at this
    linarith
  have h2 := abs_add_le (c - p) (p - q)
  rw [sub_add_sub_cancel] at h2
  have h3 : d * |p| ≤ d * ((1 + d) * |q|) := mul_le_mul_of_nonneg_left h1 hd0
  have h4 : d * (d * |q|) ≤ d * (1 * |q|) := mul_le_mul_of_nonneg_left (mul_le_mul_of_nonneg_right hd (abs_nonneg q)) hd0
  nlinarith

/-- An operation in the range of normal numbers. -/
theorem op_normal (hF : Single F) (h : Rounds F fl) {x : ℝ} (h1 : 2 ^ (-126 : ℤ) ≤ |x|) (h2 : |x| ≤ 2 ^ (126 : ℤ)) :
    (IE.ofReal x : IE F fl) = IE.num (fl x) ∧ Finite F (fl x) ∧ |fl x - x| ≤ unit F * |x| := by
  have hp : 1 ≤ F.p := by have := hF.bits; omega
  have hb : Below 126 (IE.ofReal x : IE F fl) := ofReal_below hp (by have := hF.low; have := hF.bits; omega) h (by have := hF.high; push_cast; omega) (by exact_mod_cast h2)
  have hn := h.normal hp (x := x) (le_trans (zpow_le_zpow_right₀ (by norm_num) (by have := hF.low; omega)) h1)
  obtain ⟨y, e, hf, -⟩ := hb
  by_cases hlt : |fl x| < 2 ^ F.emax
  · exact ⟨ofReal_num hlt, ⟨(h x).1, hlt⟩, hn⟩
  · obtain ⟨s, es⟩ := ofReal_inf (F := F) hlt
    rw [es] at e
    cases e

theorem unit_single (hF : Single F) : unit F ≤ 2 ^ (-24 : ℤ) := zpow_le_zpow_right₀ (by norm_num) (by have := hF.bits; omega)

/-! ## Properties -/

/-- **C237, order**, all finite quantities and all units, `f32` or `f64`: a larger quantity is not smaller after a conversion, in either direction, also when a result is
infinite; no conversion gives NaN. -/
theorem C237_order (hF : Single F) (h : Rounds F fl) (u : Unit) {q r : ℝ} (hqr : q ≤ r) :
    (toPrefixedIe u (IE.num q) : IE F fl) ≤ toPrefixedIe u (IE.num r) ∧ (toBaseIe u (IE.num q) : IE F fl) ≤ toBaseIe u (IE.num r) ∧
      (toPrefixedIe u (IE.num q) : IE F fl) ≠ IE.nan ∧ (toBaseIe u (IE.num q) : IE F fl) ≠ IE.nan := by
  obtain ⟨-, -, k1, -⟩ := factor_range u
  have hk : (0 : ℝ) < ((u.factor : ℚ) : ℝ) := lt_of_lt_of_le (by positivity) k1
  have ord : ∀ {x y : ℝ}, x ≤ y → (IE.ofReal x : IE F fl) ≤ IE.ofReal y := fun {x y} hxy => C163_order (F := F) (fl := fl) h (IE.num x) (IE.num y) hxy
  have nn : ∀ x : ℝ, (IE.ofReal x : IE F fl) ≠ IE.nan := by
    intro x e
    unfold IE.ofReal at e
    split_ifs at e
    all_goals cases e
  unfold toPrefixedIe toBaseIe
  rw [factorIe_num hF h, div_num _ hk.ne', div_num _ hk.ne', mul_num, mul_num]
  exact ⟨ord (div_le_div_of_nonneg_right hqr hk.le), ord (mul_le_mul_of_nonneg_right hqr hk.le), nn _, nn _⟩

/-- **C237**, the proved part: quantities of size `2 ^ -36` to `2 ^ 35`, all units, `f32` or `f64`. Both conversions give finite numbers within a relative error of
`2 ^ -21` of the SI value, and a conversion in either direction and back gives the quantity up to three roundings.
Missing: quantities outside this range, for which `C237_fails` shows that the property does not hold in `f32`. -/
theorem C237_partial (hF : Single F) (h : Rounds F fl) (u : Unit) {q : ℝ} (h1 : 2 ^ (-36 : ℤ) ≤ |q|) (h2 : |q| ≤ 2 ^ (35 : ℤ)) :
    ∃ a b c d : ℝ, toPrefixedIe u (IE.num q) = (IE.num a : IE F fl) ∧ toBaseIe u (IE.num q) = (IE.num b : IE F fl) ∧
      toBaseIe u (toPrefixedIe u (IE.num q)) = (IE.num c : IE F fl) ∧ toPrefixedIe u (toBaseIe u (IE.num q)) = (IE.num d : IE F fl) ∧
      Finite F a ∧ Finite F b ∧ Finite F c ∧ Finite F d ∧
      |a - q / ((u.si : ℚ) : ℝ)| ≤ 2 ^ (-21 : ℤ) * |q / ((u.si : ℚ) : ℝ)| ∧ |b - q * ((u.si : ℚ) : ℝ)| ≤ 2 ^ (-21 : ℤ) * |q * ((u.si : ℚ) : ℝ)| ∧
      |c - q| ≤ 3 * unit F * |q| ∧ |d - q| ≤ 3 * unit F * |q| := by
  obtain ⟨hks, hs, k1, k2⟩ := factor_range u
  have ek := factorIe_num (fl := fl) hF h u
  unfold toPrefixedIe toBaseIe
  rw [ek]
  set k := ((u.factor : ℚ) : ℝ) with hkdef
  set s := ((u.si : ℚ) : ℝ) with hsdef
  have hk : 0 < k := lt_of_lt_of_le (by positivity) k1
  have hu := unit_single hF
  have hu0 := unit_pos (F := F)
  have hu1 : unit F ≤ 1 / 100 := hu.trans (by norm_num)
  have two : ∀ a b : ℤ, (2 : ℝ) ^ a * 2 ^ b = 2 ^ (a + b) := fun a b => (zpow_add₀ (by norm_num) a b).symm
  have hqp : 0 < |q| := lt_of_lt_of_le (by positivity) h1
  -- the quotient
  have d1 : (2 : ℝ) ^ (-126 : ℤ) ≤ |q / k| := by
    rw [abs_div, abs_of_pos hk, le_div_iff₀ hk]
    calc (2 : ℝ) ^ (-126 : ℤ) * k ≤ 2 ^ (-126 : ℤ) * 2 ^ (80 : ℤ) := mul_le_mul_of_nonneg_left k2 (by positivity)
      _ = 2 ^ (-46 : ℤ) := two _ _
      _ ≤ 2 ^ (-36 : ℤ) := zpow_le_zpow_right₀ (by norm_num) (by norm_num)
      _ ≤ |q| := h1
  have d2 : |q / k| ≤ 2 ^ (126 : ℤ) := by
    rw [abs_div, abs_of_pos hk, div_le_iff₀ hk]
    calc |q| ≤ 2 ^ (35 : ℤ) := h2
      _ ≤ 2 ^ (36 : ℤ) := zpow_le_zpow_right₀ (by norm_num) (by norm_num)
      _ = 2 ^ (126 : ℤ) * 2 ^ (-90 : ℤ) := by rw [two]; norm_num
      _ ≤ 2 ^ (126 : ℤ) * k := mul_le_mul_of_nonneg_left k1 (by positivity)
  obtain ⟨ea, fa, ra⟩ := op_normal (fl := fl) hF h d1 d2
  -- the product
  have m1 : (2 : ℝ) ^ (-126 : ℤ) ≤ |q * k| := by
    rw [abs_mul, abs_of_pos hk]
    calc (2 : ℝ) ^ (-126 : ℤ) = 2 ^ (-36 : ℤ) * 2 ^ (-90 : ℤ) := by rw [two]; norm_num
      _ ≤ |q| * k := mul_le_mul h1 k1 (by positivity) (abs_nonneg q)
  have m2 : |q * k| ≤ 2 ^ (126 : ℤ) := by
    rw [abs_mul, abs_of_pos hk]
    calc |q| * k ≤ 2 ^ (35 : ℤ) * 2 ^ (80 : ℤ) := mul_le_mul h2 k2 hk.le (by positivity)
      _ = 2 ^ (115 : ℤ) := two _ _
      _ ≤ 2 ^ (126 : ℤ) := zpow_le_zpow_right₀ (by norm_num) (by norm_num)
  obtain ⟨eb, fb, rb⟩ := op_normal (fl := fl) hF h m1 m2
  -- and back
  have pa : |fl (q / k) * k - q| ≤ unit F * |q| := by
    have e1 : fl (q / k) * k - q = (fl (q / k) - q / k) * k := by field_simp
    have e2 : |q| = |q / k| * k := by
      rw [abs_div, abs_of_pos hk]
      field_simp
    rw [e1, abs_mul, abs_of_pos hk, e2, ← mul_assoc]
    exact mul_le_mul_of_nonneg_right ra hk.le
  have pb : |fl (q * k) / k - q| ≤ unit F * |q| := by
    have e1 : fl (q * k) / k - q = (fl (q * k) - q * k) / k := by field_simp
    have e2 : |q| = |q * k| / k := by
      rw [abs_mul, abs_of_pos hk]
      field_simp
    rw [e1, abs_div, abs_of_pos hk, e2, ← mul_div_assoc]
    exact div_le_div_of_nonneg_right rb hk.le
  have near : ∀ p : ℝ, |p - q| ≤ unit F * |q| → (2 : ℝ) ^ (-126 : ℤ) ≤ |p| ∧ |p| ≤ 2 ^ (126 : ℤ) := by
    intro p hp
    have t1 := abs_sub_abs_le_abs_sub p q
    have t2 := abs_sub_abs_le_abs_sub q p
    rw [abs_sub_comm] at t2
    have t3 : unit F * |q| ≤ 1 / 100 * |q| := mul_le_mul_of_nonneg_right hu1 hqp.le
    have l1 : (2 : ℝ) ^ (-37 : ℤ) = 1 / 2 * 2 ^ (-36 : ℤ) := by norm_num
    have l2 : (2 : ℝ) ^ (36 : ℤ) = 2 * 2 ^ (35 : ℤ) := by norm_num
    have g1 : (2 : ℝ) ^ (-37 : ℤ) ≤ |p| := by
      rw [l1]
      generalize (2 : ℝ) ^ (-36 : ℤ) = t at *
      linarith
    have g2 : |p| ≤ (2 : ℝ) ^ (36 : ℤ) := by
      rw [l2]
      generalize (2 : ℝ) ^ (35 : ℤ) = t at *
      linarith
    exact ⟨(zpow_le_zpow_right₀ (by norm_num) (by norm_num)).trans g1, g2.trans (zpow_le_zpow_right₀ (by norm_num) (by norm_num))⟩
  obtain ⟨ec, fc, rc⟩ := op_normal (fl := fl) hF h (near _ pa).1 (near _ pa).2
  obtain ⟨ed, fd, rd⟩ := op_normal (fl := fl) hF h (near _ pb).1 (near _ pb).2
  have e22 : (2 : ℝ) ^ (-22 : ℤ) ≤ 1 / 100 := by norm_num
  have small : ∀ e : ℝ, 0 ≤ e → e ≤ 51 / 50 * 2 ^ (-22 : ℤ) → unit F * (1 + e) + e ≤ 2 ^ (-21 : ℤ) := by
    intro e he0 he
    have l1 : (2 : ℝ) ^ (-24 : ℤ) = 1 / 4 * 2 ^ (-22 : ℤ) := by norm_num
    have l2 : (2 : ℝ) ^ (-21 : ℤ) = 2 * 2 ^ (-22 : ℤ) := by norm_num
    rw [l1] at hu
    rw [l2]
    have e1 : e ≤ 1 := he.trans (by norm_num)
    have hpos : (0 : ℝ) < 2 ^ (-22 : ℤ) := by positivity
    generalize (2 : ℝ) ^ (-22 : ℤ) = t at *
    have : unit F * e ≤ 1 / 4 * t * (51 / 50 * t) := mul_le_mul hu he he0 (by positivity)
    nlinarith
  refine ⟨fl (q / k), fl (q * k), fl (fl (q / k) * k), fl (fl (q * k) / k), ?_, ?_, ?_, ?_, fa, fb, fc, fd, ?_, ?_, ?_, ?_⟩
  · rw [div_num _ hk.ne', ea]
  · rw [mul_num, eb]
  · rw [div_num _ hk.ne', ea, mul_num, ec]
  · rw [mul_num, eb, div_num _ hk.ne', ed]
  · have hi := inverse_error e22 (by positivity) hs hks
    rw [div_eq_mul_inv] at ra
    have := scaled_error (q := q) hu0.le (inv_pos.2 hs).le hi ra
    rw [← div_eq_mul_inv, ← div_eq_mul_inv] at this
    exact this.trans (mul_le_mul_of_nonneg_right (small _ (by positivity) le_rfl) (abs_nonneg _))
  · have := scaled_error (q := q) hu0.le hs.le hks rb
    refine this.trans (mul_le_mul_of_nonneg_right (small _ (by positivity) ?_) (abs_nonneg _))
    norm_num
  · exact roundtrip_error hu0.le (by linarith) pa rc
  · exact roundtrip_error hu0.le (by linarith) pb rd

/-- One base unit is in the range. -/
example : (2 : ℝ) ^ (-36 : ℤ) ≤ |(1 : ℝ)| ∧ |(1 : ℝ)| ≤ 2 ^ (35 : ℤ) := by norm_num

/-- **C237** does not hold for all quantities in `f32`: `2 ^ 40` kilograms (a small mountain) are infinitely many yoctograms, and stay infinite when converted back. -/
theorem C237_fails (h : Rounds binary32 fl) :
    Finite binary32 (2 ^ (40 : ℤ)) ∧ toPrefixedIe (.gram .yocto (by decide)) (IE.num (2 ^ (40 : ℤ))) = (IE.inf false : IE binary32 fl) ∧
      toBaseIe (.gram .yocto (by decide)) (toPrefixedIe (.gram .yocto (by decide)) (IE.num (2 ^ (40 : ℤ)))) = (IE.inf false : IE binary32 fl) := by
  have hF : Single binary32 := ⟨by decide, by decide, by decide⟩
  set u : Unit := .gram .yocto (by decide) with hu
  obtain ⟨hks, hs, k1, k2⟩ := factor_range u
  have hk : (0 : ℝ) < ((u.factor : ℚ) : ℝ) := lt_of_lt_of_le (by positivity) k1
  have hsi : ((u.si : ℚ) : ℝ) = 10 ^ (-27 : ℤ) := by
    have : u.si = 10 ^ (-27 : ℤ) := rfl
    rw [this]
    push_cast
    rfl
  have hk2 : ((u.factor : ℚ) : ℝ) ≤ 2 ^ (-88 : ℤ) := by
    have := (abs_le.1 hks).2
    rw [hsi] at this
    norm_num at this ⊢
    linarith
  have hbig : (2 : ℝ) ^ (128 : ℤ) ≤ 2 ^ (40 : ℤ) / ((u.factor : ℚ) : ℝ) := by
    rw [le_div_iff₀ hk]
    calc (2 : ℝ) ^ (128 : ℤ) * ((u.factor : ℚ) : ℝ) ≤ 2 ^ (128 : ℤ) * 2 ^ (-88 : ℤ) := mul_le_mul_of_nonneg_left hk2 (by positivity)
      _ = 2 ^ (40 : ℤ) := by rw [← zpow_add₀ (by norm_num)]; norm_num
  have e1 : toPrefixedIe u (IE.num (2 ^ (40 : ℤ))) = (IE.inf false : IE binary32 fl) := by
    unfold toPrefixedIe
    rw [factorIe_num hF h, div_num _ hk.ne']
    have hg : fl ((2 : ℝ) ^ (128 : ℤ)) = 2 ^ (128 : ℤ) := h.fix (onGrid_pow (by decide) (by decide))
    have hm := h.mono hbig
    rw [hg] at hm
    unfold IE.ofReal
    rw [if_neg (by
      rw [not_lt]
      exact hm.trans (le_abs_self _)), decide_eq_false (by
      rw [not_lt]
      exact le_trans (by positivity) hbig)]
  refine ⟨⟨onGrid_pow (by decide) (by decide), ?_⟩, e1, ?_⟩
  · rw [abs_of_pos (by positivity)]
    exact zpow_lt_zpow_right₀ (by norm_num) (by decide)
  · rw [e1]
    unfold toBaseIe
    rw [factorIe_num hF h]
    change (if ((u.factor : ℚ) : ℝ) = 0 then IE.nan else IE.inf (xor false (IE.isNeg ((u.factor : ℚ) : ℝ)))) = _
    rw [if_neg hk.ne']
    unfold IE.isNeg
    rw [decide_eq_false (not_lt.2 hk.le)]
    rfl

end Verif.Units
