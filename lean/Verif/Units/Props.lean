import Verif.Units.Model
import Mathlib.Tactic.Linarith
import Mathlib.Tactic.FieldSimp
import Mathlib.Tactic.NormNum
import Mathlib.Tactic.Positivity
import Mathlib.Tactic.Ring
import Mathlib.Algebra.Order.Field.Power

/-!
# Properties of units (C52, C89)
-/

namespace Verif.Units

/-! ## Specification -/

/-- The power of ten of an SI prefix. -/
def Prefix.power : Prefix → ℤ
  | .yocto => -24 | .zepto => -21 | .atto => -18 | .femto => -15 | .pico => -12 | .nano => -9 | .micro => -6 | .milli => -3
  | .centi => -2 | .deci => -1 | .deca => 1 | .hecto => 2 | .kilo => 3 | .mega => 6 | .giga => 9 | .tera => 12 | .peta => 15
  | .exa => 18 | .zetta => 21 | .yotta => 24

/-- How many base units (metre, second, kilogram) the unit is, according to SI. -/
def Unit.si : Unit → ℚ
  | .metre p => 10 ^ p.power
  | .second p => 10 ^ p.power
  | .gram p _ => 10 ^ (p.power - 3)

/-- `y` is `x` up to a relative error of `ε`. -/
def Near (ε x y : ℚ) : Prop := |y - x| ≤ ε * |x|

/-! ## Lemmas on rounding -/

theorem roundEven_near (x : ℚ) : |roundEven x - x| ≤ 1 / 2 := by
  have h1 := Int.floor_le x
  have h2 := Int.lt_floor_add_one x
  unfold roundEven
  dsimp only
  rw [abs_le]
  split_ifs <;> push_cast <;> constructor <;> linarith

theorem roundEven_int (n : ℤ) : roundEven (n : ℚ) = n := by
  simp [roundEven]

theorem roundTo_near (p : ℕ) {x : ℚ} (hx : 0 < x) : Near (2 ^ (-(p : ℤ))) x (roundTo p x) := by
  unfold Near roundTo
  dsimp only
  set ulp : ℚ := 2 ^ (Int.log 2 x - (p - 1)) with hu
  have hup : 0 < ulp := by positivity
  have hl : (2 : ℚ) ^ (Int.log 2 x) ≤ x := Int.zpow_log_le_self (by norm_num) hx
  have e : roundEven (x / ulp) * ulp - x = (roundEven (x / ulp) - x / ulp) * ulp := by field_simp
  rw [e, abs_mul, abs_of_pos hup, abs_of_pos hx]
  calc |(roundEven (x / ulp) : ℚ) - x / ulp| * ulp ≤ 1 / 2 * ulp :=
        mul_le_mul_of_nonneg_right (roundEven_near _) hup.le
    _ = 2 ^ (-(p : ℤ)) * 2 ^ (Int.log 2 x) := by
        rw [hu, ← zpow_add₀ (by norm_num), show Int.log 2 x - ((p : ℤ) - 1) = 1 + (-(p : ℤ) + Int.log 2 x) by ring,
          zpow_add₀ (by norm_num), zpow_one]
        ring
    _ ≤ 2 ^ (-(p : ℤ)) * x := mul_le_mul_of_nonneg_left hl (by positivity)

/-- A number with at most `p` significant bits is not changed. -/
theorem roundTo_exact {p m : ℕ} (hm : 0 < m) (hp : m < 2 ^ p) (e : ℤ) : roundTo p (m * 2 ^ e) = m * 2 ^ e := by
  unfold roundTo
  dsimp only
  set x : ℚ := m * 2 ^ e with hx
  have hxp : 0 < x := by positivity
  have hl : Int.log 2 x < p + e := by
    have h1 : (2 : ℚ) ^ (Int.log 2 x) ≤ x := Int.zpow_log_le_self (by norm_num) hxp
    have h2 : x < 2 ^ ((p : ℤ) + e) := by
      rw [hx, zpow_add₀ (by norm_num), zpow_natCast]
      exact mul_lt_mul_of_pos_right (by exact_mod_cast hp) (by positivity)
    exact (zpow_lt_zpow_iff_right₀ (by norm_num : (1 : ℚ) < 2)).mp (lt_of_le_of_lt h1 h2)
  obtain ⟨k, hk⟩ := Int.eq_ofNat_of_zero_le (show 0 ≤ e - (Int.log 2 x - (p - 1)) by omega)
  have hd : x / 2 ^ (Int.log 2 x - ((p : ℤ) - 1)) = ((m * 2 ^ k : ℕ) : ℤ) := by
    rw [hx, mul_div_assoc, ← zpow_sub₀ (by norm_num), hk]
    push_cast
    rfl
  rw [hd, roundEven_int, ← hd]
  field_simp

theorem near_trans {ε δ x y z : ℚ} (h1 : Near ε x y) (h2 : Near δ y z) (hδ : 0 ≤ δ) : Near (ε + δ + ε * δ) x z := by
  unfold Near at *
  have h3 : |y| ≤ (1 + ε) * |x| := by
    have := abs_sub_abs_le_abs_sub y x
    linarith
  calc |z - x| = |(z - y) + (y - x)| := by ring_nf
    _ ≤ |z - y| + |y - x| := abs_add_le _ _
    _ ≤ δ * |y| + ε * |x| := add_le_add h2 h1
    _ ≤ δ * ((1 + ε) * |x|) + ε * |x| := by gcongr
    _ = (ε + δ + ε * δ) * |x| := by ring

theorem near_mul {ε x y c : ℚ} (h : Near ε x y) : Near ε (x * c) (y * c) := by
  unfold Near at *
  rw [← sub_mul, abs_mul, abs_mul, ← mul_assoc]
  exact mul_le_mul_of_nonneg_right h (abs_nonneg _)

theorem near_mono {ε δ x y : ℚ} (h : Near ε x y) (hε : ε ≤ δ) : Near δ x y :=
  le_trans h (mul_le_mul_of_nonneg_right hε (abs_nonneg _))

theorem factor_eq (p : Prefix) : factor p = f32 (10 ^ p.power) := by
  cases p <;> simp only [factor, Prefix.power] <;> norm_num

theorem near_pos {ε x y : ℚ} (h : Near ε x y) (hε : ε < 1) (hx : 0 < x) : 0 < y := by
  unfold Near at h
  rw [abs_of_pos hx] at h
  have := (abs_le.mp h).1
  nlinarith

/-! ## C52 -/

/-- C52. The factor of every prefixed unit is the SI factor to within the precision of `f32` (relative error at most 2⁻²² for mass, whose
factors are rounded products, and 2⁻²⁴ otherwise). -/
theorem C52_factor (u : Unit) : Near (1 / 2 ^ 22) u.si u.factor ∧ (∀ p, u = .metre p ∨ u = .second p → Near (1 / 2 ^ 24) u.si u.factor) := by
  have h24 : ((2 : ℚ) ^ (-((24 : ℕ) : ℤ))) = 1 / 2 ^ 24 := by rw [zpow_neg, zpow_natCast, one_div]
  have hf : ∀ p, Near (1 / 2 ^ 24) (10 ^ p.power) (factor p) := by
    intro p
    rw [factor_eq, ← h24]
    exact roundTo_near 24 (by positivity)
  cases u with
  | metre p => exact ⟨near_mono (hf p) (by norm_num), fun _ _ => hf p⟩
  | second p => exact ⟨near_mono (hf p) (by norm_num), fun _ _ => hf p⟩
  | gram p hp =>
    refine ⟨?_, fun q hq => by rcases hq with hq | hq <;> cases hq⟩
    have h1 : Near (1 / 2 ^ 24) (1 / 10 ^ 3) (f32 (1 / 10 ^ 3)) := by
      rw [← h24]; exact roundTo_near 24 (by positivity)
    have pf := near_pos (hf p) (by norm_num) (by positivity)
    have p1 := near_pos h1 (by norm_num) (by positivity)
    have h2 : Near (1 / 2 ^ 24) (factor p * f32 (1 / 10 ^ 3)) (f32 (factor p * f32 (1 / 10 ^ 3))) := by
      rw [← h24]; exact roundTo_near 24 (mul_pos pf p1)
    have h3 := near_mul (c := f32 (1 / 10 ^ 3)) (hf p)
    have h4 := near_mul (c := 10 ^ p.power) h1
    have h5 := near_trans h4 (by rw [mul_comm (f32 _)]; exact h3) (by norm_num)
    have h6 := near_trans h5 h2 (by norm_num)
    have e : Unit.si (.gram p hp) = 1 / 10 ^ 3 * 10 ^ p.power := by
      simp only [Unit.si]
      rw [zpow_sub₀ (by norm_num)]
      norm_num
      ring
    rw [e]
    exact near_mono h6 (by norm_num)

/-- C52. The factors of the prefixes from deca to giga are exact for lengths and times. -/
theorem C52_factor_exact (p : Prefix) (hp : 0 < p.power) (hp' : p.power ≤ 9) :
    (Unit.metre p).factor = (Unit.metre p).si ∧ (Unit.second p).factor = (Unit.second p).si := by
  have key : ∀ k : ℕ, k ≤ 10 → f32 (10 ^ (k : ℤ)) = 10 ^ (k : ℤ) := by
    intro k hk
    have h5 : 5 ^ k < 2 ^ 24 := lt_of_le_of_lt (Nat.pow_le_pow_right (by norm_num) hk) (by norm_num)
    have e : (10 : ℚ) ^ (k : ℤ) = ((5 ^ k : ℕ) : ℚ) * 2 ^ (k : ℤ) := by
      rw [zpow_natCast, zpow_natCast]
      push_cast
      rw [← mul_pow]
      norm_num
    rw [e]
    exact roundTo_exact (by positivity) h5 _
  have h : factor p = 10 ^ p.power := by
    obtain ⟨k, hk⟩ := Int.eq_ofNat_of_zero_le hp.le
    rw [factor_eq, hk]
    exact key k (by omega)
  exact ⟨h, h⟩

theorem factor_pos (u : Unit) : 0 < u.factor :=
  near_pos (C52_factor u).1 (by norm_num) (by cases u <;> simp only [Unit.si] <;> positivity)

/-- C52. In exact arithmetic converting to a prefixed unit and back is the identity, in either order, for all quantities and all units,
and conversion commutes with addition, subtraction, negation, and multiplication and division by numbers. -/
theorem C52_exact (u : Unit) (a b : Quantity) (s : ℚ) :
    toBase id u (toPrefixed id u a) = a ∧ toPrefixed id u (toBase id u a) = a ∧
    toPrefixed id u (a.add id b) = (toPrefixed id u a).add id (toPrefixed id u b) ∧
    toPrefixed id u (a.sub id b) = (toPrefixed id u a).sub id (toPrefixed id u b) ∧
    toPrefixed id u a.neg = (toPrefixed id u a).neg ∧
    toPrefixed id u (a.mul id s) = (toPrefixed id u a).mul id s ∧
    toPrefixed id u (a.div id s) = (toPrefixed id u a).div id s ∧
    toBase id u (a.add id b) = (toBase id u a).add id (toBase id u b) ∧
    toBase id u (a.sub id b) = (toBase id u a).sub id (toBase id u b) ∧
    toBase id u a.neg = (toBase id u a).neg ∧
    toBase id u (a.mul id s) = (toBase id u a).mul id s ∧
    toBase id u (a.div id s) = (toBase id u a).div id s := by
  have h := (factor_pos u).ne'
  cases a
  cases b
  simp only [toBase, toPrefixed, Quantity.add, Quantity.sub, Quantity.neg, Quantity.mul, Quantity.div, id, Quantity.mk.injEq]
  refine ⟨div_mul_cancel₀ _ h, mul_div_cancel_right₀ _ h, add_div _ _ _, sub_div _ _ _, neg_div _ _, by ring, by ring, add_mul _ _ _,
    sub_mul _ _ _, neg_mul _ _, by ring, by ring⟩

/-- C52. The arithmetic of quantities is that of their numbers: in exact arithmetic subtraction undoes addition on the right, the negative of
a quantity added to it gives zero, addition is associative with zero as its unit, multiplying is repeated addition for every whole number, and
dividing undoes multiplying. -/
theorem C52_arithmetic (a b c : Quantity) (s : ℚ) (n : ℕ) :
    (a.add id b).sub id b = a ∧ (a.sub id b).add id b = a ∧ a.add id a.neg = ⟨0⟩ ∧ a.add id ⟨0⟩ = a ∧
    (a.add id b).add id c = a.add id (b.add id c) ∧ a.add id b = b.add id a ∧
    a.mul id 0 = ⟨0⟩ ∧ a.mul id (n + 1) = (a.mul id n).add id a ∧ (s ≠ 0 → (a.mul id s).div id s = a) := by
  cases a
  cases b
  cases c
  simp only [Quantity.add, Quantity.sub, Quantity.neg, Quantity.mul, Quantity.div, id, Quantity.mk.injEq]
  refine ⟨by ring, by ring, by ring, by ring, by ring, by ring, by ring, by ring, fun h => mul_div_cancel_right₀ _ h⟩

/-- Half a quantity is one that doubles to it. -/
example : ((⟨3⟩ : Quantity).mul id 2).div id 2 = ⟨3⟩ := (C52_arithmetic ⟨3⟩ ⟨0⟩ ⟨0⟩ 2 0).2.2.2.2.2.2.2.2 (by norm_num)

/-- C52. In arithmetic that rounds every result with relative error at most `ε`, converting there and back gives the quantity up to a relative
error of `2ε + ε²`, and one prefixed unit converts to another by the quotient of the SI factors, up to `2ε + ε² + 2⁻¹⁹`. -/
theorem C52_rounded (rnd : ℚ → ℚ) (ε : ℚ) (h0 : 0 ≤ ε) (hr : ∀ x, Near ε x (rnd x)) (u v : Unit) (q : Quantity) :
    Near (2 * ε + ε ^ 2) q.raw (toBase rnd u (toPrefixed rnd u q)).raw ∧
    (ε ≤ 1 / 4 → Near (2 * ε + ε ^ 2 + 1 / 2 ^ 19) (q.raw * (u.si / v.si)) (toPrefixed rnd v (toBase rnd u q)).raw) := by
  have hu := factor_pos u
  have hv := factor_pos v
  constructor
  · have h1 := near_mul (c := u.factor) (hr (q.raw / u.factor))
    rw [div_mul_cancel₀ _ hu.ne'] at h1
    exact near_mono (near_trans h1 (hr _) h0) (by nlinarith)
  · intro h1
    have sv : 0 < v.si := by cases v <;> simp only [Unit.si] <;> positivity
    have su : 0 < u.si := by cases u <;> simp only [Unit.si] <;> positivity
    -- the quotient of the factors
    have hq : Near (1 / 2 ^ 20) (u.si / v.si) (u.factor / v.factor) := by
      have fu := (C52_factor u).1
      have fv := (C52_factor v).1
      unfold Near at fu fv ⊢
      rw [abs_of_pos su] at fu
      rw [abs_of_pos sv] at fv
      rw [abs_of_pos (div_pos su sv), div_sub_div _ _ hv.ne' sv.ne', abs_div, abs_of_pos (mul_pos hv sv), div_le_iff₀ (mul_pos hv sv)]
      have e : 1 / 2 ^ 20 * (u.si / v.si) * (v.factor * v.si) = 1 / 2 ^ 20 * u.si * v.factor := by field_simp
      rw [e]
      obtain ⟨a1, a2⟩ := abs_le.mp fu
      obtain ⟨b1, b2⟩ := abs_le.mp fv
      have hvl : (1 - 1 / 2 ^ 22) * v.si ≤ v.factor := by linarith
      have m1 := mul_le_mul_of_nonneg_right a2 sv.le
      have m2 := mul_le_mul_of_nonneg_right a1 sv.le
      have m3 := mul_le_mul_of_nonneg_left b2 su.le
      have m4 := mul_le_mul_of_nonneg_left b1 su.le
      have m5 := mul_le_mul_of_nonneg_left hvl su.le
      have m6 := mul_pos su sv
      rw [abs_le]
      constructor <;> nlinarith
    have s1 := near_mul (c := 1 / v.factor) (hr (q.raw * u.factor))
    have s2 := near_trans (x := q.raw * u.factor * (1 / v.factor)) s1 (by
      have := hr (rnd (q.raw * u.factor) * (1 / v.factor)); exact this) h0
    have s3 : Near (1 / 2 ^ 20) (q.raw * (u.si / v.si)) (q.raw * u.factor * (1 / v.factor)) := by
      have := near_mul (c := q.raw) hq
      rw [mul_comm _ q.raw, mul_comm _ q.raw] at this
      rw [mul_one_div, mul_div_assoc]
      exact this
    have s4 := near_trans s3 s2 (by positivity)
    have e : (toPrefixed rnd v (toBase rnd u q)).raw = rnd (rnd (q.raw * u.factor) * (1 / v.factor)) := by
      simp only [toPrefixed, toBase, mul_one_div]
    rw [e]
    exact near_mono s4 (by nlinarith)

/-- The hypotheses of `C52_rounded` are met by rounding to 53 bits (of positive numbers; here symmetrically extended). -/
example : ∀ x, Near (1 / 2 ^ 53) x (if 0 < x then roundTo 53 x else if x < 0 then -roundTo 53 (-x) else 0) := by
  have h53 : ((2 : ℚ) ^ (-((53 : ℕ) : ℤ))) = 1 / 2 ^ 53 := by rw [zpow_neg, zpow_natCast, one_div]
  intro x
  split_ifs with h1 h2
  · rw [← h53]; exact roundTo_near 53 h1
  · have := roundTo_near 53 (x := -x) (by linarith)
    rw [h53] at this
    unfold Near at this ⊢
    rw [abs_neg] at this
    rw [← abs_neg]
    have e : -(-roundTo 53 (-x) - x) = roundTo 53 (-x) - -x := by ring
    rwa [e]
  · have : x = 0 := by linarith
    simp [Near, this]

example : Near (1 / 2 ^ 22) (1 / 1000) (Unit.metre .milli).factor := by
  have := (C52_factor (.metre .milli)).1
  norm_num [Unit.si, Prefix.power] at this ⊢
  exact this

/-! ## C89 -/

theorem milli_value : (Unit.metre .milli).factor = 8589935 / 2 ^ 33 := by
  have hl : Int.log 2 (1 / 10 ^ 3 : ℚ) = -10 := by
    apply le_antisymm
    · have : (1 / 10 ^ 3 : ℚ) < 2 ^ ((-10 : ℤ) + 1) := by norm_num
      exact Int.lt_add_one_iff.mp ((Int.lt_zpow_iff_log_lt (by norm_num) (by norm_num)).mp this)
    · exact (Int.zpow_le_iff_le_log (by norm_num) (by norm_num)).mp (by norm_num)
  show roundTo 24 (1 / 10 ^ 3) = _
  unfold roundTo
  dsimp only
  rw [hl]
  have hfl : ⌊(1 / 10 ^ 3 : ℚ) / 2 ^ (-10 - ((24 : ℕ) - 1 : ℤ))⌋ = 8589934 := by
    rw [Int.floor_eq_iff]; norm_num
  unfold roundEven
  dsimp only
  rw [hfl]
  norm_num

/-- C89. Conversions are not accurate to the precision of the scalar type: even in exact arithmetic, and so in double precision, five
millimetres become 0.005 m only up to a relative error of more than 2⁻²⁵. -/
theorem C89_fails : ¬ ∀ (u : Unit) (q : Quantity), Near (1 / 2 ^ 50) (q.raw * u.si) (toBase id u q).raw := by
  intro h
  have := h (.metre .milli) ⟨5⟩
  simp only [toBase, milli_value, Unit.si, Prefix.power, Near, id] at this
  norm_num [abs_le] at this

end Verif.Units
