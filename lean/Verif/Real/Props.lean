import Verif.Real.Model
import Mathlib.Tactic.Linarith
import Mathlib.Tactic.NormNum
import Mathlib.Tactic.FieldSimp

/-!
# C107: the library computes the same with and without the standard library
-/

namespace Verif.Real

/-- C107. The two `signum` agree except at the two zeros. -/
theorem C107_signum_partial (x : Fl) (hx : x.Ok) (h0 : ∀ neg, x ≠ .fin neg 0) : signumNoStd x = signumStd x := by
  match x with
  | .nan => rfl
  | .inf true => rfl
  | .inf false => rfl
  | .fin neg mag =>
    have hpos : 0 < mag := lt_of_le_of_ne hx fun h => h0 neg (by rw [← h])
    cases neg with
    | false => simp [signumNoStd, signumStd, Fl.isNan, Fl.lt, zero, signed, hpos]
    | true => simp [signumNoStd, signumStd, Fl.isNan, Fl.lt, zero, signed, hpos, not_lt.2 hpos.le]

example : Fl.Ok (.fin true 2) ∧ ∀ neg, Fl.fin true 2 ≠ .fin neg 0 := ⟨by norm_num [Fl.Ok], by simp⟩

/-- C107 in full is not met: the `signum` of a zero is that zero without the standard library, ±1 with it. -/
theorem C107_signum_fails (neg : Bool) : signumNoStd (.fin neg 0) = .fin neg 0 ∧ signumStd (.fin neg 0) = .fin neg 1 := by
  cases neg <;> decide +kernel

/-- C107. `min` and `max` meet the contract of the standard library: an operand that is not a number is ignored, otherwise the result is
one of the operands and not above (below) either. -/
theorem C107_min_max (x y : Fl) :
    (x = .nan → minNoStd x y = y ∧ maxNoStd x y = y) ∧ (y = .nan → minNoStd x y = x ∧ maxNoStd x y = x) ∧
      (minNoStd x y = x ∨ minNoStd x y = y) ∧ (maxNoStd x y = x ∨ maxNoStd x y = y) ∧
      x.lt (minNoStd x y) = false ∧ y.lt (minNoStd x y) = false ∧ (maxNoStd x y).lt x = false ∧ (maxNoStd x y).lt y = false := by
  have irr : ∀ z : Fl, z.lt z = false := by
    intro z
    match z with
    | .nan => rfl
    | .inf true => rfl
    | .inf false => rfl
    | .fin _ _ => simp [Fl.lt]
  have asym : ∀ z w : Fl, z.lt w = true → w.lt z = false := by
    intro z w h
    match z, w with
    | .nan, _ => simp [Fl.lt] at h
    | .inf a, .nan => simp [Fl.lt] at h
    | .fin _ _, .nan => simp [Fl.lt] at h
    | .inf a, .inf b => cases a <;> cases b <;> simp_all [Fl.lt]
    | .inf a, .fin _ _ => cases a <;> simp_all [Fl.lt]
    | .fin _ _, .inf b => cases b <;> simp_all [Fl.lt]
    | .fin a x, .fin b y =>
      simp only [Fl.lt, decide_eq_true_eq, decide_eq_false_iff_not, not_lt] at h ⊢
      exact h.le
  have hnan : ∀ z : Fl, z.isNan = true ↔ z = .nan := by
    intro z; cases z <;> simp [Fl.isNan]
  have nl : ∀ z : Fl, Fl.nan.lt z = false ∧ z.lt .nan = false := by
    intro z; cases z <;> simp [Fl.lt]
  unfold minNoStd maxNoStd
  by_cases hx : x.isNan = true
  · have hx' := (hnan x).1 hx
    subst hx'
    by_cases hy : y = .nan
    · subst hy; simp [Fl.isNan, Fl.lt]
    · simp [Fl.isNan, nl, irr, hy]
  · have hx' : x ≠ .nan := fun h => hx ((hnan x).2 h)
    by_cases hy : y.isNan = true
    · have hy' := (hnan y).1 hy
      subst hy'
      simp [hx, hx', hy, nl, irr]
    · have hy' : y ≠ .nan := fun h => hy ((hnan y).2 h)
      simp only [hx, hy, Bool.false_or, Bool.false_eq_true, if_false]
      refine ⟨fun h => absurd h hx', fun h => absurd h hy', ?_, ?_, ?_, ?_, ?_, ?_⟩
      · split <;> simp
      · split <;> simp
      · split
        · exact irr x
        · rename_i h
          simpa using h
      · split
        · rename_i h; exact asym _ _ h
        · exact irr y
      · split
        · exact irr x
        · rename_i h
          simpa using h
      · split
        · rename_i h; exact asym _ _ h
        · exact irr y

example : minNoStd (.fin false 2) .nan = .fin false 2 ∧ minNoStd (.inf true) (.fin false 3) = .inf true ∧
    maxNoStd (.fin true 1) (.fin false 3) = .fin false 3 := by decide +kernel

/-- Integers of at most `p` bits, and `2^p`, are exact. -/
theorem intToFloat_exact {p : Nat} (hp : 0 < p) (n : Int) (h : n.natAbs ≤ 2 ^ p) : intToFloat p n = n := by
  have key : ∀ a : Nat, a ≤ 2 ^ p →
      (let e := Nat.log2 a + 1 - p
       let q := a / 2 ^ e
       let r := a % 2 ^ e
       (if 2 ^ e < 2 * r ∨ (2 * r = 2 ^ e ∧ q % 2 = 1) then q + 1 else q) * 2 ^ e) = a := by
    intro a ha
    dsimp only
    have hr : a % 2 ^ (Nat.log2 a + 1 - p) = 0 := by
      rcases Nat.lt_or_eq_of_le ha with h | h
      · rcases Nat.eq_zero_or_pos a with h0 | h0
        · rw [h0]; simp
        · have : Nat.log2 a < p := (Nat.log2_lt (by omega)).2 h
          rw [show Nat.log2 a + 1 - p = 0 by omega]
          simp [Nat.mod_one]
      · have hlog : Nat.log2 a = p := by rw [h, Nat.log2_two_pow]
        rw [hlog, show p + 1 - p = 1 by omega, pow_one, h]
        obtain ⟨k, rfl⟩ : ∃ k, p = k + 1 := ⟨p - 1, by omega⟩
        rw [pow_succ]; simp
    have hpos : 0 < 2 ^ (Nat.log2 a + 1 - p) := Nat.two_pow_pos _
    rw [hr, if_neg (by omega), Nat.div_mul_cancel (Nat.dvd_of_mod_eq_zero hr)]
  have := key n.natAbs h
  unfold intToFloat
  dsimp only at this ⊢
  rw [this]
  split <;> omega

/-- C107. For `f64` the exponent of `powi` is always exact, so the two `powi` round the same number. -/
theorem C107_powi64 (x : ℚ) (n : Int) (h : -2 ^ 31 ≤ n ∧ n < 2 ^ 31) : powiNoStd 53 x n = powiStd x n := by
  unfold powiNoStd powiStd
  rw [intToFloat_exact (by norm_num)]
  have : (2 : Nat) ^ 31 ≤ 2 ^ 53 := by norm_num
  omega

/-- C107. For `f32` this holds for exponents up to `2^24`. -/
theorem C107_powi32_partial (x : ℚ) (n : Int) (h : -2 ^ 24 ≤ n ∧ n ≤ 2 ^ 24) : powiNoStd 24 x n = powiStd x n := by
  unfold powiNoStd powiStd
  rw [intToFloat_exact (by norm_num)]
  omega

/-- C107 in full is not met: beyond that the exponent is rounded, and even the sign of the result may be wrong. -/
theorem C107_powi32_fails : powiNoStd 24 (-1) 16777217 = 1 ∧ powiStd (-1) 16777217 = -1 := by
  have : intToFloat 24 16777217 = 16777216 := by decide +kernel
  unfold powiNoStd powiStd
  rw [this]
  exact ⟨Even.neg_one_zpow (by decide), Odd.neg_one_zpow (by decide)⟩

/-- C107 in full is not met: the two conversions of `f32` angles to degrees multiply by different numbers, the one without the standard
library by a number farther from the true factor. -/
theorem C107_degrees32_fails : degreesNoStd = 469367 / 8192 ∧ degreesStd = 15019745 / 262144 ∧
    |degreesStd - 57.2957795| < 1 / 10 ^ 6 ∧ 3 / 10 ^ 6 < |degreesNoStd - 57.2957795| := by
  have h1 : degreesNoStd = 469367 / 8192 := by decide +kernel
  have h2 : degreesStd = 15019745 / 262144 := by decide +kernel
  rw [h1, h2]
  refine ⟨rfl, rfl, ?_, ?_⟩ <;> norm_num [abs_lt, lt_abs]

end Verif.Real
