import Verif.Ieee.Order
import Verif.Ieee.PropsNorm

/-! # Lemmas: infinities and NaN in sums, products, quotients and roots -/

namespace Verif.Ieee

variable {F : Format} {fl : ℝ → ℝ}

theorem nan_mul (a : IE F fl) : IE.nan * a = IE.nan := by
  rcases a with ⟨_ | _ | _⟩ <;> rfl

theorem mul_nan (a : IE F fl) : a * IE.nan = IE.nan := by
  rcases a with ⟨_ | _ | _⟩ <;> rfl

theorem add_nan (a : IE F fl) : a + IE.nan = IE.nan := by
  rcases a with ⟨_ | _ | _⟩ <;> rfl

theorem nan_add (a : IE F fl) : IE.nan + a = IE.nan := by
  rcases a with ⟨_ | _ | _⟩ <;> rfl

theorem nan_sub (a : IE F fl) : IE.nan - a = IE.nan := by
  rcases a with ⟨_ | _ | _⟩ <;> rfl

theorem sub_nan (a : IE F fl) : a - IE.nan = IE.nan := by
  rcases a with ⟨_ | _ | _⟩ <;> rfl

theorem nan_div (a : IE F fl) : IE.nan / a = IE.nan := by
  rcases a with ⟨_ | _ | _⟩ <;> rfl

theorem div_nan (a : IE F fl) : a / IE.nan = IE.nan := by
  rcases a with ⟨_ | _ | _⟩ <;> rfl

/-- The result of an operation whose exact result is not negative. -/
theorem ofReal_nonneg (h : Rounds F fl) {x : ℝ} (hx : 0 ≤ x) :
    (IE.ofReal x : IE F fl) = IE.inf false ∨ (IE.ofReal x : IE F fl) = IE.num (fl x) ∧ OnGrid F (fl x) ∧ 0 ≤ fl x := by
  by_cases hf : |fl x| < 2 ^ F.emax
  · exact Or.inr ⟨ofReal_num hf, (h x).1, by rw [← h.zero]; exact h.mono hx⟩
  · left
    unfold IE.ofReal
    rw [if_neg hf, decide_eq_false (not_lt.2 hx)]

theorem ofReal_isNum (h : Rounds F fl) {x y : ℝ} (e : (IE.ofReal x : IE F fl) = IE.num y) : Finite F y ∧ y = fl x := by
  by_cases hf : |fl x| < 2 ^ F.emax
  · rw [ofReal_num hf, num_inj] at e
    subst e
    exact ⟨⟨(h x).1, hf⟩, rfl⟩
  · obtain ⟨s, hs⟩ := ofReal_inf (fl := fl) hf
    rw [hs] at e; cases e

/-- A sum of squares in the making. -/
def Partial (a : IE F fl) : Prop := a = IE.nan ∨ a = IE.inf false ∨ ∃ x, a = IE.num x ∧ OnGrid F x ∧ 0 ≤ x

theorem square_partial (h : Rounds F fl) (a : IE F fl) : Partial (a * a) := by
  rcases a with ⟨_ | s | x⟩
  · exact Or.inl rfl
  · right; left
    show IE.inf (xor s s) = _
    rw [Bool.xor_self]
  · rcases ofReal_nonneg h (mul_self_nonneg x) with e | ⟨e, e1, e2⟩
    · exact Or.inr (Or.inl e)
    · exact Or.inr (Or.inr ⟨_, e, e1, e2⟩)

theorem div_isNum (h : Rounds F fl) {a b : IE F fl} {x : ℝ} (e : a / b = IE.num x) : Finite F x := by
  rcases a with ⟨_ | s | y⟩
  · change IE.nan / b = _ at e
    rw [nan_div] at e; cases e
  · rcases b with ⟨_ | t | z⟩ <;> cases e
  · rcases b with ⟨_ | t | z⟩
    · cases e
    · change IE.num 0 = _ at e
      rw [num_inj] at e
      rw [← e]
      exact ⟨onGrid_zero, by rw [abs_zero]; positivity⟩
    · change (if z = 0 then (if y = 0 then IE.nan else IE.inf (IE.isNeg y)) else IE.ofReal (y / z)) = _ at e
      by_cases hz : z = 0
      · rw [if_pos hz] at e
        by_cases hy : y = 0
        · rw [if_pos hy] at e; cases e
        · rw [if_neg hy] at e; cases e
      · rw [if_neg hz] at e
        exact (ofReal_isNum h e).1

end Verif.Ieee
