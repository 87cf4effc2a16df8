import Verif.Ode.PropsNewton
import Verif.Ieee.Special
import Verif.Ieee.PropsDot

/-!
# Newton's method in IEEE arithmetic (C162)
-/

namespace Verif.Ieee

open Verif.Ode

variable {F : Format} {fl : ℝ → ℝ}

noncomputable instance : DecidableEq (IE F fl) := fun _ _ => Classical.propDecidable _

/-- The solver on IEEE numbers: the points at which the functions are called, and the result. -/
noncomputable def newtonIE (tol : IE F fl) (f df : IE F fl → IE F fl) (n : ℕ) (start : IE F fl) : List (IE F fl) × Except NewtonErr (IE F fl) :=
  newton IE.abs (fun a b => decide (a < b)) tol f df n start

/-- A difference of two values that is below something in absolute value is a finite number, and so are both values. -/
theorem abs_sub_lt {a b t : IE F fl} (h : IE.abs (a - b) < t) : ∃ x y, a = IE.num x ∧ b = IE.num y ∧ |fl (x + -y)| < 2 ^ F.emax ∧
    ∀ z, t = IE.num z → |fl (x + -y)| < z := by
  have hi : ∀ t : IE F fl, ¬ IE.inf false < t := by
    intro t ht
    rcases t with ⟨_ | s | z⟩
    · exact ht
    · exact Bool.noConfusion (show false = true from (show false = true ∧ s = false from ht).1)
    · exact Bool.noConfusion (show false = true from ht)
  rcases a with ⟨_ | s | x⟩ <;> rcases b with ⟨_ | s' | y⟩
  · exact absurd h (nan_lt _)
  · exact absurd h (nan_lt _)
  · exact absurd h (nan_lt _)
  · exact absurd h (nan_lt _)
  · exfalso
    cases s <;> cases s'
    · exact nan_lt _ h
    · exact hi _ h
    · exact hi _ h
    · exact nan_lt _ h
  · exact absurd h (hi _)
  · exact absurd h (nan_lt _)
  · exact absurd h (hi _)
  · change IE.abs (IE.num x - IE.num y) < t at h
    rw [sub_num] at h
    by_cases hb : |fl (x + -y)| < 2 ^ F.emax
    · refine ⟨x, y, rfl, rfl, hb, fun z hz => ?_⟩
      rw [hz, ofReal_num hb] at h
      exact h
    · obtain ⟨s, e⟩ := ofReal_inf (fl := fl) hb
      rw [e] at h
      exact absurd h (hi _)

/-- The point accepted and the one before it. -/
theorem newton_accept (h : Rounds F fl) (tol : IE F fl) (f df : IE F fl → IE F fl) (n : ℕ) (start : IE F fl)
    (hs : ∀ x, start = IE.num x → Finite F x) {y : IE F fl} (hy : (newtonIE tol f df n start).2 = .ok y) :
    ∃ g r q, IE.num g ∈ (newtonIE tol f df n start).1 ∧ y = IE.num r ∧ Finite F g ∧ Finite F r ∧ df (IE.num g) ≠ 0 ∧
      f (IE.num g) / df (IE.num g) = IE.num q ∧ r = fl (g + -q) ∧ ∀ t, tol = IE.num t → |fl (r + -g)| < t := by
  have ho := outcome IE.abs (fun a b => decide (a < b)) tol f df n start
  rcases ho with ⟨k, hk, -, ⟨a1, a2⟩, h5, h6⟩ | ⟨k, hk, -, -, h5, -⟩ | ⟨-, h5, -⟩
  · unfold newtonIE at hy ⊢
    rw [hy] at h5
    have hy' := Except.ok.inj h5
    obtain ⟨r, g, er, eg, hb, ht⟩ := abs_sub_lt (of_decide_eq_true a2)
    have hnext : iter f df start (k + 1) = iter f df start k - f (iter f df start k) / df (iter f df start k) := rfl
    have hfin : ∀ k x, iter f df start k = IE.num x → Finite F x := by
      intro k x hx
      cases k with
      | zero => exact hs x hx
      | succ k =>
        change iter f df start k - _ = _ at hx
        generalize iter f df start k = a at hx
        generalize f a / df a = b at hx
        rcases a with ⟨_ | s | u⟩ <;> rcases b with ⟨_ | s' | v⟩
        · cases hx
        · cases hx
        · cases hx
        · cases hx
        · cases s <;> cases s' <;> cases hx
        · cases hx
        · cases hx
        · cases hx
        · exact (ofReal_isNum h hx).1
    rw [eg] at a1 hnext
    rw [er] at hnext hy'
    obtain ⟨q, hq⟩ : ∃ q, f (IE.num g) / df (IE.num g) = IE.num q := by
      generalize f (IE.num g) / df (IE.num g) = b at hnext
      rcases b with ⟨_ | s' | v⟩
      · cases hnext
      · cases hnext
      · exact ⟨v, rfl⟩
    rw [hq, sub_num] at hnext
    refine ⟨g, r, q, ?_, hy', hfin _ _ eg, hfin _ _ er, a1, hq, (ofReal_isNum h hnext.symm).2, ht⟩
    rw [h6]
    exact List.mem_map.2 ⟨k, List.mem_range.2 (Nat.lt_succ_self _), eg⟩
  · unfold newtonIE at hy
    rw [h5] at hy; cases hy
  · unfold newtonIE at hy
    rw [h5] at hy; cases hy

/-- **C162**: in IEEE arithmetic, for all functions, which may return infinities and NaN, every tolerance, limit and start: a point returned is a
finite number, and it is within the tolerance, up to a rounding, of the last point `g` at which the functions were called, where the derivative
is not zero. -/
theorem C162_finite (hp : 2 ≤ F.p) (h : Rounds F fl) (tol : IE F fl) (f df : IE F fl → IE F fl) (n : ℕ) (start : IE F fl)
    (hs : ∀ x, start = IE.num x → Finite F x) {y : IE F fl} (hy : (newtonIE tol f df n start).2 = .ok y) :
    ∃ g r, y = IE.num r ∧ Finite F r ∧ Finite F g ∧ IE.num g ∈ (newtonIE tol f df n start).1 ∧ df (IE.num g) ≠ 0 ∧
      ∀ t, tol = IE.num t → (1 - unit F) * |r - g| < t := by
  obtain ⟨g, r, q, h1, h2, h3, h4, h5, -, -, h8⟩ := newton_accept h tol f df n start hs hy
  refine ⟨g, r, h2, h4, h3, h1, h5, fun t ht => ?_⟩
  have e := h.add (by omega) h4.1 h3.1.neg
  have := h8 t ht
  have e2 := abs_sub_abs_le_abs_sub (r + -g) (fl (r + -g))
  rw [abs_sub_comm (r + -g)] at e2
  rw [sub_eq_add_neg r g]
  linarith

/-- **C162**, partial: if moreover the derivative never returns an infinity, the point before had a finite value and derivative, and the value is
small: at most the derivative times the tolerance, up to the rounding of the point returned. What is missing: infinite derivatives (`C162_fails`). -/
theorem C162_partial (hp : 2 ≤ F.p) (h : Rounds F fl) (tol : IE F fl) (f df : IE F fl → IE F fl) (n : ℕ) (start : IE F fl)
    (hs : ∀ x, start = IE.num x → Finite F x) (hdf : ∀ g s, df g ≠ IE.inf s) {y : IE F fl} (hy : (newtonIE tol f df n start).2 = .ok y) :
    ∃ g r a b, y = IE.num r ∧ IE.num g ∈ (newtonIE tol f df n start).1 ∧ f (IE.num g) = IE.num a ∧ df (IE.num g) = IE.num b ∧ b ≠ 0 ∧
      ∀ t, tol = IE.num t → (1 - unit F) ^ 2 * |a| ≤ |b| * (t + unit F * |r| + tiny F) := by
  obtain ⟨g, r, q, h1, h2, h3, h4, h5, h6, h7, h8⟩ := newton_accept h tol f df n start hs hy
  have hu : 0 < unit F := unit_pos
  have hu1 : unit F < 1 := unit_lt (by omega)
  have ht0 : 0 < tiny F := tiny_pos
  obtain ⟨a, b, ea, eb, hb⟩ : ∃ a b, f (IE.num g) = IE.num a ∧ df (IE.num g) = IE.num b ∧ b ≠ 0 := by
    have hd := hdf (IE.num g)
    generalize f (IE.num g) = A at h6
    generalize df (IE.num g) = B at h6 h5 hd
    rcases B with ⟨_ | s | b⟩
    · change A / IE.nan = _ at h6
      rw [div_nan] at h6; cases h6
    · exact absurd rfl (hd s)
    · have hb : b ≠ 0 := fun e => h5 (by subst e; rfl)
      rcases A with ⟨_ | s | a⟩
      · cases h6
      · cases h6
      · exact ⟨a, b, rfl, rfl, hb⟩
  refine ⟨g, r, a, b, h2, h1, ea, eb, hb, fun t ht => ?_⟩
  rw [ea, eb, div_num _ hb] at h6
  obtain ⟨hq, hq'⟩ := ofReal_isNum h h6
  have e1 := h.add (by omega) h4.1 h3.1.neg
  have e1' := h8 t ht
  have e2 := h.add (by omega) h3.1 hq.1.neg
  rw [← h7] at e2
  have e3 := h.err (by omega) (a / b)
  rw [← hq'] at e3
  have hab : |a| = |a / b| * |b| := by rw [abs_div, div_mul_cancel₀ _ (abs_ne_zero.2 hb)]
  rw [hab]
  have k1 := abs_sub_abs_le_abs_sub (r + -g) (fl (r + -g))
  rw [abs_sub_comm (r + -g)] at k1
  have k2 := abs_sub_abs_le_abs_sub (a / b) q
  rw [abs_sub_comm (a / b)] at k2
  have k3 : |g + -q| ≤ |r| + unit F * |g + -q| := by
    have := abs_sub_abs_le_abs_sub (g + -q) r
    rw [abs_sub_comm (g + -q)] at this
    linarith
  have k4 : |q| ≤ |r + -g| + |r - (g + -q)| := by
    have : q = (r - (g + -q)) - (r + -g) := by ring
    have k := abs_add_le (r - (g + -q)) (-(r + -g))
    rw [abs_neg, ← sub_eq_add_neg, ← this] at k
    linarith
  generalize |a / b| = X at *
  generalize |r + -g| = D at *
  generalize |fl (r + -g)| = D' at *
  generalize |g + -q| = E at *
  generalize |r - (g + -q)| = E' at *
  generalize |q| = Q at *
  have m1 : (1 - unit F) * X ≤ Q + tiny F := by linarith
  have m2 : (1 - unit F) * D ≤ t := by linarith
  have m3 : (1 - unit F) * E ≤ |r| := by linarith
  have m4 : (1 - unit F) * Q ≤ t + unit F * |r| := by nlinarith
  have m5 : (1 - unit F) ^ 2 * X ≤ t + unit F * |r| + tiny F := by nlinarith
  have hb0 : 0 ≤ |b| := abs_nonneg b
  nlinarith

/-- Small integers in f64. -/
theorem small_int (h : Rounds binary64 fl) {k : ℤ} (hk : |k| ≤ 8) : Finite binary64 k ∧ (IE.ofReal (k : ℝ) : IE binary64 fl) = IE.num k := by
  have g : OnGrid binary64 (k : ℝ) := by
    have := onGrid_of_le (F := binary64) (by decide) (m := k) (e := 0) (hk.trans (by decide)) (by decide)
    simpa using this
  have b : |(k : ℝ)| < 2 ^ binary64.emax := by
    rw [← Int.cast_abs]
    have h8 : ((|k| : ℤ) : ℝ) ≤ 8 := by exact_mod_cast hk
    refine h8.trans_lt ?_
    calc (8 : ℝ) = 2 ^ (3 : ℤ) := by norm_num
      _ < 2 ^ binary64.emax := zpow_lt_zpow_right₀ (by norm_num) (by decide)
  refine ⟨⟨g, b⟩, ?_⟩
  have := h.fix g
  rw [ofReal_num (by rw [this]; exact b), this]

/-- A run that meets the premises: `f x = x - 1` from 3 with tolerance 1 returns 1 after two iterations. -/
example (h : Rounds binary64 fl) :
    newtonIE (IE.num 1 : IE binary64 fl) (fun x => x - IE.num 1) (fun _ => IE.num 1) 5 (IE.num 3) = ([IE.num 3, IE.num 1], .ok (IE.num 1)) := by
  have e0 : (IE.ofReal 0 : IE binary64 fl) = IE.num 0 := by have := (small_int h (k := 0) (by decide)).2; simpa using this
  have e1 : (IE.ofReal 1 : IE binary64 fl) = IE.num 1 := by have := (small_int h (k := 1) (by decide)).2; simpa using this
  have e2 : (IE.ofReal 2 : IE binary64 fl) = IE.num 2 := by have := (small_int h (k := 2) (by decide)).2; simpa using this
  have e3 : (IE.ofReal (-2) : IE binary64 fl) = IE.num (-2) := by have := (small_int h (k := -2) (by decide)).2; simpa using this
  have n1 : (IE.num 1 : IE binary64 fl) ≠ 0 := fun e => one_ne_zero (num_inj.1 e)
  have a1 : (IE.num 3 - (IE.num 3 - IE.num 1) / IE.num 1 : IE binary64 fl) = IE.num 1 := by
    rw [sub_num, show (3 + -1 : ℝ) = 2 by norm_num, e2, div_num _ one_ne_zero, div_one, e2, sub_num, show (3 + -2 : ℝ) = 1 by norm_num, e1]
  have a2 : (IE.num 1 - (IE.num 1 - IE.num 1) / IE.num 1 : IE binary64 fl) = IE.num 1 := by
    rw [sub_num, show (1 + -1 : ℝ) = 0 by norm_num, e0, div_num _ one_ne_zero, div_one, e0, sub_num, neg_zero, add_zero, e1]
  have c1 : ¬ IE.abs (IE.num 1 - IE.num 3 : IE binary64 fl) < IE.num 1 := by
    rw [sub_num, show (1 + -3 : ℝ) = -2 by norm_num, e3]
    change ¬ |(-2 : ℝ)| < 1
    norm_num
  have c2 : IE.abs (IE.num 1 - IE.num 1 : IE binary64 fl) < IE.num 1 := by
    rw [sub_num, show (1 + -1 : ℝ) = 0 by norm_num, e0]
    change |(0 : ℝ)| < 1
    norm_num
  unfold newtonIE newton
  dsimp only
  rw [if_neg n1, a1, if_neg (by simpa using c1)]
  unfold newton
  dsimp only
  rw [if_neg n1, a2, if_pos (by simpa using c2)]

/-- **C162** fails for an infinite derivative: for `f x = √x - 1`, `f' x = 1 / (2 √x)` and the start 0 the solver returns 0 with any positive
tolerance, in the first iteration, although `f 0 = -1`: the derivative is infinite, which is not zero, and the step is `-1 / ∞ = 0`. -/
theorem C162_fails (h : Rounds binary64 fl) {t : ℝ} (ht : 0 < t) (n : ℕ) :
    newtonIE (IE.num t : IE binary64 fl) (fun x => IE.sqrt x - IE.num 1) (fun x => IE.num 1 / (IE.num 2 * IE.sqrt x)) (n + 1) (IE.num 0) =
      ([IE.num 0], .ok (IE.num 0)) ∧ (IE.sqrt (IE.num 0) - IE.num 1 : IE binary64 fl) = IE.num (-1) := by
  have e0 : (IE.ofReal 0 : IE binary64 fl) = IE.num 0 := by have := (small_int h (k := 0) (by decide)).2; simpa using this
  have e1 : (IE.ofReal (-1) : IE binary64 fl) = IE.num (-1) := by have := (small_int h (k := -1) (by decide)).2; simpa using this
  have hs : (IE.sqrt (IE.num 0) : IE binary64 fl) = IE.num 0 := by rw [sqrt_num le_rfl, Real.sqrt_zero, e0]
  have hf : (IE.sqrt (IE.num 0) - IE.num 1 : IE binary64 fl) = IE.num (-1) := by rw [hs, sub_num, zero_add, e1]
  have hd : ∃ s, (IE.num 1 / (IE.num 2 * IE.sqrt (IE.num 0)) : IE binary64 fl) = IE.inf s := by
    rw [hs, mul_num, mul_zero, e0]
    refine ⟨IE.isNeg 1, ?_⟩
    change (if (0 : ℝ) = 0 then (if (1 : ℝ) = 0 then IE.nan else IE.inf (IE.isNeg 1)) else _) = _
    rw [if_pos rfl, if_neg one_ne_zero]
  obtain ⟨s, hd⟩ := hd
  refine ⟨?_, hf⟩
  unfold newtonIE newton
  dsimp only
  have hq : (IE.num (-1) / IE.inf s : IE binary64 fl) = IE.num 0 := rfl
  have hz : (IE.num 0 - IE.num 0 : IE binary64 fl) = IE.num 0 := by rw [sub_num, neg_zero, add_zero, e0]
  have hl : IE.abs (IE.num 0 : IE binary64 fl) < IE.num t := by
    change |(0 : ℝ)| < t
    rwa [abs_zero]
  rw [hd, if_neg (by intro e; cases e), hf, hq, hz, if_pos (by rw [hz]; simpa using hl)]

end Verif.Ieee
