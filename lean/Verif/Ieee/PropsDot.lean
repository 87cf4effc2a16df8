import Verif.Ieee.Lemmas
import Verif.Mat.PropsAlg
import Mathlib.Algebra.BigOperators.Fin
import Mathlib.Tactic.Linarith

/-!
# C140: sums and products in IEEE arithmetic, subnormal numbers and overflow included

The model of `dot`, `Matrix * Vector` and `Matrix * Matrix` (`Verif/Mat/Model.lean`) is generic in the arithmetic of its
entries; here the entries are IEEE numbers (`Verif/Ieee/Spec.lean`).
-/

namespace Verif.Ieee

open Verif.Mat

variable {F : Format} {fl : ℝ → ℝ} {m n k : ℕ}

theorem unit_pos : 0 < unit F := zpow_pos (by norm_num) _

theorem tiny_pos : 0 < tiny F := zpow_pos (by norm_num) _

theorem unit_lt (hp : 1 ≤ F.p) : unit F < 1 := by
  unfold unit
  rw [zpow_neg, zpow_natCast]
  apply inv_lt_one_of_one_lt₀
  exact one_lt_pow₀ (by norm_num) (by omega)

/-- C140. A difference is zero exactly when the numbers are equal: differences never underflow to zero. -/
theorem C140_difference (hp : 1 ≤ F.p) (h : Rounds F fl) {x y : ℝ} (hx : Finite F x) (hy : Finite F y) :
    (IE.num x - IE.num y : IE F fl) = 0 ↔ x = y := by
  have he := h.add hp hx.1 hy.1.neg
  rw [sub_num, ie_zero]
  constructor
  · intro e
    have h0 : fl (x + -y) = 0 := by
      by_cases hb : |fl (x + -y)| < 2 ^ F.emax
      · rw [ofReal_num hb, num_inj] at e; exact e
      · obtain ⟨s, hs⟩ := ofReal_inf (F := F) hb
        rw [hs] at e
        cases e
    rw [h0, zero_sub, abs_neg] at he
    have hu := unit_lt hp
    have hu0 := unit_pos (F := F)
    have : |x + -y| = 0 := by nlinarith [abs_nonneg (x + -y)]
    have := abs_eq_zero.1 this
    linarith
  · intro e
    subst e
    have : fl (x + -x) = 0 := by rw [add_neg_cancel]; exact h.zero
    rw [ofReal_num (by rw [this, abs_zero]; exact zpow_pos (by norm_num) _), this]

/-- C140. A sum of two finite numbers that does not overflow has relative error at most one rounding, however small the sum is. -/
theorem C140_sum (hp : 1 ≤ F.p) (h : Rounds F fl) {x y : ℝ} (hx : Finite F x) (hy : Finite F y)
    (hb : (1 + unit F) * |x + y| < 2 ^ F.emax) :
    ∃ r, (IE.num x + IE.num y : IE F fl) = IE.num r ∧ Finite F r ∧ |r - (x + y)| ≤ unit F * |x + y| := by
  have he := h.add hp hx.1 hy.1
  have hlt : |fl (x + y)| < 2 ^ F.emax := by
    have := abs_sub_abs_le_abs_sub (fl (x + y)) (x + y)
    linarith
  exact ⟨_, by rw [add_num, ofReal_num hlt], ⟨(h _).1, hlt⟩, he⟩

/-- C140. A product that does not overflow has relative error at most one rounding plus half the least positive number. -/
theorem C140_product (hp : 1 ≤ F.p) (h : Rounds F fl) (x y : ℝ) (hb : (1 + unit F) * |x * y| + tiny F < 2 ^ F.emax) :
    ∃ r, (IE.num x * IE.num y : IE F fl) = IE.num r ∧ Finite F r ∧ |r - x * y| ≤ unit F * |x * y| + tiny F := by
  have he := h.err hp (x * y)
  have hlt : |fl (x * y)| < 2 ^ F.emax := by
    have := abs_sub_abs_le_abs_sub (fl (x * y)) (x * y)
    linarith
  exact ⟨_, by rw [mul_num, ofReal_num hlt], ⟨(h _).1, hlt⟩, he⟩

/-- The loop of a dot product over a list of indices. -/
theorem ie_loop (hp : 1 ≤ F.p) (h : Rounds F fl) (a b : Fin n → ℝ) : ∀ l : List (Fin n),
    (1 + unit F) ^ l.length * ((l.map fun i => |a i * b i|).sum + l.length * tiny F) < 2 ^ F.emax →
    ∃ r, l.foldl (fun s i => s + IE.num (a i) * IE.num (b i)) (0 : IE F fl) = IE.num r ∧ Finite F r ∧
      |r - (l.map fun i => a i * b i).sum| ≤ ((1 + unit F) ^ l.length - 1) * (l.map fun i => |a i * b i|).sum +
        l.length * tiny F * (1 + unit F) ^ l.length := by
  intro l
  have hu := unit_pos (F := F)
  have ht := tiny_pos (F := F)
  induction l using List.reverseRecOn with
  | nil => intro _; exact ⟨0, rfl, ⟨onGrid_zero, by rw [abs_zero]; exact zpow_pos (by norm_num) _⟩, by simp⟩
  | append_singleton l i ih =>
    intro hb
    rw [List.length_append, List.length_singleton, List.map_append, List.sum_append, List.map_singleton, List.sum_singleton] at hb
    rw [List.foldl_append, List.length_append, List.length_singleton, List.map_append, List.sum_append, List.map_singleton,
      List.sum_singleton, List.map_append, List.sum_append, List.map_singleton, List.sum_singleton]
    set A := (l.map fun i => |a i * b i|).sum with hA
    set S := (l.map fun i => a i * b i).sum with hS
    set u := unit F
    set t := tiny F
    have hA0 : 0 ≤ A := by
      rw [hA]
      apply List.sum_nonneg
      intro x hx
      obtain ⟨j, _, rfl⟩ := List.mem_map.1 hx
      exact abs_nonneg _
    have hSA : |S| ≤ A := by
      rw [hS, hA]
      clear * -
      induction l with
      | nil => simp
      | cons j l ih => simp only [List.map_cons, List.sum_cons]; exact (abs_add_le _ _).trans (by linarith)
    set c := a i * b i with hc
    set P := (1 + u) ^ l.length with hP
    have hP1 : 1 ≤ P := one_le_pow₀ (by linarith)
    have hP2 : (1 + u) ^ (l.length + 1) = P * (1 + u) := pow_succ _ _
    rw [hP2] at hb ⊢
    have hc0 := abs_nonneg c
    have hl0 : (0 : ℝ) ≤ l.length := Nat.cast_nonneg _
    push_cast at hb ⊢
    have hlt0 : 0 ≤ (l.length : ℝ) * t := by positivity
    have hb' : P * (A + l.length * t) < 2 ^ F.emax := by
      refine lt_of_le_of_lt ?_ hb
      have : A + l.length * t ≤ A + |c| + (l.length + 1) * t := by linarith
      calc P * (A + l.length * t) ≤ P * (A + |c| + (l.length + 1) * t) := mul_le_mul_of_nonneg_left this (by linarith)
        _ ≤ P * (1 + u) * (A + |c| + (l.length + 1) * t) := by
          apply mul_le_mul_of_nonneg_right _ (by linarith)
          nlinarith
    obtain ⟨r, h1, h2, h3⟩ := ih hb'
    have hbase : (1 + u) * |c| + t ≤ P * (1 + u) * (A + |c| + (l.length + 1) * t) := by
      have e1 : (1 + u) * (|c| + t) ≤ P * (1 + u) * (|c| + t) := by
        have : 0 ≤ (1 + u) * (|c| + t) := by positivity
        nlinarith
      have e2 : P * (1 + u) * (|c| + t) ≤ P * (1 + u) * (A + |c| + (l.length + 1) * t) :=
        mul_le_mul_of_nonneg_left (by linarith) (by positivity)
      nlinarith
    obtain ⟨q, g1, g2, g3⟩ := C140_product (F := F) hp h (a i) (b i) (lt_of_le_of_lt hbase hb)
    change |q - c| ≤ u * |c| + t at g3
    have hadd := h.add hp h2.1 g2.1
    -- the bound on the new accumulator
    have hbound : |fl (r + q) - (S + c)| ≤ (P * (1 + u) - 1) * (A + |c|) + (l.length + 1) * t * (P * (1 + u)) := by
      by_cases hl : l = []
      · subst hl
        have hr : r = 0 := by
          have : (0 : IE F fl) = IE.num r := h1
          rw [ie_zero, num_inj] at this
          exact this.symm
        subst hr
        have hfx : fl (0 + q) = q := by rw [zero_add]; exact h.fix g2.1
        rw [hfx]
        have : S = 0 := by rw [hS]; simp
        have hA' : A = 0 := by rw [hA]; simp
        have hP' : P = 1 := by rw [hP]; simp
        rw [this, hA', hP']
        simp only [List.length_nil, Nat.cast_zero, zero_add, one_mul]
        have : u * |c| + t ≤ (1 + u - 1) * |c| + t * (1 + u) := by nlinarith
        linarith
      · have hlen : 1 ≤ l.length := List.length_pos_iff.2 hl
        have hPu : 1 + u ≤ P := by
          rw [hP]; exact le_self_pow₀ (by linarith) (by omega)
        have e0 : |r + q| ≤ |r - S| + |q - c| + (A + |c|) := by
          have : r + q = (r - S) + (q - c) + (S + c) := by ring
          rw [this]
          refine (abs_add_le _ _).trans ?_
          have := abs_add_le (r - S) (q - c)
          have := abs_add_le S c
          linarith
        have e1 : |fl (r + q) - (S + c)| ≤ |fl (r + q) - (r + q)| + (|r - S| + |q - c|) := by
          have : fl (r + q) - (S + c) = (fl (r + q) - (r + q)) + ((r - S) + (q - c)) := by ring
          rw [this]
          exact (abs_add_le _ _).trans (by linarith [abs_add_le (r - S) (q - c)])
        have e2 : |fl (r + q) - (S + c)| ≤ (1 + u) * (|r - S| + |q - c|) + u * (A + |c|) := by
          have : u * |r + q| ≤ u * (|r - S| + |q - c| + (A + |c|)) := mul_le_mul_of_nonneg_left e0 hu.le
          linarith
        have e3 : |r - S| + |q - c| ≤ (P - 1) * A + l.length * t * P + (u * |c| + t) := by linarith
        have e4 : (1 + u) * (|r - S| + |q - c|) ≤ (1 + u) * ((P - 1) * A + l.length * t * P + (u * |c| + t)) :=
          mul_le_mul_of_nonneg_left e3 (by linarith)
        refine e2.trans ?_
        have e5 : (1 + u) * u * |c| + u * |c| ≤ (P * (1 + u) - 1) * |c| := by
          have : (1 + u) * u + u ≤ P * (1 + u) - 1 := by nlinarith
          nlinarith
        have e6 : (1 + u) * t ≤ t * (P * (1 + u)) := by
          have : 0 ≤ (1 + u) * t := by positivity
          nlinarith
        have e7 : (1 + u) * ((P - 1) * A + l.length * t * P + (u * |c| + t)) + u * (A + |c|) =
            (P * (1 + u) - 1) * A + l.length * t * (P * (1 + u)) + ((1 + u) * u * |c| + u * |c|) + (1 + u) * t := by ring
        have e8 : (P * (1 + u) - 1) * (A + |c|) + (l.length + 1) * t * (P * (1 + u)) =
            (P * (1 + u) - 1) * A + l.length * t * (P * (1 + u)) + (P * (1 + u) - 1) * |c| + t * (P * (1 + u)) := by ring
        rw [e8]
        linarith
    have hfin : |fl (r + q)| < 2 ^ F.emax := by
      refine lt_of_le_of_lt ?_ hb
      have := abs_sub_abs_le_abs_sub (fl (r + q)) (S + c)
      have := abs_add_le S c
      have e : P * (1 + u) * (A + |c| + (l.length + 1) * t) =
          (A + |c|) + ((P * (1 + u) - 1) * (A + |c|) + (l.length + 1) * t * (P * (1 + u))) := by ring
      rw [e]
      linarith
    refine ⟨fl (r + q), ?_, ⟨(h _).1, hfin⟩, hbound⟩
    rw [List.foldl_cons, List.foldl_nil, h1, g1, add_num, ofReal_num hfin]

theorem ie_finRange (f : Fin n → ℝ) : ((List.finRange n).map f).sum = ∑ i, f i := by
  rw [← List.sum_ofFn, List.ofFn_eq_map]

/-- C140. Dot products: unless the magnitudes add up to the largest number, the result is finite and off by at most `n` roundings of the
magnitudes plus `n` halves of the least positive number. -/
theorem C140_dot (hp : 1 ≤ F.p) (h : Rounds F fl) (a b : Fin n → ℝ)
    (hb : (1 + unit F) ^ n * (∑ i, |a i * b i| + n * tiny F) < 2 ^ F.emax) :
    ∃ r, dot (fun i => (IE.num (a i) : IE F fl)) (fun i => IE.num (b i)) = IE.num r ∧ Finite F r ∧
      |r - ∑ i, a i * b i| ≤ ((1 + unit F) ^ n - 1) * ∑ i, |a i * b i| + n * tiny F * (1 + unit F) ^ n := by
  rw [C22_dot]
  have := ie_loop hp h a b (List.finRange n)
  rw [ie_finRange, ie_finRange, List.length_finRange] at this
  exact this hb

/-- C140. The same for every entry of a matrix-vector product. -/
theorem C140_matrix_vector (hp : 1 ≤ F.p) (h : Rounds F fl) (A : Fin m → Fin n → ℝ) (v : Fin n → ℝ) (i : Fin m)
    (hb : (1 + unit F) ^ n * (∑ j, |A i j * v j| + n * tiny F) < 2 ^ F.emax) :
    ∃ r, mulVec (fun i j => (IE.num (A i j) : IE F fl)) (fun j => IE.num (v j)) i = IE.num r ∧ Finite F r ∧
      |r - ∑ j, A i j * v j| ≤ ((1 + unit F) ^ n - 1) * ∑ j, |A i j * v j| + n * tiny F * (1 + unit F) ^ n := by
  rw [C22_mulVec_entry]
  have := ie_loop hp h (A i) v (List.finRange n)
  rw [ie_finRange, ie_finRange, List.length_finRange] at this
  exact this hb

/-- C140. The same for every entry of a matrix product. -/
theorem C140_matrix_matrix (hp : 1 ≤ F.p) (h : Rounds F fl) (A : Fin m → Fin n → ℝ) (B : Fin n → Fin k → ℝ) (i : Fin m) (j : Fin k)
    (hb : (1 + unit F) ^ n * (∑ l, |A i l * B l j| + n * tiny F) < 2 ^ F.emax) :
    ∃ r, mul (fun i l => (IE.num (A i l) : IE F fl)) (fun l j => IE.num (B l j)) i j = IE.num r ∧ Finite F r ∧
      |r - ∑ l, A i l * B l j| ≤ ((1 + unit F) ^ n - 1) * ∑ l, |A i l * B l j| + n * tiny F * (1 + unit F) ^ n := by
  rw [C21_mul_entry]
  have := ie_loop hp h (A i) (fun l => B l j) (List.finRange n)
  rw [ie_finRange, ie_finRange, List.length_finRange] at this
  exact this hb

/-- The accumulated effect of `n` roundings in `f64`. -/
theorem pow_f64 (n : ℕ) (hn : n ≤ 2 ^ 50) : (1 + unit binary64) ^ n ≤ 1 + n * 2 ^ (-52 : ℤ) := by
  have hu : unit binary64 = 2 ^ (-53 : ℤ) := rfl
  rw [hu]
  set u : ℝ := 2 ^ (-53 : ℤ) with hu'
  have hu0 : 0 < u := zpow_pos (by norm_num) _
  have e52 : (2 : ℝ) ^ (-52 : ℤ) = 2 * u := by rw [hu']; norm_num
  have hn' : (n : ℝ) ≤ 2 ^ 50 := by exact_mod_cast hn
  have hnu : (n : ℝ) * u ≤ 1 / 8 := by
    have : (2 : ℝ) ^ 50 * u = 1 / 8 := by rw [hu']; norm_num
    nlinarith
  have h1 : 1 - n * u ≤ (1 - u) ^ n := by
    have := one_add_mul_le_pow (a := -u) (by have : u ≤ 1 := by rw [hu']; norm_num
                                             linarith) n
    have e : 1 + (n : ℝ) * -u = 1 - n * u := by ring
    rw [e, ← sub_eq_add_neg] at this
    exact this
  have h2 : (1 + u) ^ n * (1 - u) ^ n ≤ 1 := by
    rw [← mul_pow]
    apply pow_le_one₀ <;> nlinarith [show u ≤ 1 by rw [hu']; norm_num]
  have h3 : 0 ≤ (1 + u) ^ n := by positivity
  have h4 : (1 + u) ^ n * (1 - n * u) ≤ 1 := (mul_le_mul_of_nonneg_left h1 h3).trans h2
  rw [e52]
  have hn0 : 0 ≤ (n : ℝ) * u := by positivity
  have e : (1 : ℝ) + n * (2 * u) = 1 + 2 * (n * u) := by ring
  rw [e]
  generalize (1 + u) ^ n = Y at h4
  generalize (n : ℝ) * u = x at hn0 hnu h4
  have h5 : Y * (1 - x) ≤ (1 + 2 * x) * (1 - x) := by
    refine h4.trans ?_
    nlinarith
  exact le_of_mul_le_mul_right h5 (by linarith)

/-- C140. In `f64`: dot products of up to `2 ^ 20` numbers no larger than `2 ^ 500` are finite, and their error is at most `n 2⁻⁵²` of the
sum of the magnitudes plus `n 2⁻¹⁰⁷⁴`. -/
theorem C140_dot_f64 (h : Rounds binary64 fl) (hn : n ≤ 2 ^ 20) (a b : Fin n → ℝ) (ha : ∀ i, |a i| ≤ 2 ^ 500) (hb : ∀ i, |b i| ≤ 2 ^ 500) :
    ∃ r, dot (fun i => (IE.num (a i) : IE binary64 fl)) (fun i => IE.num (b i)) = IE.num r ∧ Finite binary64 r ∧
      |r - ∑ i, a i * b i| ≤ n * 2 ^ (-52 : ℤ) * ∑ i, |a i * b i| + n * 2 ^ (-1074 : ℤ) := by
  have hp := pow_f64 n (hn.trans (by norm_num))
  have hn' : (n : ℝ) ≤ 2 ^ 20 := by exact_mod_cast hn
  have hn0 : (0 : ℝ) ≤ n := Nat.cast_nonneg _
  have hP2 : (1 + unit binary64) ^ n ≤ 2 := by
    have : (2 : ℝ) ^ 20 * 2 ^ (-52 : ℤ) ≤ 1 := by norm_num
    have h0 : (0 : ℝ) < 2 ^ (-52 : ℤ) := by positivity
    nlinarith
  have hS : ∑ i, |a i * b i| ≤ n * 2 ^ 1000 := by
    calc ∑ i, |a i * b i| ≤ ∑ _i : Fin n, (2 : ℝ) ^ 1000 := by
          apply Finset.sum_le_sum
          intro i _
          rw [abs_mul]
          calc |a i| * |b i| ≤ 2 ^ 500 * 2 ^ 500 := mul_le_mul (ha i) (hb i) (abs_nonneg _) (by positivity)
            _ = 2 ^ 1000 := by rw [← pow_add]
      _ = n * 2 ^ 1000 := by simp
  have hS0 : 0 ≤ ∑ i, |a i * b i| := Finset.sum_nonneg fun i _ => abs_nonneg _
  have ht : tiny binary64 = 2 ^ (-1075 : ℤ) := rfl
  have ht0 : (0 : ℝ) < 2 ^ (-1075 : ℤ) := by positivity
  have ht1 : (2 : ℝ) ^ (-1075 : ℤ) ≤ 1 := by
    apply zpow_le_one_of_nonpos₀ <;> norm_num
  have hbound : (1 + unit binary64) ^ n * (∑ i, |a i * b i| + n * tiny binary64) < 2 ^ binary64.emax := by
    rw [ht]
    have hpow : (2 : ℝ) ^ (1000 : ℕ) ≥ 1 := one_le_pow₀ (by norm_num)
    have h1 : ∑ i, |a i * b i| + n * (2 : ℝ) ^ (-1075 : ℤ) ≤ 2 ^ 20 * 2 ^ (1000 : ℕ) * 2 := by
      have g1 : (n : ℝ) * 2 ^ (1000 : ℕ) ≤ 2 ^ 20 * 2 ^ (1000 : ℕ) := mul_le_mul_of_nonneg_right hn' (by positivity)
      have g2 : (n : ℝ) * 2 ^ (-1075 : ℤ) ≤ 2 ^ 20 * 2 ^ (1000 : ℕ) :=
        mul_le_mul hn' (ht1.trans hpow) ht0.le (by positivity)
      calc _ ≤ (2 : ℝ) ^ 20 * 2 ^ (1000 : ℕ) + 2 ^ 20 * 2 ^ (1000 : ℕ) := add_le_add (hS.trans g1) g2
        _ = _ := by ring
    have h2 : 0 ≤ ∑ i, |a i * b i| + n * (2 : ℝ) ^ (-1075 : ℤ) := by positivity
    calc _ ≤ 2 * (2 ^ 20 * 2 ^ (1000 : ℕ) * 2 : ℝ) := mul_le_mul hP2 h1 h2 (by norm_num)
      _ = 2 ^ (1022 : ℤ) := by
          rw [← zpow_natCast (2 : ℝ) 1000, show (1022 : ℤ) = 1 + 20 + ((1000 : ℕ) : ℤ) + 1 by norm_num, zpow_add₀ (by norm_num),
            zpow_add₀ (by norm_num), zpow_add₀ (by norm_num)]
          ring
      _ < 2 ^ (1024 : ℤ) := zpow_lt_zpow_right₀ (by norm_num) (by norm_num)
  obtain ⟨r, h1, h2, h3⟩ := C140_dot (F := binary64) (by norm_num [binary64]) h a b hbound
  refine ⟨r, h1, h2, h3.trans ?_⟩
  rw [ht]
  have e : (2 : ℝ) ^ (-1074 : ℤ) = 2 * 2 ^ (-1075 : ℤ) := by
    rw [show (-1074 : ℤ) = 1 + -1075 by norm_num, zpow_add₀ (by norm_num), zpow_one]
  rw [e]
  have h4 : ((1 + unit binary64) ^ n - 1) * ∑ i, |a i * b i| ≤ n * 2 ^ (-52 : ℤ) * ∑ i, |a i * b i| :=
    mul_le_mul_of_nonneg_right (by linarith) hS0
  have h5 : n * (2 : ℝ) ^ (-1075 : ℤ) * (1 + unit binary64) ^ n ≤ n * (2 : ℝ) ^ (-1075 : ℤ) * 2 :=
    mul_le_mul_of_nonneg_left hP2 (by positivity)
  linarith

-- Rounding to nearest exists in `f64`, and the hypotheses hold for a product that underflows next to one that does not.
example : ∃ r, dot (fun i => (IE.num (![2 ^ (-600 : ℤ), 3] i) : IE binary64 (rnd binary64)))
    (fun i => IE.num (![2 ^ (-600 : ℤ), 5] i)) = IE.num r ∧ Finite binary64 r := by
  have hsmall : |(2 : ℝ) ^ (-600 : ℤ)| ≤ 2 ^ 500 := by
    rw [abs_of_pos (by positivity)]
    exact (zpow_le_one_of_nonpos₀ (by norm_num) (by norm_num)).trans (one_le_pow₀ (by norm_num))
  have h8 : (8 : ℝ) ≤ 2 ^ 500 := by
    calc (8 : ℝ) = 2 ^ 3 := by norm_num
      _ ≤ 2 ^ 500 := pow_le_pow_right₀ (by norm_num) (by norm_num)
  obtain ⟨r, h1, h2, _⟩ := C140_dot_f64 (rnd_rounds (F := binary64) (by norm_num [binary64])) (n := 2) (by norm_num)
    ![2 ^ (-600 : ℤ), 3] ![2 ^ (-600 : ℤ), 5]
    (fun i => by fin_cases i
                 · exact hsmall
                 · change |(3 : ℝ)| ≤ 2 ^ 500; rw [abs_of_pos (by norm_num)]; exact (show (3 : ℝ) ≤ 8 by norm_num).trans h8)
    (fun i => by fin_cases i
                 · exact hsmall
                 · change |(5 : ℝ)| ≤ 2 ^ 500; rw [abs_of_pos (by norm_num)]; exact (show (5 : ℝ) ≤ 8 by norm_num).trans h8)
  exact ⟨r, h1, h2⟩

end Verif.Ieee
