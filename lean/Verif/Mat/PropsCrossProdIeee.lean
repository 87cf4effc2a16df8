import Verif.Stats.PropsCovIeee
import Verif.Ieee.PropsDot
import Verif.Ieee.PropsCast

/-!
# The vector product in machine arithmetic (C243)
-/

namespace Verif.Mat.Ie

open Verif.Ieee Verif.Mat Verif.Stats.Ie

variable {F : Format} {fl : ℝ → ℝ}

/-- A difference changes its sign with the order, if the rounding treats both signs alike. -/
theorem sub_swap (h : Rounds F fl) (ho : ∀ x, fl (-x) = -fl x) (a b : IE F fl) : a - b = -(b - a) := by
  rcases a with ⟨_ | s | x⟩ <;> rcases b with ⟨_ | t | y⟩ <;> try rfl
  · cases s <;> cases t <;> rfl
  · change IE.inf s = IE.inf (!!s)
    rw [Bool.not_not]
  · change IE.ofReal (x + -y) = -IE.ofReal (y + -x)
    have e : fl (y + -x) = -fl (x + -y) := by rw [← ho]; congr 1; ring
    unfold IE.ofReal
    rw [e, abs_neg]
    split_ifs with hb
    · change IE.num _ = IE.num (- -fl (x + -y))
      rw [neg_neg]
    · change IE.inf _ = IE.inf _
      congr 1
      rcases lt_trichotomy x y with hxy | hxy | hxy
      · rw [decide_eq_true (by linarith), decide_eq_false (by linarith)]; rfl
      · subst hxy
        exact absurd (by rw [add_neg_cancel, h.zero, abs_zero]; positivity) hb
      · rw [decide_eq_false (by linarith), decide_eq_true (by linarith)]; rfl

/-- A difference of two products. -/
theorem minor_error (h : Rounds binary64 fl) {a b c d : ℝ} (ha : |a| ≤ 2 ^ (510 : ℤ)) (hb : |b| ≤ 2 ^ (510 : ℤ)) (hc : |c| ≤ 2 ^ (510 : ℤ)) (hd : |d| ≤ 2 ^ (510 : ℤ)) :
    ∃ r, (IE.num a * IE.num b - IE.num c * IE.num d : IE binary64 fl) = IE.num r ∧ Finite binary64 r ∧
      |r - (a * b - c * d)| ≤ 3 * 2 ^ (-53 : ℤ) * (|a * b| + |c * d|) + 2 ^ (-1073 : ℤ) := by
  have hB : (2 : ℝ) ^ binary64.emax = 16 * (2 ^ (510 : ℤ) * 2 ^ (510 : ℤ)) := by
    rw [show binary64.emax = 4 + 510 + 510 from rfl, zpow_add₀ (by norm_num), zpow_add₀ (by norm_num), mul_assoc, show (2 : ℝ) ^ (4 : ℤ) = 16 by norm_num]
  have h1 : (1 : ℝ) ≤ 2 ^ (510 : ℤ) := one_le_zpow₀ (by norm_num) (by norm_num)
  have hu : unit binary64 = 2 ^ (-53 : ℤ) := rfl
  have hu' : unit binary64 ≤ 1 / 100 := by rw [hu]; norm_num
  have hu0 := unit_pos (F := binary64)
  have ht0 : 0 ≤ tiny binary64 := by unfold tiny; positivity
  have ht1 : tiny binary64 ≤ 1 := zpow_le_one_of_nonpos₀ (by norm_num) (by decide)
  have hab : |a * b| ≤ 2 ^ (510 : ℤ) * 2 ^ (510 : ℤ) := by rw [abs_mul]; exact mul_le_mul ha hb (abs_nonneg _) (by positivity)
  have hcd : |c * d| ≤ 2 ^ (510 : ℤ) * 2 ^ (510 : ℤ) := by rw [abs_mul]; exact mul_le_mul hc hd (abs_nonneg _) (by positivity)
  have hBB : (1 : ℝ) ≤ 2 ^ (510 : ℤ) * 2 ^ (510 : ℤ) := one_le_mul_of_one_le_of_one_le h1 h1
  have h4 : (2 : ℝ) ^ (-1073 : ℤ) = 4 * tiny binary64 := by
    unfold tiny
    rw [show (-1073 : ℤ) = 2 + (binary64.emin - 1) from rfl, zpow_add₀ (by norm_num)]
    norm_num
  rw [h4, ← hu]
  clear ha hb hc hd h1 h4 hu
  generalize (2 : ℝ) ^ (510 : ℤ) * 2 ^ (510 : ℤ) = B at *
  have n1 := abs_nonneg (a * b)
  have n2 := abs_nonneg (c * d)
  obtain ⟨p, ep, fp, hp⟩ := C140_product (by decide) h a b (by rw [hB]; clear hB; nlinarith)
  obtain ⟨q, eq, fq, hq⟩ := C140_product (by decide) h c d (by rw [hB]; clear hB; nlinarith)
  have bp : |p| ≤ 2 * B + 1 := by
    have := abs_sub_abs_le_abs_sub p (a * b)
    clear hB
    nlinarith
  have bq : |q| ≤ 2 * B + 1 := by
    have := abs_sub_abs_le_abs_sub q (c * d)
    clear hB
    nlinarith
  have bs : |p + -q| ≤ |p| + |q| := by
    have := abs_add_le p (-q)
    rwa [abs_neg] at this
  have fq' : Finite binary64 (-q) := ⟨fq.1.neg, by rw [abs_neg]; exact fq.2⟩
  obtain ⟨r, er, fr, hr⟩ := C140_sum (by decide) h fp fq' (by rw [hB]; clear hB; nlinarith [abs_nonneg (p + -q)])
  refine ⟨r, ?_, fr, ?_⟩
  · rw [ep, eq, sub_num, ← add_num, er]
  · clear hB
    have a1 : |p + -q - (a * b - c * d)| ≤ unit binary64 * (|a * b| + |c * d|) + 2 * tiny binary64 := by
      have := abs_add_le (p - a * b) (-(q - c * d))
      rw [abs_neg, show p - a * b + -(q - c * d) = p + -q - (a * b - c * d) by ring] at this
      linarith
    have a2 : |p + -q| ≤ 101 / 100 * (|a * b| + |c * d|) + 2 * tiny binary64 := by
      have t1 := abs_sub_abs_le_abs_sub p (a * b)
      have t2 := abs_sub_abs_le_abs_sub q (c * d)
      nlinarith
    have a3 := abs_sub_le r (p + -q) (a * b - c * d)
    nlinarith

/-! ## Properties -/

/-- **C243, exchange**: vectors of any values, also infinite ones and NaN, in any format whose rounding treats both signs alike, as rounding to even does. Exchanging the factors
changes exactly the sign. -/
theorem C243_exchange (h : Rounds F fl) (ho : ∀ x, fl (-x) = -fl x) (a b : Fin 3 → IE F fl) (i : Fin 3) : cross a b i = -cross b a i := by
  unfold cross
  fin_cases i
  all_goals
    simp only [Fin.zero_eta, Fin.mk_one, Fin.reduceFinMk, Matrix.cons_val]
    rw [sub_swap h ho, ie_mul_comm, ie_mul_comm (a _) (b _)]

/-- There is such a rounding. -/
example (hp : 1 ≤ F.p) : ∃ fl : ℝ → ℝ, Rounds F fl ∧ ∀ x, fl (-x) = -fl x := by
  have h := rnd_rounds (F := F) hp
  refine ⟨fun x => if 0 ≤ x then rnd F x else -rnd F (-x), fun x => ?_, fun x => ?_⟩
  · dsimp only
    split_ifs
    · exact h x
    · exact h.negate x
  · dsimp only
    rcases lt_trichotomy x 0 with hx | rfl | hx
    · rw [if_pos (by linarith), if_neg (by linarith), neg_neg]
    · simp [h.zero]
    · rw [if_neg (by linarith), if_pos (by linarith), neg_neg]

/-- **C243, value**, the proved part: `f64`, components of size at most `2 ^ 510`. Every component of the vector product is a finite number within three roundings of the products
it is the difference of (and `2 ^ -1073` for underflow), and the product of a vector with itself is exactly zero. Missing: larger components, see `C243_fails`. -/
theorem C243_partial (h : Rounds binary64 fl) (a b : Fin 3 → ℝ) (ha : ∀ i, |a i| ≤ 2 ^ (510 : ℤ)) (hb : ∀ i, |b i| ≤ 2 ^ (510 : ℤ)) :
    (∀ i, ∃ r, cross (fun i => (IE.num (a i) : IE binary64 fl)) (fun i => IE.num (b i)) i = IE.num r ∧ Finite binary64 r ∧
      |r - (a (i + 1) * b (i + 2) - a (i + 2) * b (i + 1))| ≤ 3 * 2 ^ (-53 : ℤ) * (|a (i + 1) * b (i + 2)| + |a (i + 2) * b (i + 1)|) + 2 ^ (-1073 : ℤ)) ∧
    ∀ i, cross (fun i => (IE.num (a i) : IE binary64 fl)) (fun i => IE.num (a i)) i = 0 := by
  constructor
  · intro i
    fin_cases i
    · exact minor_error h (ha 1) (hb 2) (ha 2) (hb 1)
    · exact minor_error h (ha 2) (hb 0) (ha 0) (hb 2)
    · exact minor_error h (ha 0) (hb 1) (ha 1) (hb 0)
  · have key : ∀ x y : ℝ, |x| ≤ 2 ^ (510 : ℤ) → |y| ≤ 2 ^ (510 : ℤ) → (IE.num x * IE.num y - IE.num y * IE.num x : IE binary64 fl) = 0 := by
      intro x y hx hy
      obtain ⟨r, e, -, -⟩ := minor_error h hx hy hy hx
      rw [ie_mul_comm (IE.num y)] at e ⊢
      rw [mul_num] at e ⊢
      unfold IE.ofReal at e ⊢
      split_ifs at e ⊢ with hlt
      · rw [sub_num, add_neg_cancel, ie_zero]
        have := h.zero
        rw [ofReal_num (by rw [this, abs_zero]; positivity), this]
      · exfalso
        generalize decide (x * y < 0) = s at e
        cases s <;> cases e
    intro i
    fin_cases i
    · exact key _ _ (ha 1) (ha 2)
    · exact key _ _ (ha 2) (ha 0)
    · exact key _ _ (ha 0) (ha 1)

/-- Two orthogonal unit vectors. -/
example (i : Fin 3) : |(![1, 0, 0] : Fin 3 → ℝ) i| ≤ 2 ^ (510 : ℤ) ∧ |(![0, 1, 0] : Fin 3 → ℝ) i| ≤ 2 ^ (510 : ℤ) := by
  have h1 : (1 : ℝ) ≤ 2 ^ (510 : ℤ) := one_le_zpow₀ (by norm_num) (by norm_num)
  have h0 : (0 : ℝ) ≤ 2 ^ (510 : ℤ) := by positivity
  fin_cases i <;> simp only [Fin.zero_eta, Fin.mk_one, Fin.reduceFinMk, Matrix.cons_val, abs_one, abs_zero] <;> constructor <;> assumption

/-- **C243** does not hold for all finite vectors: the product of `(2 ^ 600, 2 ^ 600, 0)` with itself is not zero; its third component is NaN. -/
theorem C243_fails (h : Rounds binary64 fl) : Finite binary64 (2 ^ (600 : ℤ)) ∧
    cross ![IE.num (2 ^ (600 : ℤ)), IE.num (2 ^ (600 : ℤ)), 0] ![IE.num (2 ^ (600 : ℤ)), IE.num (2 ^ (600 : ℤ)), 0] 2 = (IE.nan : IE binary64 fl) := by
  refine ⟨pow_finite (by norm_num) (by norm_num), ?_⟩
  change (IE.num _ * IE.num _ - IE.num _ * IE.num _ : IE binary64 fl) = _
  have e : (IE.num (2 ^ (600 : ℤ)) * IE.num (2 ^ (600 : ℤ)) : IE binary64 fl) = IE.inf false := by
    rw [mul_num, ← zpow_add₀ (by norm_num)]
    unfold IE.ofReal
    rw [h.fix (onGrid_pow (by decide) (by decide)), if_neg, decide_eq_false (not_lt.2 (by positivity))]
    rw [not_lt, abs_of_pos (by positivity)]
    exact zpow_le_zpow_right₀ (by norm_num) (by decide)
  rw [e]
  rfl

end Verif.Mat.Ie
