import Verif.Float.PropsPolyIeee
import Verif.Float.PropsLerpIeee

/-!
# Cubic splines in machine arithmetic (C246)
-/

namespace Verif.Float.Pie

open Verif.Ieee Verif.Stats.Ie Verif.Float.Ie Classical

variable {fl : ℝ → ℝ} [LibIe fl]

omit [LibIe fl] in
theorem rd_some {n i : ℕ} (xs : ℕ → IE binary64 fl) (h : i < n) : rd n xs i = some (xs i) := if_pos h

/-- The search stays between its bounds. -/
theorem search_total {n : ℕ} (xs : ℕ → IE binary64 fl) (x : IE binary64 fl) (lo hi : ℕ) (h1 : lo < hi) (h2 : hi < n) :
    ∃ k, searchLoop n xs x lo hi = some k ∧ k + 1 < n := by
  induction hd : hi - lo using Nat.strong_induction_on generalizing lo hi with
  | _ d ih =>
    unfold searchLoop
    split_ifs with hc
    · rw [rd_some xs (show (lo + hi) / 2 < n by omega)]
      simp only [Option.bind_eq_bind, Option.bind_some]
      split_ifs
      · exact ih (hi - (lo + hi) / 2) (by omega) _ _ (by omega) h2 rfl
      · exact ih ((lo + hi) / 2 - lo) (by omega) _ _ (by omega) (by omega) rfl
    · exact ⟨lo, rfl, by omega⟩

theorem segment_total {n : ℕ} (hn : 2 ≤ n) (xs : ℕ → IE binary64 fl) (x : IE binary64 fl) : ∃ k, segmentIndex n xs x = some k ∧ k + 1 < n := by
  unfold segmentIndex
  rw [rd_some xs (show 0 < n by omega), rd_some xs (show n - 1 < n by omega)]
  simp only [Option.bind_eq_bind, Option.bind_some, Option.pure_def]
  split_ifs
  · exact ⟨0, rfl, by omega⟩
  · exact ⟨n - 2, rfl, by omega⟩
  · exact search_total xs x 0 (n - 1) (by omega) (by omega)

theorem spline_new_iff (n : ℕ) (xs ys : ℕ → IE binary64 fl) :
    (∃ s, Spline.new n xs ys = some s) ↔ 2 ≤ n ∧ ∀ i, i + 1 < n → ¬ xs (i + 1) ≤ xs i := by
  unfold Spline.new
  split_ifs with h1 h2
  · exact ⟨fun ⟨_, h⟩ => absurd h (by simp), fun h => absurd h.1 (by omega)⟩
  · refine ⟨fun ⟨_, h⟩ => absurd h (by simp), fun h => ?_⟩
    obtain ⟨i, hi, hc⟩ := List.any_eq_true.1 h2
    exact absurd (of_decide_eq_true hc) (h.2 i (by have := List.mem_range.1 hi; omega))
  · refine ⟨fun _ => ⟨by omega, fun i hi hc => h2 (List.any_eq_true.2 ⟨i, List.mem_range.2 (by omega), decide_eq_true hc⟩)⟩, fun _ => ⟨_, rfl⟩⟩

/-! ## Properties -/

/-- **C246, no panic**: any values whatever as samples and as argument, also infinite ones and NaN. Whenever a spline is built, it can be evaluated everywhere: no index is out of range. -/
theorem C246_total {n : ℕ} {xs ys : ℕ → IE binary64 fl} {s : Spline (IE binary64 fl)} (hs : Spline.new n xs ys = some s) (x : IE binary64 fl) :
    ∃ y, s.evaluate n x = some y := by
  have hn := ((spline_new_iff n xs ys).1 ⟨s, hs⟩).1
  obtain ⟨k, e, hk⟩ := segment_total hn s.xs x
  refine ⟨s.piece k x, ?_⟩
  unfold Spline.evaluate
  rw [e]
  simp only [Option.bind_eq_bind, Option.bind_some, rd_some s.xs (show k < n by omega), rd_some s.xs hk, Option.pure_def]

/-- **C246, construction**, the proved part: finite nodes, any samples. A spline is built exactly if there are at least two samples and the nodes are strictly increasing. Missing: nodes
that are not finite, see `C246_built_fails`. -/
theorem C246_built_partial (n : ℕ) (xs : ℕ → ℝ) (ys : ℕ → IE binary64 fl) :
    (∃ s, Spline.new n (fun i => IE.num (xs i)) ys = some s) ↔ 2 ≤ n ∧ ∀ i, i + 1 < n → xs i < xs (i + 1) := by
  rw [spline_new_iff]
  simp only [le_num, not_le]

/-- The nodes 0, 1, 2, ... can be used, so that there is a spline to evaluate. -/
example (n : ℕ) (hn : 2 ≤ n) (ys : ℕ → IE binary64 fl) : ∃ s, Spline.new n (fun i => (IE.num (i : ℝ) : IE binary64 fl)) ys = some s :=
  (C246_built_partial n (fun i => (i : ℝ)) ys).2 ⟨hn, fun i _ => by push_cast; linarith⟩

/-- **C246** does not hold for nodes that are NaN: they are not increasing, and are accepted. -/
theorem C246_built_fails (ys : ℕ → IE binary64 fl) : (∃ s, Spline.new 2 (fun _ => IE.nan) ys = some s) ∧ ¬ (IE.nan : IE binary64 fl) < IE.nan :=
  ⟨(spline_new_iff 2 _ ys).2 ⟨le_rfl, fun _ _ => le_nan _⟩, id⟩

/-- The spline through two points: both second derivatives are zero. -/
theorem spline_two (h : Rounds binary64 fl) {xs ys : ℕ → IE binary64 fl} {s : Spline (IE binary64 fl)} (hs : Spline.new 2 xs ys = some s) :
    s.xs = xs ∧ s.ys = ys ∧ s.sd 0 = 0 ∧ s.sd 1 = 0 := by
  unfold Spline.new at hs
  split_ifs at hs with h1 h2
  · have e := (Option.some.inj hs).symm
    subst e
    refine ⟨rfl, rfl, ?_, ?_⟩
    · change ((0 : IE binary64 fl) * 0 + 0) = 0
      have z : (IE.ofReal 0 : IE binary64 fl) = IE.num 0 := finite_ofReal h draw_zero
      rw [ie_zero, mul_num, mul_zero, z, add_num, add_zero, z]
    · rfl

theorem segment_two (xs : ℕ → IE binary64 fl) (x : IE binary64 fl) : segmentIndex 2 xs x = some 0 := by
  obtain ⟨k, e, hk⟩ := segment_total le_rfl xs x
  rw [e, show k = 0 by omega]

theorem evaluate_two (s : Spline (IE binary64 fl)) (x : IE binary64 fl) : s.evaluate 2 x = some (s.piece 0 x) := by
  unfold Spline.evaluate
  rw [segment_two]
  rfl

/-- **C246, knots**, the proved part: two finite points whose nodes are at most `2 ^ 511` apart. The value of the spline at each of the two nodes is exactly the sample given for it.
More points are in `C246_knots_partial`. Missing: nodes further apart, see `C246_fails`. -/
theorem C246_line_partial (h : Rounds binary64 fl) {xs ys : ℕ → ℝ} {s : Spline (IE binary64 fl)} (fx : ∀ i, Finite binary64 (xs i)) (fy : ∀ i, Finite binary64 (ys i))
    (hd : |xs 1 - xs 0| ≤ 2 ^ (511 : ℤ)) (hs : Spline.new 2 (fun i => IE.num (xs i)) (fun i => IE.num (ys i)) = some s) (i : ℕ) (hi : i < 2) :
    s.evaluate 2 (IE.num (xs i)) = some (IE.num (ys i)) := by
  have lt := ((C246_built_partial 2 xs _).1 ⟨s, hs⟩).2 0 (by norm_num)
  obtain ⟨e1, e2, e3, e4⟩ := spline_two h hs
  have z : (IE.ofReal 0 : IE binary64 fl) = IE.num 0 := finite_ofReal h draw_zero
  have o : (IE.ofReal 1 : IE binary64 fl) = IE.num 1 := finite_ofReal h (draw_one holds64)
  have f511 : Finite binary64 (2 ^ (511 : ℤ)) := pow_finite (by norm_num) (by norm_num)
  have f1022 : Finite binary64 (2 ^ (1022 : ℤ)) := pow_finite (by norm_num) (by norm_num)
  have f6 : Finite binary64 6 := by
    have := draw_fin holds64 (m := 6) (e := 0) (by norm_num) (by norm_num) (by norm_num)
    simpa using this
  have six : (Lit.lit 6 : IE binary64 fl) = IE.num 6 := finite_ofReal h f6
  obtain ⟨q1, -, r1⟩ := lerp_step h f511 (x := xs 1 + -xs 0) (by rwa [← sub_eq_add_neg])
  have hne : fl (xs 1 + -xs 0) ≠ 0 := by
    intro h0
    have := (C140_difference (by decide) h (fx 1) (fx 0)).1 (by rw [sub_num, q1, h0, ie_zero])
    exact lt.ne' this
  have e22 : (2 : ℝ) ^ (1022 : ℤ) = 2 ^ (511 : ℤ) * 2 ^ (511 : ℤ) := by rw [← zpow_add₀ (by norm_num)]; norm_num
  obtain ⟨q2, -, r2⟩ := lerp_step h f1022 (x := fl (xs 1 + -xs 0) * fl (xs 1 + -xs 0)) (by
    rw [abs_mul, e22]
    exact mul_le_mul r1 r1 (abs_nonneg _) (by positivity))
  obtain ⟨q3, -, -⟩ := lerp_step h f1022 (x := fl (fl (xs 1 + -xs 0) * fl (xs 1 + -xs 0)) / 6) (by
    rw [abs_div, abs_of_pos (show (0 : ℝ) < 6 by norm_num)]
    exact (div_le_self (abs_nonneg _) (by norm_num)).trans r2)
  rw [evaluate_two]
  unfold Spline.piece
  simp only [e1, e2, e3, e4, zero_add, six]
  have y0 := finite_ofReal h (fy 0)
  have y1 := finite_ofReal h (fy 1)
  interval_cases i
  · simp only [ie_zero, sub_num, q1, add_neg_cancel, z, div_num _ hne, div_num _ (show (6 : ℝ) ≠ 0 by norm_num), div_self hne, o, zero_div, mul_num, add_num, one_mul, zero_mul, y0, q2, q3,
      add_zero, mul_zero]
  · simp only [ie_zero, sub_num, q1, add_neg_cancel, z, div_num _ hne, div_num _ (show (6 : ℝ) ≠ 0 by norm_num), div_self hne, o, zero_div, mul_num, add_num, one_mul, zero_mul, y1, q2, q3,
      add_zero, zero_add, mul_zero]

/-- Two nodes that far apart. -/
example : Finite binary64 0 ∧ Finite binary64 (2 ^ (511 : ℤ)) ∧ |(2 : ℝ) ^ (511 : ℤ) - 0| ≤ 2 ^ (511 : ℤ) :=
  ⟨draw_zero, pow_finite (by norm_num) (by norm_num), by rw [sub_zero, abs_of_pos (by positivity)]⟩

/-- **C246** does not hold for nodes further apart: the spline through `(0, 0)` and `(2 ^ 600, 0)` is NaN at its first node. -/
theorem C246_fails (h : Rounds binary64 fl) : ∃ s, Spline.new 2 (fun i => IE.num (if i = 0 then 0 else 2 ^ (600 : ℤ))) (fun _ => (IE.num 0 : IE binary64 fl)) = some s ∧
    s.evaluate 2 (IE.num 0) = some IE.nan := by
  have hp : (0 : ℝ) < 2 ^ (600 : ℤ) := by positivity
  obtain ⟨s, hs⟩ := (C246_built_partial 2 (fun i => if i = 0 then 0 else 2 ^ (600 : ℤ)) (fun _ => (IE.num 0 : IE binary64 fl))).2
    ⟨le_rfl, fun i hi => by rw [show i = 0 by omega]; simp⟩
  refine ⟨s, hs, ?_⟩
  obtain ⟨e1, e2, e3, e4⟩ := spline_two h hs
  have z : (IE.ofReal 0 : IE binary64 fl) = IE.num 0 := finite_ofReal h draw_zero
  have o : (IE.ofReal 1 : IE binary64 fl) = IE.num 1 := finite_ofReal h (draw_one holds64)
  have b : (IE.ofReal (2 ^ (600 : ℤ)) : IE binary64 fl) = IE.num (2 ^ (600 : ℤ)) := finite_ofReal h (pow_finite (by norm_num) (by norm_num))
  have six : (Lit.lit 6 : IE binary64 fl) = IE.num 6 := finite_ofReal h (by
    have := draw_fin holds64 (m := 6) (e := 0) (by norm_num) (by norm_num) (by norm_num)
    simpa using this)
  have sq : (IE.num (2 ^ (600 : ℤ)) * IE.num (2 ^ (600 : ℤ)) : IE binary64 fl) = IE.inf false := by
    rw [mul_num, ← zpow_add₀ (by norm_num)]
    unfold IE.ofReal
    rw [h.fix (onGrid_pow (by decide) (by decide)), if_neg, decide_eq_false (not_lt.2 (by positivity))]
    rw [not_lt, abs_of_pos (by positivity)]
    exact zpow_le_zpow_right₀ (by norm_num) (by decide)
  rw [evaluate_two]
  unfold Spline.piece
  simp only [e1, e2, e3, e4, zero_add, six, if_true, one_ne_zero, if_false, sub_num, neg_zero, add_zero, b, sq]
  generalize (2 : ℝ) ^ (600 : ℤ) = B at *
  simp only [ie_zero, z, div_num _ hp.ne', div_self hp.ne', o, zero_div, mul_num, add_num, sub_num, one_mul, add_neg_cancel, add_zero, mul_zero]
  have i6 : (IE.inf false / IE.num 6 : IE binary64 fl) = IE.inf (xor false (IE.isNeg 6)) := rfl
  rw [i6]
  have zi : ∀ t, (IE.num 0 * IE.inf t : IE binary64 fl) = IE.nan := fun t => if_pos rfl
  rw [zi]
  rfl

end Verif.Float.Pie
