import Verif.Float.Eval
import Verif.Float.Interp

/-!
# C129: which samples the interpolators accept
-/

namespace Verif.Float

open Classical

variable {fl : ℝ → ℝ} {lib : Libm} {p : ℕ}

theorem acc_spline_new_iff (n : ℕ) (xs ys : ℕ → CF fl lib) :
    (∃ s, Spline.new n xs ys = some s) ↔ 2 ≤ n ∧ ∀ i, i + 1 < n → ¬ Scalar.le (xs (i + 1)) (xs i) := by
  unfold Spline.new
  by_cases hn : n < 2
  · rw [if_pos hn]
    exact ⟨fun h => absurd h (by simp), fun h => by omega⟩
  · rw [if_neg hn]
    by_cases h : (List.range (n - 1)).any (fun i => decide (Scalar.le (xs (i + 1)) (xs i))) = true
    · rw [if_pos h]
      refine ⟨fun h => absurd h (by simp), fun h2 => ?_⟩
      rw [List.any_eq_true] at h
      obtain ⟨i, hi, hd⟩ := h
      rw [List.mem_range] at hi
      exact absurd (of_decide_eq_true hd) (h2.2 i (by omega))
    · rw [if_neg h]
      refine ⟨fun _ => ⟨by omega, fun i hi hc => h ?_⟩, fun _ => ⟨_, rfl⟩⟩
      rw [List.any_eq_true]
      exact ⟨i, List.mem_range.2 (by omega), decide_eq_true hc⟩

theorem acc_weight_iff (xs : ℕ → CF fl lib) (j : ℕ) : ∀ (l : List ℕ) (w : CF fl lib),
    (∃ v, weightLoop xs j l w = some v) ↔ ∀ k ∈ l, j ≠ k → ¬ Scalar.le (Scalar.abs (xs j - xs k)) eps
  | [], w => ⟨fun _ k hk => absurd hk (by simp), fun _ => ⟨w, rfl⟩⟩
  | k :: l, w => by
    unfold weightLoop
    by_cases hj : j = k
    · rw [if_pos hj, acc_weight_iff xs j l w]
      subst hj
      simp
    · rw [if_neg hj]
      dsimp only
      by_cases hc : Scalar.le (Scalar.abs (xs j - xs k)) eps
      · rw [if_pos hc]
        exact ⟨fun h => absurd h (by simp), fun h => absurd hc (h k (by simp) hj)⟩
      · rw [if_neg hc, acc_weight_iff xs j l]
        simp [hc]

theorem acc_weights_iff (xs : ℕ → CF fl lib) (n : ℕ) : ∀ (l : List ℕ) (w : ℕ → CF fl lib),
    (∃ v, weightsLoop xs n l w = some v) ↔
      ∀ j ∈ l, ∀ k, k < n → j ≠ k → ¬ Scalar.le (Scalar.abs (xs j - xs k)) eps
  | [], w => ⟨fun _ k hk => absurd hk (by simp), fun _ => ⟨w, rfl⟩⟩
  | j :: l, w => by
    unfold weightsLoop
    constructor
    · rintro ⟨v, h⟩
      rw [Option.bind_eq_bind, Option.bind_eq_some_iff] at h
      obtain ⟨wj, h1, h2⟩ := h
      intro j' hj' k hk hjk
      rcases List.mem_cons.1 hj' with rfl | hj'
      · exact (acc_weight_iff xs j' _ _).1 ⟨_, h1⟩ k (List.mem_range.2 hk) hjk
      · exact (acc_weights_iff xs n l _).1 ⟨_, h2⟩ j' hj' k hk hjk
    · intro h
      obtain ⟨wj, h1⟩ := (acc_weight_iff xs j (List.range n) (w j)).2 fun k hk hjk =>
        h j (by simp) k (List.mem_range.1 hk) hjk
      rw [h1]
      exact (acc_weights_iff xs n l _).2 fun j' hj' => h j' (by simp [hj'])

theorem acc_poly_new_iff (n : ℕ) (xs ys : ℕ → CF fl lib) :
    (∃ q, Poly.new n xs ys = some q) ↔
      0 < n ∧ ∀ j < n, ∀ k < n, j ≠ k → ¬ Scalar.le (Scalar.abs (xs j - xs k)) eps := by
  unfold Poly.new
  by_cases hn : n = 0
  · rw [if_pos hn]
    exact ⟨fun h => absurd h (by simp), fun h => by omega⟩
  · rw [if_neg hn]
    have := acc_weights_iff xs n (List.range n) (fun _ => 1)
    simp only [List.mem_range] at this
    constructor
    · rintro ⟨q, h⟩
      rw [Option.bind_eq_bind, Option.bind_eq_some_iff] at h
      obtain ⟨w, h1, -⟩ := h
      exact ⟨by omega, this.1 ⟨w, h1⟩⟩
    · rintro ⟨-, h⟩
      obtain ⟨w, h1⟩ := this.2 h
      rw [h1]
      exact ⟨_, rfl⟩

/-- **C129** (partial): a spline is built from numbers exactly if there are at least two and they are strictly
increasing. Missing: samples that are not numbers, which are accepted (`C129_spline_fails`). -/
theorem C129_spline_partial (n : ℕ) (xs : ℕ → ℝ) (ys : ℕ → CF fl lib) :
    (∃ s, Spline.new n (fun i => (CF.num (xs i) : CF fl lib)) ys = some s) ↔
      2 ≤ n ∧ ∀ i, i + 1 < n → xs i < xs (i + 1) := by
  rw [acc_spline_new_iff]
  simp only [cf_le, not_le]

/-- **C129** (partial): a polynomial interpolator is built from numbers exactly if there is at least one and the
rounded differences exceed the machine epsilon. Missing: samples that are not numbers (`C129_polynomial_fails`). -/
theorem C129_polynomial_partial (h : Nearest p fl) (hp : 1 ≤ p) (n : ℕ) (xs : ℕ → ℝ) (ys : ℕ → CF fl lib) :
    (∃ q, Poly.new n (fun i => (CF.num (xs i) : CF fl lib)) ys = some q) ↔
      0 < n ∧ ∀ j < n, ∀ k < n, j ≠ k → 2⁻¹ ^ 52 < |fl (xs j - xs k)| := by
  have e : (eps : CF fl lib) = CF.num (2⁻¹ ^ 52) := by
    have := isFloat_zpow hp (-52)
    show CF.num (fl _) = _
    rw [h.fix (show IsFloat p (2⁻¹ ^ 52) by norm_num at this ⊢; exact this)]
  rw [acc_poly_new_iff, e]
  simp only [cf_sub, cf_abs, cf_le, not_le]

theorem acc_not_le_nan (x : CF fl lib) : ¬ Scalar.le x CF.nan ∧ ¬ Scalar.le CF.nan x :=
  ⟨fun ⟨_, _, _, h, _⟩ => num_ne_nan _ h.symm, fun ⟨_, _, h, _⟩ => num_ne_nan _ h.symm⟩

theorem acc_nan_sub (x : ℝ) : (CF.nan - CF.num x : CF fl lib) = CF.nan := rfl
theorem acc_nan_div (x : CF fl lib) : (CF.nan / x : CF fl lib) = CF.nan := rfl
theorem acc_nan_mul (x : CF fl lib) : (CF.nan * x : CF fl lib) = CF.nan := rfl
theorem acc_nan_add (x : CF fl lib) : (CF.nan + x : CF fl lib) = CF.nan := rfl

/-- **C129**: the claim that only strictly increasing knots are accepted fails. With a middle knot that is not a number
a spline is built, and its value at the first knot is not the given one but not a number. -/
theorem C129_spline_fails (ys : ℕ → CF fl lib) :
    ∃ s, Spline.new 3 (fun i : ℕ => if i = 1 then CF.nan else (CF.num (i : ℝ) : CF fl lib)) ys = some s ∧
      s.evaluate 3 (CF.num 0) = some CF.nan := by
  obtain ⟨s, hs⟩ := (acc_spline_new_iff 3 (fun i : ℕ => if i = 1 then CF.nan else (CF.num (i : ℝ) : CF fl lib)) ys).2
    ⟨by norm_num, fun i hi => by
      rcases (by omega : i = 0 ∨ i = 1) with rfl | rfl
      · exact (acc_not_le_nan _).2
      · exact (acc_not_le_nan _).1⟩
  refine ⟨s, hs, ?_⟩
  have hx : s.xs = fun i : ℕ => if i = 1 then CF.nan else (CF.num (i : ℝ) : CF fl lib) := by
    unfold Spline.new at hs
    rw [if_neg (by norm_num)] at hs
    split_ifs at hs
    rw [← Option.some.inj hs]
  have h0 : s.xs 0 = CF.num 0 := by rw [hx]; simp
  have h1 : s.xs 1 = CF.nan := by rw [hx]; simp
  unfold Spline.evaluate segmentIndex
  rw [show rd 3 s.xs 0 = some (s.xs 0) from rfl, h0]
  simp only [Option.bind_eq_bind, Option.bind_some]
  rw [cf_le, if_pos le_rfl]
  show some (s.piece 0 (CF.num 0)) = _
  unfold Spline.piece
  dsimp only
  rw [h0, h1, acc_nan_sub, acc_nan_div, acc_nan_mul, acc_nan_add, acc_nan_add]

/-- **C129**: the claim that only separated nodes are accepted fails: a node that is not a number is. -/
theorem C129_polynomial_fails (ys : ℕ → CF fl lib) :
    ∃ q, Poly.new 2 (fun i : ℕ => if i = 1 then CF.nan else (CF.num (i : ℝ) : CF fl lib)) ys = some q := by
  refine (acc_poly_new_iff _ _ _).2 ⟨by norm_num, fun j hj k hk hjk => ?_⟩
  have : ((if j = 1 then CF.nan else (CF.num (j : ℝ) : CF fl lib)) -
      (if k = 1 then CF.nan else (CF.num (k : ℝ) : CF fl lib)) : CF fl lib) = CF.nan := by
    rcases (by omega : j = 0 ∧ k = 1 ∨ j = 1 ∧ k = 0) with ⟨rfl, rfl⟩ | ⟨rfl, rfl⟩ <;> rfl
  rw [this]
  exact (acc_not_le_nan _).2

/-- Numbers that are accepted. -/
example : (2 : ℕ) ≤ 3 ∧ (∀ i, i + 1 < 3 → (fun i : ℕ => (i : ℝ)) i < (fun i : ℕ => (i : ℝ)) (i + 1)) := by
  refine ⟨by norm_num, fun i _ => ?_⟩
  push_cast
  linarith

end Verif.Float
