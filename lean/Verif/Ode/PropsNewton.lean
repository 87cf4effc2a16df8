import Verif.Ode.Model
import Mathlib.Analysis.Calculus.Deriv.MeanValue
import Mathlib.Analysis.Calculus.MeanValue
import Mathlib.Analysis.SpecialFunctions.Trigonometric.Deriv
import Mathlib.Analysis.SpecialFunctions.Trigonometric.Bounds
import Mathlib.Analysis.Calculus.Deriv.Pow
import Mathlib.Topology.Order.IntermediateValue

/-!
# Newton's method (C71)
-/

namespace Verif.Ode

section LawFree
variable {α : Type*} [Sub α] [Div α] [Zero α] [DecidableEq α] (abs : α → α) (lt : α → α → Bool) (tol : α) (f df : α → α)

/-- The Newton sequence from `x`. -/
def iter (x : α) : ℕ → α
  | 0 => x
  | k + 1 => iter x k - f (iter x k) / df (iter x k)

/-- Iteration `k` can be made (the derivative is not zero) and its step is not below the tolerance. -/
def Continues (x : α) (k : ℕ) : Prop :=
  df (iter f df x k) ≠ 0 ∧ lt (abs (iter f df x (k + 1) - iter f df x k)) tol = false

/-- Iteration `k` is the one that accepts. -/
def Accepts (x : α) (k : ℕ) : Prop :=
  df (iter f df x k) ≠ 0 ∧ lt (abs (iter f df x (k + 1) - iter f df x k)) tol = true

omit [Zero α] [DecidableEq α] in
theorem iter_shift (x : α) (k : ℕ) : iter f df (x - f x / df x) k = iter f df x (k + 1) := by
  induction k with
  | zero => rfl
  | succ k ih => simp only [iter] at ih ⊢; rw [ih]

/-- What a run looks like, in full. -/
def Outcome (x : α) (n : ℕ) (r : List α × Except NewtonErr α) : Prop :=
  (∃ k < n, (∀ j < k, Continues abs lt tol f df x j) ∧ Accepts abs lt tol f df x k ∧ r.2 = .ok (iter f df x (k + 1)) ∧
    r.1 = (List.range (k + 1)).map (iter f df x)) ∨
  (∃ k < n, (∀ j < k, Continues abs lt tol f df x j) ∧ df (iter f df x k) = 0 ∧ r.2 = .error .zeroDerivative ∧
    r.1 = (List.range (k + 1)).map (iter f df x)) ∨
  ((∀ j < n, Continues abs lt tol f df x j) ∧ r.2 = .error .maxIterations ∧ r.1 = (List.range n).map (iter f df x))

theorem outcome (n : ℕ) (x : α) : Outcome abs lt tol f df x n (newton abs lt tol f df n x) := by
  induction n generalizing x with
  | zero => exact Or.inr (Or.inr ⟨fun j hj => absurd hj (Nat.not_lt_zero _), rfl, rfl⟩)
  | succ n ih =>
    unfold newton
    dsimp only
    split_ifs with h1 h2
    · exact Or.inr (Or.inl ⟨0, Nat.succ_pos _, fun j hj => absurd hj (Nat.not_lt_zero _), h1, rfl, rfl⟩)
    · exact Or.inl ⟨0, Nat.succ_pos _, fun j hj => absurd hj (Nat.not_lt_zero _), ⟨h1, h2⟩, rfl, rfl⟩
    · have hc : Continues abs lt tol f df x 0 := ⟨h1, by rw [Bool.not_eq_true] at h2; exact h2⟩
      have hs : ∀ j, Continues abs lt tol f df (x - f x / df x) j ↔ Continues abs lt tol f df x (j + 1) := by
        intro j; simp only [Continues, iter_shift]
      have ha : ∀ j, Accepts abs lt tol f df (x - f x / df x) j ↔ Accepts abs lt tol f df x (j + 1) := by
        intro j; simp only [Accepts, iter_shift]
      have hall : ∀ k, (∀ j < k, Continues abs lt tol f df (x - f x / df x) j) → ∀ j < k + 1, Continues abs lt tol f df x j := by
        intro k h j hj
        cases j with
        | zero => exact hc
        | succ j => exact (hs j).mp (h j (by omega))
      have hl : ∀ k, x :: (List.range k).map (iter f df (x - f x / df x)) = (List.range (k + 1)).map (iter f df x) := by
        intro k
        rw [List.range_succ_eq_map, List.map_cons, List.map_map]
        congr 1
        exact List.map_congr_left fun j _ => iter_shift f df x j
      rcases ih (x - f x / df x) with ⟨k, hk, h3, h4, h5, h6⟩ | ⟨k, hk, h3, h4, h5, h6⟩ | ⟨h3, h5, h6⟩
      · exact Or.inl ⟨k + 1, by omega, hall k h3, (ha k).mp h4, by rw [h5, iter_shift], by rw [h6, hl]⟩
      · exact Or.inr (Or.inl ⟨k + 1, by omega, hall k h3, by rwa [iter_shift] at h4, h5, by rw [h6, hl]⟩)
      · exact Or.inr (Or.inr ⟨hall n h3, h5, by rw [h6, hl]⟩)

/-- C71. For every pair of functions, start, tolerance and iteration limit, in any arithmetic: the functions are called on the successive
Newton iterates, at most as often as the limit allows; `Ok(y)` is returned exactly when some allowed iteration has a step below the
tolerance, all earlier ones having a non-zero derivative and a larger step, and then `y` is the point that this step reaches; the error
"derivative is zero" exactly when such a run meets a zero derivative; and "maximum iterations" exactly when all allowed iterations pass
without either. -/
theorem C71_report (n : ℕ) (x : α) :
    (newton abs lt tol f df n x).1.length ≤ n ∧
    (∀ k (hk : k < (newton abs lt tol f df n x).1.length), (newton abs lt tol f df n x).1[k] = iter f df x k) ∧
    (∀ y, (newton abs lt tol f df n x).2 = .ok y ↔
      ∃ k < n, (∀ j < k, Continues abs lt tol f df x j) ∧ Accepts abs lt tol f df x k ∧ y = iter f df x (k + 1)) ∧
    ((newton abs lt tol f df n x).2 = .error .zeroDerivative ↔
      ∃ k < n, (∀ j < k, Continues abs lt tol f df x j) ∧ df (iter f df x k) = 0) ∧
    ((newton abs lt tol f df n x).2 = .error .maxIterations ↔ ∀ j < n, Continues abs lt tol f df x j) := by
  -- the three cases exclude each other
  have ex1 : ∀ k, Accepts abs lt tol f df x k → ¬ Continues abs lt tol f df x k := by
    intro k h1 h2; exact absurd (h1.2.symm.trans h2.2) (by simp)
  have ex2 : ∀ k, df (iter f df x k) = 0 → ¬ Continues abs lt tol f df x k := fun k h1 h2 => h2.1 h1
  have ex3 : ∀ k, df (iter f df x k) = 0 → ¬ Accepts abs lt tol f df x k := fun k h1 h2 => h2.1 h1
  have first : ∀ {P Q : ℕ → Prop} (k l : ℕ), (∀ j < k, Continues abs lt tol f df x j) → (∀ j < l, Continues abs lt tol f df x j) →
      (∀ k, P k → ¬ Continues abs lt tol f df x k) → (∀ k, Q k → ¬ Continues abs lt tol f df x k) → P k → Q l → k = l := by
    intro P Q k l h1 h2 hP hQ p q
    by_contra hne
    rcases Nat.lt_or_gt_of_ne hne with h | h
    · exact hP k p (h2 k h)
    · exact hQ l q (h1 l h)
  rcases outcome abs lt tol f df n x with ⟨k, hk, h3, h4, h5, h6⟩ | ⟨k, hk, h3, h4, h5, h6⟩ | ⟨h3, h5, h6⟩
  · rw [h5, h6]
    refine ⟨by simp; omega, fun j hj => by simp, fun y => ⟨fun e => ?_, ?_⟩, ⟨fun e => ?_, ?_⟩, ⟨fun e => ?_, ?_⟩⟩
    · exact ⟨k, hk, h3, h4, (Except.ok.inj e).symm⟩
    · rintro ⟨l, hl, g3, g4, rfl⟩
      rw [first k l h3 g3 ex1 ex1 h4 g4]
    · cases e
    · rintro ⟨l, hl, g3, g4⟩
      have := first k l h3 g3 ex1 ex2 h4 g4
      subst this
      exact absurd h4 (ex3 k g4)
    · cases e
    · intro h
      exact absurd (h k hk) (ex1 k h4)
  · rw [h5, h6]
    refine ⟨by simp; omega, fun j hj => by simp, fun y => ⟨fun e => ?_, ?_⟩, ⟨fun e => ?_, ?_⟩, ⟨fun e => ?_, ?_⟩⟩
    · cases e
    · rintro ⟨l, hl, g3, g4, rfl⟩
      have := first k l h3 g3 ex2 ex1 h4 g4
      subst this
      exact absurd g4 (ex3 k h4)
    · exact ⟨k, hk, h3, h4⟩
    · intro _; rfl
    · cases e
    · intro h
      exact absurd (h k hk) (ex2 k h4)
  · rw [h5, h6]
    refine ⟨by simp, fun j hj => by simp, fun y => ⟨fun e => ?_, ?_⟩, ⟨fun e => ?_, ?_⟩, ⟨fun _ => h3, fun _ => rfl⟩⟩
    · cases e
    · rintro ⟨l, hl, _, g4, rfl⟩
      exact absurd (h3 l hl) (ex1 l g4)
    · cases e
    · rintro ⟨l, hl, _, g4⟩
      exact absurd (h3 l hl) (ex2 l g4)

end LawFree

/-! ## Over the real numbers -/

/-- The solver over the reals. -/
noncomputable def solve (tol : ℝ) (f df : ℝ → ℝ) (n : ℕ) (x : ℝ) : Except NewtonErr ℝ :=
  (newton (fun a : ℝ => |a|) (fun a b => decide (a < b)) tol f df n x).2

/-- The remainder of the linearisation. -/
theorem taylor_bound {f df : ℝ → ℝ} (hf : ∀ x, HasDerivAt f (df x) x) {L : ℝ} (hL : ∀ a b, |df a - df b| ≤ L * |a - b|) (x y : ℝ) :
    |f y - f x - df x * (y - x)| ≤ L / 2 * (y - x) ^ 2 := by
  -- along the segment
  have hg : ∀ t : ℝ, HasDerivAt (fun t => f (x + t * (y - x)) - f x - df x * (t * (y - x)))
      ((df (x + t * (y - x)) - df x) * (y - x)) t := by
    intro t
    have h1 : HasDerivAt (fun t : ℝ => x + t * (y - x)) (y - x) t := by
      simpa using ((hasDerivAt_id t).mul_const (y - x)).const_add x
    have h2 := (hf (x + t * (y - x))).comp t h1
    have h3 : HasDerivAt (fun t : ℝ => df x * (t * (y - x))) (df x * (y - x)) t := by
      simpa using ((hasDerivAt_id t).mul_const (y - x)).const_mul (df x)
    exact ((h2.sub_const (f x)).sub h3).congr_deriv (by ring)
  have hB : ∀ t : ℝ, HasDerivAt (fun t : ℝ => L / 2 * (y - x) ^ 2 * t ^ 2) (L * (y - x) ^ 2 * t) t := by
    intro t
    exact ((hasDerivAt_pow 2 t).const_mul (L / 2 * (y - x) ^ 2)).congr_deriv (by simp; ring)
  have := image_norm_le_of_norm_deriv_right_le_deriv_boundary (a := 0) (b := 1)
    (f := fun t => f (x + t * (y - x)) - f x - df x * (t * (y - x)))
    (f' := fun t => (df (x + t * (y - x)) - df x) * (y - x))
    (B := fun t : ℝ => L / 2 * (y - x) ^ 2 * t ^ 2) (B' := fun t => L * (y - x) ^ 2 * t)
    (fun t _ => (hg t).continuousAt.continuousWithinAt) (fun t _ => (hg t).hasDerivWithinAt) (by simp)
    hB (fun t ht => by
      rw [Real.norm_eq_abs, abs_mul]
      have h1 := hL (x + t * (y - x)) x
      rw [add_sub_cancel_left, abs_mul, abs_of_nonneg ht.1] at h1
      calc |df (x + t * (y - x)) - df x| * |y - x| ≤ L * (t * |y - x|) * |y - x| :=
            mul_le_mul_of_nonneg_right h1 (abs_nonneg _)
        _ = L * (y - x) ^ 2 * t := by rw [← sq_abs (y - x)]; ring)
    (x := 1) ⟨zero_le_one, le_refl 1⟩
  simpa using this

theorem step_residual {f df : ℝ → ℝ} (hf : ∀ x, HasDerivAt f (df x) x) {L : ℝ} (hL : ∀ a b, |df a - df b| ≤ L * |a - b|) (x : ℝ)
    (h0 : df x ≠ 0) : |f (x - f x / df x)| ≤ L / 2 * (f x / df x) ^ 2 := by
  have := taylor_bound hf hL x (x - f x / df x)
  have e : f (x - f x / df x) - f x - df x * (x - f x / df x - x) = f (x - f x / df x) := by field_simp; ring
  rw [e] at this
  have e2 : (x - f x / df x - x) ^ 2 = (f x / df x) ^ 2 := by ring
  rwa [e2] at this

/-- C71. If the second function is the derivative of the first and varies by at most `L` per unit, an accepted answer has a residual of at
most `L/2` times the square of the tolerance. -/
theorem C71_residual (tol : ℝ) (f df : ℝ → ℝ) (n : ℕ) (x y L : ℝ) (hf : ∀ x, HasDerivAt f (df x) x)
    (hL : ∀ a b, |df a - df b| ≤ L * |a - b|) (h : solve tol f df n x = .ok y) : |f y| ≤ L / 2 * tol ^ 2 := by
  obtain ⟨k, hk, _, ⟨h0, ha⟩, rfl⟩ := ((C71_report _ _ tol f df n x).2.2.1 y).mp h
  have h1 := step_residual hf hL (iter f df x k) h0
  have ha' : |iter f df x (k + 1) - iter f df x k| < tol := by simpa using ha
  have e : iter f df x (k + 1) - iter f df x k = -(f (iter f df x k) / df (iter f df x k)) := by simp only [iter]; ring
  rw [e, abs_neg] at ha'
  have hLn : 0 ≤ L := by
    have := hL 1 0
    have h2 := abs_nonneg (df 1 - df 0)
    simp at this
    linarith
  refine le_trans h1 ?_
  have : (f (iter f df x k) / df (iter f df x k)) ^ 2 ≤ tol ^ 2 := by
    rw [← sq_abs]
    exact pow_le_pow_left₀ (abs_nonneg _) ha'.le 2
  nlinarith

/-- C71. If moreover the derivative is at least `m > 0` everywhere, there is exactly one root, and an accepted answer is within
`L tol² / (2m)` of it. -/
theorem C71_root (tol : ℝ) (f df : ℝ → ℝ) (n : ℕ) (x y L m : ℝ) (hf : ∀ x, HasDerivAt f (df x) x)
    (hL : ∀ a b, |df a - df b| ≤ L * |a - b|) (hm : 0 < m) (hd : ∀ x, m ≤ df x) (h : solve tol f df n x = .ok y) :
    ∃ z, f z = 0 ∧ (∀ w, f w = 0 → w = z) ∧ |y - z| ≤ L * tol ^ 2 / (2 * m) := by
  have hr := C71_residual tol f df n x y L hf hL h
  have hdiff : Differentiable ℝ f := fun x => (hf x).differentiableAt
  -- f grows at rate at least m
  have grow : ∀ a b, a ≤ b → m * (b - a) ≤ f b - f a := fun a b hab =>
    mul_sub_le_image_sub_of_le_deriv hdiff (fun x => by rw [(hf x).deriv]; exact hd x) hab
  have hcont : Continuous f := hdiff.continuous
  -- a root on the right side of y
  have hex : ∃ z, f z = 0 := by
    set d := |f y| / m with hdd
    have hd0 : 0 ≤ d := by positivity
    have e : m * d = |f y| := by rw [hdd]; field_simp
    have g1 := grow (y - d) y (by linarith)
    have g2 := grow y (y + d) (by linarith)
    have a1 := le_abs_self (f y)
    have a2 := neg_abs_le (f y)
    have h1 : f (y - d) ≤ 0 := by nlinarith
    have h2 : 0 ≤ f (y + d) := by nlinarith
    obtain ⟨z, _, hz⟩ := intermediate_value_Icc (show y - d ≤ y + d by linarith) hcont.continuousOn ⟨h1, h2⟩
    exact ⟨z, hz⟩
  obtain ⟨z, hz⟩ := hex
  refine ⟨z, hz, fun w hw => ?_, ?_⟩
  · rcases le_total w z with h | h
    · have := grow w z h
      rw [hz, hw] at this
      nlinarith
    · have := grow z w h
      rw [hz, hw] at this
      nlinarith
  · rw [le_div_iff₀ (by linarith)]
    have key : m * |y - z| ≤ |f y| := by
      rcases le_total y z with h | h
      · have := grow y z h
        rw [hz] at this
        rw [abs_of_nonpos (by linarith)]
        have := neg_abs_le (f y)
        nlinarith
      · have := grow z y h
        rw [hz] at this
        rw [abs_of_nonneg (by linarith)]
        have := le_abs_self (f y)
        nlinarith
    nlinarith

/-- C71. Under the same conditions, and from a start with `L |f(x₀)| ≤ m²`, the iteration converges quadratically: a limit of `n` iterations
is enough as soon as `(1/2)^(2^(n-1)) ≤ tol · L / (2m)`. -/
theorem C71_converges (tol : ℝ) (f df : ℝ → ℝ) (n : ℕ) (x L m : ℝ) (hf : ∀ x, HasDerivAt f (df x) x)
    (hL : ∀ a b, |df a - df b| ≤ L * |a - b|) (hm : 0 < m) (hd : ∀ x, m ≤ df x) (hL0 : 0 < L) (hstart : L * |f x| ≤ m ^ 2)
    (hn : 0 < n) (htol : (1 / 2 : ℝ) ^ (2 ^ (n - 1)) < tol * L / (2 * m)) : ∃ y, solve tol f df n x = .ok y := by
  have h0 : ∀ x, df x ≠ 0 := fun x => by have := hd x; linarith
  -- scaled residuals square at every step
  have step : ∀ k, L / (2 * m ^ 2) * |f (iter f df x (k + 1))| ≤ (L / (2 * m ^ 2) * |f (iter f df x k)|) ^ 2 := by
    intro k
    have h1 := step_residual hf hL (iter f df x k) (h0 _)
    have h2 : (f (iter f df x k) / df (iter f df x k)) ^ 2 ≤ (|f (iter f df x k)| / m) ^ 2 := by
      rw [← sq_abs, abs_div]
      refine pow_le_pow_left₀ (by positivity) ?_ 2
      rw [abs_of_pos (lt_of_lt_of_le hm (hd _))]
      exact div_le_div_of_nonneg_left (abs_nonneg _) hm (hd _)
    have h3 : |f (iter f df x (k + 1))| ≤ L / 2 * (|f (iter f df x k)| / m) ^ 2 :=
      le_trans h1 (mul_le_mul_of_nonneg_left h2 (by linarith))
    calc L / (2 * m ^ 2) * |f (iter f df x (k + 1))| ≤ L / (2 * m ^ 2) * (L / 2 * (|f (iter f df x k)| / m) ^ 2) :=
          mul_le_mul_of_nonneg_left h3 (by positivity)
      _ = (L / (2 * m ^ 2) * |f (iter f df x k)|) ^ 2 := by field_simp
  have size : ∀ k, L / (2 * m ^ 2) * |f (iter f df x k)| ≤ (1 / 2) ^ (2 ^ k) := by
    intro k
    induction k with
    | zero =>
      simp only [iter, pow_zero, pow_one]
      rw [div_mul_eq_mul_div, div_le_iff₀ (by positivity)]
      linarith
    | succ k ih =>
      refine le_trans (step k) ?_
      rw [pow_succ 2 k, pow_mul]
      exact pow_le_pow_left₀ (by positivity) ih 2
  have small : |iter f df x (n - 1 + 1) - iter f df x (n - 1)| < tol := by
    have e : iter f df x (n - 1 + 1) - iter f df x (n - 1) = -(f (iter f df x (n - 1)) / df (iter f df x (n - 1))) := by
      simp only [iter]; ring
    rw [e, abs_neg, abs_div, abs_of_pos (lt_of_lt_of_le hm (hd _))]
    have h1 : |f (iter f df x (n - 1))| / df (iter f df x (n - 1)) ≤ |f (iter f df x (n - 1))| / m :=
      div_le_div_of_nonneg_left (abs_nonneg _) hm (hd _)
    refine lt_of_le_of_lt h1 ?_
    have h2 := lt_of_le_of_lt (size (n - 1)) htol
    have h3 : L / (2 * m ^ 2) * |f (iter f df x (n - 1))| = |f (iter f df x (n - 1))| / m * (L / (2 * m)) := by field_simp
    rw [h3, show tol * L / (2 * m) = tol * (L / (2 * m)) by ring] at h2
    exact lt_of_mul_lt_mul_right h2 (by positivity)
  rcases outcome (fun a : ℝ => |a|) (fun a b => decide (a < b)) tol f df n x with ⟨k, _, _, _, h5, _⟩ | ⟨k, _, _, h4, _, _⟩ | ⟨h3, _, _⟩
  · exact ⟨_, h5⟩
  · exact absurd h4 (h0 _)
  · have := (h3 (n - 1) (by omega)).2
    simp only [decide_eq_false_iff_not] at this
    exact absurd small this

/-- The hypotheses are met by `f x = 2x + sin x`, started at 1/4. -/
example : ∃ y, solve (1 / 10) (fun x => 2 * x + Real.sin x) (fun x => 2 + Real.cos x) 4 (1 / 4) = .ok y ∧
    |2 * y + Real.sin y| ≤ 1 / 2 * (1 / 10) ^ 2 := by
  have hf : ∀ x : ℝ, HasDerivAt (fun x : ℝ => 2 * x + Real.sin x) (2 + Real.cos x) x := fun x => by
    exact (((hasDerivAt_id x).const_mul (2 : ℝ)).add (Real.hasDerivAt_sin x)).congr_deriv (by simp)
  have hL : ∀ a b : ℝ, |2 + Real.cos a - (2 + Real.cos b)| ≤ 1 * |a - b| := fun a b => by
    rw [add_sub_add_left_eq_sub, one_mul]
    simpa [Real.dist_eq] using Real.lipschitzWith_cos.dist_le_mul a b
  have hs : |2 * (1 / 4) + Real.sin (1 / 4)| ≤ 1 := by
    have h1 : Real.sin (1 / 4) < 1 / 4 := Real.sin_lt (by norm_num)
    have h2 : 0 ≤ Real.sin (1 / 4) := Real.sin_nonneg_of_nonneg_of_le_pi (by norm_num) (by linarith [Real.two_le_pi])
    rw [abs_of_nonneg (by linarith)]
    linarith
  obtain ⟨y, hy⟩ := C71_converges (1 / 10) (fun x => 2 * x + Real.sin x) (fun x => 2 + Real.cos x) 4 (1 / 4) 1 1 hf hL one_pos
    (fun x => by have := Real.neg_one_le_cos x; linarith) one_pos (by simpa using hs) (by norm_num) (by norm_num)
  exact ⟨y, hy, C71_residual (1 / 10) (fun x => 2 * x + Real.sin x) _ _ _ y 1 hf hL hy⟩

end Verif.Ode
