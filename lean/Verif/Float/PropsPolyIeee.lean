import Verif.Float.Interp
import Verif.Stats.PropsDrawIeee

/-!
# Polynomial interpolation in machine arithmetic (C245)
-/

namespace Verif.Float.Pie

open Verif.Ieee Verif.Stats.Ie Classical

variable {fl : ℝ → ℝ}

/-- The functions of the platform that interpolation does not use; the theorems hold for all of them. -/
class LibIe (fl : ℝ → ℝ) where
  sin : IE binary64 fl → IE binary64 fl
  cos : IE binary64 fl → IE binary64 fl
  asin : IE binary64 fl → IE binary64 fl
  acos : IE binary64 fl → IE binary64 fl
  atan2 : IE binary64 fl → IE binary64 fl → IE binary64 fl
  powf : IE binary64 fl → IE binary64 fl → IE binary64 fl
  signum : IE binary64 fl → IE binary64 fl
  fracPi2 : IE binary64 fl

/-- `f64` as a scalar type: `crates/aether_core/src/real/std_impl.rs:41-77`; order and equality are those of IEEE. -/
noncomputable instance [L : LibIe fl] : Scalar (IE binary64 fl) where
  sqrt := IE.sqrt
  sin := L.sin
  cos := L.cos
  asin := L.asin
  acos := L.acos
  atan2 := L.atan2
  powf := L.powf
  abs := IE.abs
  signum := L.signum
  fracPi2 := L.fracPi2
  eq a b := a ≤ b ∧ b ≤ a
  lt a b := a < b
  le a b := a ≤ b

/-- A literal is rounded. -/
noncomputable instance : Lit (IE binary64 fl) := ⟨IE.ofReal⟩

variable [LibIe fl]

/-- The test that two nodes coincide. -/
def Near (a b : IE binary64 fl) : Prop := Scalar.le (Scalar.abs (a - b)) (eps : IE binary64 fl)

omit [LibIe fl] in
theorem pie_eps (h : Rounds binary64 fl) : (eps : IE binary64 fl) = IE.num (2 ^ (-52 : ℤ)) := by
  change IE.ofReal (2⁻¹ ^ 52) = _
  rw [show (2⁻¹ ^ 52 : ℝ) = 2 ^ (-52 : ℤ) by norm_num]
  have f := pow_finite (e := -52) (by norm_num) (by norm_num)
  exact finite_ofReal h f

theorem near_num (h : Rounds binary64 fl) {x y : ℝ} (hd : |x - y| ≤ 2 ^ (-52 : ℤ)) : Near (IE.num x : IE binary64 fl) (IE.num y) := by
  have f := pow_finite (e := -52) (by norm_num) (by norm_num)
  have f' : Finite binary64 (-2 ^ (-52 : ℤ)) := ⟨f.1.neg, by rw [abs_neg]; exact f.2⟩
  rw [abs_le] at hd
  obtain ⟨e, -, l, u⟩ := draw_range h f' f (x := x + -y) (by linarith) (by linarith)
  unfold Near
  rw [pie_eps h]
  change IE.abs (IE.ofReal (x + -y)) ≤ IE.num _
  rw [e]
  exact abs_le.2 ⟨l, u⟩

theorem far_num (h : Rounds binary64 fl) {x y : ℝ} (hd : 2 ^ (-51 : ℤ) ≤ |x - y|) : ¬ Near (IE.num x : IE binary64 fl) (IE.num y) := by
  unfold Near
  rw [pie_eps h]
  change ¬ IE.abs (IE.ofReal (x + -y)) ≤ IE.num _
  unfold IE.ofReal
  split_ifs with hb
  · change ¬ |fl (x + -y)| ≤ 2 ^ (-52 : ℤ)
    have g : OnGrid binary64 (2 ^ (-51 : ℤ)) := onGrid_pow (by decide) (by decide)
    have lt : (2 : ℝ) ^ (-52 : ℤ) < 2 ^ (-51 : ℤ) := zpow_lt_zpow_right₀ (by norm_num) (by norm_num)
    rw [not_le]
    refine lt.trans_le ?_
    rcases le_total 0 (x - y) with hs | hs
    · rw [abs_of_nonneg hs] at hd
      have := h.mono (x := 2 ^ (-51 : ℤ)) (y := x + -y) (by linarith)
      rw [h.fix g] at this
      exact this.trans (le_abs_self _)
    · rw [abs_of_nonpos hs] at hd
      have := h.mono (x := x + -y) (y := -2 ^ (-51 : ℤ)) (by linarith)
      rw [h.fix g.neg] at this
      have := neg_le_abs (fl (x + -y))
      linarith
  · exact inf_le_num _

/-- The inner loop ends exactly if no other node is near. -/
theorem weight_iff (xs : ℕ → IE binary64 fl) (j : ℕ) : ∀ (l : List ℕ) (w : IE binary64 fl),
    (∃ v, weightLoop xs j l w = some v) ↔ ∀ k ∈ l, j ≠ k → ¬ Near (xs j) (xs k)
  | [], w => by simp [weightLoop]
  | k :: l, w => by
    unfold weightLoop
    by_cases hj : j = k
    · rw [if_pos hj, weight_iff xs j l w]
      simp [hj]
    · rw [if_neg hj]
      by_cases hc : Near (xs j) (xs k)
      · have hc' := hc
        unfold Near at hc'
        dsimp only
        rw [if_pos hc']
        simp [hj, hc]
      · have hc' := hc
        unfold Near at hc'
        dsimp only
        rw [if_neg hc', weight_iff xs j l]
        simp [hj, hc]

theorem weights_iff (xs : ℕ → IE binary64 fl) (n : ℕ) : ∀ (l : List ℕ) (w : ℕ → IE binary64 fl),
    (∃ v, weightsLoop xs n l w = some v) ↔ ∀ j ∈ l, ∀ k < n, j ≠ k → ¬ Near (xs j) (xs k)
  | [], w => by simp [weightsLoop]
  | j :: l, w => by
    have e := weight_iff xs j (List.range n) (w j)
    simp only [List.mem_range] at e
    unfold weightsLoop
    simp only [Option.bind_eq_bind, Option.bind_eq_some_iff, List.mem_cons, forall_eq_or_imp]
    rw [← e]
    constructor
    · rintro ⟨v, u, h1, h2⟩
      exact ⟨⟨u, h1⟩, (weights_iff xs n l _).1 ⟨v, h2⟩⟩
    · rintro ⟨⟨u, h1⟩, h2⟩
      obtain ⟨v, h3⟩ := (weights_iff xs n l (Function.update w j u)).2 h2
      exact ⟨v, u, h1, h3⟩

theorem new_iff (n : ℕ) (xs ys : ℕ → IE binary64 fl) :
    (∃ q, Poly.new n xs ys = some q) ↔ 0 < n ∧ ∀ j < n, ∀ k < n, j ≠ k → ¬ Near (xs j) (xs k) := by
  have e := weights_iff xs n (List.range n) (fun _ => 1)
  simp only [List.mem_range] at e
  unfold Poly.new
  by_cases hn : n = 0
  · simp [hn]
  · rw [if_neg hn, ← e]
    simp only [Option.bind_eq_bind, Option.bind_eq_some_iff]
    constructor
    · rintro ⟨q, w, h1, -⟩
      exact ⟨by omega, w, h1⟩
    · rintro ⟨-, w, h1⟩
      exact ⟨_, w, h1, rfl⟩

theorem node_loop (q : Poly (IE binary64 fl)) {i : ℕ} (hi : Near (q.xs i) (q.xs i)) : ∀ l : List ℕ, (∀ k ∈ l, i ≠ k → ¬ Near (q.xs i) (q.xs k)) → i ∈ l →
    nodeLoop q (q.xs i) l = some (q.ys i)
  | [], _, hm => absurd hm (by simp)
  | k :: l, hl, hm => by
    unfold nodeLoop
    by_cases hk : i = k
    · subst hk
      exact if_pos hi
    · refine (if_neg (hl k (by simp) hk)).trans ?_
      rcases List.mem_cons.1 hm with e | e
      · exact absurd e hk
      · exact node_loop q hi l (fun k hk => hl k (by simp [hk])) e

/-! ## Properties -/

/-- **C245, construction**, the proved part: any number of finite nodes, any sample values, also infinite ones and NaN. An interpolator is refused if there is no sample or two nodes are
within `2 ^ -52`, and built if there is one and all nodes are at least `2 ^ -51` apart, also if differences overflow. Missing: nodes that are not finite, see `C245_fails`. -/
theorem C245_built_partial (h : Rounds binary64 fl) (n : ℕ) (xs : ℕ → ℝ) (ys : ℕ → IE binary64 fl) :
    ((n = 0 ∨ ∃ i < n, ∃ j < n, i ≠ j ∧ |xs i - xs j| ≤ 2 ^ (-52 : ℤ)) → Poly.new n (fun i => IE.num (xs i)) ys = none) ∧
    ((0 < n ∧ ∀ i < n, ∀ j < n, i ≠ j → 2 ^ (-51 : ℤ) ≤ |xs i - xs j|) → ∃ q, Poly.new n (fun i => IE.num (xs i)) ys = some q) := by
  constructor
  · intro hc
    by_contra hne
    obtain ⟨q, hq⟩ := Option.ne_none_iff_exists'.1 hne
    obtain ⟨h1, h2⟩ := (new_iff n _ ys).1 ⟨q, hq⟩
    rcases hc with rfl | ⟨i, hi, j, hj, hij, hd⟩
    · exact lt_irrefl _ h1
    · exact h2 i hi j hj hij (near_num h hd)
  · rintro ⟨h1, h2⟩
    exact (new_iff n _ ys).2 ⟨h1, fun i hi j hj hij => far_num h (h2 i hi j hj hij)⟩

/-- The nodes 0, 1, 2, ... are far enough apart. -/
example (n i j : ℕ) (_ : i < n) (_ : j < n) (hij : i ≠ j) : (2 : ℝ) ^ (-51 : ℤ) ≤ |(i : ℝ) - j| := by
  have h1 : (2 : ℝ) ^ (-51 : ℤ) ≤ 1 := zpow_le_one_of_nonpos₀ (by norm_num) (by norm_num)
  have h2 : (1 : ℤ) ≤ |(i : ℤ) - j| := Int.one_le_abs (sub_ne_zero.2 (by exact_mod_cast hij))
  exact h1.trans (by exact_mod_cast h2)

/-- **C245, nodes**, the proved part: any number of finite nodes, any sample values, also infinite ones and NaN. Whenever an interpolator is built, its value at each node is exactly the
sample given for it. Missing: nodes that are not finite, see `C245_fails`. -/
theorem C245_nodes_partial (h : Rounds binary64 fl) {n : ℕ} {xs : ℕ → ℝ} {ys : ℕ → IE binary64 fl} {q : Poly (IE binary64 fl)}
    (hq : Poly.new n (fun i => IE.num (xs i)) ys = some q) (i : ℕ) (hi : i < n) : q.evaluate n (IE.num (xs i)) = ys i := by
  have hs := ((new_iff n _ ys).1 ⟨q, hq⟩).2
  unfold Poly.new at hq
  rw [if_neg (by omega), Option.bind_eq_bind, Option.bind_eq_some_iff] at hq
  obtain ⟨w, -, h2⟩ := hq
  have hq := (Option.some.inj h2).symm
  subst hq
  unfold Poly.evaluate
  rw [node_loop ⟨fun i => IE.num (xs i), ys, w⟩ (i := i) (near_num h (by rw [sub_self, abs_zero]; positivity)) (List.range n)
    (fun k hk hik => hs i hi k (List.mem_range.1 hk) hik) (List.mem_range.2 hi)]

/-- A node that occurs twice is refused, at any size. -/
example (h : Rounds binary64 fl) (x : ℝ) (ys : ℕ → IE binary64 fl) : Poly.new 2 (fun _ => IE.num x) ys = none :=
  (C245_built_partial h 2 (fun _ => x) ys).1 (Or.inr ⟨0, by norm_num, 1, by norm_num, by norm_num, by rw [sub_self, abs_zero]; positivity⟩)

/-- **C245** does not hold for infinite nodes: a node that occurs twice is not refused if it is infinite, and the value there is NaN. -/
theorem C245_fails (y : ℝ) : ∃ q, Poly.new 2 (fun _ => IE.inf false) (fun _ => (IE.num y : IE binary64 fl)) = some q ∧ q.evaluate 2 (IE.inf false) = IE.nan := by
  have hn : ¬ Near (IE.inf false : IE binary64 fl) (IE.inf false) := id
  obtain ⟨q, hq⟩ := (new_iff 2 (fun _ => IE.inf false) (fun _ => (IE.num y : IE binary64 fl))).2 ⟨by norm_num, fun _ _ _ _ _ => hn⟩
  refine ⟨q, hq, ?_⟩
  unfold Poly.new at hq
  rw [if_neg (by omega), Option.bind_eq_bind, Option.bind_eq_some_iff] at hq
  obtain ⟨w, -, h2⟩ := hq
  have hq := (Option.some.inj h2).symm
  subst hq
  have hr : List.range 2 = [0, 1] := rfl
  have hl : nodeLoop ⟨fun _ => IE.inf false, fun _ => (IE.num y : IE binary64 fl), w⟩ (IE.inf false) [0, 1] = none := by
    simp only [nodeLoop]
    exact (if_neg hn).trans (if_neg hn)
  unfold Poly.evaluate
  rw [hr, hl]
  have hw : ∀ a : IE binary64 fl, a / IE.nan = IE.nan := by
    intro a
    rcases a with ⟨_ | _ | _⟩ <;> rfl
  change (0 + w 0 / IE.nan * IE.num y + w 1 / IE.nan * IE.num y : IE binary64 fl) / (0 + w 0 / IE.nan + w 1 / IE.nan) = IE.nan
  rw [hw, hw]
  rfl

end Verif.Float.Pie
