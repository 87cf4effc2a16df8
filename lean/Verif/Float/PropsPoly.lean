import Verif.Float.Eval
import Verif.Float.Interp

/-!
# C128: polynomial interpolation in floating point
-/

namespace Verif.Float

open Classical

variable {fl : ℝ → ℝ} {lib : Libm} {p : ℕ}

theorem poly_cf_eps : (eps : CF fl lib) = CF.num (fl (2⁻¹ ^ 52)) := rfl

theorem poly_eps_float (h : Nearest p fl) (hp : 1 ≤ p) : fl (2⁻¹ ^ 52) = 2⁻¹ ^ 52 := by
  refine h.fix ?_
  have := isFloat_zpow hp (-52)
  norm_num at this ⊢
  exact this

theorem poly_weight_some {n : ℕ} (xs : ℕ → ℝ) (j : ℕ) : ∀ (l : List ℕ) (w v : CF fl lib),
    weightLoop (fun i => CF.num (xs i)) j l w = some v → ∀ k ∈ l, j ≠ k → fl (2⁻¹ ^ 52) < |fl (xs j - xs k)|
  | [], _, _, _, _, hk, _ => absurd hk (by simp)
  | k' :: l, w, v, h, k, hk, hjk => by
    unfold weightLoop at h
    by_cases hj : j = k'
    · rw [if_pos hj] at h
      rcases List.mem_cons.1 hk with rfl | hk
      · exact absurd hj hjk
      · exact poly_weight_some (n := n) xs j l w v h k hk hjk
    · rw [if_neg hj] at h
      dsimp only at h
      by_cases hc : Scalar.le (Scalar.abs ((CF.num (xs j) : CF fl lib) - CF.num (xs k'))) eps
      · rw [if_pos hc] at h
        exact absurd h (by simp)
      · rw [if_neg hc] at h
        rw [cf_sub, cf_abs, poly_cf_eps, cf_le, not_le] at hc
        rcases List.mem_cons.1 hk with rfl | hk
        · exact hc
        · exact poly_weight_some (n := n) xs j l _ v h k hk hjk

theorem poly_weights_some {n : ℕ} (xs : ℕ → ℝ) : ∀ (l : List ℕ) (w v : ℕ → CF fl lib),
    weightsLoop (fun i => CF.num (xs i)) n l w = some v →
      ∀ j ∈ l, ∀ k, k < n → j ≠ k → fl (2⁻¹ ^ 52) < |fl (xs j - xs k)|
  | [], _, _, _, _, hj, _, _, _ => absurd hj (by simp)
  | j' :: l, w, v, h, j, hj, k, hk, hjk => by
    unfold weightsLoop at h
    rw [Option.bind_eq_bind, Option.bind_eq_some_iff] at h
    obtain ⟨wj, h1, h2⟩ := h
    rcases List.mem_cons.1 hj with rfl | hj
    · exact poly_weight_some (n := n) xs j _ _ _ h1 k (List.mem_range.2 hk) hjk
    · exact poly_weights_some xs l _ _ h2 j hj k hk hjk

theorem poly_node (q : Poly (CF fl lib)) {n : ℕ} (xs ys : ℕ → ℝ) (hq : q.xs = fun i => CF.num (xs i))
    (hy : q.ys = fun i => CF.num (ys i)) (hs : ∀ j < n, ∀ k < n, j ≠ k → fl (2⁻¹ ^ 52) < |fl (xs j - xs k)|) {i : ℕ} (hi : i < n)
    (h0 : |fl (xs i - xs i)| ≤ fl (2⁻¹ ^ 52)) : ∀ l : List ℕ, (∀ k ∈ l, k < n) → i ∈ l →
    nodeLoop q (CF.num (xs i)) l = some (CF.num (ys i))
  | [], _, hm => absurd hm (by simp)
  | k :: l, hl, hm => by
    unfold nodeLoop
    rw [hq, hy]
    dsimp only
    rw [cf_sub, cf_abs, poly_cf_eps, cf_le]
    by_cases hk : i = k
    · subst hk
      rw [if_pos h0]
    · rw [if_neg (not_le.2 (hs i hi k (hl k (by simp)) hk))]
      rcases List.mem_cons.1 hm with h | h
      · exact absurd h hk
      · exact poly_node q xs ys hq hy hs hi h0 l (fun k hk => hl k (by simp [hk])) h

/-- **C128** (partial): whenever an interpolator is built from numbers, its value at each poly_node is exactly the given
one. Missing: a number at every other point, which fails (`C128_far_fails`). -/
theorem C128_nodes_partial (h : Nearest p fl) {n : ℕ} {xs ys : ℕ → ℝ} {q : Poly (CF fl lib)}
    (hq : Poly.new n (fun i => CF.num (xs i)) (fun i => CF.num (ys i)) = some q) (i : ℕ) (hi : i < n) :
    q.evaluate n (CF.num (xs i)) = CF.num (ys i) := by
  unfold Poly.new at hq
  rw [if_neg (by omega), Option.bind_eq_bind, Option.bind_eq_some_iff] at hq
  obtain ⟨w, h1, h2⟩ := hq
  have hs : ∀ j < n, ∀ k < n, j ≠ k → fl (2⁻¹ ^ 52) < |fl (xs j - xs k)| := fun j hj k hk hjk =>
    poly_weights_some xs _ _ _ h1 j (List.mem_range.2 hj) k hk hjk
  have hq := (Option.some.inj h2).symm
  subst hq
  unfold Poly.evaluate
  rw [poly_node (n := n) ⟨fun i => CF.num (xs i), fun i => CF.num (ys i), w⟩ xs ys rfl rfl hs hi (by
    rw [sub_self, h.fix isFloat_zero, abs_zero]
    exact h.nonneg (by positivity)) (List.range n) (fun k hk => List.mem_range.1 hk) (List.mem_range.2 hi)]

/-- The identity on the nodes 0 and 1. -/
theorem poly_line_new (h : Nearest p fl) (hp : 1 ≤ p) :
    Poly.new 2 (fun i => (CF.num (i : ℝ) : CF fl lib)) (fun i => CF.num (i : ℝ)) =
      some ⟨fun i => CF.num (i : ℝ), fun i => CF.num (i : ℝ),
        Function.update (Function.update (fun _ => 1) 0 (CF.num (-1))) 1 (CF.num 1)⟩ := by
  have f1 : fl 1 = 1 := h.fix (isFloat_one hp)
  have fm : fl (-1) = -1 := h.fix (isFloat_one hp).neg
  have e := poly_eps_float h hp
  unfold Poly.new
  rw [if_neg (by norm_num)]
  have hr : List.range 2 = [0, 1] := rfl
  simp only [hr, weightsLoop, weightLoop, cf_sub, cf_abs, poly_cf_eps, cf_le, cf_one]
  have e' : ¬ (1 : ℝ) ≤ fl (1 / 4503599627370496) := by
    have : fl (1 / 4503599627370496) = 1 / 4503599627370496 := by
      rw [show (1 / 4503599627370496 : ℝ) = 2⁻¹ ^ 52 by norm_num, e]
    rw [this]
    norm_num
  norm_num [f1, fm, cf_div, if_neg e']

/-- **C128**: the claim that the value at every number is a number fails. The line through (0, 0) and (1, 1) has no
value at `2 ^ (p + 2)`: the terms of the denominator cancel exactly. In double precision this is at 2^55. -/
theorem C128_far_fails (h : Nearest p fl) (hp : 1 ≤ p) :
    ∃ q, Poly.new 2 (fun i => (CF.num (i : ℝ) : CF fl lib)) (fun i => CF.num (i : ℝ)) = some q ∧
      q.evaluate 2 (CF.num (2 ^ (p + 2 : ℤ))) = CF.nan := by
  refine ⟨_, poly_line_new h hp, ?_⟩
  have f0 : fl 0 = 0 := h.fix isFloat_zero
  have fx : fl (2 ^ (p + 2 : ℤ)) = 2 ^ (p + 2 : ℤ) := h.fix (isFloat_zpow hp _)
  have big : (8 : ℝ) ≤ 2 ^ (p + 2 : ℤ) := by
    calc (8 : ℝ) = 2 ^ (3 : ℤ) := by norm_num
      _ ≤ _ := zpow_le_zpow_right₀ (by norm_num) (by omega)
  have fx1 : fl (2 ^ (p + 2 : ℤ) - 1) = 2 ^ (p + 2 : ℤ) := by
    have e1 : (2 : ℝ) ^ (p + 2 : ℤ) = 2 ^ (p + 1 : ℤ) * 2 := by
      rw [← zpow_add_one₀ (by norm_num)]
      congr 1
    have e2 : (((2 : ℤ) ^ p : ℤ) : ℝ) * 2 ^ ((p + 1 : ℤ) + 1 - p) = 2 ^ (p + 2 : ℤ) := by
      push_cast
      rw [← zpow_natCast, ← zpow_add₀ (by norm_num)]
      congr 1
      ring
    have e3 : (2 : ℝ) ^ ((p + 1 : ℤ) + 1 - p) = 4 := by
      rw [show ((p + 1 : ℤ) + 1 - p) = 2 by ring]
      norm_num
    have := h.eq_grid hp (x := 2 ^ (p + 2 : ℤ) - 1) (k := p + 1) (m := 2 ^ p) (by linarith)
      (by rw [abs_of_pos (by positivity)]) (by rw [e2, e3]; norm_num)
    rw [this, e2]
  have inv : fl (1 / 2 ^ (p + 2 : ℤ)) = 1 / 2 ^ (p + 2 : ℤ) := by
    refine h.fix ?_
    rw [one_div, ← zpow_neg]
    exact isFloat_zpow hp _
  have minv : fl (-1 / 2 ^ (p + 2 : ℤ)) = -1 / 2 ^ (p + 2 : ℤ) := by
    refine h.fix ?_
    rw [neg_div, one_div, ← zpow_neg]
    exact (isFloat_zpow hp _).neg
  have e := poly_eps_float h hp
  have hne : ¬ |(2 : ℝ) ^ (p + 2 : ℤ)| ≤ 2⁻¹ ^ 52 := by
    rw [abs_of_pos (by positivity), not_le]
    refine lt_of_lt_of_le ?_ big
    norm_num
  have hz : (2 : ℝ) ^ (p + 2 : ℤ) ≠ 0 := by positivity
  unfold Poly.evaluate
  have hr : List.range 2 = [0, 1] := rfl
  set X : ℝ := 2 ^ (p + 2 : ℤ) with hX
  have hn : nodeLoop (⟨fun i => CF.num (i : ℝ), fun i => CF.num (i : ℝ),
        Function.update (Function.update (fun _ => 1) 0 (CF.num (-1))) 1 (CF.num 1)⟩ : Poly (CF fl lib)) (CF.num X)
        (List.range 2) = none := by
    rw [hr]
    simp only [nodeLoop, cf_sub, cf_abs, poly_cf_eps, cf_le, Nat.cast_zero, Nat.cast_one, sub_zero, fx, fx1, e, if_neg hne]
  rw [hn, hr]
  simp only [List.foldl_cons, List.foldl_nil, cf_sub, Nat.cast_zero, Nat.cast_one, sub_zero, fx, fx1]
  rw [Function.update_self, Function.update_of_ne (by norm_num), Function.update_self, cf_div _ hz, cf_div _ hz, cf_zero]
  simp only [cf_mul, cf_add, inv, minv, f0, mul_zero, mul_one, zero_add]
  rw [show (-1 / X + 1 / X : ℝ) = 0 by ring, f0]
  show CF.op2 (fun _ y => y ≠ 0) _ _ _ = _
  exact if_neg (by simp)

/-- In double precision. -/
example : Nearest 53 (rnd 53) ∧ 1 ≤ 53 := ⟨rnd_nearest (by norm_num), by norm_num⟩

/-- An interpolator that is built. -/
example (lib : Libm) : ∃ q, Poly.new 2 (fun i => (CF.num (i : ℝ) : CF (rnd 53) lib)) (fun i => CF.num (i : ℝ)) = some q :=
  ⟨_, poly_line_new (rnd_nearest (by norm_num)) (by norm_num)⟩

end Verif.Float
