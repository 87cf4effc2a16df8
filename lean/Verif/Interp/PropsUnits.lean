import Verif.Interp.Props
import Mathlib.Tactic.IntervalCases

/-! # C211, C212: interpolants do not depend on units, origin and superposition of the data -/

namespace Verif.Interp

open Polynomial Set

/-! ## Cubic spline -/

theorem forward_units {xs ys : ℕ → ℝ} {a : ℝ} (ha : a ≠ 0) (b c d : ℝ) (l : List ℕ) : ∀ s : (ℕ → ℝ) × (ℕ → ℝ),
    l.foldl (forwardStep (fun i => a * xs i + b) (fun i => c * ys i + d)) (s.1, fun i => c / a ^ 2 * s.2 i)
      = ((l.foldl (forwardStep xs ys) s).1, fun i => c / a ^ 2 * (l.foldl (forwardStep xs ys) s).2 i) := by
  induction l with
  | nil => intro s; rfl
  | cons i l ih =>
    intro s
    rw [List.foldl_cons, List.foldl_cons, ← ih]
    congr 1
    unfold forwardStep
    have hx : ∀ i j, a * xs i + b - (a * xs j + b) = a * (xs i - xs j) := fun i j => by ring
    have hy : ∀ i j, c * ys i + d - (c * ys j + d) = c * (ys i - ys j) := fun i j => by ring
    have hdd : ∀ u v : ℝ, c * u / (a * v) = c / a * (u / v) := fun u v => mul_div_mul_comm _ _ _ _
    simp only [hx, hy, mul_div_mul_left _ _ ha, hdd]
    refine Prod.ext rfl ?_
    funext j
    simp only
    by_cases hj : j = i
    · subst hj
      rw [Function.update_self, Function.update_self, ← mul_div_assoc (c / a ^ 2)]
      congr 1
      have : 6 * (c / a * ((ys (j + 1) - ys j) / (xs (j + 1) - xs j)) - c / a * ((ys j - ys (j - 1)) / (xs j - xs (j - 1)))) / (a * (xs (j + 1) - xs (j - 1)))
          = c / a ^ 2 * (6 * ((ys (j + 1) - ys j) / (xs (j + 1) - xs j) - (ys j - ys (j - 1)) / (xs j - xs (j - 1))) / (xs (j + 1) - xs (j - 1))) := by
        rw [div_mul_eq_div_div]
        field_simp
      rw [this]
      ring
    · rw [Function.update_of_ne hj, Function.update_of_ne hj]

theorem forward_sum {xs ys zs : ℕ → ℝ} (c e : ℝ) (l : List ℕ) : ∀ w u v : ℕ → ℝ,
    (l.foldl (forwardStep xs zs) (w, v)).1 = (l.foldl (forwardStep xs ys) (w, u)).1 ∧
    l.foldl (forwardStep xs (fun i => c * ys i + e * zs i)) (w, fun i => c * u i + e * v i)
      = ((l.foldl (forwardStep xs ys) (w, u)).1,
        fun i => c * (l.foldl (forwardStep xs ys) (w, u)).2 i + e * (l.foldl (forwardStep xs zs) (w, v)).2 i) := by
  induction l with
  | nil => intro w u v; exact ⟨rfl, rfl⟩
  | cons i l ih =>
    intro w u v
    rw [List.foldl_cons, List.foldl_cons, List.foldl_cons]
    have := ih (forwardStep xs ys (w, u) i).1 (forwardStep xs ys (w, u) i).2 (forwardStep xs zs (w, v) i).2
    refine ⟨this.1, ?_⟩
    have h2 := this.2
    have e1 : forwardStep xs (fun i => c * ys i + e * zs i) (w, fun i => c * u i + e * v i) i
        = ((forwardStep xs ys (w, u) i).1, fun j => c * (forwardStep xs ys (w, u) i).2 j + e * (forwardStep xs zs (w, v) i).2 j) := by
      unfold forwardStep
      refine Prod.ext rfl ?_
      funext j
      simp only
      by_cases hj : j = i
      · subst hj
        rw [Function.update_self, Function.update_self, Function.update_self]
        ring
      · rw [Function.update_of_ne hj, Function.update_of_ne hj, Function.update_of_ne hj]
    rw [e1]
    exact h2

theorem forward_end {xs ys : ℕ → ℝ} (l : List ℕ) (m : ℕ) (h : ∀ i ∈ l, i < m) : ∀ s : (ℕ → ℝ) × (ℕ → ℝ), ∀ j, m ≤ j →
    (l.foldl (forwardStep xs ys) s).1 j = s.1 j := by
  induction l with
  | nil => intro s j _; rfl
  | cons i l ih =>
    intro s j hj
    rw [List.foldl_cons, ih (fun k hk => h k (List.mem_cons_of_mem _ hk)) _ j hj]
    unfold forwardStep
    have := h i List.mem_cons_self
    exact Function.update_of_ne (by omega) _ _

theorem backward_sum (c e : ℝ) (u v : ℕ → ℝ) : ∀ (m : ℕ) (p q r : ℕ → ℝ), (∀ j < m, q j = p j ∧ r j = p j) → (∀ j, m ≤ j → r j = c * p j + e * q j) →
    ∀ j, (List.range m).reverse.foldl (backwardStep fun i => c * u i + e * v i) r j
      = c * (List.range m).reverse.foldl (backwardStep u) p j + e * (List.range m).reverse.foldl (backwardStep v) q j
  | 0, p, q, r, _, h2, j => h2 j (Nat.zero_le _)
  | m + 1, p, q, r, h1, h2, j => by
    rw [List.range_succ, List.reverse_append, List.reverse_singleton, List.singleton_append, List.foldl_cons, List.foldl_cons, List.foldl_cons]
    apply backward_sum c e u v m
    · intro j hj
      unfold backwardStep
      rw [Function.update_of_ne (by omega), Function.update_of_ne (by omega), Function.update_of_ne (by omega)]
      exact h1 j (by omega)
    · intro j hj
      unfold backwardStep
      by_cases hjm : j = m
      · subst hjm
        rw [Function.update_self, Function.update_self, Function.update_self, (h1 j (by omega)).1, (h1 j (by omega)).2, h2 (j + 1) (by omega)]
        ring
      · rw [Function.update_of_ne hjm, Function.update_of_ne hjm, Function.update_of_ne hjm]
        exact h2 j (by omega)

theorem search_units {a : ℝ} (ha : 0 < a) (b : ℝ) (n : ℕ) (xs : ℕ → ℝ) (x : ℝ) (lo hi : ℕ) :
    searchLoop n (fun i => a * xs i + b) (a * x + b) lo hi = searchLoop n xs x lo hi := by
  fun_induction searchLoop n xs x lo hi with
  | case1 lo hi h ih1 ih2 =>
    rw [searchLoop, dif_pos h]
    unfold rd
    split_ifs with hm
    · simp only [Option.bind_eq_bind, Option.bind_some, add_le_add_iff_right, mul_le_mul_iff_right₀ ha]
      rw [ih1, ih2]
    · rfl
  | case2 lo hi h => rw [searchLoop, dif_neg h]

theorem segment_units {a : ℝ} (ha : 0 < a) (b : ℝ) (n : ℕ) (xs : ℕ → ℝ) (x : ℝ) :
    segmentIndex n (fun i => a * xs i + b) (a * x + b) = segmentIndex n xs x := by
  unfold segmentIndex
  rw [search_units ha]
  unfold rd
  split_ifs
  · simp only [Option.bind_eq_bind, Option.bind_some, ge_iff_le, add_le_add_iff_right, mul_le_mul_iff_right₀ ha]
  · simp only [Option.bind_eq_bind, Option.bind_some, Option.bind_none, add_le_add_iff_right, mul_le_mul_iff_right₀ ha]
  · rfl
  · rfl

/-- What `new` stores. -/
theorem spline_new_eq {n : ℕ} (hn : 2 ≤ n) {xs ys : ℕ → ℝ} (hx : ∀ i, i + 1 < n → xs i < xs (i + 1)) :
    Spline.new n xs ys = some ⟨xs, ys, (List.range (n - 1)).reverse.foldl
      (backwardStep ((List.range' 1 (n - 2)).foldl (forwardStep xs ys) (fun _ => 0, fun _ => 0)).2)
      ((List.range' 1 (n - 2)).foldl (forwardStep xs ys) (fun _ => 0, fun _ => 0)).1⟩ := by
  unfold Spline.new
  rw [if_neg (by omega), if_neg]
  intro h
  obtain ⟨i, hi, hc⟩ := List.any_eq_true.1 h
  have hi' := List.mem_range.1 hi
  exact absurd (hx i (by omega)) (not_lt.2 (of_decide_eq_true hc))

theorem evaluate_piece {n : ℕ} (hn : 2 ≤ n) (s : Spline) (x : ℝ) :
    ∃ k, segmentIndex n s.xs x = some k ∧ k + 1 < n ∧ s.evaluate n x = some (s.piece k x) := by
  obtain ⟨k, hk, hk1⟩ := C39_terminates n s.xs x hn
  refine ⟨k, hk, hk1, ?_⟩
  unfold Spline.evaluate
  rw [hk]
  simp only [rd, if_pos hk1, if_pos (show k < n by omega), Option.bind_eq_bind, Option.bind_some]
  rfl

/-- **C211**. The spline through data in other units and from other origins (`a > 0`, so that the order remains) is the spline through the data, in these
units. -/
theorem C211_units {n : ℕ} {xs ys : ℕ → ℝ} {s : Spline} (h : Spline.new n xs ys = some s) {a : ℝ} (ha : 0 < a) (b c d : ℝ) :
    ∃ s', Spline.new n (fun i => a * xs i + b) (fun i => c * ys i + d) = some s' ∧
      ∀ x y, s.evaluate n x = some y → s'.evaluate n (a * x + b) = some (c * y + d) := by
  obtain ⟨hn, hx⟩ := (C38_new n xs ys).1 ⟨s, h⟩
  have hx' : ∀ i, i + 1 < n → a * xs i + b < a * xs (i + 1) + b := fun i hi => by
    have := mul_lt_mul_of_pos_left (hx i hi) ha
    linarith
  refine ⟨_, spline_new_eq hn hx', fun x y hy => ?_⟩
  rw [spline_new_eq hn hx] at h
  have hs := Option.some.inj h
  obtain ⟨f, hf⟩ : ∃ f, f = (List.range' 1 (n - 2)).foldl (forwardStep xs ys) (fun _ => 0, fun _ => 0) := ⟨_, rfl⟩
  rw [← hf] at hs
  have hfw := forward_units (xs := xs) (ys := ys) ha.ne' b c d (List.range' 1 (n - 2)) (fun _ => 0, fun _ => 0)
  simp only [mul_zero] at hfw
  rw [hfw, ← hf]
  have hend : ∀ j, n - 1 ≤ j → f.1 j = 0 := fun j hj => by
    rw [hf, forward_end _ (n - 1) (fun i hi => by have := List.mem_range'_1.1 hi; omega) _ j hj]
  have hb := backward_sum (c / a ^ 2) 0 f.2 f.2 (n - 1) f.1 f.1 f.1 (fun j _ => ⟨rfl, rfl⟩) (fun j hj => by rw [hend j hj]; ring)
  simp only [zero_mul, add_zero] at hb
  obtain ⟨k, hk, hk1, he⟩ := evaluate_piece hn s x
  rw [he] at hy
  have hy := Option.some.inj hy
  obtain ⟨k', hk', -, he'⟩ := evaluate_piece hn ⟨fun i => a * xs i + b, fun i => c * ys i + d,
    (List.range (n - 1)).reverse.foldl (backwardStep fun i => c / a ^ 2 * f.2 i) f.1⟩ (a * x + b)
  have hsx : s.xs = xs := by rw [← hs]
  have hkk : k' = k := by
    have h1 : segmentIndex n (fun i => a * xs i + b) (a * x + b) = some k' := hk'
    rw [segment_units ha, ← hsx, hk] at h1
    exact (Option.some.inj h1).symm
  subst hkk
  refine he'.trans (congrArg some ?_)
  rw [← hy, ← hs]
  unfold Spline.piece
  simp only [hb]
  have h0 : xs (k' + 1) - xs k' ≠ 0 := (sub_pos.2 (hx k' hk1)).ne'
  have e1 : a * xs (k' + 1) + b - (a * xs k' + b) = a * (xs (k' + 1) - xs k') := by ring
  have e2 : a * xs (k' + 1) + b - (a * x + b) = a * (xs (k' + 1) - x) := by ring
  have e3 : a * x + b - (a * xs k' + b) = a * (x - xs k') := by ring
  rw [e1, e2, e3, mul_div_mul_left _ _ ha.ne', mul_div_mul_left _ _ ha.ne']
  have e4 : (x - xs k') / (xs (k' + 1) - xs k') = 1 - (xs (k' + 1) - x) / (xs (k' + 1) - xs k') := by
    field_simp
    ring
  rw [e4]
  generalize (xs (k' + 1) - x) / (xs (k' + 1) - xs k') = t
  generalize xs (k' + 1) - xs k' = w
  generalize (List.range (n - 1)).reverse.foldl (backwardStep f.2) f.1 k' = p
  generalize (List.range (n - 1)).reverse.foldl (backwardStep f.2) f.1 (k' + 1) = q
  have e5 : ∀ m, c / a ^ 2 * m * (a * w * (a * w)) = c * (m * (w * w)) := fun m => by
    have := ha.ne'
    field_simp
  linear_combination ((t * t * t - t) / 6) * e5 p + (((1 - t) * (1 - t) * (1 - t) - (1 - t)) / 6) * e5 q

/-- **C211**. The spline through superposed data is the superposition of the splines. -/
theorem C211_superposition {n : ℕ} {xs ys zs : ℕ → ℝ} {s t : Spline} (h : Spline.new n xs ys = some s) (h2 : Spline.new n xs zs = some t) (c e : ℝ) :
    ∃ r, Spline.new n xs (fun i => c * ys i + e * zs i) = some r ∧
      ∀ x y z, s.evaluate n x = some y → t.evaluate n x = some z → r.evaluate n x = some (c * y + e * z) := by
  obtain ⟨hn, hx⟩ := (C38_new n xs ys).1 ⟨s, h⟩
  refine ⟨_, spline_new_eq hn hx, fun x y z hy hz => ?_⟩
  rw [spline_new_eq hn hx] at h h2
  have hs := Option.some.inj h
  have ht := Option.some.inj h2
  have hfw := forward_sum (xs := xs) (ys := ys) (zs := zs) c e (List.range' 1 (n - 2)) (fun _ => 0) (fun _ => 0) (fun _ => 0)
  simp only [mul_zero, add_zero] at hfw
  have hend : ∀ j, n - 1 ≤ j → ((List.range' 1 (n - 2)).foldl (forwardStep xs ys) (fun _ => 0, fun _ => 0)).1 j = 0 := fun j hj => by
    rw [forward_end _ (n - 1) (fun i hi => by have := List.mem_range'_1.1 hi; omega) _ j hj]
  rw [hfw.2]
  rw [hfw.1] at ht
  generalize (List.range' 1 (n - 2)).foldl (forwardStep xs ys) (fun _ => 0, fun _ => 0) = f at *
  generalize (List.range' 1 (n - 2)).foldl (forwardStep xs zs) (fun _ => 0, fun _ => 0) = g at *
  have hb := backward_sum c e f.2 g.2 (n - 1) f.1 f.1 f.1 (fun j _ => ⟨rfl, rfl⟩) (fun j hj => by rw [hend j hj]; ring)
  obtain ⟨k, hk, hk1, he⟩ := evaluate_piece hn s x
  obtain ⟨k2, hk2, -, he2⟩ := evaluate_piece hn t x
  obtain ⟨k3, hk3, -, he3⟩ := evaluate_piece hn ⟨xs, fun i => c * ys i + e * zs i,
    (List.range (n - 1)).reverse.foldl (backwardStep fun i => c * f.2 i + e * g.2 i) f.1⟩ x
  have hsx : s.xs = xs := by rw [← hs]
  have htx : t.xs = xs := by rw [← ht]
  rw [hsx] at hk
  rw [htx, hk] at hk2
  obtain rfl := Option.some.inj hk2
  have h3 : segmentIndex n xs x = some k3 := hk3
  rw [hk] at h3
  obtain rfl := Option.some.inj h3
  rw [he] at hy
  rw [he2] at hz
  have hy := Option.some.inj hy
  have hz := Option.some.inj hz
  refine he3.trans (congrArg some ?_)
  rw [← hy, ← hz, ← hs, ← ht]
  unfold Spline.piece
  simp only [hb]
  ring

/-- Three knots. -/
example : ∃ s, Spline.new 3 (fun i => (i : ℝ)) (fun i => (i : ℝ) ^ 2) = some s :=
  (C38_new _ _ _).2 ⟨by norm_num, fun i _ => by push_cast; linarith⟩

/-! ## Polynomials -/

/-- The node at which evaluation stops does not depend on the values. -/
theorem nodeLoop_index (xs : ℕ → ℝ) (x : ℝ) : ∀ l : List ℕ,
    (∀ ys w, nodeLoop ⟨xs, ys, w⟩ x l = none) ∨ ∃ i, ∀ ys w, nodeLoop ⟨xs, ys, w⟩ x l = some (ys i)
  | [] => Or.inl fun _ _ => rfl
  | i :: is => by
    by_cases h : |x - xs i| ≤ eps
    · exact Or.inr ⟨i, fun ys w => by unfold nodeLoop; rw [if_pos h]⟩
    · rcases nodeLoop_index xs x is with h' | ⟨j, h'⟩
      · exact Or.inl fun ys w => by unfold nodeLoop; rw [if_neg h]; exact h' ys w
      · exact Or.inr ⟨j, fun ys w => by unfold nodeLoop; rw [if_neg h]; exact h' ys w⟩

theorem sums_eq (xs ys w : ℕ → ℝ) (x : ℝ) (l : List ℕ) : ∀ s : ℝ × ℝ,
    l.foldl (fun s i =>
      let term := w i / (x - xs i)
      (s.1 + term * ys i, s.2 + term)) s
      = (s.1 + (l.map fun i => w i / (x - xs i) * ys i).sum, s.2 + (l.map fun i => w i / (x - xs i)).sum) := by
  induction l with
  | nil => intro s; simp
  | cons i l ih =>
    intro s
    rw [List.foldl_cons, ih]
    simp only [List.map_cons, List.sum_cons]
    refine Prod.ext ?_ ?_ <;> simp only <;> ring

/-- **C212**. The polynomial through superposed data is the superposition of the polynomials, also near the nodes. -/
theorem C212_superposition {n : ℕ} {xs ys zs : ℕ → ℝ} {p q : Poly} (h : Poly.new n xs ys = some p) (h2 : Poly.new n xs zs = some q) (c e : ℝ) :
    ∃ r, Poly.new n xs (fun i => c * ys i + e * zs i) = some r ∧ ∀ x, r.evaluate n x = c * p.evaluate n x + e * q.evaluate n x := by
  unfold Poly.new at h h2 ⊢
  by_cases hn : n = 0
  · rw [if_pos hn] at h; cases h
  · rw [if_neg hn] at h h2 ⊢
    cases hw : weightsLoop xs n (List.range n) (fun _ => 1) with
    | none => rw [hw] at h; cases h
    | some w =>
      rw [hw] at h h2
      have hp : (⟨xs, ys, w⟩ : Poly) = p := Option.some.inj h
      have hq : (⟨xs, zs, w⟩ : Poly) = q := Option.some.inj h2
      refine ⟨⟨xs, fun i => c * ys i + e * zs i, w⟩, rfl, fun x => ?_⟩
      rw [← hp, ← hq]
      unfold Poly.evaluate
      rcases nodeLoop_index xs x (List.range n) with h3 | ⟨i, h3⟩
      · rw [h3, h3, h3]
        simp only
        rw [sums_eq, sums_eq, sums_eq]
        simp only [zero_add]
        have : ((List.range n).map fun i => w i / (x - xs i) * (c * ys i + e * zs i)).sum
            = c * ((List.range n).map fun i => w i / (x - xs i) * ys i).sum + e * ((List.range n).map fun i => w i / (x - xs i) * zs i).sum := by
          induction List.range n with
          | nil => simp
          | cons i l ih =>
            simp only [List.map_cons, List.sum_cons, ih]
            ring
        rw [this]
        ring
      · rw [h3, h3, h3]

/-- **C212**. If the samples are given in another order (`σ`), in other units and from other origins (`a ≠ 0`), then the value returned is the same, in these units,
at every point that is not within the tolerance of a node in either unit. Missing: points near nodes (see `C212_order_fails`), and that both constructions
succeed or none (see `C212_units_fails`). -/
theorem C212_partial {n : ℕ} {xs ys : ℕ → ℝ} {p q : Poly} {σ : ℕ → ℕ} (hσ' : ∀ i < n, σ i < n) {a : ℝ} (ha : a ≠ 0) (b c d : ℝ)
    (h : Poly.new n xs ys = some p) (h' : Poly.new n (fun i => a * xs (σ i) + b) (fun i => c * ys (σ i) + d) = some q) {x : ℝ}
    (hx : ∀ i < n, eps < |x - xs i|) (hx' : ∀ i < n, eps < |a * x + b - (a * xs i + b)|) : q.evaluate n (a * x + b) = c * p.evaluate n x + d := by
  obtain ⟨⟨P, ⟨hP, hPv⟩, -⟩, hev⟩ := C37_polynomial h
  obtain ⟨⟨Q, ⟨hQ, hQv⟩, -⟩, hev'⟩ := C37_polynomial h'
  have hn : n ≠ 0 := (new_eq_some h).1
  rw [hev P hP hPv x hx, hev' Q hQ hQv (a * x + b) (fun i hi => hx' _ (hσ' i hi))]
  have hnat : ∀ P : ℝ[X], P.degree < n → P.natDegree < n := fun P hP => by
    by_cases h0 : P = 0
    · rw [h0, natDegree_zero]; omega
    · exact (natDegree_lt_iff_degree_lt h0).2 hP
  have hdeg : (Polynomial.C c * P.comp (Polynomial.C a⁻¹ * (X - Polynomial.C b)) + Polynomial.C d).degree < n := by
    refine lt_of_le_of_lt degree_le_natDegree ?_
    rw [natDegree_add_C]
    have h1 : (Polynomial.C c * P.comp (Polynomial.C a⁻¹ * (X - Polynomial.C b))).natDegree ≤ P.natDegree := by
      refine (natDegree_C_mul_le _ _).trans ?_
      rw [natDegree_comp, natDegree_C_mul (inv_ne_zero ha), natDegree_X_sub_C, mul_one]
    exact_mod_cast lt_of_le_of_lt h1 (hnat P hP)
  have hv : ∀ i < n, (Polynomial.C c * P.comp (Polynomial.C a⁻¹ * (X - Polynomial.C b)) + Polynomial.C d).eval (a * xs (σ i) + b) = c * ys (σ i) + d := fun i hi => by
    have := hPv (σ i) (hσ' i hi)
    simp only [eval_add, eval_mul, eval_C, eval_comp, eval_sub, eval_X, add_sub_cancel_right, inv_mul_cancel_left₀ ha, this]
  have := (C37_polynomial h').1.unique ⟨hQ, hQv⟩ ⟨hdeg, hv⟩
  rw [this]
  simp only [eval_add, eval_mul, eval_C, eval_comp, eval_sub, eval_X, add_sub_cancel_right, inv_mul_cancel_left₀ ha]

/-- **C212 fails** for the order of the samples: between two nodes that differ by one and a half times the tolerance, the value is that of the node given
first. -/
theorem C212_order_fails : ∃ (xs ys xs' ys' : ℕ → ℝ) (p q : Poly), xs' 0 = xs 1 ∧ xs' 1 = xs 0 ∧ ys' 0 = ys 1 ∧ ys' 1 = ys 0 ∧
    Poly.new 2 xs ys = some p ∧ Poly.new 2 xs' ys' = some q ∧ ∃ x, p.evaluate 2 x = 1 ∧ q.evaluate 2 x = 2 := by
  have e0 := eps_pos
  let xs : ℕ → ℝ := fun i => if i = 0 then 0 else 3 / 2 * eps
  let ys : ℕ → ℝ := fun i => if i = 0 then 1 else 2
  let xs' : ℕ → ℝ := fun i => if i = 0 then 3 / 2 * eps else 0
  let ys' : ℕ → ℝ := fun i => if i = 0 then 2 else 1
  have hd : ∀ i < 2, ∀ j < 2, i ≠ j → eps < |xs i - xs j| ∧ eps < |xs' i - xs' j| := by
    intro i hi j hj hij
    have h1 : |(3 / 2 : ℝ)| * |eps| = 3 / 2 * eps := by rw [← abs_mul]; exact abs_of_pos (by linarith)
    interval_cases i <;> interval_cases j <;> simp [xs, xs'] at hij ⊢ <;> rw [h1] <;> linarith
  have hs : ∀ (xs ys : ℕ → ℝ), (∀ i < 2, ∀ j < 2, i ≠ j → eps < |xs i - xs j|) → ∃ p, Poly.new 2 xs ys = some p := by
    intro xs ys h
    cases hp : Poly.new 2 xs ys with
    | some p => exact ⟨p, rfl⟩
    | none =>
      rcases (C37_new 2 xs ys).1 hp with h0 | ⟨i, hi, j, hj, hij, hle⟩
      · omega
      · exact absurd hle (not_le.2 (h i hi j hj hij))
  obtain ⟨p, hp⟩ := hs xs ys fun i hi j hj hij => (hd i hi j hj hij).1
  obtain ⟨q, hq⟩ := hs xs' ys' fun i hi j hj hij => (hd i hi j hj hij).2
  refine ⟨xs, ys, xs', ys', p, q, rfl, rfl, rfl, rfl, hp, hq, 3 / 4 * eps, ?_, ?_⟩
  · obtain ⟨-, hx, hy, -, -⟩ := new_eq_some hp
    unfold Poly.evaluate
    have : nodeLoop p (3 / 4 * eps) (List.range 2) = some 1 := by
      change nodeLoop p (3 / 4 * eps) [0, 1] = some 1
      unfold nodeLoop
      rw [hx, hy, if_pos]
      · rfl
      · simp only [xs, if_true, sub_zero]
        rw [abs_of_pos (by linarith)]
        linarith
    rw [this]
  · obtain ⟨-, hx, hy, -, -⟩ := new_eq_some hq
    unfold Poly.evaluate
    have : nodeLoop q (3 / 4 * eps) (List.range 2) = some 2 := by
      change nodeLoop q (3 / 4 * eps) [0, 1] = some 2
      unfold nodeLoop
      rw [hx, hy, if_pos]
      · rfl
      · simp only [xs', if_true]
        rw [abs_le]
        constructor <;> linarith
    rw [this]

/-- **C212 fails** for the units: two nodes a unit apart are accepted, but not in units 2 to the power 52 times as large. -/
theorem C212_units_fails : (∃ p, Poly.new 2 (fun i => (i : ℝ)) (fun i => (i : ℝ)) = some p) ∧
    Poly.new 2 (fun i => (i : ℝ) / 2 ^ 52) (fun i => (i : ℝ)) = none := by
  constructor
  · cases hp : Poly.new 2 (fun i => (i : ℝ)) (fun i => (i : ℝ)) with
    | some p => exact ⟨p, rfl⟩
    | none =>
      rcases (C37_new 2 _ _).1 hp with h0 | ⟨i, hi, j, hj, hij, hle⟩
      · omega
      · exfalso
        have e1 : eps < 1 := by unfold eps; exact pow_lt_one₀ (by norm_num) (by norm_num) (by norm_num)
        interval_cases i <;> interval_cases j <;> simp at hij hle <;> linarith
  · rw [C37_new]
    refine Or.inr ⟨0, by norm_num, 1, by norm_num, by norm_num, ?_⟩
    unfold eps
    norm_num

/-- The samples in reverse order: the hypothesis of `C212_partial` on the order is met. -/
example : ∀ i < 3, (fun i => 2 - i) i < 3 := fun i hi => by simp only; omega

end Verif.Interp
