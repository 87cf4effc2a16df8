import Verif.Interp.Model
import Mathlib.LinearAlgebra.Lagrange
import Mathlib.Analysis.Calculus.Deriv.Basic
import Mathlib.Analysis.Calculus.Deriv.Pow
import Mathlib.Analysis.Calculus.Deriv.Add
import Mathlib.Analysis.Calculus.Deriv.Mul
import Mathlib.Analysis.Calculus.ContDiff.Basic
import Mathlib.Analysis.Calculus.ContDiff.Deriv
import Mathlib.Analysis.Calculus.IteratedDeriv.Lemmas
import Mathlib.Tactic.Linarith
import Mathlib.Tactic.FieldSimp
import Mathlib.Tactic.LinearCombination
import Mathlib.Tactic.NormNum

/-! # Lemmas for `aether_interp` -/

namespace Verif.Interp

open Filter Topology

theorem eps_pos : 0 < eps := by unfold eps; positivity

/-! ## Polynomial interpolation -/

theorem weightLoop_eq (xs : ℕ → ℝ) (j : ℕ) : ∀ (l : List ℕ) (w r : ℝ),
    weightLoop xs j l w = some r ↔ (∀ k ∈ l, j ≠ k → eps < |xs j - xs k|) ∧
      r = w * ((l.filter (fun k => k ≠ j)).map (fun k => (xs j - xs k)⁻¹)).prod
  | [], w, r => by simp [weightLoop, eq_comm]
  | k :: ks, w, r => by
    unfold weightLoop
    by_cases hjk : j = k
    · subst hjk
      rw [if_pos rfl, weightLoop_eq xs j ks]
      simp
    · rw [if_neg hjk]
      dsimp only
      have hkj : k ≠ j := fun h => hjk h.symm
      by_cases hd : |xs j - xs k| ≤ eps
      · rw [if_pos hd]
        simp only [reduceCtorEq, false_iff, not_and]
        intro h
        exact absurd (h k (by simp) hjk) (not_lt.2 hd)
      · rw [if_neg hd, weightLoop_eq xs j ks]
        simp only [List.mem_cons, forall_eq_or_imp]
        rw [List.filter_cons_of_pos (by simpa using hkj), List.map_cons, List.prod_cons]
        constructor
        · rintro ⟨h, rfl⟩
          exact ⟨⟨fun _ => not_le.1 hd, h⟩, by rw [div_eq_mul_inv]; ring⟩
        · rintro ⟨⟨_, h⟩, rfl⟩
          exact ⟨h, by rw [div_eq_mul_inv]; ring⟩

theorem weightLoop_none (xs : ℕ → ℝ) (j : ℕ) (l : List ℕ) (w : ℝ)
    (h : weightLoop xs j l w = none) : ∃ k ∈ l, j ≠ k ∧ |xs j - xs k| ≤ eps := by
  by_contra hc
  push Not at hc
  have := (weightLoop_eq xs j l w _).2 ⟨fun k hk hjk => hc k hk hjk, rfl⟩
  rw [h] at this
  exact absurd this (by simp)

theorem weightsLoop_eq (xs : ℕ → ℝ) (n : ℕ) : ∀ (l : List ℕ) (w r : ℕ → ℝ), l.Nodup →
    (weightsLoop xs n l w = some r ↔
      (∀ j ∈ l, weightLoop xs j (List.range n) (w j) = some (r j)) ∧ ∀ j, j ∉ l → r j = w j)
  | [], w, r, _ => by
    simp only [weightsLoop, Option.some.injEq, List.not_mem_nil, false_imp_iff, implies_true, not_false_eq_true,
      true_and, forall_const]
    exact ⟨fun h j => by rw [h], fun h => funext fun j => (h j).symm⟩
  | j :: js, w, r, hn => by
    have hnj : j ∉ js := (List.nodup_cons.1 hn).1
    have hjs := (List.nodup_cons.1 hn).2
    unfold weightsLoop
    cases hw : weightLoop xs j (List.range n) (w j) with
    | none =>
      simp only [Option.bind_eq_bind, Option.bind_none, reduceCtorEq, false_iff, not_and]
      intro h
      have := h j (by simp)
      rw [hw] at this
      exact absurd this (by simp)
    | some wj =>
      simp only [Option.bind_eq_bind, Option.bind_some]
      rw [weightsLoop_eq xs n js _ r hjs]
      constructor
      · rintro ⟨h1, h2⟩
        refine ⟨?_, ?_⟩
        · intro i hi
          rcases List.mem_cons.1 hi with rfl | hi
          · rw [hw, h2 i hnj, Function.update_self]
          · have := h1 i hi
            rwa [Function.update_of_ne (fun e => hnj (by rwa [← e]))] at this
        · intro i hi
          rw [h2 i (fun h => hi (List.mem_cons_of_mem _ h)),
            Function.update_of_ne (by rintro rfl; exact hi List.mem_cons_self)]
      · rintro ⟨h1, h2⟩
        refine ⟨?_, ?_⟩
        · intro i hi
          rw [Function.update_of_ne (by rintro rfl; exact hnj hi)]
          exact h1 i (List.mem_cons_of_mem _ hi)
        · intro i hi
          by_cases e : i = j
          · subst e
            rw [Function.update_self]
            have := h1 i List.mem_cons_self
            rw [hw] at this
            exact (Option.some.inj this).symm
          · rw [Function.update_of_ne e]
            exact h2 i (by simp [e, hi])

theorem weightsLoop_none (xs : ℕ → ℝ) (n : ℕ) : ∀ (l : List ℕ) (w : ℕ → ℝ),
    weightsLoop xs n l w = none → ∃ j ∈ l, ∃ v, weightLoop xs j (List.range n) v = none
  | [], w, h => by simp [weightsLoop] at h
  | j :: js, w, h => by
    unfold weightsLoop at h
    cases hw : weightLoop xs j (List.range n) (w j) with
    | none => exact ⟨j, List.mem_cons_self, _, hw⟩
    | some wj =>
      rw [hw] at h
      obtain ⟨i, hi, hv⟩ := weightsLoop_none xs n js _ h
      exact ⟨i, List.mem_cons_of_mem _ hi, hv⟩

/-- What construction leaves behind: separated nodes and barycentric weights. -/
theorem new_eq_some {n : ℕ} {xs ys : ℕ → ℝ} {p : Poly} (h : Poly.new n xs ys = some p) :
    n ≠ 0 ∧ p.xs = xs ∧ p.ys = ys ∧ (∀ i < n, ∀ j < n, i ≠ j → eps < |xs i - xs j|) ∧
      ∀ j < n, p.weights j = Lagrange.nodalWeight (Finset.range n) xs j := by
  unfold Poly.new at h
  by_cases hn : n = 0
  · rw [if_pos hn] at h; exact absurd h (by simp)
  rw [if_neg hn] at h
  simp only [Option.bind_eq_bind, Option.bind_eq_some_iff, Option.some.injEq] at h
  obtain ⟨w, hw, rfl⟩ := h
  rw [weightsLoop_eq xs n _ _ _ List.nodup_range] at hw
  have key : ∀ j < n, _ := fun j hj => (weightLoop_eq xs j _ _ _).1 (hw.1 j (List.mem_range.2 hj))
  refine ⟨hn, rfl, rfl, fun i hi j hj hij => (key i hi).1 j (List.mem_range.2 hj) hij, fun j hj => ?_⟩
  refine (key j hj).2.trans ?_
  rw [one_mul, Lagrange.nodalWeight]
  rw [← List.prod_toFinset _ (List.nodup_range.filter _)]
  refine Finset.prod_congr ?_ fun _ _ => rfl
  ext k
  simp [and_comm]

theorem nodeLoop_none (p : Poly) (x : ℝ) : ∀ (l : List ℕ),
    (∀ i ∈ l, eps < |x - p.xs i|) → nodeLoop p x l = none
  | [], _ => rfl
  | i :: is, h => by
    unfold nodeLoop
    rw [if_neg (not_le.2 (h i List.mem_cons_self))]
    exact nodeLoop_none p x is fun j hj => h j (List.mem_cons_of_mem _ hj)

theorem nodeLoop_some (p : Poly) (x : ℝ) : ∀ (l : List ℕ) (j : ℕ), j ∈ l → |x - p.xs j| ≤ eps →
    (∀ i ∈ l, i ≠ j → eps < |x - p.xs i|) → nodeLoop p x l = some (p.ys j)
  | i :: is, j, hj, hx, h => by
    unfold nodeLoop
    by_cases e : i = j
    · subst e; rw [if_pos hx]
    · rw [if_neg (not_le.2 (h i List.mem_cons_self e))]
      refine nodeLoop_some p x is j ?_ hx fun k hk => h k (List.mem_cons_of_mem _ hk)
      rcases List.mem_cons.1 hj with rfl | hj
      · exact absurd rfl e
      · exact hj

theorem foldl_pair (f g : ℕ → ℝ) : ∀ (n : ℕ),
    (List.range n).foldl (fun (s : ℝ × ℝ) i => (s.1 + f i, s.2 + g i)) (0, 0)
      = (∑ i ∈ Finset.range n, f i, ∑ i ∈ Finset.range n, g i)
  | 0 => by simp
  | n + 1 => by
    rw [List.range_succ, List.foldl_append, foldl_pair f g n, Finset.sum_range_succ, Finset.sum_range_succ]
    rfl

/-! ## Segment search -/

/-- The segment in which the search ends. -/
def IsSegment (n : ℕ) (xs : ℕ → ℝ) (x : ℝ) (k : ℕ) : Prop :=
  k + 1 < n ∧ (0 < k → xs k ≤ x) ∧ (k + 2 < n → x < xs (k + 1))

theorem searchLoop_spec (n : ℕ) (xs : ℕ → ℝ) (x : ℝ) : ∀ (d lo hi : ℕ), hi - lo ≤ d → lo < hi → hi < n →
    (∃ k, searchLoop n xs x lo hi = some k ∧ lo ≤ k ∧ k < hi ∧
      (k = lo ∨ xs k ≤ x) ∧ (k + 1 = hi ∨ x < xs (k + 1)))
  | 0, lo, hi, hd, h, _ => by omega
  | d + 1, lo, hi, hd, h, hn => by
    rw [searchLoop]
    by_cases hl : lo + 1 < hi
    · rw [dif_pos hl]
      have hm : (lo + hi) / 2 < n := by omega
      simp only [rd, if_pos hm, Option.bind_eq_bind, Option.bind_some]
      by_cases hv : xs ((lo + hi) / 2) ≤ x
      · rw [if_pos hv]
        obtain ⟨k, e, h1, h2, h3, h4⟩ := searchLoop_spec n xs x d ((lo + hi) / 2) hi (by omega) (by omega) hn
        refine ⟨k, e, by omega, h2, ?_, h4⟩
        rcases h3 with h3 | h3
        · exact Or.inr (h3 ▸ hv)
        · exact Or.inr h3
      · rw [if_neg hv]
        obtain ⟨k, e, h1, h2, h3, h4⟩ := searchLoop_spec n xs x d lo ((lo + hi) / 2) (by omega) (by omega) (by omega)
        refine ⟨k, e, h1, by omega, h3, ?_⟩
        rcases h4 with h4 | h4
        · exact Or.inr (h4 ▸ not_le.1 hv)
        · exact Or.inr h4
    · rw [dif_neg hl]
      exact ⟨lo, rfl, le_rfl, h, Or.inl rfl, Or.inl (by omega)⟩

/-- Strictly increasing nodes. -/
def Increasing (n : ℕ) (xs : ℕ → ℝ) : Prop := ∀ i, i + 1 < n → xs i < xs (i + 1)

theorem Increasing.lt {n : ℕ} {xs : ℕ → ℝ} (h : Increasing n xs) : ∀ {i j : ℕ}, i < j → j < n → xs i < xs j
  | i, 0, h1, _ => absurd h1 (Nat.not_lt_zero _)
  | i, j + 1, h1, h2 => by
    rcases Nat.lt_succ_iff_lt_or_eq.1 h1 with h3 | rfl
    · exact (h.lt h3 (by omega)).trans (h j h2)
    · exact h i h2

theorem Increasing.le {n : ℕ} {xs : ℕ → ℝ} (h : Increasing n xs) {i j : ℕ} (hij : i ≤ j) (hj : j < n) :
    xs i ≤ xs j := by
  rcases Nat.lt_or_eq_of_le hij with h1 | rfl
  · exact (h.lt h1 hj).le
  · exact le_rfl

theorem segmentIndex_spec {n : ℕ} {xs : ℕ → ℝ} (hn : 2 ≤ n) (hx : Increasing n xs) (x : ℝ) :
    ∃ k, segmentIndex n xs x = some k ∧ IsSegment n xs x k := by
  unfold segmentIndex
  have h0 : 0 < n := by omega
  have h1 : n - 1 < n := by omega
  simp only [rd, if_pos h0, if_pos h1, Option.bind_eq_bind, Option.bind_some]
  by_cases ha : x ≤ xs 0
  · rw [if_pos ha]
    exact ⟨0, rfl, by omega, fun h => absurd h (lt_irrefl _), fun h => ha.trans_lt (hx 0 (by omega))⟩
  · rw [if_neg ha]
    by_cases hb : x ≥ xs (n - 1)
    · simp only [if_pos hb]
      exact ⟨n - 2, rfl, by omega, fun h => (hx.le (by omega) (by omega)).trans hb, fun h => by omega⟩
    · simp only [if_neg hb]
      obtain ⟨k, e, h2, h3, h4, h5⟩ := searchLoop_spec n xs x n 0 (n - 1) (by omega) (by omega) (by omega)
      refine ⟨k, e, by omega, fun hk => ?_, fun hk => ?_⟩
      · rcases h4 with h4 | h4
        · omega
        · exact h4
      · rcases h5 with h5 | h5
        · omega
        · exact h5

theorem IsSegment.unique {n : ℕ} {xs : ℕ → ℝ} (hx : Increasing n xs) {x : ℝ} {j k : ℕ}
    (hj : IsSegment n xs x j) (hk : IsSegment n xs x k) : j = k := by
  rcases lt_trichotomy j k with h | h | h
  · exact absurd (hj.2.2 (by have := hk.1; omega)) (not_lt.2 ((hx.le (by omega) (by have := hk.1; omega)).trans
      (hk.2.1 (by omega))))
  · exact h
  · exact absurd (hk.2.2 (by have := hj.1; omega)) (not_lt.2 ((hx.le (by omega) (by have := hj.1; omega)).trans
      (hj.2.1 (by omega))))

/-! ## The tridiagonal system -/

theorem forward_spec {n : ℕ} {xs ys : ℕ → ℝ} (hx : Increasing n xs) : ∀ m, m + 1 < n →
    let f := (List.range' 1 m).foldl (forwardStep xs ys) (fun _ => 0, fun _ => 0)
    f.1 0 = 0 ∧ f.2 0 = 0 ∧ (∀ i, m < i → f.1 i = 0) ∧ (∀ i, i ≤ m → -1 < f.1 i ∧ f.1 i ≤ 0) ∧
    ∀ i, 1 ≤ i → i ≤ m →
      let sig := (xs i - xs (i - 1)) / (xs (i + 1) - xs (i - 1))
      let p := sig * f.1 (i - 1) + 2
      p ≠ 0 ∧ f.1 i = (sig - 1) / p ∧
      f.2 i = (6 * ((ys (i + 1) - ys i) / (xs (i + 1) - xs i) - (ys i - ys (i - 1)) / (xs i - xs (i - 1)))
        / (xs (i + 1) - xs (i - 1)) - sig * f.2 (i - 1)) / p
  | 0, _ => by
    refine ⟨rfl, rfl, fun _ _ => rfl, fun i hi => ?_, fun i h1 h2 => by omega⟩
    simp
  | m + 1, hm => by
    intro f
    obtain ⟨h0, h0', hz, hb, he⟩ := forward_spec hx (ys := ys) m (by omega)
    have hf : f = forwardStep xs ys ((List.range' 1 m).foldl (forwardStep xs ys) (fun _ => 0, fun _ => 0)) (m + 1) := by
      simp only [f]
      rw [List.range'_concat, List.foldl_append]
      simp [Nat.add_comm]
    generalize (List.range' 1 m).foldl (forwardStep xs ys) (fun _ => 0, fun _ => 0) = g at *
    have e1 : ∀ i, i ≠ m + 1 → f.1 i = g.1 i := fun i hi => by
      rw [hf]; exact Function.update_of_ne hi _ _
    have e2 : ∀ i, i ≠ m + 1 → f.2 i = g.2 i := fun i hi => by
      rw [hf]; exact Function.update_of_ne hi _ _
    have hd1 : 0 < xs (m + 1) - xs m := sub_pos.2 (hx m (by omega))
    have hd2 : 0 < xs (m + 2) - xs (m + 1) := sub_pos.2 (hx (m + 1) (by omega))
    have hd : 0 < xs (m + 2) - xs m := by linarith
    have hs0 : 0 < (xs (m + 1) - xs m) / (xs (m + 2) - xs m) := div_pos hd1 hd
    have hs1 : (xs (m + 1) - xs m) / (xs (m + 2) - xs m) < 1 := by rw [div_lt_one hd]; linarith
    have hp : 1 < (xs (m + 1) - xs m) / (xs (m + 2) - xs m) * g.1 m + 2 := by
      have := hb m le_rfl
      nlinarith
    have hv : f.1 (m + 1) = ((xs (m + 1) - xs m) / (xs (m + 2) - xs m) - 1) /
        ((xs (m + 1) - xs m) / (xs (m + 2) - xs m) * g.1 m + 2) := by
      rw [hf]; exact Function.update_self _ _ _
    have hu : f.2 (m + 1) = (6 * ((ys (m + 2) - ys (m + 1)) / (xs (m + 2) - xs (m + 1)) -
        (ys (m + 1) - ys m) / (xs (m + 1) - xs m)) / (xs (m + 2) - xs m)
          - (xs (m + 1) - xs m) / (xs (m + 2) - xs m) * g.2 m) /
        ((xs (m + 1) - xs m) / (xs (m + 2) - xs m) * g.1 m + 2) := by
      rw [hf]; exact Function.update_self _ _ _
    refine ⟨by rw [e1 0 (by omega), h0], by rw [e2 0 (by omega), h0'], fun i hi => ?_, fun i hi => ?_, fun i h1 h2 => ?_⟩
    · rw [e1 i (by omega)]; exact hz i (by omega)
    · rcases Nat.lt_or_eq_of_le hi with h | rfl
      · rw [e1 i (by omega)]; exact hb i (by omega)
      · rw [hv]
        generalize (xs (m + 1) - xs m) / (xs (m + 2) - xs m) = s at *
        constructor
        · rw [lt_div_iff₀ (by linarith)]; linarith
        · exact div_nonpos_of_nonpos_of_nonneg (by linarith) (by linarith)
    · rcases Nat.lt_or_eq_of_le h2 with h | rfl
      · have := he i h1 (by omega)
        rw [e1 i (by omega), e1 (i - 1) (by omega), e2 i (by omega), e2 (i - 1) (by omega)]
        exact this
      · simp only [Nat.add_sub_cancel]
        rw [e1 m (by omega), e2 m (by omega)]
        exact ⟨by linarith, hv, hu⟩

theorem backward_spec (u : ℕ → ℝ) : ∀ (m : ℕ) (sd : ℕ → ℝ),
    let r := (List.range m).reverse.foldl (backwardStep u) sd
    (∀ k, m ≤ k → r k = sd k) ∧ ∀ k, k < m → r k = sd k * r (k + 1) + u k
  | 0, sd => ⟨fun _ _ => rfl, fun k hk => by omega⟩
  | m + 1, sd => by
    intro r
    have hr : r = (List.range m).reverse.foldl (backwardStep u) (backwardStep u sd m) := by
      simp only [r, List.range_succ, List.reverse_append, List.reverse_singleton, List.singleton_append,
        List.foldl_cons]
    obtain ⟨h1, h2⟩ := backward_spec u m (backwardStep u sd m)
    rw [← hr] at h1 h2
    have hne : ∀ k, k ≠ m → backwardStep u sd m k = sd k := fun k hk => Function.update_of_ne hk _ _
    refine ⟨fun k hk => by rw [h1 k (by omega), hne k (by omega)], fun k hk => ?_⟩
    rcases Nat.lt_succ_iff_lt_or_eq.1 hk with h | rfl
    · rw [h2 k h, hne k (by omega)]
    · rw [h1 k le_rfl, h1 (k + 1) (by omega), hne (k + 1) (by omega)]
      exact Function.update_self _ _ _

/-- The second derivatives solve the natural spline system. -/
theorem spline_new {n : ℕ} {xs ys : ℕ → ℝ} {s : Spline} (h : Spline.new n xs ys = some s) :
    2 ≤ n ∧ Increasing n xs ∧ s.xs = xs ∧ s.ys = ys ∧ s.sd 0 = 0 ∧ s.sd (n - 1) = 0 ∧
    ∀ i, i + 2 < n →
      (xs (i + 1) - xs i) * s.sd i + 2 * (xs (i + 2) - xs i) * s.sd (i + 1)
        + (xs (i + 2) - xs (i + 1)) * s.sd (i + 2)
      = 6 * ((ys (i + 2) - ys (i + 1)) / (xs (i + 2) - xs (i + 1)) - (ys (i + 1) - ys i) / (xs (i + 1) - xs i)) := by
  unfold Spline.new at h
  by_cases hn : n < 2
  · rw [if_pos hn] at h; exact absurd h (by simp)
  rw [if_neg hn] at h
  by_cases ha : (List.range (n - 1)).any (fun i => decide (xs (i + 1) ≤ xs i)) = true
  · rw [if_pos ha] at h; exact absurd h (by simp)
  rw [if_neg ha] at h
  have hx : Increasing n xs := by
    intro i hi
    by_contra hc
    exact ha (List.any_eq_true.2 ⟨i, List.mem_range.2 (by omega), by simpa using not_lt.1 hc⟩)
  obtain rfl := Option.some.inj h
  obtain ⟨h0, h0', hz, hb, he⟩ := forward_spec hx (ys := ys) (n - 2) (by omega)
  obtain ⟨b1, b2⟩ := backward_spec
    ((List.range' 1 (n - 2)).foldl (forwardStep xs ys) (fun _ => 0, fun _ => 0)).2 (n - 1)
    ((List.range' 1 (n - 2)).foldl (forwardStep xs ys) (fun _ => 0, fun _ => 0)).1
  refine ⟨by omega, hx, rfl, rfl, ?_, ?_, fun i hi => ?_⟩
  · dsimp only
    rw [b2 0 (by omega), h0, h0']; ring
  · dsimp only
    rw [b1 (n - 1) le_rfl, hz _ (by omega)]
  · dsimp only
    have hA := b2 i (by omega)
    have hB := b2 (i + 1) (by omega)
    obtain ⟨hp, e1, e2⟩ := he (i + 1) (by omega) (by omega)
    simp only [Nat.add_sub_cancel] at hp e1 e2
    have q1 : i + 1 + 1 = i + 2 := rfl
    rw [q1] at hp e1 e2 hB
    generalize ((List.range' 1 (n - 2)).foldl (forwardStep xs ys) (fun _ => 0, fun _ => 0)) = f at *
    generalize (List.range (n - 1)).reverse.foldl (backwardStep f.2) f.1 = r at *
    have hd1 : 0 < xs (i + 1) - xs i := sub_pos.2 (hx i (by omega))
    have hd2 : 0 < xs (i + 2) - xs (i + 1) := sub_pos.2 (hx (i + 1) (by omega))
    have hd : 0 < xs (i + 2) - xs i := by linarith
    generalize ((ys (i + 2) - ys (i + 1)) / (xs (i + 2) - xs (i + 1)) - (ys (i + 1) - ys i) / (xs (i + 1) - xs i)) = D at *
    have hsig : (xs (i + 1) - xs i) / (xs (i + 2) - xs i) * (xs (i + 2) - xs i) = xs (i + 1) - xs i :=
      div_mul_cancel₀ _ hd.ne'
    have hD : 6 * D / (xs (i + 2) - xs i) * (xs (i + 2) - xs i) = 6 * D := div_mul_cancel₀ _ hd.ne'
    generalize (xs (i + 1) - xs i) / (xs (i + 2) - xs i) = sg at *
    generalize 6 * D / (xs (i + 2) - xs i) = E at *
    have e1' : f.1 (i + 1) * (sg * f.1 i + 2) = sg - 1 := by rw [e1]; exact div_mul_cancel₀ _ hp
    have e2' : f.2 (i + 1) * (sg * f.1 i + 2) = E - sg * f.2 i := by rw [e2]; exact div_mul_cancel₀ _ hp
    have hsum : (xs (i + 2) - xs (i + 1)) = (1 - sg) * (xs (i + 2) - xs i) := by linarith
    have key : sg * r i + 2 * r (i + 1) + (1 - sg) * r (i + 2) = E := by
      rw [hA]
      have : (sg * f.1 i + 2) * r (i + 1) = (sg - 1) * r (i + 2) + (E - sg * f.2 i) := by
        rw [hB, ← e1', ← e2']; ring
      linear_combination this
    rw [hsum, ← hD, ← key, ← hsig]; ring

/-! ## Gluing -/

theorem right_segment {n : ℕ} {xs : ℕ → ℝ} (hx : Increasing n xs) {idx : ℝ → ℕ}
    (hi : ∀ x, IsSegment n xs x (idx x)) (x : ℝ) : ∀ᶠ y in 𝓝[≥] x, idx y = idx x := by
  by_cases h : idx x + 2 < n
  · have hlt := (hi x).2.2 h
    filter_upwards [self_mem_nhdsWithin, nhdsWithin_le_nhds (Iio_mem_nhds hlt)] with y hy1 hy2
    exact (hi y).unique hx ⟨(hi x).1, fun hk => ((hi x).2.1 hk).trans hy1, fun _ => hy2⟩
  · filter_upwards [self_mem_nhdsWithin] with y hy1
    exact (hi y).unique hx ⟨(hi x).1, fun hk => ((hi x).2.1 hk).trans hy1, fun h' => absurd h' h⟩

theorem left_segment {n : ℕ} {xs : ℕ → ℝ} (hx : Increasing n xs) {idx : ℝ → ℕ}
    (hi : ∀ x, IsSegment n xs x (idx x)) (x : ℝ) :
    ∃ j, (j = idx x ∨ j + 1 = idx x ∧ x = xs (idx x)) ∧ ∀ᶠ y in 𝓝[<] x, idx y = j := by
  obtain ⟨h1, h2, h3⟩ := hi x
  by_cases h0 : 0 < idx x
  · rcases (h2 h0).lt_or_eq with hlt | heq
    · refine ⟨idx x, Or.inl rfl, ?_⟩
      filter_upwards [self_mem_nhdsWithin, nhdsWithin_le_nhds (Ioi_mem_nhds hlt)] with y hy1 hy2
      exact (hi y).unique hx ⟨h1, fun _ => le_of_lt hy2, fun h => lt_trans hy1 (h3 h)⟩
    · refine ⟨idx x - 1, Or.inr ⟨by omega, heq.symm⟩, ?_⟩
      have hlt : xs (idx x - 1) < x := (hx.lt (by omega) (by omega)).trans_eq heq
      filter_upwards [self_mem_nhdsWithin, nhdsWithin_le_nhds (Ioi_mem_nhds hlt)] with y hy1 hy2
      refine (hi y).unique hx ⟨by omega, fun _ => le_of_lt hy2, fun h => ?_⟩
      have e : idx x - 1 + 1 = idx x := by omega
      rw [e, heq]; exact hy1
  · refine ⟨idx x, Or.inl rfl, ?_⟩
    filter_upwards [self_mem_nhdsWithin] with y hy1
    exact (hi y).unique hx ⟨h1, fun h => absurd h h0, fun h => lt_trans hy1 (h3 h)⟩

theorem glue_deriv {n : ℕ} {xs : ℕ → ℝ} (hx : Increasing n xs) {idx : ℝ → ℕ}
    (hi : ∀ x, IsSegment n xs x (idx x)) {P P' : ℕ → ℝ → ℝ} (hP : ∀ k x, k + 1 < n → HasDerivAt (P k) (P' k x) x)
    (h0 : ∀ k, k + 2 < n → P k (xs (k + 1)) = P (k + 1) (xs (k + 1)))
    (h1 : ∀ k, k + 2 < n → P' k (xs (k + 1)) = P' (k + 1) (xs (k + 1))) (x : ℝ) :
    HasDerivAt (fun y => P (idx y) y) (P' (idx x) x) x := by
  rw [← hasDerivWithinAt_univ, ← Set.Iic_union_Ici (a := x)]
  have hk := (hi x).1
  refine HasDerivWithinAt.union ?_ ?_
  · obtain ⟨j, hj, he⟩ := left_segment hx hi x
    have hv : P j x = P (idx x) x ∧ P' j x = P' (idx x) x := by
      rcases hj with rfl | ⟨hj, hxx⟩
      · exact ⟨rfl, rfl⟩
      · have a := h0 j (by omega)
        have b := h1 j (by omega)
        rw [hj, ← hxx] at a b
        exact ⟨a, b⟩
    rw [← hv.2]
    have hj1 : j + 1 < n := by rcases hj with rfl | ⟨hj, _⟩ <;> omega
    refine ((hP j x hj1).hasDerivWithinAt).congr_of_eventuallyEq ?_ hv.1.symm
    rw [← Set.Iio_union_right, nhdsWithin_union]
    refine eventually_sup.2 ⟨?_, ?_⟩
    · filter_upwards [he] with y hy
      rw [hy]
    · rw [nhdsWithin_singleton, eventually_pure]; exact hv.1.symm
  · refine ((hP (idx x) x hk).hasDerivWithinAt).congr_of_eventuallyEq ?_ rfl
    filter_upwards [right_segment hx hi x] with y hy
    rw [hy]

theorem glue_continuous {n : ℕ} {xs : ℕ → ℝ} (hx : Increasing n xs) {idx : ℝ → ℕ}
    (hi : ∀ x, IsSegment n xs x (idx x)) {P : ℕ → ℝ → ℝ} (hP : ∀ k, k + 1 < n → Continuous (P k))
    (h0 : ∀ k, k + 2 < n → P k (xs (k + 1)) = P (k + 1) (xs (k + 1))) :
    Continuous (fun y => P (idx y) y) := by
  rw [continuous_iff_continuousAt]
  intro x
  rw [← continuousWithinAt_univ, ← Set.Iic_union_Ici (a := x)]
  have hk := (hi x).1
  refine ContinuousWithinAt.union ?_ ?_
  · obtain ⟨j, hj, he⟩ := left_segment hx hi x
    have hv : P j x = P (idx x) x := by
      rcases hj with rfl | ⟨hj, hxx⟩
      · rfl
      · have a := h0 j (by omega)
        rw [hj, ← hxx] at a
        exact a
    have hj1 : j + 1 < n := by rcases hj with rfl | ⟨hj, _⟩ <;> omega
    refine ((hP j hj1).continuousWithinAt).congr_of_eventuallyEq ?_ hv.symm
    rw [← Set.Iio_union_right, nhdsWithin_union]
    refine eventually_sup.2 ⟨?_, ?_⟩
    · filter_upwards [he] with y hy
      rw [hy]
    · rw [nhdsWithin_singleton, eventually_pure]; exact hv.symm
  · refine ((hP (idx x) hk).continuousWithinAt).congr_of_eventuallyEq ?_ rfl
    filter_upwards [right_segment hx hi x] with y hy
    rw [hy]

/-! ## Derivatives of a piece -/

/-- First derivative of a piece. -/
noncomputable def piece1 (s : Spline) (k : ℕ) (x : ℝ) : ℝ :=
  (s.ys (k + 1) - s.ys k) / (s.xs (k + 1) - s.xs k)
    - (3 * ((s.xs (k + 1) - x) / (s.xs (k + 1) - s.xs k)) ^ 2 - 1) / 6 * (s.xs (k + 1) - s.xs k) * s.sd k
    + (3 * ((x - s.xs k) / (s.xs (k + 1) - s.xs k)) ^ 2 - 1) / 6 * (s.xs (k + 1) - s.xs k) * s.sd (k + 1)

/-- Second derivative of a piece. -/
noncomputable def piece2 (s : Spline) (k : ℕ) (x : ℝ) : ℝ :=
  (s.xs (k + 1) - x) / (s.xs (k + 1) - s.xs k) * s.sd k + (x - s.xs k) / (s.xs (k + 1) - s.xs k) * s.sd (k + 1)

theorem piece_deriv (s : Spline) (k : ℕ) (x : ℝ) (h : s.xs (k + 1) - s.xs k ≠ 0) :
    HasDerivAt (s.piece k) (piece1 s k x) x := by
  have ha : HasDerivAt (fun x => (s.xs (k + 1) - x) / (s.xs (k + 1) - s.xs k)) (-1 / (s.xs (k + 1) - s.xs k)) x :=
    ((hasDerivAt_id' x).const_sub _).div_const _
  have hb : HasDerivAt (fun x => (x - s.xs k) / (s.xs (k + 1) - s.xs k)) (1 / (s.xs (k + 1) - s.xs k)) x :=
    ((hasDerivAt_id' x).sub_const _).div_const _
  unfold piece1
  refine HasDerivAt.congr_deriv (((ha.mul_const (s.ys k)).add (hb.mul_const (s.ys (k + 1)))).add
    ((((((ha.mul ha).mul ha).sub ha).mul_const (s.sd k)).add
      ((((hb.mul hb).mul hb).sub hb).mul_const (s.sd (k + 1)))).mul_const
        ((s.xs (k + 1) - s.xs k) * (s.xs (k + 1) - s.xs k) / 6))) ?_
  generalize s.xs (k + 1) - s.xs k = d at *
  simp only [Pi.mul_apply]
  generalize s.xs (k + 1) - x = p
  generalize x - s.xs k = q
  field_simp
  ring

theorem piece1_deriv (s : Spline) (k : ℕ) (x : ℝ) (h : s.xs (k + 1) - s.xs k ≠ 0) :
    HasDerivAt (piece1 s k) (piece2 s k x) x := by
  have ha : HasDerivAt (fun x => (s.xs (k + 1) - x) / (s.xs (k + 1) - s.xs k)) (-1 / (s.xs (k + 1) - s.xs k)) x :=
    ((hasDerivAt_id' x).const_sub _).div_const _
  have hb : HasDerivAt (fun x => (x - s.xs k) / (s.xs (k + 1) - s.xs k)) (1 / (s.xs (k + 1) - s.xs k)) x :=
    ((hasDerivAt_id' x).sub_const _).div_const _
  unfold piece2
  refine HasDerivAt.congr_deriv (((((((ha.pow 2).const_mul 3).sub_const 1).div_const 6).mul_const
    (s.xs (k + 1) - s.xs k)).mul_const (s.sd k)).const_sub ((s.ys (k + 1) - s.ys k) / (s.xs (k + 1) - s.xs k)) |>.add
    ((((((hb.pow 2).const_mul 3).sub_const 1).div_const 6).mul_const
      (s.xs (k + 1) - s.xs k)).mul_const (s.sd (k + 1)))) ?_
  generalize s.xs (k + 1) - s.xs k = d at *
  generalize s.xs (k + 1) - x = p
  generalize x - s.xs k = q
  field_simp
  push_cast
  have hd : d * d⁻¹ = 1 := mul_inv_cancel₀ h
  ring_nf
  linear_combination (6 * p * s.sd k + 6 * q * s.sd (1 + k)) * hd

theorem piece2_continuous (s : Spline) (k : ℕ) : Continuous (piece2 s k) := by
  unfold piece2
  fun_prop

end Verif.Interp
