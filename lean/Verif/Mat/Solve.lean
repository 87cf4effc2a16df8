import Verif.Mat.Elim

/-! # Lemmas about LU, determinant, inverse and Cholesky -/

namespace Verif.Mat


/-! ## LU -/

section LU
variable {K : Type*} [Field K] [LinearOrder K] [IsStrictOrderedRing K] {n : Nat}

omit [IsStrictOrderedRing K] in
/-- The pivot row is at or below `k`, its value is the absolute value of its entry, and no entry below is
larger. -/
theorem pivot_spec (a : Mat K n n) (k : Fin n) :
    k ≤ (pivot a k).1 ∧ (pivot a k).2 = |a (pivot a k).1 k| ∧
      ∀ r, k ≤ r → |a r k| ≤ (pivot a k).2 := by
  have := foldl_rng (fun s r => if |a r k| > s.2 then (r, |a r k|) else s)
    (fun t (s : Fin n × K) => k ≤ s.1 ∧ s.2 = |a s.1 k| ∧ ∀ r : Fin n, k ≤ r → r.1 < t → |a r k| ≤ s.2)
    (a := k.1 + 1) (b := n) (Nat.le_refl _) (by omega)
    (by
      intro t ht s h1 h2 ⟨h3, h4, h5⟩
      split
      · refine ⟨Fin.le_def.2 (by dsimp only; omega), rfl, ?_⟩
        intro r hr hrt
        rcases Nat.lt_succ_iff_lt_or_eq.1 hrt with h | h
        · exact le_trans (h5 r hr h) (le_of_lt ‹_›)
        · have : r = ⟨t, ht⟩ := Fin.ext h
          rw [this]
      · refine ⟨h3, h4, ?_⟩
        intro r hr hrt
        rcases Nat.lt_succ_iff_lt_or_eq.1 hrt with h | h
        · exact h5 r hr h
        · have : r = ⟨t, ht⟩ := Fin.ext h
          rw [this]
          exact not_lt.1 ‹_›)
    (s := (k, |a k k|))
    ⟨le_refl _, rfl, by
      intro r h1 h2
      have : r = k := Fin.ext (by have := Fin.le_def.1 h1; omega)
      rw [this]⟩
  exact ⟨this.1, this.2.1, fun r hr => this.2.2 r hr r.2⟩

/-- Loop invariant of `lu_decompose` after `k` columns. -/
def LuInv (A : Mat K n n) (k : Nat) (s : Lu K n) : Prop :=
  ∃ σ : Equiv.Perm (Fin n), s.piv = σ ∧ s.sign = (Equiv.Perm.sign σ : ℤ) ∧
    (∀ i : Fin n, i.1 < k → s.lu i i ≠ 0) ∧
    ∀ i j, A (σ i) j = (∑ t with t < i ∧ t < j ∧ t.1 < k, s.lu i t * s.lu t j)
      + if j < i ∧ j.1 < k then s.lu i j * s.lu j j else s.lu i j

omit [LinearOrder K] [IsStrictOrderedRing K] in
theorem luInv_swap {A : Mat K n n} {k p : Fin n} (hp : k ≤ p) {s : Lu K n} (h : LuInv A k.1 s)
    (hne : p ≠ k) :
    LuInv A k.1 ⟨swapRows s.lu k p, swapIdx s.piv k p, -s.sign⟩ := by
  obtain ⟨σ, h1, h2, h3, h4⟩ := h
  refine ⟨σ * Equiv.swap k p, ?_, ?_, ?_, ?_⟩
  · simp only [swapIdx_eq, h1]; rfl
  · simp only [h2, Equiv.Perm.sign_mul, Equiv.Perm.sign_swap (Ne.symm hne)]; simp
  · intro i hi
    have e1 : Equiv.swap k p i = i :=
      Equiv.swap_apply_of_ne_of_ne (by intro e; subst e; omega)
        (by intro e; subst e; have := Fin.le_def.1 hp; omega)
    simp only [swapRows_eq, e1]
    exact h3 i hi
  · intro i j
    simp only [swapRows_eq, Equiv.Perm.mul_apply]
    have low : ∀ t : Fin n, t.1 < k.1 → Equiv.swap k p t = t := fun t ht =>
      Equiv.swap_apply_of_ne_of_ne (by intro e; subst e; omega)
        (by intro e; subst e; have := Fin.le_def.1 hp; omega)
    rw [h4]
    by_cases hi : i.1 < k.1
    · rw [low i hi]
      congr 1
      · apply Finset.sum_congr rfl
        intro t ht
        rw [low t (Finset.mem_filter.1 ht).2.2.2]
      · by_cases hj : j < i ∧ j.1 < k.1
        · rw [if_pos hj, if_pos hj, low j hj.2]
        · rw [if_neg hj, if_neg hj]
    · have hq : k.1 ≤ (Equiv.swap k p i).1 := by
        rw [Equiv.swap_apply_def]
        have := Fin.le_def.1 hp
        split
        · omega
        · split
          · omega
          · omega
      have hi' : k.1 ≤ i.1 := by omega
      congr 1
      · apply Finset.sum_congr
        · ext t
          simp only [Finset.mem_filter, Finset.mem_univ, true_and, Fin.lt_def]
          constructor
          · rintro ⟨_, h6, h7⟩; exact ⟨by omega, h6, h7⟩
          · rintro ⟨_, h6, h7⟩; exact ⟨by omega, h6, h7⟩
        · intro t ht
          rw [low t (Finset.mem_filter.1 ht).2.2.2]
      · by_cases hj : j.1 < k.1
        · rw [if_pos ⟨Fin.lt_def.2 (by omega), hj⟩, if_pos ⟨Fin.lt_def.2 (by omega), hj⟩, low j hj]
        · rw [if_neg (fun h => hj h.2), if_neg (fun h => hj h.2)]

theorem luInv_elim {A : Mat K n n} {k : Fin n} {s : Lu K n} (h : LuInv A k.1 s) (hk : s.lu k k ≠ 0) :
    LuInv A (k.1 + 1) { s with lu := luElim s.lu k } := by
  obtain ⟨σ, h1, h2, h3, h4⟩ := h
  have rowle : ∀ (i : Fin n), ¬ k < i → luElim s.lu k i = s.lu i := by
    intro i hi; funext j; rw [luElim_apply, if_neg hi]
  have collt : ∀ (i j : Fin n), j < k → luElim s.lu k i j = s.lu i j := by
    intro i j hj
    rw [luElim_apply]
    split
    · rw [if_neg (ne_of_lt hj), if_neg (not_lt_of_gt hj)]
    · rfl
  refine ⟨σ, h1, h2, ?_, ?_⟩
  · intro i hi
    dsimp only
    rw [rowle i (by rw [Fin.lt_def]; omega)]
    rcases Nat.lt_succ_iff_lt_or_eq.1 hi with h | h
    · exact h3 i h
    · have : i = k := Fin.ext h
      rw [this]; exact hk
  · intro i j
    dsimp only
    rw [h4]
    by_cases hi : k < i
    · rcases lt_trichotomy j k with hj | hj | hj
      · -- column already finished
        have e : (j < i ∧ j.1 < k.1 + 1) ∧ (j < i ∧ j.1 < k.1) := by
          simp only [Fin.lt_def] at hi hj ⊢; omega
        rw [if_pos e.1, if_pos e.2, collt i j hj, collt j j hj]
        congr 1
        apply Finset.sum_congr
        · ext t; simp only [Finset.mem_filter, Finset.mem_univ, true_and, Fin.lt_def] at hj ⊢; omega
        · intro t ht
          have ht' := (Finset.mem_filter.1 ht).2
          simp only [Fin.lt_def] at ht' hj
          rw [collt i t (Fin.lt_def.2 (by omega)), collt t j (Fin.lt_def.2 hj)]
      · subst hj
        rw [if_neg (fun h : j < i ∧ j.1 < j.1 => Nat.lt_irrefl _ h.2),
          if_pos (⟨hi, Nat.lt_succ_self _⟩ : j < i ∧ j.1 < j.1 + 1), luElim_apply s.lu j i j,
          if_pos hi, if_pos rfl, rowle j (lt_irrefl _), div_mul_cancel₀ _ hk]
        congr 1
        apply Finset.sum_congr
        · ext t; simp only [Finset.mem_filter, Finset.mem_univ, true_and, Fin.lt_def]; omega
        · intro t ht
          have ht' := (Finset.mem_filter.1 ht).2
          rw [collt i t ht'.2.1, rowle t (not_lt_of_gt ht'.2.1)]
      · have hset : (Finset.univ.filter fun t : Fin n => t < i ∧ t < j ∧ t.1 < k.1 + 1)
            = insert k (Finset.univ.filter fun t : Fin n => t < i ∧ t < j ∧ t.1 < k.1) := by
          ext t
          simp only [Finset.mem_filter, Finset.mem_univ, true_and, Finset.mem_insert, Fin.lt_def,
            Fin.ext_iff] at hi hj ⊢
          omega
        have hnk : ¬ k ∈ (Finset.univ.filter fun t : Fin n => t < i ∧ t < j ∧ t.1 < k.1) := by
          simp
        have hjk : ¬ (j < i ∧ j.1 < k.1) := by simp only [Fin.lt_def] at hj ⊢; omega
        have hjk1 : ¬ (j < i ∧ j.1 < k.1 + 1) := by simp only [Fin.lt_def] at hj ⊢; omega
        rw [hset, Finset.sum_insert hnk, if_neg hjk, if_neg hjk1, luElim_apply s.lu k i k, if_pos hi,
          if_pos rfl, luElim_apply s.lu k i j, if_pos hi, if_neg (ne_of_gt hj), if_pos hj,
          rowle k (lt_irrefl _)]
        have : (∑ t with t < i ∧ t < j ∧ t.1 < k.1, luElim s.lu k i t * luElim s.lu k t j)
            = ∑ t with t < i ∧ t < j ∧ t.1 < k.1, s.lu i t * s.lu t j := by
          apply Finset.sum_congr rfl
          intro t ht
          have ht' := (Finset.mem_filter.1 ht).2.2.2
          rw [collt i t (Fin.lt_def.2 ht'), rowle t (not_lt_of_gt (Fin.lt_def.2 ht'))]
        rw [this]
        ring
    · -- finished row
      rw [rowle i hi]
      have hle : i.1 ≤ k.1 := by rw [Fin.lt_def] at hi; omega
      congr 1
      · apply Finset.sum_congr
        · ext t; simp only [Finset.mem_filter, Finset.mem_univ, true_and, Fin.lt_def]; omega
        · intro t ht
          have ht' := (Finset.mem_filter.1 ht).2
          simp only [Fin.lt_def] at ht'
          rw [rowle t (by rw [Fin.lt_def]; omega)]
      · by_cases hj : j < i
        · have hj' := Fin.lt_def.1 hj
          rw [if_pos ⟨hj, by omega⟩, if_pos ⟨hj, by omega⟩, rowle j (by rw [Fin.lt_def]; omega)]
        · rw [if_neg (fun h => hj h.1), if_neg (fun h => hj h.1)]

theorem luDecompose_inv {eps : K} (he : 0 ≤ eps) {A : Mat K n n} {d : Lu K n}
    (h : luDecompose eps A = some d) : LuInv A n d := by
  unfold luDecompose at h
  refine foldlM_rng (luStep eps) (LuInv A) (Nat.le_refl _) (Nat.zero_le _) ?_ ?_ h
  · intro k hk s s' _ _ hinv hs
    unfold luStep at hs
    dsimp only at hs
    obtain ⟨hp1, hp2, hp3⟩ := pivot_spec s.lu ⟨k, hk⟩
    split at hs
    · cases hs
    · rename_i hpe
      have hpos : 0 < |s.lu (pivot s.lu ⟨k, hk⟩).1 ⟨k, hk⟩| := by
        rw [← hp2]; exact lt_of_le_of_lt he (not_le.1 hpe)
      have hne := abs_pos.1 hpos
      injection hs with hs
      subst hs
      split
      · rename_i hpk
        have := luInv_swap hp1 hinv hpk
        refine luInv_elim (k := ⟨k, hk⟩) this ?_
        simp only [swapRows_eq, Equiv.swap_apply_left]
        exact hne
      · rename_i hpk
        refine luInv_elim (k := ⟨k, hk⟩) hinv ?_
        rw [not_not.1 hpk] at hne
        exact hne
  · refine ⟨1, rfl, by simp, by intro i hi; omega, ?_⟩
    intro i j
    simp

/-- Unit lower factor stored in `lu`. -/
def lowerOf (d : Lu K n) : Matrix (Fin n) (Fin n) K :=
  Matrix.of fun i j => if j < i then d.lu i j else if i = j then 1 else 0

/-- Upper factor stored in `lu`. -/
def upperOf (d : Lu K n) : Matrix (Fin n) (Fin n) K :=
  Matrix.of fun i j => if i ≤ j then d.lu i j else 0

omit [LinearOrder K] [IsStrictOrderedRing K] in
theorem luInv_mul {A : Mat K n n} {d : Lu K n} {σ : Equiv.Perm (Fin n)}
    (h : ∀ i j, A (σ i) j = (∑ t with t < i ∧ t < j ∧ t.1 < n, d.lu i t * d.lu t j)
      + if j < i ∧ j.1 < n then d.lu i j * d.lu j j else d.lu i j) (i j : Fin n) :
    (lowerOf d * upperOf d) i j = A (σ i) j := by
  rw [h, Matrix.mul_apply]
  simp only [lowerOf, upperOf, Matrix.of_apply]
  by_cases hj : j < i
  · have e : ∀ t, (if t < i then d.lu i t else if i = t then 1 else 0) * (if t ≤ j then d.lu t j else 0)
        = (if t < i ∧ t < j ∧ t.1 < n then d.lu i t * d.lu t j else 0)
          + (if t = j then d.lu i j * d.lu j j else 0) := by
      intro t
      have := t.2
      rcases lt_trichotomy t j with ht | ht | ht
      · rw [if_pos (lt_trans ht hj), if_pos (le_of_lt ht), if_pos ⟨lt_trans ht hj, ht, this⟩,
          if_neg (ne_of_lt ht)]; ring
      · subst ht; simp [hj]
      · rw [if_neg (not_le.2 ht), if_neg (fun h : t < i ∧ t < j ∧ t.1 < n => not_lt_of_gt ht h.2.1),
          if_neg (ne_of_gt ht)]; ring
    rw [Finset.sum_congr rfl (fun t _ => e t), Finset.sum_add_distrib, Finset.sum_filter,
      Finset.sum_ite_eq' Finset.univ j, if_pos (Finset.mem_univ _), if_pos ⟨hj, j.2⟩]
  · have e : ∀ t, (if t < i then d.lu i t else if i = t then 1 else 0) * (if t ≤ j then d.lu t j else 0)
        = (if t < i ∧ t < j ∧ t.1 < n then d.lu i t * d.lu t j else 0)
          + (if t = i then d.lu i j else 0) := by
      intro t
      have := t.2
      have hij := not_lt.1 hj
      rcases lt_trichotomy t i with ht | ht | ht
      · rw [if_pos ht, if_pos (le_of_lt (lt_of_lt_of_le ht hij)), if_pos ⟨ht, lt_of_lt_of_le ht hij, this⟩,
          if_neg (ne_of_lt ht)]; ring
      · subst ht; simp [hij]
      · rw [if_neg (not_lt_of_gt ht), if_neg (ne_of_lt ht),
          if_neg (fun h : t < i ∧ t < j ∧ t.1 < n => not_lt_of_gt ht h.1),
          if_neg (ne_of_gt ht)]; ring
    rw [Finset.sum_congr rfl (fun t _ => e t), Finset.sum_add_distrib, Finset.sum_filter,
      Finset.sum_ite_eq' Finset.univ i, if_pos (Finset.mem_univ _), if_neg (fun h => hj h.1)]

/-! ### Triangular solves -/

omit [LinearOrder K] [IsStrictOrderedRing K] in
/-- Forward substitution with a division by `dg i` (1 for LU, `l i i` for Cholesky). -/
theorem forward_spec (l : Mat K n n) (dg : Fin n → K) (hd : ∀ i, dg i ≠ 0) (b : Fin n → K) (i : Fin n) :
    let y := (rng n 0 n).foldl (fun x i =>
      Function.update x i ((rng n 0 i.1).foldl (fun s j => s - l i j * x j) (x i) / dg i)) b
    dg i * y i + (∑ j with j < i, l i j * y j) = b i := by
  have := foldl_rng (fun x i =>
      Function.update x i ((rng n 0 i.1).foldl (fun s j => s - l i j * x j) (x i) / dg i))
    (fun t (y : Fin n → K) => (∀ i : Fin n, i.1 < t → dg i * y i + (∑ j with j < i, l i j * y j) = b i) ∧
      ∀ i : Fin n, t ≤ i.1 → y i = b i) (a := 0) (b := n) (Nat.le_refl _) (Nat.zero_le _)
    (by
      intro t ht y _ _ ⟨h1, h2⟩
      rw [foldl_sub_sum, sum_rng]
      generalize hv : (y ⟨t, ht⟩ - ∑ i with 0 ≤ i.1 ∧ i.1 < (⟨t, ht⟩ : Fin n).1, l ⟨t, ht⟩ i * y i) / dg ⟨t, ht⟩
        = v
      have hsame : ∀ j : Fin n, j.1 ≠ t → Function.update y ⟨t, ht⟩ v j = y j := by
        intro j hj
        exact Function.update_of_ne (fun e => hj (by rw [e])) _ _
      refine ⟨?_, ?_⟩
      · intro i hi
        rcases Nat.lt_succ_iff_lt_or_eq.1 hi with h | h
        · rw [← h1 i h, hsame i (by omega)]
          congr 1
          apply Finset.sum_congr rfl
          intro j hj
          have := Fin.lt_def.1 (Finset.mem_filter.1 hj).2
          rw [hsame j (by omega)]
        · have e : i = ⟨t, ht⟩ := Fin.ext h
          subst e
          rw [Function.update_self, ← h2 _ (Nat.le_refl _)]
          have : (∑ j with j < (⟨t, ht⟩ : Fin n), l ⟨t, ht⟩ j * Function.update y ⟨t, ht⟩ v j)
              = ∑ i with 0 ≤ i.1 ∧ i.1 < (⟨t, ht⟩ : Fin n).1, l ⟨t, ht⟩ i * y i := by
            apply Finset.sum_congr
            · ext j; simp [Fin.lt_def]
            · intro j hj
              have := (Finset.mem_filter.1 hj).2.2
              rw [hsame j (by dsimp only at this; omega)]
          rw [this, ← hv, mul_div_cancel₀ _ (hd _)]; ring
      · intro i hi
        rw [hsame i (by omega), h2 i (by omega)])
    (s := b) ⟨by intro i hi; omega, fun _ _ => rfl⟩
  exact this.1 i i.2

omit [LinearOrder K] [IsStrictOrderedRing K] in
/-- Backward substitution with the coefficients `u i j`, `j > i`, and the diagonal `dg`. -/
theorem backward_spec (u : Mat K n n) (dg : Fin n → K) (hd : ∀ i, dg i ≠ 0) (b : Fin n → K) (i : Fin n) :
    let y := (rng n 0 n).reverse.foldl (fun x i =>
      Function.update x i ((rng n (i.1 + 1) n).foldl (fun s j => s - u i j * x j) (x i) / dg i)) b
    dg i * y i + (∑ j with i < j, u i j * y j) = b i := by
  have := foldl_rev (fun x i =>
      Function.update x i ((rng n (i.1 + 1) n).foldl (fun s j => s - u i j * x j) (x i) / dg i))
    (fun t (y : Fin n → K) => (∀ i : Fin n, t ≤ i.1 → dg i * y i + (∑ j with i < j, u i j * y j) = b i) ∧
      ∀ i : Fin n, i.1 < t → y i = b i)
    (by
      intro t ht y ⟨h1, h2⟩
      rw [foldl_sub_sum, sum_rng]
      generalize hv : (y ⟨t, ht⟩ - ∑ i with (⟨t, ht⟩ : Fin n).1 + 1 ≤ i.1 ∧ i.1 < n, u ⟨t, ht⟩ i * y i)
        / dg ⟨t, ht⟩ = v
      have hsame : ∀ j : Fin n, j.1 ≠ t → Function.update y ⟨t, ht⟩ v j = y j := by
        intro j hj
        exact Function.update_of_ne (fun e => hj (by rw [e])) _ _
      refine ⟨?_, ?_⟩
      · intro i hi
        rcases Nat.lt_or_eq_of_le hi with h | h
        · rw [← h1 i h, hsame i (by omega)]
          congr 1
          apply Finset.sum_congr rfl
          intro j hj
          have := Fin.lt_def.1 (Finset.mem_filter.1 hj).2
          rw [hsame j (by omega)]
        · have e : i = ⟨t, ht⟩ := Fin.ext h.symm
          subst e
          rw [Function.update_self, ← h2 _ (Nat.lt_succ_self _)]
          have : (∑ j with (⟨t, ht⟩ : Fin n) < j, u ⟨t, ht⟩ j * Function.update y ⟨t, ht⟩ v j)
              = ∑ i with (⟨t, ht⟩ : Fin n).1 + 1 ≤ i.1 ∧ i.1 < n, u ⟨t, ht⟩ i * y i := by
            apply Finset.sum_congr
            · ext j; simp [Fin.lt_def]
            · intro j hj
              have := (Finset.mem_filter.1 hj).2.1
              rw [hsame j (by dsimp only at this; omega)]
          rw [this, ← hv, mul_div_cancel₀ _ (hd _)]; ring
      · intro i hi
        rw [hsame i (by omega), h2 i (by omega)])
    (s := b) ⟨by intro i hi; have := i.2; omega, fun _ _ => rfl⟩
  exact this.1 i (Nat.zero_le _)

theorem luSolve_spec {A : Mat K n n} {d : Lu K n} (h : LuInv A n d) (b : Fin n → K) :
    (Matrix.of A).mulVec (d.solve b) = b := by
  obtain ⟨σ, h1, _, h3, h4⟩ := h
  have hU : ∀ i, (upperOf d).mulVec (d.solve b) i
      = (rng n 0 n).foldl (fun x i =>
          Function.update x i ((rng n 0 i.1).foldl (fun s j => s - d.lu i j * x j) (x i)))
        (fun i => b (d.piv i)) i := by
    intro i
    have := backward_spec d.lu (fun i => d.lu i i) (fun i => h3 i i.2)
      ((rng n 0 n).foldl (fun x i =>
          Function.update x i ((rng n 0 i.1).foldl (fun s j => s - d.lu i j * x j) (x i)))
        (fun i => b (d.piv i))) i
    dsimp only at this
    rw [← this]
    unfold Lu.solve
    rw [vecLoop (fun i => b (d.piv i))]
    dsimp only
    generalize (rng n 0 n).reverse.foldl _ _ = x
    rw [Matrix.mulVec, dotProduct]
    simp only [upperOf, Matrix.of_apply]
    rw [Finset.sum_filter]
    have e : ∀ j, (if i ≤ j then d.lu i j else 0) * x j
        = (if i < j then d.lu i j * x j else 0) + (if j = i then d.lu i i * x i else 0) := by
      intro j
      rcases lt_trichotomy i j with ht | ht | ht
      · rw [if_pos (le_of_lt ht), if_pos ht, if_neg (ne_of_gt ht)]; ring
      · subst ht; simp
      · rw [if_neg (not_le.2 ht), if_neg (not_lt_of_gt ht), if_neg (ne_of_lt ht)]; ring
    rw [Finset.sum_congr rfl (fun t _ => e t), Finset.sum_add_distrib,
      Finset.sum_ite_eq' Finset.univ i, if_pos (Finset.mem_univ _), add_comm]
  have hL : ∀ i, (lowerOf d).mulVec ((upperOf d).mulVec (d.solve b)) i = b (d.piv i) := by
    intro i
    rw [show (upperOf d).mulVec (d.solve b) = _ from funext hU]
    have := forward_spec d.lu (fun _ => 1) (fun _ => one_ne_zero) (fun i => b (d.piv i)) i
    simp only [div_one, one_mul] at this
    rw [← this]
    generalize (rng n 0 n).foldl _ _ = x
    rw [Matrix.mulVec, dotProduct]
    simp only [lowerOf, Matrix.of_apply]
    rw [Finset.sum_filter]
    have e : ∀ j, (if j < i then d.lu i j else if i = j then 1 else 0) * x j
        = (if j < i then d.lu i j * x j else 0) + (if j = i then x i else 0) := by
      intro j
      rcases lt_trichotomy j i with ht | ht | ht
      · rw [if_pos ht, if_pos ht, if_neg (ne_of_lt ht)]; ring
      · subst ht; simp
      · rw [if_neg (not_lt_of_gt ht), if_neg (ne_of_lt ht), if_neg (not_lt_of_gt ht), if_neg (ne_of_gt ht)]
        ring
    rw [Finset.sum_congr rfl (fun t _ => e t), Finset.sum_add_distrib,
      Finset.sum_ite_eq' Finset.univ i, if_pos (Finset.mem_univ _), add_comm]
  funext r
  have := hL (σ.symm r)
  rw [Matrix.mulVec_mulVec, h1, Equiv.apply_symm_apply] at this
  rw [← this]
  rw [Matrix.mulVec, Matrix.mulVec, dotProduct, dotProduct]
  apply Finset.sum_congr rfl
  intro j _
  rw [luInv_mul h4, Equiv.apply_symm_apply]
  rfl

end LU


end Verif.Mat
