import Verif.Mat.Solve
import Mathlib.LinearAlgebra.Matrix.Determinant.Basic
import Mathlib.LinearAlgebra.Matrix.Block

/-! # Lemmas about the determinant, the inverses and Cholesky -/

namespace Verif.Mat

section Det
variable {K : Type*} [Field K] {n : Nat}

/-- The trailing block of `a` from index `k`, completed by the identity. -/
def trail (a : Mat K n n) (k : Nat) : Matrix (Fin n) (Fin n) K :=
  Matrix.of fun i j => if i.1 < k ∨ j.1 < k then (if i = j then 1 else 0) else a i j

theorem det_trail_step (a : Mat K n n) (k : Fin n) (hk : a k k ≠ 0) :
    (trail a k.1).det = a k k * (trail (detElim a k) (k.1 + 1)).det := by
  -- clear column `k` below the pivot
  let B : Matrix (Fin n) (Fin n) K := Matrix.of fun i j =>
    trail a k.1 i j - (if k < i then a i k / a k k else 0) * trail a k.1 k j
  have hB : (trail a k.1).det = B.det := by
    refine (Matrix.det_eq_of_forall_row_eq_smul_add_const
      (fun i => -(if k < i then a i k / a k k else 0)) k (by simp) ?_).symm
    intro i j
    simp only [B, Matrix.of_apply]; ring
  -- scale column `k` to a unit column
  let C : Matrix (Fin n) (Fin n) K := Matrix.of fun i j => if j = k then (if i = k then 1 else 0) else B i j
  have hcol : ∀ i, B i k = if i = k then a k k else 0 := by
    intro i
    simp only [B, Matrix.of_apply, trail, Nat.lt_irrefl, or_false, if_false]
    rcases lt_trichotomy i k with h | h | h
    · have := Fin.lt_def.1 h
      rw [if_pos this, if_neg (not_lt_of_gt h), if_neg (ne_of_lt h), if_neg (ne_of_lt h)]; ring
    · subst h; simp
    · have := Fin.lt_def.1 h
      rw [if_neg (by omega), if_pos h, if_neg (ne_of_gt h)]
      field_simp; ring
  have hC : B.det = a k k * C.det := by
    have : B = C.updateCol k (a k k • fun i => if i = k then (1 : K) else 0) := by
      ext i j
      by_cases hj : j = k
      · subst hj; simp [hcol]
      · simp [C, hj]
    rw [this, Matrix.det_updateCol_smul]
    congr 2
    ext i j
    by_cases hj : j = k
    · subst hj; simp [C]
    · simp [hj]
  -- clear row `k` to the right of the pivot
  have hD : C.det = (trail (detElim a k) (k.1 + 1)).det := by
    rw [← Matrix.det_transpose C, ← Matrix.det_transpose (trail (detElim a k) (k.1 + 1))]
    refine Matrix.det_eq_of_forall_row_eq_smul_add_const (fun j => if j = k then 0 else B k j) k (by simp) ?_
    intro j i
    simp only [Matrix.transpose_apply, C, Matrix.of_apply, trail]
    have h1 : ∀ x : Fin n, x.1 < k.1 + 1 ↔ x ≤ k := fun x => by rw [Fin.le_def]; omega
    simp only [h1]
    by_cases hj : j = k
    · subst hj; simp
    · rw [if_neg hj, if_neg hj]
      simp only [le_refl, or_true, if_true]
      by_cases hik : i = k
      · subst hik
        simp [Ne.symm hj]
      · rw [if_neg hik]
        simp only [B, Matrix.of_apply, trail]
        simp only [mul_zero, add_zero]
        rcases lt_or_gt_of_ne hik with h | h
        · have h' := Fin.lt_def.1 h
          rw [if_pos (Or.inl h'), if_neg (not_lt_of_gt h), if_pos (Or.inl (le_of_lt h))]; ring
        · have h' := Fin.lt_def.1 h
          rcases lt_or_gt_of_ne hj with g | g
          · have g' := Fin.lt_def.1 g
            rw [if_pos (Or.inr g'), if_pos h, if_pos (Or.inr g'), if_pos (Or.inr (le_of_lt g)),
              if_neg (Ne.symm hj)]; ring
          · have g' := Fin.lt_def.1 g
            rw [if_neg (by omega), if_pos h, if_neg (by omega), if_neg (by
              rw [not_or, not_le, not_le]; exact ⟨h, g⟩), detElim_apply, if_pos ⟨h, g⟩]
  rw [hB, hC, hD]

variable [LinearOrder K]

omit [LinearOrder K] in
theorem det_trail_swap (a : Mat K n n) {k p : Fin n} (hp : k ≤ p) (hne : p ≠ k) :
    (trail (swapRows a k p) k.1).det = -(trail a k.1).det := by
  have low : ∀ t : Fin n, t.1 < k.1 → Equiv.swap k p t = t := fun t ht =>
    Equiv.swap_apply_of_ne_of_ne (by intro e; subst e; omega)
      (by intro e; subst e; have := Fin.le_def.1 hp; omega)
  have hge : ∀ t : Fin n, k.1 ≤ t.1 → k.1 ≤ (Equiv.swap k p t).1 := by
    intro t ht
    rw [Equiv.swap_apply_def]
    have := Fin.le_def.1 hp
    split
    · omega
    · split <;> omega
  have : trail (swapRows a k p) k.1 = (trail a k.1).submatrix (Equiv.swap k p) id := by
    ext i j
    simp only [trail, Matrix.of_apply, Matrix.submatrix_apply, id, swapRows_eq]
    by_cases hi : i.1 < k.1
    · rw [if_pos (Or.inl hi), low i hi, if_pos (Or.inl hi)]
    · have := hge i (by omega)
      by_cases hj : j.1 < k.1
      · rw [if_pos (Or.inr hj), if_pos (Or.inr hj), if_neg (by intro e; subst e; omega),
          if_neg (by intro e; rw [e] at this; omega)]
      · rw [if_neg (by omega), if_neg (by omega)]
  rw [this, Matrix.det_permute, Equiv.Perm.sign_swap (Ne.symm hne)]
  simp

variable [IsStrictOrderedRing K]

theorem determinant_inv {eps : K} (he : 0 ≤ eps) (A : Mat K n n) {s : Mat K n n × K}
    (h : (rng n 0 n).foldlM (detStep eps) (A, 1) = some s) :
    s.2 = (Matrix.of A).det ∧ s.2 ≠ 0 := by
  have := foldlM_rng (detStep eps)
    (fun k (s : Mat K n n × K) => (Matrix.of A).det = s.2 * (trail s.1 k).det ∧ s.2 ≠ 0)
    (Nat.le_refl _) (Nat.zero_le _) ?_ ?_ h
  · obtain ⟨h1, h2⟩ := this
    refine ⟨?_, h2⟩
    rw [h1]
    have : trail s.1 n = 1 := by
      ext i j
      simp only [trail, Matrix.of_apply, Matrix.one_apply]
      rw [if_pos (Or.inl i.2)]
    rw [this, Matrix.det_one, mul_one]
  · intro k hk s s' _ _ ⟨hinv, hnz⟩ hs
    unfold detStep at hs
    dsimp only at hs
    obtain ⟨hp1, hp2, hp3⟩ := pivot_spec s.1 ⟨k, hk⟩
    split at hs
    · cases hs
    · rename_i hpe
      have hpos : 0 < |s.1 (pivot s.1 ⟨k, hk⟩).1 ⟨k, hk⟩| := by
        rw [← hp2]; exact lt_of_le_of_lt he (not_le.1 hpe)
      have hne := abs_pos.1 hpos
      injection hs with hs
      subst hs
      split
      · rename_i hpk
        have hz : swapRows s.1 ⟨k, hk⟩ (pivot s.1 ⟨k, hk⟩).1 ⟨k, hk⟩ ⟨k, hk⟩ ≠ 0 := by
          simp only [swapRows_eq, Equiv.swap_apply_left]; exact hne
        have e := det_trail_swap s.1 hp1 hpk
        rw [det_trail_step _ _ hz] at e
        dsimp only at e ⊢
        refine ⟨?_, mul_ne_zero (neg_ne_zero.2 hnz) hz⟩
        rw [hinv, show (trail s.1 k).det = -(-(trail s.1 k).det) by ring, ← e]; ring
      · rename_i hpk
        rw [not_not.1 hpk] at hne
        refine ⟨?_, mul_ne_zero hnz hne⟩
        have e := det_trail_step s.1 ⟨k, hk⟩ hne
        dsimp only at e ⊢
        rw [hinv, e]; ring
  · refine ⟨?_, one_ne_zero⟩
    have : trail A 0 = Matrix.of A := by ext i j; simp [trail]
    rw [this, one_mul]

omit [LinearOrder K] [IsStrictOrderedRing K] in
/-- With a zero pivot column the trailing determinant is zero. -/
theorem det_trail_zero (a : Mat K n n) (k : Fin n) (h : ∀ r, k ≤ r → a r k = 0) :
    (trail a k.1).det = 0 := by
  apply Matrix.det_eq_zero_of_column_eq_zero k
  intro i
  simp only [trail, Matrix.of_apply, Nat.lt_irrefl, or_false]
  by_cases hi : i.1 < k.1
  · rw [if_pos hi, if_neg (by intro e; subst e; omega)]
  · rw [if_neg hi]; exact h i (Fin.le_def.2 (by omega))

/-- If no trailing column is entirely at or below the threshold in absolute value, elimination finishes. -/
theorem determinant_zero_eps (A : Mat K n n) (hA : (Matrix.of A).det ≠ 0) :
    ∃ s, (rng n 0 n).foldlM (detStep (0 : K)) (A, 1) = some s := by
  suffices H : ∃ s, (rng n 0 n).foldlM (detStep (0 : K)) (A, 1) = some s ∧
      ((Matrix.of A).det = s.2 * (trail s.1 n).det ∧ s.2 ≠ 0) from
    H.elim fun s hs => ⟨s, hs.1⟩
  refine foldlM_rng_total (detStep (0 : K))
    (fun k (s : Mat K n n × K) => (Matrix.of A).det = s.2 * (trail s.1 k).det ∧ s.2 ≠ 0)
    (a := 0) (b := n) (Nat.le_refl _) (Nat.zero_le _) (s := (A, 1)) ?_ ?_
  · intro k hk s _ _ ⟨hinv, hnz⟩
    obtain ⟨hp1, hp2, hp3⟩ := pivot_spec s.1 ⟨k, hk⟩
    have hpos : ¬ (pivot s.1 ⟨k, hk⟩).2 ≤ 0 := by
      intro hle
      apply hA
      rw [hinv, det_trail_zero s.1 ⟨k, hk⟩, mul_zero]
      intro r hr
      exact abs_eq_zero.1 (le_antisymm (le_trans (hp3 r hr) hle) (abs_nonneg _))
    have hne : s.1 (pivot s.1 ⟨k, hk⟩).1 ⟨k, hk⟩ ≠ 0 := by
      apply abs_pos.1; rw [← hp2]; exact not_le.1 hpos
    unfold detStep
    dsimp only
    rw [if_neg hpos]
    refine ⟨_, rfl, ?_⟩
    split
    · rename_i hpk
      have hz : swapRows s.1 ⟨k, hk⟩ (pivot s.1 ⟨k, hk⟩).1 ⟨k, hk⟩ ⟨k, hk⟩ ≠ 0 := by
        simp only [swapRows_eq, Equiv.swap_apply_left]; exact hne
      have e := det_trail_swap s.1 hp1 hpk
      rw [det_trail_step _ _ hz] at e
      dsimp only at e ⊢
      refine ⟨?_, mul_ne_zero (neg_ne_zero.2 hnz) hz⟩
      rw [hinv, show (trail s.1 k).det = -(-(trail s.1 k).det) by ring, ← e]; ring
    · rename_i hpk
      rw [not_not.1 hpk] at hne
      refine ⟨?_, mul_ne_zero hnz hne⟩
      have e := det_trail_step s.1 ⟨k, hk⟩ hne
      dsimp only at e ⊢
      rw [hinv, e]; ring
  · refine ⟨?_, one_ne_zero⟩
    have : trail A 0 = Matrix.of A := by ext i j; simp [trail]
    rw [this, one_mul]

end Det

/-! ## Gauss–Jordan -/

section GJ
variable {K : Type*} [Field K] {n : Nat}

theorem foldl_pair {σ τ ι : Type*} (f : σ → ι → σ) (g : τ → ι → τ) (l : List ι) (s : σ × τ) :
    l.foldl (fun s c => (f s.1 c, g s.2 c)) s = (l.foldl f s.1, l.foldl g s.2) := by
  induction l generalizing s with
  | nil => rfl
  | cons x l ih => rw [List.foldl_cons, ih]; rfl

theorem gjNormalize_eq (s : Mat K n n × Mat K n n) (k : Fin n) :
    gjNormalize s k = (Function.update s.1 k (fun c => s.1 k c * (1 / s.1 k k)),
      Function.update s.2 k (fun c => s.2 k c * (1 / s.1 k k))) := by
  unfold gjNormalize
  dsimp only
  rw [foldl_pair (fun (a : Mat K n n) c => setE a k c (a k c * (1 / s.1 k k)))
    (fun (a : Mat K n n) c => setE a k c (a k c * (1 / s.1 k k))),
    rowLoop (fun (a : Mat K n n) c => a k c * (1 / s.1 k k)) k (by intro a a' j _ h; rw [h]) _
      (nodup_rng _ _ _),
    rowLoop (fun (a : Mat K n n) c => a k c * (1 / s.1 k k)) k (by intro a a' j _ h; rw [h]) _
      (nodup_rng _ _ _)]
  simp [mem_rng]

variable [LinearOrder K]

theorem gjElim_eq (s : Mat K n n × Mat K n n) (k : Fin n) (r : Fin n) :
    (gjElim s k).1 r = (if r = k then s.1 r else fun c => s.1 r c - s.1 r k * s.1 k c) ∧
    (gjElim s k).2 r = (if r = k then s.2 r else fun c => s.2 r c - s.1 r k * s.2 k c) := by
  have := foldl_rng (fun (s : Mat K n n × Mat K n n) r =>
      if r = k then s
      else
        let f := s.1 r k
        if f ≠ 0 then
          (rng n 0 n).foldl (fun s c =>
            (setE s.1 r c (s.1 r c - f * s.1 k c), setE s.2 r c (s.2 r c - f * s.2 k c))) s
        else s)
    (fun t (s' : Mat K n n × Mat K n n) => ∀ r : Fin n,
      s'.1 r = (if r = k ∨ t ≤ r.1 then s.1 r else fun c => s.1 r c - s.1 r k * s.1 k c) ∧
      s'.2 r = (if r = k ∨ t ≤ r.1 then s.2 r else fun c => s.2 r c - s.1 r k * s.2 k c))
    (a := 0) (b := n) (Nat.le_refl _) (Nat.zero_le _)
    (by
      intro t ht s' _ _ h
      by_cases htk : (⟨t, ht⟩ : Fin n) = k
      · rw [if_pos htk]
        intro r
        have hr := h r
        by_cases hrk : r = k
        · simpa [hrk] using (h k)
        · have : t ≠ r.1 := by intro e; apply hrk; rw [← htk]; exact Fin.ext e.symm
          have e1 : (r = k ∨ t ≤ r.1) ↔ (r = k ∨ t + 1 ≤ r.1) := by simp only [hrk, false_or]; omega
          simpa only [e1] using hr
      · rw [if_neg htk]
        have hk1 : s'.1 k = s.1 k := by have := (h k).1; simpa using this
        have hk2 : s'.2 k = s.2 k := by have := (h k).2; simpa using this
        have ht1 : s'.1 ⟨t, ht⟩ = s.1 ⟨t, ht⟩ := by have := (h ⟨t, ht⟩).1; simpa using this
        have ht2 : s'.2 ⟨t, ht⟩ = s.2 ⟨t, ht⟩ := by have := (h ⟨t, ht⟩).2; simpa using this
        have key : (let f := s'.1 ⟨t, ht⟩ k
            if f ≠ 0 then
              (rng n 0 n).foldl (fun s c =>
                (setE s.1 ⟨t, ht⟩ c (s.1 ⟨t, ht⟩ c - f * s.1 k c),
                  setE s.2 ⟨t, ht⟩ c (s.2 ⟨t, ht⟩ c - f * s.2 k c))) s'
            else s')
            = (Function.update s'.1 ⟨t, ht⟩ (fun c => s.1 ⟨t, ht⟩ c - s.1 ⟨t, ht⟩ k * s.1 k c),
               Function.update s'.2 ⟨t, ht⟩ (fun c => s.2 ⟨t, ht⟩ c - s.1 ⟨t, ht⟩ k * s.2 k c)) := by
          dsimp only
          split
          · rw [foldl_pair (fun (a : Mat K n n) c => setE a ⟨t, ht⟩ c (a ⟨t, ht⟩ c - s'.1 ⟨t, ht⟩ k * a k c))
              (fun (a : Mat K n n) c => setE a ⟨t, ht⟩ c (a ⟨t, ht⟩ c - s'.1 ⟨t, ht⟩ k * a k c)),
              rowLoop (fun (a : Mat K n n) c => a ⟨t, ht⟩ c - s'.1 ⟨t, ht⟩ k * a k c) ⟨t, ht⟩
                (by intro a a' j h1 h2; rw [h2, h1 k (Ne.symm htk)]) _ (nodup_rng _ _ _),
              rowLoop (fun (a : Mat K n n) c => a ⟨t, ht⟩ c - s'.1 ⟨t, ht⟩ k * a k c) ⟨t, ht⟩
                (by intro a a' j h1 h2; rw [h2, h1 k (Ne.symm htk)]) _ (nodup_rng _ _ _)]
            simp [mem_rng, ht1, ht2, hk1, hk2]
          · rename_i hf
            have hf : s'.1 ⟨t, ht⟩ k = 0 := not_not.1 hf
            rw [ht1] at hf
            apply Prod.ext
            · rw [eq_comm, Function.update_eq_self_iff, ht1, hf]; simp
            · rw [eq_comm, Function.update_eq_self_iff, ht2, hf]; simp
        rw [key]
        intro r
        by_cases hr : r = ⟨t, ht⟩
        · subst hr
          simp only [Function.update_self]
          rw [if_neg (by simp [htk]), if_neg (by simp [htk])]
          exact ⟨rfl, rfl⟩
        · dsimp only
          rw [Function.update_of_ne hr, Function.update_of_ne hr]
          have : t ≠ r.1 := by intro e; exact hr (Fin.ext e.symm)
          have e1 : (r = k ∨ t ≤ r.1) ↔ (r = k ∨ t + 1 ≤ r.1) := by
            constructor
            · rintro (h | h)
              · exact Or.inl h
              · exact Or.inr (by omega)
            · rintro (h | h)
              · exact Or.inl h
              · exact Or.inr (by omega)
          simpa only [e1] using h r)
    (s := s) (by intro r; simp)
  have h := this r
  have e : ¬ n ≤ r.1 := by have := r.2; omega
  simpa [gjElim, e] using h

variable [IsStrictOrderedRing K]

/-- Invariant of `inverse_gauss_jordan` after `k` columns: the accumulated matrix times the input is the
reduced matrix, whose first `k` columns are those of the identity. -/
def GjInv (A : Mat K n n) (k : Nat) (s : Mat K n n × Mat K n n) : Prop :=
  (∀ r c, s.1 r c = ∑ t, s.2 r t * A t c) ∧ ∀ r c : Fin n, c.1 < k → s.1 r c = if r = c then 1 else 0

omit [LinearOrder K] [IsStrictOrderedRing K] in
theorem gjInv_swap {A : Mat K n n} {k p : Fin n} (hp : k ≤ p) {s : Mat K n n × Mat K n n}
    (h : GjInv A k.1 s) : GjInv A k.1 (swapRows s.1 k p, swapRows s.2 k p) := by
  obtain ⟨h1, h2⟩ := h
  refine ⟨?_, ?_⟩
  · intro r c; simp only [swapRows_eq]; exact h1 _ c
  · intro r c hc
    simp only [swapRows_eq]
    rw [h2 _ c hc]
    have : Equiv.swap k p r = c ↔ r = c := by
      have hck : c ≠ k := by intro e; subst e; omega
      have hcp : c ≠ p := by intro e; subst e; have := Fin.le_def.1 hp; omega
      rw [Equiv.swap_apply_eq_iff, Equiv.swap_apply_of_ne_of_ne hck hcp]
    simp only [this]

theorem gjInv_step {A : Mat K n n} {k : Fin n} {s : Mat K n n × Mat K n n} (h : GjInv A k.1 s)
    (hk : s.1 k k ≠ 0) : GjInv A (k.1 + 1) (gjElim (gjNormalize s k) k) := by
  obtain ⟨h1, h2⟩ := h
  have e1 : ∀ r c, (gjElim (gjNormalize s k) k).1 r c
      = if r = k then s.1 k c * (1 / s.1 k k) else s.1 r c - s.1 r k * (s.1 k c * (1 / s.1 k k)) := by
    intro r c
    rw [(gjElim_eq _ k r).1, gjNormalize_eq]
    by_cases hr : r = k
    · subst hr; simp
    · simp [hr]
  have e2 : ∀ r c, (gjElim (gjNormalize s k) k).2 r c
      = if r = k then s.2 k c * (1 / s.1 k k) else s.2 r c - s.1 r k * (s.2 k c * (1 / s.1 k k)) := by
    intro r c
    rw [(gjElim_eq _ k r).2, gjNormalize_eq]
    by_cases hr : r = k
    · subst hr; simp
    · simp [hr]
  refine ⟨?_, ?_⟩
  · intro r c
    rw [e1]
    simp only [e2]
    by_cases hr : r = k
    · subst hr
      simp only [if_true]
      rw [h1, Finset.sum_mul]
      apply Finset.sum_congr rfl; intro t _; ring
    · simp only [hr, if_false]
      rw [h1 r c, h1 k c, Finset.sum_mul, Finset.mul_sum, ← Finset.sum_sub_distrib]
      apply Finset.sum_congr rfl; intro t _; ring
  · intro r c hc
    rw [e1]
    rcases Nat.lt_succ_iff_lt_or_eq.1 hc with hlt | heq
    · have hkc : ¬ k = c := by intro e; subst e; omega
      rw [h2 k c hlt, if_neg hkc, h2 r c hlt]
      by_cases hr : r = k
      · subst hr; simp [hkc]
      · simp [hr]
    · have : c = k := Fin.ext heq
      subst this
      by_cases hr : r = c
      · subst hr; simp [hk]
      · simp only [hr, if_false]; field_simp; ring

theorem gaussJordan_inv {eps : K} (he : 0 ≤ eps) {A B : Mat K n n} (h : gaussJordan eps A = some B) :
    Matrix.of B * Matrix.of A = 1 := by
  unfold gaussJordan at h
  rw [Option.map_eq_some_iff] at h
  obtain ⟨s, hs, rfl⟩ := h
  have := foldlM_rng (gjStep eps) (GjInv A) (Nat.le_refl _) (Nat.zero_le _) ?_ ?_ hs
  · ext r c
    rw [Matrix.mul_apply, Matrix.one_apply]
    simp only [Matrix.of_apply]
    rw [← this.1 r c, this.2 r c c.2]
  · intro k hk s s' _ _ hinv hs
    unfold gjStep at hs
    dsimp only at hs
    obtain ⟨hp1, hp2, hp3⟩ := pivot_spec s.1 ⟨k, hk⟩
    split at hs
    · cases hs
    · rename_i hpe
      have hpos : 0 < |s.1 (pivot s.1 ⟨k, hk⟩).1 ⟨k, hk⟩| := by
        rw [← hp2]; exact lt_of_le_of_lt he (not_le.1 hpe)
      have hne := abs_pos.1 hpos
      injection hs with hs
      subst hs
      split
      · refine gjInv_step (k := ⟨k, hk⟩) (gjInv_swap hp1 hinv) ?_
        simp only [swapRows_eq, Equiv.swap_apply_left]
        exact hne
      · rename_i hpk
        refine gjInv_step (k := ⟨k, hk⟩) hinv ?_
        rw [not_not.1 hpk] at hne
        exact hne
  · refine ⟨?_, by intro r c hc; omega⟩
    intro r c
    simp [identity_apply]

end GJ

/-! ## Cholesky -/

section Chol
variable {n : Nat} {K : Type*} [Field K] [LinearOrder K] [IsStrictOrderedRing K]

/-- Invariant of `cholesky_lower` after `i` rows. -/
def CholInv (a : Mat K n n) (i : Nat) (l : Mat K n n) : Prop :=
  ∀ r : Fin n, r.1 < i → 0 < l r r ∧ (∀ c, r < c → l r c = 0) ∧
    ∀ c, c ≤ r → a r c = ∑ k with k ≤ c, l r k * l c k

/-- Invariant of the `j` loop in row `i` after `j` columns. -/
def CholRowInv (a : Mat K n n) (i : Fin n) (j : Nat) (l : Mat K n n) : Prop :=
  CholInv a i.1 l ∧ (i.1 < j → 0 < l i i) ∧
    ∀ c : Fin n, c ≤ i → c.1 < j → a i c = ∑ k with k ≤ c, l i k * l c k

omit [LinearOrder K] [IsStrictOrderedRing K] in
theorem cholSum (l : Mat K n n) (a : Mat K n n) (i j : Fin n) :
    (rng n 0 j.1).foldl (fun s k => s - l i k * l j k) (a i j) = a i j - ∑ k with k < j, l i k * l j k := by
  rw [foldl_sub_sum, sum_rng]
  congr 1
  apply Finset.sum_congr _ (fun _ _ => rfl)
  ext t; simp only [Finset.mem_filter, Finset.mem_univ, true_and, Fin.lt_def, Nat.zero_le]

omit [LinearOrder K] [IsStrictOrderedRing K] in
theorem sum_le_eq (f : Fin n → K) (c : Fin n) : (∑ k with k ≤ c, f k) = (∑ k with k < c, f k) + f c := by
  have : (Finset.univ.filter fun k : Fin n => k ≤ c) = insert c (Finset.univ.filter fun k => k < c) := by
    ext k; simp [le_iff_eq_or_lt]
  rw [this, Finset.sum_insert (by simp), add_comm]

omit [IsStrictOrderedRing K] in
theorem cholInv_set {a : Mat K n n} {i j : Fin n} {l : Mat K n n} {v : K} (h : CholInv a i.1 l) :
    CholInv a i.1 (setE l i j v) := by
  intro r hr
  have hrow : ∀ q : Fin n, q.1 < i.1 → setE l i j v q = l q := fun q hq =>
    setE_row_ne _ _ _ (by intro e; subst e; omega)
  obtain ⟨h1, h2, h3⟩ := h r hr
  rw [hrow r hr]
  refine ⟨h1, h2, ?_⟩
  intro c hc
  rw [hrow c (by have := Fin.le_def.1 hc; omega)]
  exact h3 c hc

/-- The value the `j` loop subtracts down to at the diagonal of row `i`. -/
def cholDiag (a l : Mat K n n) (i : Fin n) : K := a i i - ∑ k with k < i, l i k * l i k

omit [IsStrictOrderedRing K] in
theorem cholEntry_step {sqrt : K → K} (hs : ∀ x, 0 < x → 0 < sqrt x ∧ sqrt x * sqrt x = x)
    {a : Mat K n n} {i : Fin n} {j : Nat} (hj : j < n) (hji : j < i.1 + 1) {l : Mat K n n}
    (h : CholRowInv a i j l) (hd : j = i.1 → 0 < cholDiag a l i) :
    ∃ l', cholEntry sqrt a i l ⟨j, hj⟩ = some l' ∧ CholRowInv a i (j + 1) l' := by
  obtain ⟨h1, h2, h3⟩ := h
  unfold cholEntry
  dsimp only
  rw [cholSum]
  generalize hS : a i ⟨j, hj⟩ - ∑ k with k < (⟨j, hj⟩ : Fin n), l i k * l ⟨j, hj⟩ k = S
  -- a write at `(i, j)` keeps the finished part of the row
  have keep : ∀ v : K, ∀ c : Fin n, c ≤ i → c.1 < j → a i c
      = ∑ k with k ≤ c, setE l i ⟨j, hj⟩ v i k * setE l i ⟨j, hj⟩ v c k := by
    intro v c hc hcj
    rw [h3 c hc hcj]
    apply Finset.sum_congr rfl
    intro k hk
    have hk' := Fin.le_def.1 (Finset.mem_filter.1 hk).2
    have hkj : k ≠ ⟨j, hj⟩ := by intro e; subst e; dsimp only at hk'; omega
    rw [setE_apply, setE_apply]
    simp [hkj]
  have below : ∀ v : K, ∑ k with k < (⟨j, hj⟩ : Fin n), setE l i ⟨j, hj⟩ v i k * setE l i ⟨j, hj⟩ v ⟨j, hj⟩ k
      = ∑ k with k < (⟨j, hj⟩ : Fin n), l i k * l ⟨j, hj⟩ k := by
    intro v
    apply Finset.sum_congr rfl
    intro k hk
    have hkj : k ≠ ⟨j, hj⟩ := ne_of_lt (Finset.mem_filter.1 hk).2
    rw [setE_apply, setE_apply]
    simp [hkj]
  by_cases hij : i = ⟨j, hj⟩
  · have hpos : 0 < S := by
      have := hd (by rw [hij])
      unfold cholDiag at this
      rw [← hS, ← hij]; exact this
    rw [if_pos hij, if_neg (not_le.2 hpos)]
    obtain ⟨q1, q2⟩ := hs S hpos
    refine ⟨_, rfl, cholInv_set h1, ?_, ?_⟩
    · intro _
      rw [setE_apply, if_pos ⟨rfl, hij⟩]; exact q1
    · intro c hc hcj
      rcases Nat.lt_succ_iff_lt_or_eq.1 hcj with hlt | heq
      · exact keep _ c hc hlt
      · have : c = ⟨j, hj⟩ := Fin.ext heq
        subst this
        rw [sum_le_eq, below, setE_apply, if_pos ⟨rfl, rfl⟩, setE_apply, if_pos ⟨hij.symm, rfl⟩, q2, ← hS]
        ring
  · have hlt : j < i.1 := by
      rcases Nat.lt_succ_iff_lt_or_eq.1 hji with h | h
      · exact h
      · exact absurd (Fin.ext h.symm) hij
    rw [if_neg hij]
    obtain ⟨d1, d2, d3⟩ := h1 ⟨j, hj⟩ hlt
    refine ⟨_, rfl, cholInv_set h1, ?_, ?_⟩
    · intro hi; omega
    · intro c hc hcj
      rcases Nat.lt_succ_iff_lt_or_eq.1 hcj with hlt' | heq
      · exact keep _ c hc hlt'
      · have : c = ⟨j, hj⟩ := Fin.ext heq
        subst this
        rw [sum_le_eq, below, setE_apply, if_pos ⟨rfl, rfl⟩, setE_apply, if_neg (fun h => hij h.1.symm),
          div_mul_cancel₀ _ (ne_of_gt d1), ← hS]
        ring

omit [IsStrictOrderedRing K] in
/-- If a `j` step succeeded at the diagonal, the diagonal value was positive. -/
theorem cholEntry_diag {sqrt : K → K} {a : Mat K n n} {i : Fin n} {l l' : Mat K n n}
    (h : cholEntry sqrt a i l i = some l') : 0 < cholDiag a l i := by
  unfold cholEntry at h
  dsimp only at h
  rw [cholSum, if_pos rfl] at h
  split at h
  · cases h
  · unfold cholDiag; exact not_le.1 ‹_›

omit [IsStrictOrderedRing K] in
theorem cholRow_finish {a : Mat K n n} {i : Fin n} {l : Mat K n n} (h : CholRowInv a i (i.1 + 1) l) :
    CholInv a (i.1 + 1) ((rng n (i.1 + 1) n).foldl (fun l j => setE l i j 0) l) := by
  obtain ⟨h1, h2, h3⟩ := h
  rw [rowLoop (fun _ _ => (0 : K)) i (fun _ _ _ _ _ => rfl) _ (nodup_rng _ _ _)]
  have hmem : ∀ c : Fin n, c ∈ rng n (i.1 + 1) n ↔ i < c := by
    intro c; rw [mem_rng, Fin.lt_def]; omega
  intro r hr
  rcases Nat.lt_succ_iff_lt_or_eq.1 hr with hlt | heq
  · have hne : ∀ q : Fin n, q.1 < i.1 → q ≠ i := fun q hq e => by subst e; omega
    obtain ⟨d1, d2, d3⟩ := h1 r hlt
    rw [Function.update_of_ne (hne r hlt)]
    refine ⟨d1, d2, ?_⟩
    intro c hc
    rw [Function.update_of_ne (hne c (by have := Fin.le_def.1 hc; omega))]
    exact d3 c hc
  · have : r = i := Fin.ext heq
    subst this
    simp only [Function.update_self, hmem]
    refine ⟨?_, ?_, ?_⟩
    · rw [if_neg (lt_irrefl _)]; exact h2 (Nat.lt_succ_self _)
    · intro c hc; rw [if_pos hc]
    · intro c hc
      rw [h3 c hc (by have := Fin.le_def.1 hc; omega)]
      apply Finset.sum_congr rfl
      intro k hk
      have hk' : ¬ r < k := not_lt.2 (le_trans (Finset.mem_filter.1 hk).2 hc)
      rw [if_neg hk']
      by_cases hcr : c = r
      · subst hcr; simp [hk']
      · rw [Function.update_of_ne hcr]

omit [IsStrictOrderedRing K] in
theorem cholRow_inv {sqrt : K → K} (hs : ∀ x, 0 < x → 0 < sqrt x ∧ sqrt x * sqrt x = x)
    {a : Mat K n n} {i : Fin n} {l l' : Mat K n n} (h : CholInv a i.1 l)
    (hr : cholRow sqrt a l i = some l') : CholInv a (i.1 + 1) l' := by
  unfold cholRow at hr
  rw [Option.map_eq_some_iff] at hr
  obtain ⟨l₁, h1, rfl⟩ := hr
  apply cholRow_finish
  refine foldlM_rng (cholEntry sqrt a i) (CholRowInv a i) i.2 (Nat.zero_le _) ?_ ?_ h1
  · intro k hk s s' _ hki hinv hstep
    have hd : k = i.1 → 0 < cholDiag a s i := by
      intro e
      have : (⟨k, hk⟩ : Fin n) = i := Fin.ext e
      rw [this] at hstep
      exact cholEntry_diag hstep
    obtain ⟨l', e1, e2⟩ := cholEntry_step hs hk hki hinv hd
    rw [hstep] at e1
    injection e1 with e1
    rw [e1]; exact e2
  · exact ⟨h, by intro hi; omega, by intro c _ hc; omega⟩

omit [IsStrictOrderedRing K] in
theorem cholesky_inv {sqrt : K → K} (hs : ∀ x, 0 < x → 0 < sqrt x ∧ sqrt x * sqrt x = x)
    {a l : Mat K n n} (h : cholesky sqrt a = some l) : CholInv a n l := by
  unfold cholesky at h
  refine foldlM_rng (cholRow sqrt a) (CholInv a) (Nat.le_refl _) (Nat.zero_le _) ?_ ?_ h
  · intro k hk s s' _ _ hinv hstep
    exact cholRow_inv (i := ⟨k, hk⟩) hs hinv hstep
  · intro r hr; omega

/-- The quadratic form of a symmetric positive definite matrix, written out. -/
theorem cholDiag_pos {a l : Mat K n n} {i : Fin n} (hsym : ∀ r c, a r c = a c r)
    (hpd : ∀ x : Fin n → K, x ≠ 0 → 0 < ∑ r, ∑ c, x r * a r c * x c)
    (h : CholRowInv a i i.1 l) : 0 < cholDiag a l i := by
  obtain ⟨h1, _, h3⟩ := h
  -- rows `≥ i` replaced by the identity
  let M : Matrix (Fin n) (Fin n) K := Matrix.of fun p t =>
    if p < i then l p t else if p = t then 1 else 0
  have hM : M.det ≠ 0 := by
    have htri : M.BlockTriangular OrderDual.toDual := by
      intro p t hpt
      have hpt' : p < t := hpt
      simp only [M, Matrix.of_apply]
      split
      · exact (h1 p (Fin.lt_def.1 ‹_›)).2.1 t hpt'
      · exact if_neg (ne_of_lt hpt')
    rw [Matrix.det_of_isLowerTriangular M htri, Finset.prod_ne_zero_iff]
    intro p _
    simp only [M, Matrix.of_apply, if_true]
    split
    · exact ne_of_gt (h1 p (Fin.lt_def.1 ‹_›)).1
    · exact one_ne_zero
  let b : Fin n → K := fun t => if t < i then l i t else 0
  let w : Fin n → K := Matrix.vecMul b M⁻¹
  have hw : Matrix.vecMul w M = b := by
    simp only [w]
    rw [Matrix.vecMul_vecMul, Matrix.nonsing_inv_mul M (isUnit_iff_ne_zero.2 hM), Matrix.vecMul_one]
  have hwt : ∀ t, (∑ p, w p * M p t) = b t := fun t => congrFun hw t
  -- `w` is supported below `i`
  have hw0 : ∀ t, ¬ t < i → w t = 0 := by
    intro t ht
    have := hwt t
    simp only [b, if_neg ht] at this
    rw [← this]
    symm
    rw [Finset.sum_eq_single t]
    · simp [M, ht]
    · intro p _ hp
      simp only [M, Matrix.of_apply]
      split
      · rename_i hpi
        rw [(h1 p (Fin.lt_def.1 hpi)).2.1 t (lt_of_lt_of_le hpi (not_lt.1 ht)), mul_zero]
      · rw [mul_zero]
    · intro h; exact absurd (Finset.mem_univ _) h
  have hwl : ∀ t, t < i → (∑ p, if p < i then w p * l p t else 0) = l i t := by
    intro t ht
    have := hwt t
    simp only [b, if_pos ht] at this
    rw [← this]
    apply Finset.sum_congr rfl
    intro p _
    by_cases hp : p < i
    · simp [M, hp]
    · simp [hp, hw0 p hp]
  -- the test vector
  let v : Fin n → K := fun p => if p < i then -w p else if p = i then 1 else 0
  have hvi : v i = 1 := by simp [v]
  have hv : v ≠ 0 := by
    intro e
    have := congrFun e i
    rw [hvi] at this
    exact one_ne_zero this
  have hpos := hpd v hv
  -- entries of `a` on the support of `v`
  let g : Fin n → Fin n → K := fun p t => if t < i then l p t else 0
  have hva : ∀ p c, p ≤ i → c ≤ i → a p c
      = (∑ t, g p t * g c t) + if p = i ∧ c = i then cholDiag a l i else 0 := by
    have main : ∀ p c, p ≤ i → c ≤ p → a p c
        = (∑ t, g p t * g c t) + if p = i ∧ c = i then cholDiag a l i else 0 := by
      intro p c hp hc
      have hsum : ∀ (hci : c < i), (∑ k with k ≤ c, l p k * l c k) = ∑ t, g p t * g c t := by
        intro hci
        rw [Finset.sum_filter]
        apply Finset.sum_congr rfl
        intro t _
        by_cases htc : t ≤ c
        · simp [g, htc, lt_of_le_of_lt htc hci]
        · rw [if_neg htc]
          simp only [g]
          split
          · rw [(h1 c (Fin.lt_def.1 hci)).2.1 t (not_le.1 htc), mul_zero]
          · rw [mul_zero]
      by_cases hci : c < i
      · rw [if_neg (fun h => ne_of_lt hci h.2), add_zero, ← hsum hci]
        rcases lt_or_eq_of_le hp with h | h
        · exact (h1 p (Fin.lt_def.1 h)).2.2 c hc
        · subst h
          exact h3 c hc (Fin.lt_def.1 hci)
      · have hce : c = i := le_antisymm (le_trans hc hp) (not_lt.1 hci)
        have hpe : p = i := le_antisymm hp (hce ▸ hc)
        subst hpe; subst hce
        simp only [and_self, if_true, cholDiag]
        rw [Finset.sum_filter]
        have : ∀ t, g c t * g c t = if t < c then l c t * l c t else 0 := by
          intro t; simp only [g]; split <;> simp
        rw [Finset.sum_congr rfl (fun t _ => this t)]
        ring
    intro p c hp hc
    rcases le_total c p with h | h
    · exact main p c hp h
    · rw [hsym p c, main c p hc h]
      congr 1
      · apply Finset.sum_congr rfl; intro t _; ring
      · simp only [and_comm]
  have hv0 : ∀ p, ¬ p ≤ i → v p = 0 := by
    intro p hp
    simp only [v]
    rw [if_neg (fun h => hp (le_of_lt h)), if_neg (fun h => hp (le_of_eq h))]
  have hq : (∑ r, ∑ c, v r * a r c * v c)
      = (∑ t, (∑ p, v p * g p t) * (∑ p, v p * g p t)) + cholDiag a l i := by
    have e1 : ∀ r c, v r * a r c * v c
        = v r * ((∑ t, g r t * g c t)) * v c + (if r = i then (if c = i then cholDiag a l i else 0) else 0) := by
      intro r c
      by_cases hr : r ≤ i
      · by_cases hc : c ≤ i
        · rw [hva r c hr hc]
          by_cases h1 : r = i
          · by_cases h2 : c = i
            · subst h1; subst h2; simp [hvi]
            · simp [h2]
          · simp [h1]
        · rw [hv0 c hc, if_neg (fun h => hc (le_of_eq h))]; simp
      · rw [hv0 r hr, if_neg (fun h => hr (le_of_eq h))]; simp
    simp only [e1, Finset.sum_add_distrib]
    congr 1
    · have : ∀ t, (∑ p, v p * g p t) * (∑ p, v p * g p t) = ∑ r, ∑ c, v r * (g r t * g c t) * v c := by
        intro t
        rw [Finset.sum_mul_sum]
        apply Finset.sum_congr rfl; intro r _
        apply Finset.sum_congr rfl; intro c _
        ring
      simp only [this]
      conv_rhs => rw [Finset.sum_comm]
      apply Finset.sum_congr rfl; intro r _
      conv_rhs => rw [Finset.sum_comm]
      apply Finset.sum_congr rfl; intro c _
      rw [Finset.mul_sum, Finset.sum_mul]
    · simp
  have hz : ∀ t, (∑ p, v p * g p t) = 0 := by
    intro t
    by_cases ht : t < i
    · have : ∀ p, v p * g p t = -(if p < i then w p * l p t else 0) + if p = i then l i t else 0 := by
        intro p
        simp only [v, g, if_pos ht]
        by_cases h1 : p < i
        · rw [if_pos h1, if_pos h1, if_neg (ne_of_lt h1)]; ring
        · by_cases h2 : p = i
          · subst h2; simp
          · simp [h1, h2]
      rw [Finset.sum_congr rfl (fun p _ => this p), Finset.sum_add_distrib, Finset.sum_neg_distrib, hwl t ht]
      simp
    · simp [g, ht]
  rw [hq] at hpos
  simpa [hz] using hpos

theorem cholesky_total {sqrt : K → K} (hs : ∀ x, 0 < x → 0 < sqrt x ∧ sqrt x * sqrt x = x)
    {a : Mat K n n} (hsym : ∀ r c, a r c = a c r)
    (hpd : ∀ x : Fin n → K, x ≠ 0 → 0 < ∑ r, ∑ c, x r * a r c * x c) :
    ∃ l, cholesky sqrt a = some l := by
  suffices H : ∃ l, (rng n 0 n).foldlM (cholRow sqrt a) (zeros n n) = some l ∧ CholInv a n l from
    H.elim fun l hl => ⟨l, hl.1⟩
  refine foldlM_rng_total (cholRow sqrt a) (CholInv a) (a := 0) (b := n) (Nat.le_refl _)
    (Nat.zero_le _) (s := zeros n n) ?_ ?_
  · intro k hk l _ _ hinv
    obtain ⟨l₁, h1, h2⟩ := foldlM_rng_total (cholEntry sqrt a ⟨k, hk⟩) (CholRowInv a ⟨k, hk⟩)
      (a := 0) (b := k + 1) hk (Nat.zero_le _) (s := l)
      (by
        intro j hj s _ hjk hrow
        apply cholEntry_step hs hj hjk hrow
        intro e
        subst e
        exact cholDiag_pos hsym hpd hrow)
      ⟨hinv, by intro h; dsimp only at h; omega, by intro c _ hc; omega⟩
    refine ⟨_, by unfold cholRow; rw [h1]; rfl, cholRow_finish h2⟩
  · intro r hr; omega

omit [IsStrictOrderedRing K] in
/-- `L Lᵀ = A` for the returned factor. -/
theorem cholInv_mul {a l : Mat K n n} (h : CholInv a n l) (hsym : ∀ r c, a r c = a c r) :
    Matrix.of l * (Matrix.of l).transpose = Matrix.of a := by
  have main : ∀ r c : Fin n, c ≤ r → (∑ t, l r t * l c t) = a r c := by
    intro r c hc
    rw [(h r r.2).2.2 c hc, Finset.sum_filter]
    apply Finset.sum_congr rfl
    intro t _
    by_cases ht : t ≤ c
    · rw [if_pos ht]
    · rw [if_neg ht, (h c c.2).2.1 t (not_le.1 ht), mul_zero]
  ext r c
  rw [Matrix.mul_apply]
  simp only [Matrix.transpose_apply, Matrix.of_apply]
  rcases le_total c r with hc | hc
  · exact main r c hc
  · rw [hsym r c, ← main c r hc]
    apply Finset.sum_congr rfl; intro t _; ring

omit [IsStrictOrderedRing K] in
theorem cholSolve_spec {a l : Mat K n n} (h : CholInv a n l) (hsym : ∀ r c, a r c = a c r) (b : Fin n → K) :
    (Matrix.of a).mulVec (cholSolveWith l b) = b := by
  rw [← cholInv_mul h hsym, ← Matrix.mulVec_mulVec]
  have hd : ∀ i, l i i ≠ 0 := fun i => ne_of_gt (h i i.2).1
  have hU : (Matrix.of l).transpose.mulVec (cholSolveWith l b)
      = (rng n 0 n).foldl (fun y i =>
        Function.update y i ((rng n 0 i.1).foldl (fun s k => s - l i k * y k) (y i) / l i i)) b := by
    funext i
    have := backward_spec (fun i j => l j i) (fun i => l i i) hd
      ((rng n 0 n).foldl (fun y i =>
        Function.update y i ((rng n 0 i.1).foldl (fun s k => s - l i k * y k) (y i) / l i i)) b) i
    dsimp only at this
    rw [← this]
    unfold cholSolveWith
    dsimp only
    generalize (rng n 0 n).reverse.foldl _ _ = x
    rw [Matrix.mulVec, dotProduct]
    simp only [Matrix.transpose_apply, Matrix.of_apply]
    rw [Finset.sum_filter]
    have e : ∀ j, l j i * x j
        = (if i < j then l j i * x j else 0) + (if j = i then l i i * x i else 0) := by
      intro j
      rcases lt_trichotomy i j with ht | ht | ht
      · rw [if_pos ht, if_neg (ne_of_gt ht)]; ring
      · subst ht; simp
      · rw [if_neg (not_lt_of_gt ht), if_neg (ne_of_lt ht), (h j j.2).2.1 i ht]; ring
    rw [Finset.sum_congr rfl (fun t _ => e t), Finset.sum_add_distrib,
      Finset.sum_ite_eq' Finset.univ i, if_pos (Finset.mem_univ _), add_comm]
  rw [hU]
  funext i
  have := forward_spec l (fun i => l i i) hd b i
  dsimp only at this
  refine Eq.trans ?_ this
  generalize (rng n 0 n).foldl _ _ = x
  rw [Matrix.mulVec, dotProduct]
  simp only [Matrix.of_apply]
  rw [Finset.sum_filter]
  have e : ∀ j, l i j * x j
      = (if j < i then l i j * x j else 0) + (if j = i then l i i * x i else 0) := by
    intro j
    rcases lt_trichotomy j i with ht | ht | ht
    · rw [if_pos ht, if_neg (ne_of_lt ht)]; ring
    · subst ht; simp
    · rw [if_neg (not_lt_of_gt ht), if_neg (ne_of_gt ht), (h i i.2).2.1 j ht]; ring
  rw [Finset.sum_congr rfl (fun t _ => e t), Finset.sum_add_distrib,
    Finset.sum_ite_eq' Finset.univ i, if_pos (Finset.mem_univ _), add_comm]

end Chol

end Verif.Mat
