import Verif.Mat.Inverse

/-! # Determinant, Gauss–Jordan and LU see the same pivots -/

namespace Verif.Mat

/-- Two loops with an early return, run side by side: if the steps fail together and preserve a relation, the loops fail
together or end related. -/
theorem foldlM_rng_rel {σ τ : Type*} {n : Nat} (f : σ → Fin n → Option σ) (g : τ → Fin n → Option τ) (R : Nat → σ → τ → Prop)
    (step : ∀ k (hk : k < n) s t, R k s t →
      (f s ⟨k, hk⟩ = none ∧ g t ⟨k, hk⟩ = none) ∨
        ∃ s' t', f s ⟨k, hk⟩ = some s' ∧ g t ⟨k, hk⟩ = some t' ∧ R (k + 1) s' t')
    {s : σ} {t : τ} (h : R 0 s t) :
    ((rng n 0 n).foldlM f s = none ∧ (rng n 0 n).foldlM g t = none) ∨
      ∃ s' t', (rng n 0 n).foldlM f s = some s' ∧ (rng n 0 n).foldlM g t = some t' ∧ R n s' t' := by
  suffices H : ∀ d a s t, a + d = n → R a s t →
      ((rng n a n).foldlM f s = none ∧ (rng n a n).foldlM g t = none) ∨
      ∃ s' t', (rng n a n).foldlM f s = some s' ∧ (rng n a n).foldlM g t = some t' ∧ R n s' t' from
    H n 0 s t (by omega) h
  intro d
  induction d with
  | zero =>
    intro a s t h1 h2
    have : a = n := by omega
    subst this
    rw [rng_nil (Nat.le_refl _)]
    exact Or.inr ⟨s, t, rfl, rfl, h2⟩
  | succ d ih =>
    intro a s t h1 h2
    rw [rng_cons (by omega) (Nat.le_refl _), List.foldlM_cons, List.foldlM_cons]
    rcases step a (by omega) s t h2 with ⟨e1, e2⟩ | ⟨s', t', e1, e2, h3⟩
    · rw [e1, e2]; exact Or.inl ⟨rfl, rfl⟩
    · rw [e1, e2]; exact ih (a + 1) s' t' (by omega) h3

variable {K : Type*} [Field K] [LinearOrder K] {n : Nat}

/-- The matrices agree on the trailing block from index `k`. -/
def Agree (k : Nat) (a b : Mat K n n) : Prop := ∀ i j : Fin n, k ≤ i.1 → k ≤ j.1 → a i j = b i j

omit [Field K] [LinearOrder K] in
theorem agree_swap {k p : Fin n} (hp : k ≤ p) {a b : Mat K n n} (h : Agree k.1 a b) :
    Agree k.1 (swapRows a k p) (swapRows b k p) := by
  intro i j hi hj
  simp only [swapRows_eq]
  refine h _ _ ?_ hj
  rw [Equiv.swap_apply_def]
  have := Fin.le_def.1 hp
  split
  · exact this
  · split <;> omega

theorem pivot_agree {k : Fin n} {a b : Mat K n n} (h : Agree k.1 a b) : pivot a k = pivot b k := by
  unfold pivot
  rw [h k k (le_refl _) (le_refl _)]
  apply List.foldl_ext
  intro s r hr
  rw [h r k (by have := (mem_rng.1 hr).1; omega) (le_refl _)]

omit [LinearOrder K] in
theorem agree_det_lu {k : Fin n} {a b : Mat K n n} (h : Agree k.1 a b) :
    Agree (k.1 + 1) (detElim a k) (luElim b k) := by
  intro i j hi hj
  have h1 : k < i := Fin.lt_def.2 (by omega)
  have h2 : k < j := Fin.lt_def.2 (by omega)
  have h3 : j ≠ k := ne_of_gt h2
  rw [detElim_apply, luElim_apply]
  simp only [h1, h2, h3, and_self, if_true, if_false]
  rw [h i j (by omega) (by omega), h i k (by omega) (le_refl _), h k k (le_refl _) (le_refl _), h k j (le_refl _) (by omega)]

theorem agree_det_gj {k : Fin n} {a : Mat K n n} {s : Mat K n n × Mat K n n} (h : Agree k.1 a s.1) :
    Agree (k.1 + 1) (detElim a k) (gjElim (gjNormalize s k) k).1 := by
  intro i j hi hj
  have h1 : k < i := Fin.lt_def.2 (by omega)
  have h2 : k < j := Fin.lt_def.2 (by omega)
  have h3 : i ≠ k := ne_of_gt h1
  rw [detElim_apply, (gjElim_eq _ _ _).1, if_neg h3, if_pos ⟨h1, h2⟩, gjNormalize_eq]
  simp only [Function.update_self, Function.update_of_ne h3]
  rw [h i j (by omega) (by omega), h i k (by omega) (le_refl _), h k k (le_refl _) (le_refl _), h k j (le_refl _) (by omega)]
  ring

variable [IsStrictOrderedRing K]

omit [IsStrictOrderedRing K] in
theorem det_gj_together (eps : K) (A : Mat K n n) :
    ((rng n 0 n).foldlM (detStep eps) (A, 1) = none ∧ gaussJordan eps A = none) ∨
      ∃ s B, (rng n 0 n).foldlM (detStep eps) (A, 1) = some s ∧ gaussJordan eps A = some B := by
  have := foldlM_rng_rel (detStep eps) (gjStep eps) (fun k s t => Agree k s.1 t.1) ?_
    (s := (A, 1)) (t := (A, identity n)) (fun _ _ _ _ => rfl)
  · unfold gaussJordan
    rcases this with ⟨h1, h2⟩ | ⟨s, t, h1, h2, _⟩
    · left; rw [h2]; exact ⟨h1, rfl⟩
    · right; rw [h2]; exact ⟨s, t.2, h1, rfl⟩
  · intro k hk s t h
    have hp := pivot_agree (k := ⟨k, hk⟩) h
    have hle := (pivot_spec t.1 ⟨k, hk⟩).1
    unfold detStep gjStep
    dsimp only
    rw [hp]
    by_cases he : (pivot t.1 ⟨k, hk⟩).2 ≤ eps
    · left; simp only [if_pos he]; exact ⟨trivial, trivial⟩
    · right
      simp only [if_neg he]
      refine ⟨_, _, rfl, rfl, ?_⟩
      refine agree_det_gj (k := ⟨k, hk⟩) ?_
      split
      · exact agree_swap hle h
      · exact h

omit [IsStrictOrderedRing K] in
theorem det_lu_together (eps : K) (A : Mat K n n) :
    ((rng n 0 n).foldlM (detStep eps) (A, 1) = none ∧ luDecompose eps A = none) ∨
      ∃ s d, (rng n 0 n).foldlM (detStep eps) (A, 1) = some s ∧ luDecompose eps A = some d := by
  have := foldlM_rng_rel (detStep eps) (luStep eps) (fun k s t => Agree k s.1 t.lu) ?_
    (s := (A, 1)) (t := ⟨A, id, 1⟩) (fun _ _ _ _ => rfl)
  · unfold luDecompose
    rcases this with ⟨h1, h2⟩ | ⟨s, t, h1, h2, _⟩
    · left; exact ⟨h1, h2⟩
    · right; exact ⟨s, t, h1, h2⟩
  · intro k hk s t h
    have hp := pivot_agree (k := ⟨k, hk⟩) h
    have hle := (pivot_spec t.lu ⟨k, hk⟩).1
    unfold detStep luStep
    dsimp only
    rw [hp]
    by_cases he : (pivot t.lu ⟨k, hk⟩).2 ≤ eps
    · left; simp only [if_pos he]; exact ⟨trivial, trivial⟩
    · right
      simp only [if_neg he]
      refine ⟨_, _, rfl, rfl, ?_⟩
      refine agree_det_lu (k := ⟨k, hk⟩) ?_
      split
      · exact agree_swap hle h
      · exact h

/-- The computed determinant is zero exactly when the loop stops early. -/
theorem determinant_zero_iff {eps : K} (he : 0 ≤ eps) (A : Mat K n n) :
    determinant eps A = 0 ↔ (rng n 0 n).foldlM (detStep eps) (A, 1) = none := by
  unfold determinant
  cases h : (rng n 0 n).foldlM (detStep eps) (A, 1) with
  | none => simp
  | some s =>
    have := (determinant_inv he A h).2
    simp [this]

end Verif.Mat
