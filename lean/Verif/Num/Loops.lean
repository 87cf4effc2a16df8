import Mathlib.Data.List.FinRange
import Mathlib.Logic.Function.Basic
import Mathlib.Algebra.BigOperators.Fin

/-!
# Counted loops over fixed-size arrays

An array `[T; N]` is a function `Fin N → T`, so every index is in bounds by construction. A Rust loop
`for i in a..b` (with `b ≤ N`) is a left fold over `rng N a b`, the list of the indices `a, a+1, …, b-1`.
-/

namespace Verif

/-- The indices of the Rust range `a..b` inside an array of length `n`, in increasing order. -/
def rng (n a b : Nat) : List (Fin n) := ((List.finRange n).take b).drop a

theorem mem_rng {n a b : Nat} {i : Fin n} : i ∈ rng n a b ↔ a ≤ i.1 ∧ i.1 < b := by
  unfold rng
  rw [List.mem_iff_getElem]
  constructor
  · rintro ⟨k, hk, rfl⟩
    simp only [List.length_drop, List.length_take, List.length_finRange] at hk
    simp only [List.getElem_drop, List.getElem_take, List.getElem_finRange, Fin.val_cast]
    omega
  · rintro ⟨h1, h2⟩
    refine ⟨i.1 - a, ?_, ?_⟩
    · simp only [List.length_drop, List.length_take, List.length_finRange]; omega
    · apply Fin.ext
      simp only [List.getElem_drop, List.getElem_take, List.getElem_finRange, Fin.val_cast]
      omega

theorem nodup_rng (n a b : Nat) : (rng n a b).Nodup :=
  ((List.nodup_finRange n).sublist (List.take_sublist _ _)).sublist (List.drop_sublist _ _)

theorem rng_full (n : Nat) : rng n 0 n = List.finRange n := by
  unfold rng
  rw [List.drop_zero, List.take_of_length_le (by simp)]

theorem rng_nil {n a b : Nat} (h : b ≤ a) : rng n a b = [] := by
  unfold rng
  rw [List.drop_eq_nil_of_le]
  simp only [List.length_take, List.length_finRange]; omega

theorem rng_cons {n a b : Nat} (h : a < b) (hb : b ≤ n) :
    rng n a b = ⟨a, by omega⟩ :: rng n (a + 1) b := by
  unfold rng
  rw [List.drop_eq_getElem_cons (by simp only [List.length_take, List.length_finRange]; omega)]
  congr 1
  apply Fin.ext
  simp

theorem rng_append {n a b c : Nat} (h1 : a ≤ b) (h2 : b ≤ c) :
    rng n a c = rng n a b ++ rng n b c := by
  unfold rng
  rw [← List.take_append_drop (b - a) (((List.finRange n).take c).drop a), List.drop_drop,
    List.take_drop, List.take_take]
  congr 2
  · congr 2; omega
  · omega

theorem rng_snoc {n a b : Nat} (h : a ≤ b) (hb : b < n) :
    rng n a (b + 1) = rng n a b ++ [⟨b, hb⟩] := by
  rw [rng_append h (Nat.le_succ b), rng_cons (Nat.lt_succ_self b) hb, rng_nil (Nat.le_refl _)]

/-! ## Invariant rules -/

variable {σ : Type*}

/-- Invariant rule for `for i in a..b`. -/
theorem foldl_rng {n : Nat} (f : σ → Fin n → σ) (Inv : Nat → σ → Prop) {a b : Nat}
    (hb : b ≤ n) (hab : a ≤ b)
    (step : ∀ k (hk : k < n) s, a ≤ k → k < b → Inv k s → Inv (k + 1) (f s ⟨k, hk⟩))
    {s : σ} (h : Inv a s) : Inv b ((rng n a b).foldl f s) := by
  suffices H : ∀ d a' s, a' + d = b → a ≤ a' → Inv a' s → Inv b ((rng n a' b).foldl f s) from
    H (b - a) a s (by omega) (Nat.le_refl _) h
  intro d
  induction d with
  | zero =>
    intro a' s h1 _ h2
    have : a' = b := by omega
    subst this
    rw [rng_nil (Nat.le_refl _)]; exact h2
  | succ d ih =>
    intro a' s h1 h3 h2
    rw [rng_cons (by omega) hb, List.foldl_cons]
    exact ih (a' + 1) _ (by omega) (by omega) (step a' (by omega) s h3 (by omega) h2)

/-- Invariant rule for `for i in a..b` with an early return of `None`. -/
theorem foldlM_rng {n : Nat} (f : σ → Fin n → Option σ) (Inv : Nat → σ → Prop) {a b : Nat}
    (hb : b ≤ n) (hab : a ≤ b)
    (step : ∀ k (hk : k < n) s s', a ≤ k → k < b → Inv k s → f s ⟨k, hk⟩ = some s' → Inv (k + 1) s')
    {s s' : σ} (h : Inv a s) (hf : (rng n a b).foldlM f s = some s') : Inv b s' := by
  suffices H : ∀ d a' s, a' + d = b → a ≤ a' → Inv a' s → (rng n a' b).foldlM f s = some s' → Inv b s' from
    H (b - a) a s (by omega) (Nat.le_refl _) h hf
  intro d
  induction d with
  | zero =>
    intro a' s h1 _ h2 h3
    have : a' = b := by omega
    subst this
    rw [rng_nil (Nat.le_refl _)] at h3
    simp only [List.foldlM_nil, Option.pure_def, Option.some.injEq] at h3
    rw [← h3]; exact h2
  | succ d ih =>
    intro a' s h1 h4 h2 h3
    rw [rng_cons (by omega) hb, List.foldlM_cons] at h3
    simp only [Option.bind_eq_bind, Option.bind_eq_some_iff] at h3
    obtain ⟨s₁, h5, h6⟩ := h3
    exact ih (a' + 1) s₁ (by omega) (by omega) (step a' (by omega) s s₁ h4 (by omega) h2 h5) h6

/-- Progress rule for `for i in a..b` with an early return: if every step succeeds, so does the loop. -/
theorem foldlM_rng_total {n : Nat} (f : σ → Fin n → Option σ) (Inv : Nat → σ → Prop) {a b : Nat}
    (hb : b ≤ n) (hab : a ≤ b)
    (step : ∀ k (hk : k < n) s, a ≤ k → k < b → Inv k s → ∃ s', f s ⟨k, hk⟩ = some s' ∧ Inv (k + 1) s')
    {s : σ} (h : Inv a s) : ∃ s', (rng n a b).foldlM f s = some s' ∧ Inv b s' := by
  suffices H : ∀ d a' s, a' + d = b → a ≤ a' → Inv a' s →
      ∃ s', (rng n a' b).foldlM f s = some s' ∧ Inv b s' from
    H (b - a) a s (by omega) (Nat.le_refl _) h
  intro d
  induction d with
  | zero =>
    intro a' s h1 _ h2
    have : a' = b := by omega
    subst this
    rw [rng_nil (Nat.le_refl _)]
    exact ⟨s, rfl, h2⟩
  | succ d ih =>
    intro a' s h1 h4 h2
    obtain ⟨s₁, h5, h6⟩ := step a' (by omega) s h4 (by omega) h2
    obtain ⟨s', h7, h8⟩ := ih (a' + 1) s₁ (by omega) (by omega) h6
    refine ⟨s', ?_, h8⟩
    rw [rng_cons (by omega) hb, List.foldlM_cons, h5]
    exact h7

/-- Invariant rule for `for i_rev in 0..n { let i = n-1-i_rev; … }`: `Inv k` holds when exactly the
indices `≥ k` have been processed. -/
theorem foldl_rev {n : Nat} (f : σ → Fin n → σ) (Inv : Nat → σ → Prop)
    (step : ∀ k (hk : k < n) s, Inv (k + 1) s → Inv k (f s ⟨k, hk⟩))
    {s : σ} (h : Inv n s) : Inv 0 ((rng n 0 n).reverse.foldl f s) := by
  suffices H : ∀ k s, k ≤ n → Inv k s → Inv 0 ((rng n 0 k).reverse.foldl f s) from
    H n s (Nat.le_refl _) h
  intro k
  induction k with
  | zero => intro s _ h; rw [rng_nil (Nat.le_refl _)]; exact h
  | succ k ih =>
    intro s hk h
    rw [rng_snoc (Nat.zero_le _) hk, List.reverse_append, List.foldl_append]
    exact ih _ (by omega) (step k hk s h)

/-! ## Rows updated one after the other -/

/-- A loop whose step at `r` replaces element `r` by a value that depends only on element `r` and on
elements outside the loop's index list. -/
theorem foldl_update {ι β : Type*} [DecidableEq ι] (g : (ι → β) → ι → β) (l : List ι) (hn : l.Nodup)
    (hg : ∀ a a' : ι → β, ∀ r ∈ l, a r = a' r → (∀ q, q ∉ l → a q = a' q) → g a r = g a' r)
    (a : ι → β) (r : ι) :
    l.foldl (fun a r => Function.update a r (g a r)) a r = if r ∈ l then g a r else a r := by
  suffices H : ∀ l' : List ι, l'.Nodup → (∀ q ∈ l', q ∈ l) → ∀ a' : ι → β,
      (∀ q, q ∉ l → a' q = a q) → (∀ q ∈ l', a' q = a q) →
      l'.foldl (fun a r => Function.update a r (g a r)) a' r = if r ∈ l' then g a r else a' r by
    exact H l hn (fun _ h => h) a (fun _ _ => rfl) (fun _ _ => rfl)
  intro l'
  induction l' with
  | nil => intros; simp
  | cons q l' ih =>
    intro hnd hsub a' h1 h2
    rw [List.foldl_cons]
    have hq : q ∉ l' := (List.nodup_cons.1 hnd).1
    have hgq : g a' q = g a q :=
      hg a' a q (hsub q (by simp)) (h2 q (by simp)) (fun x hx => h1 x hx)
    rw [ih (List.nodup_cons.1 hnd).2 (fun x hx => hsub x (List.mem_cons_of_mem _ hx))]
    · by_cases hr : r ∈ l'
      · simp [hr]
      · by_cases hrq : r = q
        · subst hrq; simp [hr, hgq]
        · simp [hr, hrq]
    · intro x hx
      have : x ≠ q := fun e => hx (e ▸ hsub q (by simp))
      rw [Function.update_of_ne this, h1 x hx]
    · intro x hx
      have : x ≠ q := fun e => hq (e ▸ hx)
      rw [Function.update_of_ne this, h2 x (List.mem_cons_of_mem _ hx)]

theorem sum_rng {n a b : Nat} {M : Type*} [AddCommMonoid M] (f : Fin n → M) :
    ((rng n a b).map f).sum = ∑ i with a ≤ i.1 ∧ i.1 < b, f i := by
  rw [← List.sum_toFinset f (nodup_rng n a b)]
  apply Finset.sum_congr _ (fun _ _ => rfl)
  ext i
  simp [mem_rng]

theorem foldl_sub_sum {ι G : Type*} [AddCommGroup G] (f : ι → G) (l : List ι) (s : G) :
    l.foldl (fun s j => s - f j) s = s - (l.map f).sum := by
  induction l generalizing s with
  | nil => simp
  | cons x l ih => rw [List.foldl_cons, ih, List.map_cons, List.sum_cons, sub_sub]

theorem foldl_add_sum {ι G : Type*} [AddMonoid G] (f : ι → G) (l : List ι) (s : G) :
    l.foldl (fun s j => s + f j) s = s + (l.map f).sum := by
  induction l generalizing s with
  | nil => simp
  | cons x l ih => rw [List.foldl_cons, ih, List.map_cons, List.sum_cons, add_assoc]

end Verif
