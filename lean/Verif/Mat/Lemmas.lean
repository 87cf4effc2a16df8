import Verif.Mat.Model
import Mathlib.LinearAlgebra.Matrix.NonsingularInverse
import Mathlib.Tactic.Linarith
import Mathlib.Tactic.Ring
import Mathlib.Tactic.FieldSimp

/-! # Lemmas about the loops of the matrix code -/

namespace Verif.Mat

section Basic
variable {α : Type*} {m n p : Nat}

theorem setE_apply (a : Mat α m n) (r : Fin m) (c : Fin n) (v : α) (r' : Fin m) (c' : Fin n) :
    setE a r c v r' c' = if r' = r ∧ c' = c then v else a r' c' := by
  unfold setE
  by_cases h : r' = r
  · subst h
    by_cases h2 : c' = c
    · subst h2; simp
    · simp [h2]
  · simp [h]

theorem setE_row_ne (a : Mat α m n) {r q : Fin m} (c : Fin n) (v : α) (h : q ≠ r) :
    setE a r c v q = a q := Function.update_of_ne h _ _

/-- A loop over columns that writes only row `i`, each value depending on the entry itself and on the
other rows. -/
theorem rowLoop (h : Mat α m n → Fin n → α) (i : Fin m)
    (hh : ∀ a a' : Mat α m n, ∀ j, (∀ q, q ≠ i → a q = a' q) → a i j = a' i j → h a j = h a' j)
    (l : List (Fin n)) (hn : l.Nodup) (a : Mat α m n) :
    l.foldl (fun a j => setE a i j (h a j)) a
      = Function.update a i (fun j => if j ∈ l then h a j else a i j) := by
  suffices H : ∀ l' : List (Fin n), l'.Nodup → ∀ a' : Mat α m n, (∀ q, q ≠ i → a' q = a q) →
      (∀ j ∈ l', a' i j = a i j) →
      l'.foldl (fun a j => setE a i j (h a j)) a'
        = Function.update a i (fun j => if j ∈ l' then h a j else a' i j) from
    H l hn a (fun _ _ => rfl) (fun _ _ => rfl)
  intro l'
  induction l' with
  | nil =>
    intro _ a' h1 _
    funext q
    by_cases hq : q = i
    · subst hq; simp
    · simp [hq, h1 q hq]
  | cons j l' ih =>
    intro hnd a' h1 h2
    have hj : j ∉ l' := (List.nodup_cons.1 hnd).1
    rw [List.foldl_cons, ih (List.nodup_cons.1 hnd).2]
    · congr 1
      funext c
      by_cases hc : c ∈ l'
      · simp [hc]
      · by_cases hcj : c = j
        · subst hcj
          simp [hc, setE_apply, hh a' a c h1 (h2 c (by simp))]
        · simp [hc, hcj, setE_apply]
    · intro q hq
      rw [setE_row_ne _ _ _ hq, h1 q hq]
    · intro c hc
      have : c ≠ j := fun e => hj (e ▸ hc)
      rw [setE_apply]
      simp [this, h2 c (List.mem_cons_of_mem _ hc)]

theorem fillLoop_apply (f : Fin m → Fin n → α) (init : Mat α m n) (r : Fin m) (c : Fin n) :
    fillLoop f init r c = f r c := by
  unfold fillLoop
  have : (fun (res : Mat α m n) (r : Fin m) => (rng n 0 n).foldl (fun res c => setE res r c (f r c)) res)
      = fun res r => Function.update res r (f r) := by
    funext res r
    rw [rowLoop (fun _ c => f r c) r (fun _ _ _ _ _ => rfl) _ (nodup_rng _ _ _)]
    congr 1
    funext c
    simp [mem_rng]
  rw [this, foldl_update (fun _ r => f r) _ (nodup_rng _ _ _) (fun _ _ _ _ _ _ => rfl)]
  simp [mem_rng]

/-- A loop over rows that writes only column `c`. -/
theorem colLoop (v : Fin m → α) (c : Fin n) (l : List (Fin m)) (a : Mat α m n) (r : Fin m) (c' : Fin n) :
    l.foldl (fun a r => setE a r c (v r)) a r c' = if r ∈ l ∧ c' = c then v r else a r c' := by
  induction l generalizing a with
  | nil => simp
  | cons q l ih =>
    rw [List.foldl_cons, ih, setE_apply]
    by_cases h1 : r ∈ l <;> by_cases h2 : c' = c <;> by_cases h3 : r = q <;> simp_all

theorem transpose_apply [Zero α] (a : Mat α m n) (r : Fin n) (c : Fin m) :
    transpose a r c = a c r := by
  unfold transpose
  suffices H : ∀ (l : List (Fin m)) (out : Mat α n m), c ∈ l ∨ out r c = a c r →
      l.foldl (fun out r => (rng n 0 n).foldl (fun out c => setE out c r (a r c)) out) out r c = a c r from
    H _ _ (Or.inl (by simp [mem_rng]))
  intro l
  induction l with
  | nil => intro out h; simpa using h
  | cons q l ih =>
    intro out h
    rw [List.foldl_cons]
    apply ih
    rw [colLoop (fun c => a q c) q]
    by_cases hc : c = q
    · subst hc; right; simp [mem_rng]
    · rcases h with h | h
      · left; simpa [hc] using h
      · right; simp [hc, h]

theorem diag_apply [Zero α] (d : Fin n → α) (r c : Fin n) :
    diag d r c = if r = c then d r else 0 := by
  unfold diag
  suffices H : ∀ (l : List (Fin n)) (a : Mat α n n),
      l.foldl (fun data i => setE data i i (d i)) a r c = if r = c ∧ r ∈ l then d r else a r c by
    rw [H]; simp [mem_rng, zeros]
  intro l
  induction l with
  | nil => intro a; simp
  | cons q l ih =>
    intro a
    rw [List.foldl_cons, ih, setE_apply]
    by_cases h1 : r ∈ l <;> by_cases h2 : r = c <;> by_cases h3 : r = q <;> simp_all <;> grind

theorem identity_eq_diag [Zero α] [One α] : identity n = diag (fun _ : Fin n => (1 : α)) := rfl

theorem identity_apply [Zero α] [One α] (r c : Fin n) :
    identity n r c = if r = c then (1 : α) else 0 := by
  rw [identity_eq_diag, diag_apply]

/-- The accumulation the specification asks for: left to right from zero. -/
theorem vecLoop (g : Fin m → α) (init : Fin m → α) :
    (rng m 0 m).foldl (fun res i => Function.update res i (g i)) init = g := by
  funext i
  rw [foldl_update (fun _ i => g i) _ (nodup_rng _ _ _) (fun _ _ _ _ _ _ => rfl)]
  simp [mem_rng]

end Basic

/-! ## Matrix product -/

section Mul
variable {α : Type*} [Add α] [Mul α] {m n p : Nat}

theorem mulInner_eq (x : α) (rhs : Mat α n p) (i : Fin m) (k : Fin n) (j0 j1 : Nat) (res : Mat α m p) :
    mulInner x rhs i k j0 j1 res
      = Function.update res i (fun j => if j0 ≤ j.1 ∧ j.1 < j1 then res i j + x * rhs k j else res i j) := by
  unfold mulInner
  rw [rowLoop (fun res j => res i j + x * rhs k j) i (by intro a a' j _ h2; simp only [h2]) _
    (nodup_rng _ _ _)]
  simp only [mem_rng]

/-- Partial accumulation of entry `(i, j)` over the indices in `l`, starting from `s`. -/
def accum (a : Mat α m n) (rhs : Mat α n p) (i : Fin m) (j : Fin p) (l : List (Fin n)) (s : α) : α :=
  l.foldl (fun s k => s + a i k * rhs k j) s

theorem mulK_eq (a : Mat α m n) (rhs : Mat α n p) (i : Fin m) (j0 j1 : Nat) (l : List (Fin n))
    (res : Mat α m p) :
    l.foldl (fun res k => mulInner (a i k) rhs i k j0 j1 res) res
      = Function.update res i
          (fun j => if j0 ≤ j.1 ∧ j.1 < j1 then accum a rhs i j l (res i j) else res i j) := by
  induction l generalizing res with
  | nil => simp [accum]
  | cons k l ih =>
    rw [List.foldl_cons, ih, mulInner_eq]
    rw [Function.update_idem]
    congr 1
    funext j
    simp only [Function.update_self, accum, List.foldl_cons]
    split <;> rfl

theorem mulColBlocks_eq (a : Mat α m n) (rhs : Mat α n p) (i : Fin m) (k0 kmax : Nat) :
    ∀ (j0 : Nat) (res : Mat α m p), mulColBlocks a rhs i k0 kmax j0 res
      = Function.update res i
          (fun j => if j0 ≤ j.1 then accum a rhs i j (rng n k0 kmax) (res i j) else res i j) := by
  intro j0 res
  induction j0, res using mulColBlocks.induct (a := a) (rhs := rhs) (i := i) (k0 := k0) (kmax := kmax) with
  | case1 j0 res h ih =>
    rw [mulColBlocks, if_pos h, ih, mulK_eq, Function.update_idem]
    congr 1
    funext j
    simp only [Function.update_self]
    have := j.2
    have hB : 0 < BLOCK := by simp [BLOCK]
    generalize BLOCK = B at hB ⊢
    by_cases h1 : j0 + B ≤ j.1
    · rw [if_pos h1, if_neg (by omega), if_pos (by omega)]
    · rw [if_neg h1]
      by_cases h2 : j0 ≤ j.1
      · rw [if_pos (by omega), if_pos h2]
      · rw [if_neg (by omega), if_neg h2]
  | case2 j0 res h =>
    rw [mulColBlocks, if_neg h]
    symm
    rw [Function.update_eq_self_iff]
    funext j
    rw [if_neg (by have := j.2; omega)]

theorem mulRowBlocks_eq (a : Mat α m n) (rhs : Mat α n p) (i : Fin m) :
    ∀ (k0 : Nat) (res : Mat α m p), mulRowBlocks a rhs i k0 res
      = Function.update res i (fun j => accum a rhs i j (rng n k0 n) (res i j)) := by
  intro k0 res
  induction k0, res using mulRowBlocks.induct (a := a) (rhs := rhs) (i := i) with
  | case1 k0 res h ih =>
    rw [mulRowBlocks, if_pos h, ih, mulColBlocks_eq, Function.update_idem]
    congr 1
    funext j
    simp only [Function.update_self, Nat.zero_le, if_true]
    by_cases h1 : k0 + BLOCK ≤ n
    · rw [Nat.min_eq_left h1, rng_append (a := k0) (b := k0 + BLOCK) (c := n) (by omega) h1]
      unfold accum; rw [List.foldl_append]
    · rw [Nat.min_eq_right (by omega), rng_nil (a := k0 + BLOCK) (by omega)]; rfl
  | case2 k0 res h =>
    rw [mulRowBlocks, if_neg h, rng_nil (by omega)]
    simp [accum]

variable [Zero α]

theorem mulDirect_apply (a : Mat α m n) (rhs : Mat α n p) (i : Fin m) (j : Fin p) :
    mulDirect a rhs i j = accum a rhs i j (rng n 0 n) 0 := by
  unfold mulDirect
  have : (fun (res : Mat α m p) i => (rng n 0 n).foldl (fun res k => mulInner (a i k) rhs i k 0 p res) res)
      = fun (res : Mat α m p) i => Function.update res i (fun j => accum a rhs i j (rng n 0 n) (res i j)) := by
    funext res i
    rw [mulK_eq]
    simp
  rw [this, foldl_update (fun (res : Mat α m p) i j => accum a rhs i j (rng n 0 n) (res i j)) _ (nodup_rng _ _ _)
    (by intro a a' r _ h _; simp only [h])]
  simp [mem_rng, zeros]

theorem mulBlocked_apply (a : Mat α m n) (rhs : Mat α n p) (i : Fin m) (j : Fin p) :
    mulBlocked a rhs i j = accum a rhs i j (rng n 0 n) 0 := by
  unfold mulBlocked
  simp only [mulRowBlocks_eq]
  rw [foldl_update (fun (res : Mat α m p) i j => accum a rhs i j (rng n 0 n) (res i j)) _ (nodup_rng _ _ _)
    (by intro a a' r _ h _; simp only [h])]
  simp [mem_rng, zeros]

theorem mul_apply (a : Mat α m n) (rhs : Mat α n p) (i : Fin m) (j : Fin p) :
    mul a rhs i j = (List.finRange n).foldl (fun s k => s + a i k * rhs k j) 0 := by
  unfold mul
  split
  · rw [mulDirect_apply, accum, rng_full]
  · rw [mulBlocked_apply, accum, rng_full]

end Mul

theorem foldl_finRange_sum {R : Type*} [AddCommMonoid R] {n : Nat} (f : Fin n → R) :
    (List.finRange n).foldl (fun s k => s + f k) 0 = ∑ k, f k := by
  rw [foldl_add_sum, zero_add, List.sum_ofFn.symm, List.ofFn_eq_map]

theorem mul_eq {R : Type*} [NonUnitalNonAssocSemiring R] {m n p : Nat} (a : Mat R m n) (b : Mat R n p) :
    mul a b = (Matrix.of a * Matrix.of b : Matrix _ _ R) := by
  funext i j
  rw [mul_apply, foldl_finRange_sum, Matrix.mul_apply]
  rfl

/-! ## Swaps and pivots -/

section Piv
variable {K : Type*} [Field K] [LinearOrder K] {n m : Nat}

omit [Field K] [LinearOrder K] in
theorem swapRows_eq (a : Mat K n m) (k p : Fin n) :
    swapRows a k p = fun r => a (Equiv.swap k p r) := by
  unfold swapRows
  suffices H : ∀ (l : List (Fin m)), l.Nodup → ∀ b : Mat K n m, (∀ c ∈ l, ∀ r, b r c = a r c) →
      ∀ r c, l.foldl (fun a c => setE (setE a k c (a p c)) p c (a k c)) b r c
        = if c ∈ l then a (Equiv.swap k p r) c else b r c by
    funext r c
    rw [H _ (nodup_rng _ _ _) a (fun _ _ _ => rfl)]
    simp [mem_rng]
  intro l
  induction l with
  | nil => intros; simp
  | cons q l ih =>
    intro hnd b hb r c
    have hq : q ∉ l := (List.nodup_cons.1 hnd).1
    rw [List.foldl_cons, ih (List.nodup_cons.1 hnd).2]
    · by_cases hc : c ∈ l
      · simp [hc]
      · by_cases hcq : c = q
        · subst hcq
          simp only [hc, if_false, List.mem_cons, true_or, if_true, setE_apply, and_true]
          have e := hb c (by simp)
          by_cases h1 : r = p
          · subst h1; simp [e]
          · by_cases h2 : r = k
            · subst h2; simp [h1, e]
            · simp [h1, h2, e, Equiv.swap_apply_of_ne_of_ne h2 h1]
        · simp [hc, hcq, setE_apply]
    · intro c hc r
      have : c ≠ q := fun e => hq (e ▸ hc)
      simp [setE_apply, this, hb c (List.mem_cons_of_mem _ hc)]

theorem swapIdx_eq {β : Type*} (f : Fin n → β) (k p : Fin n) :
    swapIdx f k p = fun r => f (Equiv.swap k p r) := by
  funext r
  unfold swapIdx
  by_cases h1 : r = p
  · subst h1; simp
  · by_cases h2 : r = k
    · subst h2; simp [h1]
    · simp [h1, h2, Equiv.swap_apply_of_ne_of_ne h2 h1]

end Piv

end Verif.Mat
