import Verif.Mat.InPlace
import Mathlib.Tactic.NormNum

/-!
# C183: the operators of vectors and the assignment to entries
-/

namespace Verif.Mat

variable {α β : Type*} {n : Nat}

theorem fold_all (g : (Fin n → α) → Fin n → α) (hg : ∀ a a' i, a i = a' i → g a i = g a' i) (a : Fin n → α) :
    (rng n 0 n).foldl (fun r i => Function.update r i (g r i)) a = fun i => g a i := by
  funext i
  rw [foldl_update g _ (nodup_rng n 0 n) (fun a a' r _ h _ => hg a a' r h), if_pos (mem_rng.2 ⟨Nat.zero_le _, i.2⟩)]

/-- **C183**: the value operators work entry by entry, with any operation of the scalars (rounded or not). -/
theorem C183_entries [Add α] [Sub α] [Neg α] [Mul α] [Div α] (a b : Fin n → α) (s : α) (i : Fin n) :
    vecAdd a b i = a i + b i ∧ vecSub a b i = a i - b i ∧ vecNeg a i = -a i ∧ vecMul a s i = a i * s ∧ vecDiv a s i = a i / s :=
  ⟨congrFun (fold_all (fun _ i => a i + b i) (fun _ _ _ _ => rfl) a) i, congrFun (fold_all (fun _ i => a i - b i) (fun _ _ _ _ => rfl) a) i,
    congrFun (fold_all (fun _ i => -a i) (fun _ _ _ _ => rfl) a) i, congrFun (fold_all (fun _ i => a i * s) (fun _ _ _ _ => rfl) a) i,
    congrFun (fold_all (fun _ i => a i / s) (fun _ _ _ _ => rfl) a) i⟩

/-- **C183**: `a += b` leaves in `a` what `a + b` returns, and `a -= b` what `a - b` returns. -/
theorem C183_assign [Add α] [Sub α] (a b : Fin n → α) :
    vecAddAssign a b = vecAdd a b ∧ vecSubAssign a b = vecSub a b ∧ ∀ c d : Fin 3 → α, eulerAddAssign c d = vecAdd c d := by
  refine ⟨?_, ?_, fun _ _ => rfl⟩
  · exact (fold_all (fun r i => r i + b i) (fun _ _ _ h => by rw [h]) a).trans
      (fold_all (fun _ i => a i + b i) (fun _ _ _ _ => rfl) a).symm
  · exact (fold_all (fun r i => r i - b i) (fun _ _ _ h => by rw [h]) a).trans
      (fold_all (fun _ i => a i - b i) (fun _ _ _ _ => rfl) a).symm

/-- **C183**: an assignment to an entry succeeds exactly for an index in bounds; it is then read back, and no other entry changes. -/
theorem C183_write (v : Fin n → α) (i : Nat) (x : α) :
    ((vecSet v i x).isSome ↔ i < n) ∧
      ∀ w, vecSet v i x = some w → vecGet w i = some x ∧ ∀ j, j ≠ i → vecGet w j = vecGet v j := by
  unfold vecSet vecGet
  by_cases h : i < n
  · simp only [h, dite_true, Option.isSome_some, true_and, Option.some.injEq]
    rintro w rfl
    refine ⟨by rw [Function.update_self], fun j hj => ?_⟩
    by_cases hjn : j < n
    · simp only [hjn, dite_true]
      rw [Function.update_of_ne (by simpa [Fin.ext_iff] using hj)]
    · simp [hjn]
  · simp [h]

/-- **C183**: iteration visits every entry once, in the order of the indices. -/
theorem C183_iter (v : Fin n → α) : (vecIter v).length = n ∧ ∀ i, (vecIter v)[i]? = vecGet v i := by
  have e : vecIter v = List.ofFn v := by
    unfold vecIter rng
    simp [List.ofFn_eq_map]
  rw [e]
  refine ⟨List.length_ofFn, fun i => ?_⟩
  unfold vecGet
  by_cases h : i < n <;> simp [h]

/-- The state of a closure after the entries of the list have been handed to it. -/
def stateAfter {σ : Type*} (f : σ → α → σ × β) (s : σ) (l : List α) : σ := l.foldl (fun s x => (f s x).1) s

theorem map_list {σ : Type*} (f : σ → α → σ × β) (s : σ) (l : List α) :
    l.foldl (fun (q : σ × List β) x => let (s', y) := f q.1 x; (s', q.2 ++ [y])) (s, []) =
      (stateAfter f s l, l.mapIdx fun k x => (f (stateAfter f s (l.take k)) x).2) := by
  induction l using List.reverseRecOn with
  | nil => rfl
  | append_singleton l x ih =>
    rw [List.foldl_append, ih]
    simp only [List.foldl_cons, List.foldl_nil, stateAfter, List.foldl_append, List.mapIdx_append, List.mapIdx_cons, List.mapIdx_nil, Prod.mk.injEq, true_and]
    congr 1
    · apply List.mapIdx_eq_mapIdx_iff.2
      intro i hi
      rw [List.take_append_of_le_length hi.le]
    · simp

theorem fromIter_ofFn (v : Fin n → β) : fromIter n (List.ofFn v) = some v := by
  induction n with
  | zero => simp [fromIter]; funext i; exact i.elim0
  | succ n ih => simp [List.ofFn_succ, fromIter, ih]; funext i; refine Fin.cases ?_ (fun j => ?_) i <;> simp

/-- **C183**: `map` and a loop over `iter_mut` call the closure once for every entry, in the order of the indices, and put every result at the place
of its entry; the closure may carry a state. -/
theorem C183_map {σ : Type*} (f : σ → α → σ × β) (g : σ → α → σ × α) (s : σ) (v : Fin n → α) :
    (∃ w, vecMap f s v = (stateAfter f s (List.ofFn v), some w) ∧ ∀ i, w i = (f (stateAfter f s ((List.ofFn v).take i)) (v i)).2) ∧
      (vecIterMut g s v).1 = stateAfter g s (List.ofFn v) ∧
      ∀ i, (vecIterMut g s v).2 i = (g (stateAfter g s ((List.ofFn v).take i)) (v i)).2 := by
  have e : vecIter v = List.ofFn v := by
    unfold vecIter rng
    simp [List.ofFn_eq_map]
  refine ⟨⟨fun i => (f (stateAfter f s ((List.ofFn v).take i)) (v i)).2, ?_, fun _ => rfl⟩, ?_⟩
  · unfold vecMap
    rw [e, map_list]
    refine Prod.ext rfl ?_
    show fromIter n _ = _
    rw [← fromIter_ofFn]
    congr 1
    apply List.ext_getElem <;> simp
  · have key := foldl_rng (fun (q : σ × (Fin n → α)) i => let (s', x) := g q.1 (q.2 i); (s', Function.update q.2 i x))
      (fun k q => q.1 = stateAfter g s ((List.ofFn v).take k) ∧
        ∀ i : Fin n, q.2 i = if i.1 < k then (g (stateAfter g s ((List.ofFn v).take i)) (v i)).2 else v i)
      (Nat.le_refl n) (Nat.zero_le n) (s := (s, v)) ?_ ?_
    · refine ⟨key.1.trans ?_, fun i => (key.2 i).trans (if_pos i.2)⟩
      rw [List.take_of_length_le (by simp)]
    · rintro k hk ⟨s', w⟩ - - ⟨h1, h2⟩
      simp only at h1 h2 ⊢
      subst h1
      have hv : w ⟨k, hk⟩ = v ⟨k, hk⟩ := by rw [h2, if_neg (lt_irrefl k)]
      rw [hv]
      refine ⟨?_, fun i => ?_⟩
      · rw [List.take_succ_eq_append_getElem (by simpa using hk)]
        simp [stateAfter]
      · by_cases hi : i = ⟨k, hk⟩
        · subst hi
          rw [Function.update_self, if_pos (Nat.lt_succ_self k)]
        · have hi' : i.1 ≠ k := fun h => hi (Fin.ext h)
          rw [Function.update_of_ne hi, h2]
          by_cases hik : i.1 < k
          · rw [if_pos hik, if_pos (by omega)]
          · rw [if_neg hik, if_neg (by omega)]
    · exact ⟨rfl, fun i => (if_neg (Nat.not_lt_zero _)).symm⟩

/-- Adding in place, writing the last entry, and numbering the entries with a closure that counts its calls. -/
example : vecAddAssign ![1, 2, 3] ![10, 20, (30 : ℤ)] = ![11, 22, 33] ∧ (vecSet ![1, 2, (3 : ℤ)] 2 7).isSome ∧ (vecSet ![1, 2, (3 : ℤ)] 3 7) = none ∧
    (vecIterMut (fun (k : ℤ) x => (k + 1, x * k)) 0 ![5, 6, (7 : ℤ)]).2 = ![0, 6, 14] := by decide

end Verif.Mat
