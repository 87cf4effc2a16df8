import Verif.Mat.Lemmas

/-! # Lemmas about elimination steps and solves with many right-hand sides, for any scalars -/

namespace Verif.Mat

section Elim
variable {K : Type*} [Sub K] [Mul K] [Div K] {n : Nat}

theorem luElim_apply (a : Mat K n n) (k i j : Fin n) :
    luElim a k i j =
      if k < i then
        (if j = k then a i k / a k k
         else if k < j then a i j - a i k / a k k * a k j else a i j)
      else a i j := by
  unfold luElim
  have e : ∀ (s : Mat K n n), ∀ i ∈ rng n (k.1 + 1) n,
      (let b := setE s i k (s i k / a k k)
        let lik := b i k
        (rng n (k.1 + 1) n).foldl (fun a'' j => setE a'' i j (a'' i j - lik * a'' k j)) b)
      = Function.update s i (fun j => if j = k then s i k / a k k
          else if k < j then s i j - s i k / a k k * s k j else s i j) := by
    intro s i hi
    have hik : k ≠ i := by
      intro e; subst e; have := (mem_rng.1 hi).1; omega
    dsimp only
    rw [rowLoop (fun (a'' : Mat K n n) j => a'' i j - setE s i k (s i k / a k k) i k * a'' k j) i
      (by intro b b' j h1 h2; rw [h1 k hik, h2]) _ (nodup_rng _ _ _)]
    funext r c
    by_cases hr : r = i
    · subst hr
      simp only [Function.update_self, setE_apply, true_and, hik, false_and, if_false, if_true]
      by_cases hc : c = k
      · subst hc
        have : c ∉ rng n (c.1 + 1) n := by rw [mem_rng]; omega
        simp [this]
      · have : c ∈ rng n (k.1 + 1) n ↔ k < c := by rw [mem_rng, Fin.lt_def]; omega
        simp [this, hc]
    · simp [hr, setE_row_ne]
  rw [List.foldl_ext _ _ _ e]
  rw [foldl_update (fun (s : Mat K n n) i j => if j = k then s i k / a k k
          else if k < j then s i j - s i k / a k k * s k j else s i j) _ (nodup_rng _ _ _)]
  · have : i ∈ rng n (k.1 + 1) n ↔ k < i := by rw [mem_rng, Fin.lt_def]; omega
    simp only [this]
    split <;> rfl
  · intro b b' r hr h1 h2
    have : b k = b' k := h2 k (by rw [mem_rng]; omega)
    simp only [h1, this]

theorem detElim_apply (a : Mat K n n) (k i j : Fin n) :
    detElim a k i j =
      if k < i ∧ k < j then a i j - a i k / a k k * a k j else a i j := by
  unfold detElim
  have e : ∀ (s : Mat K n n), ∀ i ∈ rng n (k.1 + 1) n,
      (rng n (k.1 + 1) n).foldl (fun a'' c => setE a'' i c (a'' i c - s i k / a k k * a'' k c)) s
      = Function.update s i (fun j => if k < j then s i j - s i k / a k k * s k j else s i j) := by
    intro s i hi
    have hik : k ≠ i := by
      intro e; subst e; have := (mem_rng.1 hi).1; omega
    rw [rowLoop (fun (a'' : Mat K n n) j => a'' i j - s i k / a k k * a'' k j) i
      (by intro b b' j h1 h2; rw [h1 k hik, h2]) _ (nodup_rng _ _ _)]
    congr 1
    funext c
    have : c ∈ rng n (k.1 + 1) n ↔ k < c := by rw [mem_rng, Fin.lt_def]; omega
    simp [this]
  rw [List.foldl_ext _ _ _ e]
  rw [foldl_update (fun (s : Mat K n n) i j =>
    if k < j then s i j - s i k / a k k * s k j else s i j) _ (nodup_rng _ _ _)]
  · have : i ∈ rng n (k.1 + 1) n ↔ k < i := by rw [mem_rng, Fin.lt_def]; omega
    by_cases h1 : k < i <;> by_cases h2 : k < j <;> simp [this, h1, h2]
  · intro b b' r hr h1 h2
    have : b k = b' k := h2 k (by rw [mem_rng]; omega)
    simp only [h1, this]

end Elim

/-! ### Many right-hand sides -/

section Multi
variable {K : Type*} {n : Nat}

theorem colwise {m : Nat} (F : Fin n → (Fin n → K) → K) (l : List (Fin n)) (x : Mat K n m) (c : Fin m) :
    (fun r => l.foldl (fun (x : Mat K n m) i => Function.update x i (fun col => F i (fun j => x j col))) x r c)
      = l.foldl (fun x i => Function.update x i (F i x)) (fun r => x r c) := by
  induction l generalizing x with
  | nil => rfl
  | cons i l ih =>
    rw [List.foldl_cons, ih, List.foldl_cons]
    congr 1
    funext r
    by_cases h : r = i
    · subst h; simp
    · simp [h]

theorem permLoop [Zero K] {k : Nat} (piv : Fin n → Fin n) (b : Mat K n k) (r : Fin n) (c : Fin k) :
    (rng k 0 k).foldl (fun x col =>
      let tmp := (rng n 0 n).foldl (fun t i => Function.update t i (x (piv i) col)) (fun _ => (0 : K))
      (rng n 0 n).foldl (fun x i => setE x i col (tmp i)) x) b r c = b (piv r) c := by
  suffices H : ∀ l : List (Fin k), l.Nodup → ∀ x : Mat K n k, (∀ q ∈ l, ∀ r, x r q = b r q) →
      (l.foldl (fun x col =>
      let tmp := (rng n 0 n).foldl (fun t i => Function.update t i (x (piv i) col)) (fun _ => (0 : K))
      (rng n 0 n).foldl (fun x i => setE x i col (tmp i)) x) x r c
      = if c ∈ l then b (piv r) c else x r c) by
    rw [H _ (nodup_rng _ _ _) b (fun _ _ _ => rfl)]; simp [mem_rng]
  intro l
  induction l with
  | nil => intros; simp
  | cons q l ih =>
    intro hnd x hx
    have hq : q ∉ l := (List.nodup_cons.1 hnd).1
    rw [List.foldl_cons, ih (List.nodup_cons.1 hnd).2]
    · by_cases hc : c ∈ l
      · simp [hc]
      · rw [vecLoop (fun i => x (piv i) q), colLoop]
        by_cases hcq : c = q
        · subst hcq; simp [hc, mem_rng, hx c (by simp)]
        · simp [hc, hcq]
    · intro c' hc' r'
      rw [vecLoop (fun i => x (piv i) q), colLoop]
      have : c' ≠ q := fun e => hq (e ▸ hc')
      simp [this, hx c' (List.mem_cons_of_mem _ hc')]

theorem solveMulti_col [Zero K] [Sub K] [Mul K] [Div K] {k : Nat} (d : Lu K n) (b : Mat K n k) (c : Fin k) :
    (fun r => d.solveMulti b r c) = d.solve (fun r => b r c) := by
  unfold Lu.solveMulti Lu.solve
  dsimp only
  have e1 : ∀ x : Mat K n k, ∀ i ∈ rng n 0 n, (rng k 0 k).foldl (fun x col =>
      setE x i col ((rng n 0 i.1).foldl (fun s j => s - d.lu i j * x j col) (x i col))) x
      = Function.update x i (fun col => (fun i (x : Fin n → K) =>
          (rng n 0 i.1).foldl (fun s j => s - d.lu i j * x j) (x i)) i (fun j => x j col)) := by
    intro x i _
    rw [rowLoop (fun (x : Mat K n k) col => (rng n 0 i.1).foldl (fun s j => s - d.lu i j * x j col) (x i col)) i
      ?_ _ (nodup_rng _ _ _)]
    · congr 1; funext col; simp [mem_rng]
    · intro a a' col h1 h2
      rw [h2]
      apply List.foldl_ext
      intro s j hj
      rw [h1 j (by intro e; subst e; have := (mem_rng.1 hj).2; omega)]
  have e2 : ∀ x : Mat K n k, ∀ i ∈ (rng n 0 n).reverse, (rng k 0 k).foldl (fun x col =>
      setE x i col ((rng n (i.1 + 1) n).foldl (fun s j => s - d.lu i j * x j col) (x i col) / d.lu i i)) x
      = Function.update x i (fun col => (fun i (x : Fin n → K) =>
          (rng n (i.1 + 1) n).foldl (fun s j => s - d.lu i j * x j) (x i) / d.lu i i) i (fun j => x j col)) := by
    intro x i _
    rw [rowLoop (fun (x : Mat K n k) col =>
      (rng n (i.1 + 1) n).foldl (fun s j => s - d.lu i j * x j col) (x i col) / d.lu i i) i
      ?_ _ (nodup_rng _ _ _)]
    · congr 1; funext col; simp [mem_rng]
    · intro a a' col h1 h2
      rw [h2]
      congr 1
      apply List.foldl_ext
      intro s j hj
      rw [h1 j (by intro e; subst e; have := (mem_rng.1 hj).1; omega)]
  rw [List.foldl_ext _ _ _ e2]
  refine (colwise (fun i (x : Fin n → K) =>
          (rng n (i.1 + 1) n).foldl (fun s j => s - d.lu i j * x j) (x i) / d.lu i i) _ _ c).trans ?_
  rw [List.foldl_ext _ _ _ e1]
  congr 1
  refine (colwise (fun i (x : Fin n → K) =>
          (rng n 0 i.1).foldl (fun s j => s - d.lu i j * x j) (x i)) _ _ c).trans ?_
  congr 1
  rw [vecLoop]
  funext r
  exact permLoop d.piv b r c

end Multi

end Verif.Mat
