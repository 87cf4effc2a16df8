import Verif.Ieee.Special
import Verif.Mat.Elim

/-!
# LU decomposition and linear solve in IEEE arithmetic (C161)
-/

namespace Verif.Ieee

open Verif.Mat

variable {n : ℕ} {F : Format} {fl : ℝ → ℝ}

noncomputable instance : AbsVal (IE F fl) := ⟨IE.abs⟩

theorem absV_num (x : ℝ) : absV (IE.num x : IE F fl) = IE.num |x| := rfl

/-! ## Numbers of bounded size -/

/-- A finite number of absolute value at most `2 ^ c`. -/
def Below (c : ℕ) (a : IE F fl) : Prop := ∃ x, a = IE.num x ∧ Finite F x ∧ |x| ≤ 2 ^ c

theorem Below.mono {c d : ℕ} {a : IE F fl} (h : Below c a) (hcd : c ≤ d) : Below d a := by
  obtain ⟨x, e, f, b⟩ := h
  exact ⟨x, e, f, b.trans (pow_le_pow_right₀ (by norm_num) hcd)⟩

theorem Below.isNum {c : ℕ} {a : IE F fl} (h : Below c a) : IE.IsNum a := by
  obtain ⟨x, e, f, -⟩ := h
  exact ⟨x, e, f⟩

theorem ofReal_below (hp : 1 ≤ F.p) (hlo : F.emin ≤ 0) (h : Rounds F fl) {c : ℕ} (hc : (c : ℤ) < F.emax) {x : ℝ} (hx : |x| ≤ 2 ^ c) :
    Below c (IE.ofReal x : IE F fl) := by
  have g : OnGrid F ((2 : ℝ) ^ c) := by
    have := onGrid_pow hp (e := (c : ℤ)) (by omega)
    rwa [zpow_natCast] at this
  have h1 : fl x ≤ 2 ^ c := by
    have := h.mono ((le_abs_self x).trans hx)
    rwa [h.fix g] at this
  have h2 : -2 ^ c ≤ fl x := by
    have := h.mono (neg_le.1 ((neg_le_abs x).trans hx))
    rwa [h.fix g.neg] at this
  have h3 : |fl x| ≤ 2 ^ c := abs_le.2 ⟨h2, h1⟩
  have h4 : |fl x| < 2 ^ F.emax := by
    refine h3.trans_lt ?_
    rw [← zpow_natCast]
    exact zpow_lt_zpow_right₀ (by norm_num) hc
  exact ⟨fl x, ofReal_num h4, ⟨(h x).1, h4⟩, h3⟩

section Ops

variable (hp : 1 ≤ F.p) (hlo : F.emin ≤ 0) (h : Rounds F fl)
include hp hlo h

theorem Below.sub {c : ℕ} {a b : IE F fl} (ha : Below c a) (hb : Below c b) (hc : ((c + 1 : ℕ) : ℤ) < F.emax) : Below (c + 1) (a - b) := by
  obtain ⟨x, rfl, -, hx⟩ := ha
  obtain ⟨y, rfl, -, hy⟩ := hb
  rw [sub_num]
  refine ofReal_below hp hlo h hc ?_
  rw [pow_succ]
  have := abs_add_le x (-y)
  rw [abs_neg] at this
  linarith

theorem Below.mul {c d : ℕ} {a b : IE F fl} (ha : Below c a) (hb : Below d b) (hc : ((c + d : ℕ) : ℤ) < F.emax) : Below (c + d) (a * b) := by
  obtain ⟨x, rfl, -, hx⟩ := ha
  obtain ⟨y, rfl, -, hy⟩ := hb
  rw [mul_num]
  refine ofReal_below hp hlo h hc ?_
  rw [abs_mul, pow_add]
  exact mul_le_mul hx hy (abs_nonneg _) (by positivity)

theorem Below.div {c m : ℕ} {a : IE F fl} {y : ℝ} (ha : Below c a) (hy : (2 : ℝ) ^ (-m : ℤ) ≤ |y|) (hc : ((c + m : ℕ) : ℤ) < F.emax) :
    Below (c + m) (a / IE.num y) := by
  obtain ⟨x, rfl, -, hx⟩ := ha
  have hpos : (0 : ℝ) < 2 ^ (-m : ℤ) := by positivity
  have hy0 : y ≠ 0 := abs_pos.1 (hpos.trans_le hy)
  rw [div_num _ hy0]
  refine ofReal_below hp hlo h hc ?_
  rw [abs_div, div_le_iff₀ (abs_pos.2 hy0), pow_add]
  calc |x| ≤ 2 ^ c := hx
    _ = 2 ^ c * 2 ^ m * 2 ^ (-m : ℤ) := by
      rw [zpow_neg, zpow_natCast, mul_assoc, mul_inv_cancel₀ (by positivity), mul_one]
    _ ≤ _ := mul_le_mul_of_nonneg_left hy (by positivity)

theorem quotient_below {x y : ℝ} (hxy : |x| ≤ |y|) (hy : y ≠ 0) (he : 1 ≤ F.emax) : Below 0 (IE.num x / IE.num y : IE F fl) := by
  rw [div_num _ hy]
  refine ofReal_below hp hlo h (by exact_mod_cast (by omega : (0 : ℤ) < F.emax)) ?_
  rw [abs_div, pow_zero]
  exact div_le_one_of_le₀ hxy (abs_nonneg _)

/-- Subtracting products one after the other. -/
theorem less_products {c : ℕ} {l : List (Fin n)} {s : IE F fl} {v w : Fin n → IE F fl} (hs : Below c s) (hv : ∀ k ∈ l, Below c (v k * w k))
    (hc : ((c + l.length : ℕ) : ℤ) < F.emax) : Below (c + l.length) (l.foldl (fun s k => s - v k * w k) s) := by
  suffices H : ∀ (l : List (Fin n)) (d : ℕ) (s : IE F fl), c ≤ d → Below d s → (∀ k ∈ l, Below c (v k * w k)) → ((d + l.length : ℕ) : ℤ) < F.emax →
      Below (d + l.length) (l.foldl (fun s k => s - v k * w k) s) from H l c s le_rfl hs hv hc
  intro l
  induction l with
  | nil => intro d s _ hs _ _; exact hs
  | cons k l ih =>
    intro d s hd hs hv hc
    rw [List.length_cons] at hc
    rw [List.foldl_cons, List.length_cons, show d + (l.length + 1) = d + 1 + l.length by omega]
    refine ih (d + 1) _ (by omega) ?_ (fun j hj => hv j (List.mem_cons_of_mem _ hj)) (by push_cast at hc ⊢; omega)
    exact hs.sub hp hlo h ((hv k List.mem_cons_self).mono hd) (by push_cast at hc ⊢; omega)

end Ops

/-! ## The decomposition -/

/-- The pivot search among finite numbers finds an entry of largest absolute value. -/
theorem pivot_ie (a : Mat (IE F fl) n n) (v : Fin n → ℝ) (k : Fin n) (hv : ∀ r, k ≤ r → a r k = IE.num (v r)) :
    k ≤ (pivot a k).1 ∧ (pivot a k).2 = IE.num |v (pivot a k).1| ∧ ∀ r, k ≤ r → |v r| ≤ |v (pivot a k).1| := by
  have := foldl_rng (fun s r => if absV (a r k) > s.2 then (r, absV (a r k)) else s)
    (fun t (s : Fin n × IE F fl) => k ≤ s.1 ∧ s.2 = IE.num |v s.1| ∧ ∀ r : Fin n, k ≤ r → r.1 < t → |v r| ≤ |v s.1|)
    (a := k.1 + 1) (b := n) (Nat.le_refl _) (by omega)
    (by
      intro t ht s h1 h2 ⟨h3, h4, h5⟩
      have ek := hv ⟨t, ht⟩ (Fin.le_def.2 (by dsimp only; omega))
      rw [ek, absV_num]
      split
      · rename_i hlt
        rw [h4, gt_iff_lt, lt_num] at hlt
        refine ⟨Fin.le_def.2 (by dsimp only; omega), rfl, ?_⟩
        intro r hr hrt
        rcases Nat.lt_succ_iff_lt_or_eq.1 hrt with h | h
        · exact le_trans (h5 r hr h) hlt.le
        · have : r = ⟨t, ht⟩ := Fin.ext h
          rw [this]
      · rename_i hlt
        rw [h4, gt_iff_lt, lt_num] at hlt
        refine ⟨h3, h4, ?_⟩
        intro r hr hrt
        rcases Nat.lt_succ_iff_lt_or_eq.1 hrt with h | h
        · exact h5 r hr h
        · have : r = ⟨t, ht⟩ := Fin.ext h
          rw [this]
          exact not_lt.1 hlt)
    (s := (k, absV (a k k)))
    ⟨le_refl _, by rw [hv k le_rfl, absV_num], by
      intro r h1 h2
      have : r = k := le_antisymm (Fin.le_def.2 (by omega)) h1
      rw [this]⟩
  exact ⟨this.1, this.2.1, fun r hr => this.2.2 r hr r.2⟩

/-- The state of the decomposition before column `k`: the entries are below `2 ^ (e + k)`, the multipliers below 1 and the pivots above `2 ^ (-m)`. -/
def LuB (e m k : ℕ) (a : Mat (IE F fl) n n) : Prop :=
  (∀ i j, Below (e + k) (a i j)) ∧ (∀ i j : Fin n, j.1 < k → j < i → Below 0 (a i j)) ∧
    ∀ j : Fin n, j.1 < k → ∃ y, a j j = IE.num y ∧ (2 : ℝ) ^ (-m : ℤ) ≤ |y|

section Decompose

variable (hp : 1 ≤ F.p) (hlo : F.emin ≤ 0) (h : Rounds F fl)
include hp hlo h

theorem luStep_below {e m : ℕ} {s s' : Lu (IE F fl) n} {k : Fin n} (hc : ((e + n : ℕ) : ℤ) < F.emax) (hs : LuB e m k.1 s.lu)
    (hst : luStep (IE.num (2 ^ (-m : ℤ))) s k = some s') : LuB e m (k.1 + 1) s'.lu := by
  obtain ⟨b1, b2, b3⟩ := hs
  choose v hv hvf hvb using b1
  obtain ⟨p1, p2, p3⟩ := pivot_ie s.lu (fun r => v r k) k fun r _ => hv r k
  unfold luStep at hst
  dsimp only at hst
  split at hst
  · cases hst
  rename_i hpe
  rw [p2, le_num, not_le] at hpe
  injection hst with hst
  subst hst
  generalize hP : (pivot s.lu k).1 = p at p1 p2 p3 hpe
  have hk := k.2
  -- the rows after the exchange
  obtain ⟨t, ht, t1, t2, t3, t4⟩ : ∃ t : Mat (IE F fl) n n, t = (if p ≠ k then (⟨swapRows s.lu k p, swapIdx s.piv k p, -s.sign⟩ : Lu (IE F fl) n) else s).lu ∧
      (∀ i j, Below (e + k.1) (t i j)) ∧ (∀ i j : Fin n, j.1 < k.1 → j < i → Below 0 (t i j)) ∧
      (∀ j : Fin n, j.1 < k.1 → ∃ y, t j j = IE.num y ∧ (2 : ℝ) ^ (-m : ℤ) ≤ |y|) ∧
      ∃ y, t k k = IE.num y ∧ (2 : ℝ) ^ (-m : ℤ) ≤ |y| ∧ ∀ i, k < i → ∃ x, t i k = IE.num x ∧ |x| ≤ |y| := by
    by_cases hpk : p ≠ k
    · refine ⟨_, rfl, ?_⟩
      rw [if_pos hpk]
      dsimp only
      rw [swapRows_eq]
      refine ⟨fun i j => ⟨_, hv _ _, hvf _ _, hvb _ _⟩, fun i j hj hji => ?_, fun j hj => ?_, v p k, ?_, hpe.le, fun i hi => ?_⟩
      · have : j < Equiv.swap k p i := by
          have p1' := Fin.le_def.1 p1
          by_cases e1 : i = k
          · rw [e1, Equiv.swap_apply_left]; exact Fin.lt_def.2 (by omega)
          · by_cases e2 : i = p
            · rw [e2, Equiv.swap_apply_right]; exact Fin.lt_def.2 (by omega)
            · rw [Equiv.swap_apply_of_ne_of_ne e1 e2]; exact hji
        exact b2 _ j hj this
      · have e1 : j ≠ k := fun e => by rw [e] at hj; omega
        have e2 : j ≠ p := fun e => by rw [e] at hj; have := Fin.le_def.1 p1; omega
        dsimp only
        rw [Equiv.swap_apply_of_ne_of_ne e1 e2]
        exact b3 j hj
      · dsimp only
        rw [Equiv.swap_apply_left]; exact hv p k
      · refine ⟨_, hv _ _, p3 _ ?_⟩
        by_cases e2 : i = p
        · rw [e2, Equiv.swap_apply_right]
        · rw [Equiv.swap_apply_of_ne_of_ne hi.ne' e2]; exact hi.le
    · refine ⟨_, rfl, ?_⟩
      rw [if_neg hpk]
      have hpk := not_not.1 hpk
      subst hpk
      exact ⟨fun i j => ⟨_, hv _ _, hvf _ _, hvb _ _⟩, b2, b3, v p p, hv _ _, hpe.le, fun i hi => ⟨_, hv _ _, p3 i hi.le⟩⟩
  dsimp only
  rw [← ht]
  obtain ⟨y, ty, hy, tx⟩ := t4
  have hy0 : y ≠ 0 := abs_pos.1 (lt_of_lt_of_le (by positivity) hy)
  have hq : ∀ i, k < i → Below 0 (t i k / t k k) := by
    intro i hi
    obtain ⟨x, ex, hx⟩ := tx i hi
    rw [ex, ty]
    exact quotient_below hp hlo h hx hy0 (by push_cast at hc; omega)
  refine ⟨fun i j => ?_, fun i j hj hji => ?_, fun j hj => ?_⟩
  · rw [luElim_apply]
    by_cases hi : k < i
    · rw [if_pos hi]
      by_cases hj : j = k
      · rw [if_pos hj]; exact (hq i hi).mono (by omega)
      · rw [if_neg hj]
        by_cases hj' : k < j
        · rw [if_pos hj']
          refine (t1 i j).sub hp hlo h ?_ (by push_cast at hc ⊢; omega)
          have := (hq i hi).mul hp hlo h (t1 k j) (by push_cast at hc ⊢; omega)
          rwa [zero_add] at this
        · rw [if_neg hj']; exact (t1 i j).mono (by omega)
    · rw [if_neg hi]; exact (t1 i j).mono (by omega)
  · rw [luElim_apply]
    by_cases hi : k < i
    · rw [if_pos hi]
      by_cases hjk : j = k
      · rw [if_pos hjk]; exact hq i hi
      · rw [if_neg hjk, if_neg (fun hc => by have := Fin.lt_def.1 hc; omega)]
        exact t2 i j (by have : j.1 ≠ k.1 := fun e => hjk (Fin.ext e); omega) hji
    · rw [if_neg hi]
      have := Fin.lt_def.1 hji
      have := Fin.le_def.1 (not_lt.1 hi)
      exact t2 i j (by omega) hji
  · rw [luElim_apply, if_neg (fun hc => by have := Fin.lt_def.1 hc; omega)]
    rcases Nat.lt_succ_iff_lt_or_eq.1 hj with hj | hj
    · exact t3 j hj
    · have : j = k := Fin.ext hj
      subst this
      exact ⟨y, ty, hy⟩

theorem luDecompose_below {e m : ℕ} {A : Mat (IE F fl) n n} {d : Lu (IE F fl) n} (hc : ((e + n : ℕ) : ℤ) < F.emax)
    (hA : ∀ i j, Below e (A i j)) (hd : luDecompose (IE.num (2 ^ (-m : ℤ))) A = some d) : LuB e m n d.lu := by
  unfold luDecompose at hd
  exact foldlM_rng (luStep (IE.num (2 ^ (-m : ℤ)))) (fun k s => LuB e m k s.lu) le_rfl (Nat.zero_le _)
    (fun k hk s s' _ _ hs hst => luStep_below hp hlo h hc hs hst)
    (s := ⟨A, id, 1⟩) ⟨hA, fun i j hj => absurd hj (Nat.not_lt_zero _), fun j hj => absurd hj (Nat.not_lt_zero _)⟩ hd

/-! ## The triangular solves -/

theorem luSolve_below {e f m : ℕ} {d : Lu (IE F fl) n} {b : Fin n → IE F fl} (hd : LuB e m n d.lu) (hb : ∀ i, Below f (b i))
    (hc : ((f + n + m + n * (e + 2 * n + m) : ℕ) : ℤ) < F.emax) (i : Fin n) : Below (f + n + m + n * (e + 2 * n + m)) (d.solve b i) := by
  obtain ⟨d1, d2, d3⟩ := hd
  unfold Lu.solve
  have len : ∀ a c, (rng n a c).length ≤ c - a := by
    intro a c
    unfold rng
    simp only [List.length_drop, List.length_take]
    omega
  -- the right side
  have hx : ∀ i, Below f ((rng n 0 n).foldl (fun x i => Function.update x i (b (d.piv i))) (fun _ => 0) i) := by
    intro i
    rw [foldl_update (fun _ i => b (d.piv i)) _ (nodup_rng n 0 n) (fun _ _ _ _ _ _ => rfl), if_pos (mem_rng.2 ⟨Nat.zero_le _, i.2⟩)]
    exact hb _
  generalize (rng n 0 n).foldl (fun x i => Function.update x i (b (d.piv i))) (fun _ => 0) = x at hx
  -- forward
  have hy : ∀ i : Fin n, Below (f + n) ((rng n 0 n).foldl (fun x i =>
      Function.update x i ((rng n 0 i.1).foldl (fun s j => s - d.lu i j * x j) (x i))) x i) := by
    have := foldl_rng (fun x i => Function.update x i ((rng n 0 i.1).foldl (fun s j => s - d.lu i j * x j) (x i)))
      (fun t (x : Fin n → IE F fl) => (∀ i : Fin n, i.1 < t → Below (f + i.1) (x i)) ∧ ∀ i : Fin n, t ≤ i.1 → Below f (x i))
      (a := 0) (b := n) le_rfl (Nat.zero_le _)
      (by
        intro t ht x _ _ ⟨h1, h2⟩
        have hrow : Below (f + t) ((rng n 0 t).foldl (fun s j => s - d.lu ⟨t, ht⟩ j * x j) (x ⟨t, ht⟩)) :=
          foldl_rng (fun s j => s - d.lu ⟨t, ht⟩ j * x j) (fun q s => Below (f + q) s) (by omega) (Nat.zero_le _)
            (fun q hq s _ hqt hs => by
              refine hs.sub hp hlo h ?_ (by push_cast at hc ⊢; nlinarith)
              have := (d2 ⟨t, ht⟩ ⟨q, hq⟩ hq (Fin.lt_def.2 hqt)).mul hp hlo h (h1 ⟨q, hq⟩ hqt) (by push_cast at hc ⊢; nlinarith)
              rwa [zero_add] at this) (h2 ⟨t, ht⟩ le_rfl)
        refine ⟨fun i hi => ?_, fun i hi => ?_⟩
        · by_cases e : i = ⟨t, ht⟩
          · subst e; rw [Function.update_self]; exact hrow
          · rw [Function.update_of_ne e]
            exact h1 i (by have : i.1 ≠ t := fun e' => e (Fin.ext e'); omega)
        · rw [Function.update_of_ne (fun e => by rw [e] at hi; dsimp only at hi; omega)]
          exact h2 i (by omega))
      (s := x) ⟨fun i hi => absurd hi (Nat.not_lt_zero _), fun i _ => hx i⟩
    exact fun i => (this.1 i i.2).mono (by omega)
  generalize (rng n 0 n).foldl (fun x i => Function.update x i ((rng n 0 i.1).foldl (fun s j => s - d.lu i j * x j) (x i))) x = y at hy
  -- backward
  have := foldl_rev (fun x i =>
      Function.update x i ((rng n (i.1 + 1) n).foldl (fun s j => s - d.lu i j * x j) (x i) / d.lu i i))
    (fun t (x : Fin n → IE F fl) => (∀ i : Fin n, t ≤ i.1 → Below (f + n + m + (n - t) * (e + 2 * n + m)) (x i)) ∧
      ∀ i : Fin n, i.1 < t → Below (f + n) (x i))
    (by
      intro t ht x ⟨h1, h2⟩
      obtain ⟨g, hg⟩ : ∃ g, n - t = g + 1 := ⟨n - t - 1, by omega⟩
      have hg' : n - (t + 1) = g := by omega
      rw [hg'] at h1
      rw [hg]
      have hgn : (g + 1) * (e + 2 * n + m) ≤ n * (e + 2 * n + m) := Nat.mul_le_mul_right _ (by omega)
      have hexp : (g + 1) * (e + 2 * n + m) = g * (e + 2 * n + m) + (e + 2 * n + m) := Nat.succ_mul _ _
      generalize hG : g * (e + 2 * n + m) = G at h1 hexp
      generalize hN : n * (e + 2 * n + m) = N at hgn hc
      rw [hexp] at hgn ⊢
      have hrow : Below (e + n + (f + n + m + G) + (rng n (t + 1) n).length)
          ((rng n (t + 1) n).foldl (fun s j => s - d.lu ⟨t, ht⟩ j * x j) (x ⟨t, ht⟩)) := by
        have hl := len (t + 1) n
        refine less_products hp hlo h ((h2 ⟨t, ht⟩ (Nat.lt_succ_self _)).mono (by omega)) (fun j hj => ?_) (by push_cast at hc ⊢; omega)
        rw [mem_rng] at hj
        exact (d1 _ _).mul hp hlo h (h1 j hj.1) (by push_cast at hc ⊢; omega)
      obtain ⟨z, ez, hz⟩ := d3 ⟨t, ht⟩ ht
      have hl := len (t + 1) n
      have hq : Below (f + n + m + (G + (e + 2 * n + m)))
          ((rng n (t + 1) n).foldl (fun s j => s - d.lu ⟨t, ht⟩ j * x j) (x ⟨t, ht⟩) / d.lu ⟨t, ht⟩ ⟨t, ht⟩) := by
        rw [ez]
        exact (hrow.div hp hlo h hz (by push_cast at hc ⊢; omega)).mono (by omega)
      refine ⟨fun i hi => ?_, fun i hi => ?_⟩
      · by_cases e1 : i = ⟨t, ht⟩
        · subst e1; rw [Function.update_self]; exact hq
        · rw [Function.update_of_ne e1]
          exact (h1 i (by have : i.1 ≠ t := fun e' => e1 (Fin.ext e'); omega)).mono (by omega)
      · rw [Function.update_of_ne (fun e => by rw [e] at hi; dsimp only at hi; omega)]
        exact h2 i (by omega))
    (s := y) ⟨fun i hi => by have := i.2; omega, fun i _ => hy i⟩
  exact this.1 i (Nat.zero_le _)

end Decompose

/-- **C161**, partial: whatever system of finite numbers, with entries up to `2 ^ e` and a right side up to `2 ^ f`, and whatever tolerance `2 ^ (-m)`
for the pivots (`T::EPSILON` is `2 ^ (-52)` for f64, `2 ^ (-23)` for f32): a solution returned consists of finite numbers, as long as
`f + n + m + n (e + 2 n + m)` is less than the largest exponent. What is missing: larger entries, where an entry may overflow (`C161_fails`), and how far the
solution is off (`C111` without underflow, `C161_wrong_fails` with overflow). -/
theorem C161_partial (hp : 1 ≤ F.p) (hlo : F.emin ≤ 0) (h : Rounds F fl) {e f m : ℕ} (hc : (f + n + m + n * (e + 2 * n + m) : ℤ) < F.emax)
    (A : Fin n → Fin n → ℝ) (b : Fin n → ℝ) (hA : ∀ i j, Finite F (A i j)) (hb : ∀ i, Finite F (b i))
    (hAe : ∀ i j, |A i j| ≤ 2 ^ e) (hbf : ∀ i, |b i| ≤ 2 ^ f) (x : Fin n → IE F fl)
    (hx : solve (IE.num (2 ^ (-m : ℤ))) (fun i j => IE.num (A i j)) (fun i => IE.num (b i)) = some x) (i : Fin n) : IE.IsNum (x i) := by
  unfold solve at hx
  obtain ⟨d, hd, rfl⟩ := Option.map_eq_some_iff.1 hx
  have hn : (0 : ℤ) ≤ n * (2 * n + m) := by positivity
  have hn1 := i.2
  have hc1 : ((e + n : ℕ) : ℤ) < F.emax := by
    have : (e : ℤ) ≤ n * e := le_mul_of_one_le_left (by positivity) (by omega)
    push_cast
    nlinarith
  have := luDecompose_below hp hlo h hc1 (fun i j => ⟨_, rfl, hA i j, hAe i j⟩) hd
  exact (luSolve_below hp hlo h this (fun i => ⟨_, rfl, hb i, hbf i⟩) (by push_cast; exact hc) i).isNum

section Two

variable {K : Type*} [Zero K] [Sub K] [Mul K] [Div K] [AbsVal K] [LT K] [DecidableLT K] [LE K] [DecidableLE K]
/-- The solution of a system of two equations when the rows are not exchanged, for any scalars. -/
theorem solve_two (eps a b c d r s : K) (h1 : ¬ absV c > absV a) (h2 : ¬ absV a ≤ eps) (h3 : ¬ absV (d - c / a * b) ≤ eps) :
    solve eps ![![a, b], ![c, d]] ![r, s] =
      some ![(r - b * ((s - c / a * r) / (d - c / a * b))) / a, (s - c / a * r) / (d - c / a * b)] := by
  have r0 : rng 2 0 2 = [0, 1] := rfl
  have e1 : luElim (![![a, b], ![c, d]] : Mat K 2 2) 0 = ![![a, b], ![c / a, d - c / a * b]] := by
    funext i j
    rw [luElim_apply]
    fin_cases i <;> fin_cases j <;> rfl
  have e2 : luElim (![![a, b], ![c / a, d - c / a * b]] : Mat K 2 2) 1 = ![![a, b], ![c / a, d - c / a * b]] := by
    funext i j
    rw [luElim_apply]
    fin_cases i <;> fin_cases j <;> rfl
  have p0 : pivot (![![a, b], ![c, d]] : Mat K 2 2) 0 = (0, absV a) := if_neg h1
  have p1 : pivot (![![a, b], ![c / a, d - c / a * b]] : Mat K 2 2) 1 = (1, absV (d - c / a * b)) := rfl
  have hd : luDecompose eps (![![a, b], ![c, d]] : Mat K 2 2) = some ⟨![![a, b], ![c / a, d - c / a * b]], id, 1⟩ := by
    unfold luDecompose
    rw [r0, List.foldlM_cons]
    have s0 : luStep eps (⟨![![a, b], ![c, d]], id, 1⟩ : Lu K 2) 0 = some ⟨![![a, b], ![c / a, d - c / a * b]], id, 1⟩ := by
      unfold luStep
      dsimp only
      rw [p0]
      dsimp only
      rw [if_neg h2, if_neg (by simp)]
      dsimp only
      rw [e1]
    have s1 : luStep eps (⟨![![a, b], ![c / a, d - c / a * b]], id, 1⟩ : Lu K 2) 1 = some ⟨![![a, b], ![c / a, d - c / a * b]], id, 1⟩ := by
      unfold luStep
      dsimp only
      rw [p1]
      dsimp only
      rw [if_neg h3, if_neg (by simp)]
      dsimp only
      rw [e2]
    rw [s0]
    simp only [Option.bind_eq_bind, Option.bind_some]
    rw [List.foldlM_cons, s1]
    rfl
  unfold solve
  rw [hd, Option.map_some]
  congr 1
  funext i
  fin_cases i <;> rfl

end Two

/-- The matrix of the failing cases. -/
noncomputable def steep : Fin 2 → Fin 2 → ℝ := ![![1, 2 ^ (1023 : ℤ)], ![1, -2 ^ (1023 : ℤ)]]

theorem pow_finite {e : ℤ} (h1 : -1074 ≤ e) (h2 : e < 1024) : Finite binary64 (2 ^ e) := by
  refine ⟨onGrid_pow (by decide) h1, ?_⟩
  rw [abs_of_pos (by positivity)]
  exact zpow_lt_zpow_right₀ (by norm_num) h2

theorem ofReal_finite (h : Rounds F fl) {x : ℝ} (hx : Finite F x) : (IE.ofReal x : IE F fl) = IE.num x := by
  have := h.fix hx.1
  rw [ofReal_num (by rw [this]; exact hx.2), this]

theorem double_overflow (h : Rounds binary64 fl) :
    (IE.num (-2 ^ (1023 : ℤ)) - IE.num 1 * IE.num (2 ^ (1023 : ℤ)) : IE binary64 fl) = IE.inf true := by
  rw [mul_num, one_mul, ofReal_finite h (pow_finite (by norm_num) (by norm_num)), sub_num]
  have e1 : (-2 ^ (1023 : ℤ) + -2 ^ (1023 : ℤ) : ℝ) = -2 ^ (1024 : ℤ) := by
    rw [show (1024 : ℤ) = 1023 + 1 from rfl, zpow_add₀ (by norm_num), zpow_one]; ring
  rw [e1]
  have e2 : fl (-2 ^ (1024 : ℤ)) = -2 ^ (1024 : ℤ) := h.fix (onGrid_pow (by decide) (by decide)).neg
  unfold IE.ofReal
  rw [if_neg (by rw [e2, abs_neg, abs_of_pos (by positivity)]; exact lt_irrefl _), decide_eq_true (neg_neg_of_pos (by positivity))]

theorem steep_solve (h : Rounds binary64 fl) (r s : ℝ) :
    (∀ i j, Finite binary64 (steep i j)) ∧
    solve (IE.num (2 ^ (-52 : ℤ))) (fun i j => (IE.num (steep i j) : IE binary64 fl)) ![IE.num r, IE.num s] =
      some ![(IE.num r - IE.num (2 ^ (1023 : ℤ)) * ((IE.num s - IE.num 1 * IE.num r) / IE.inf true)) / IE.num 1,
        (IE.num s - IE.num 1 * IE.num r) / IE.inf true] := by
  have f1 : Finite binary64 1 := by simpa using pow_finite (e := 0) (by norm_num) (by norm_num)
  have f2 : Finite binary64 (2 ^ (1023 : ℤ)) := pow_finite (by norm_num) (by norm_num)
  refine ⟨fun i j => ?_, ?_⟩
  · fin_cases i <;> fin_cases j
    · exact f1
    · exact f2
    · exact f1
    · exact ⟨f2.1.neg, by change |-(2 : ℝ) ^ (1023 : ℤ)| < _; rw [abs_neg]; exact f2.2⟩
  have el : (IE.num 1 / IE.num 1 : IE binary64 fl) = IE.num 1 := by rw [div_num _ one_ne_zero, div_one, ofReal_finite h f1]
  have eu : (IE.num (-2 ^ (1023 : ℤ)) - IE.num 1 / IE.num 1 * IE.num (2 ^ (1023 : ℤ)) : IE binary64 fl) = IE.inf true := by
    rw [el]; exact double_overflow h
  have hA : (fun i j => (IE.num (steep i j) : IE binary64 fl)) =
      ![![IE.num 1, IE.num (2 ^ (1023 : ℤ))], ![IE.num 1, IE.num (-2 ^ (1023 : ℤ))]] := by
    funext i j
    fin_cases i <;> fin_cases j <;> rfl
  rw [hA, solve_two]
  · rw [eu, el]
  · rw [gt_iff_lt, absV_num, lt_num]; exact lt_irrefl _
  · rw [absV_num, le_num, abs_one, not_le]
    exact zpow_lt_one_of_neg₀ (by norm_num) (by norm_num)
  · rw [eu]
    exact inf_le_num _

/-- **C161** fails: the system `x + 2¹⁰²³ y = 2¹⁰²³`, `x - 2¹⁰²³ y = -2¹⁰²³` of finite f64 numbers has the solution (0, 1), but the solver returns
NaN for both unknowns. -/
theorem C161_fails (h : Rounds binary64 fl) :
    (∀ i j, Finite binary64 (steep i j)) ∧ (∀ i, ∑ j, steep i j * ![0, 1] j = ![2 ^ (1023 : ℤ), -2 ^ (1023 : ℤ)] i) ∧
    solve (IE.num (2 ^ (-52 : ℤ))) (fun i j => (IE.num (steep i j) : IE binary64 fl)) ![IE.num (2 ^ (1023 : ℤ)), IE.num (-2 ^ (1023 : ℤ))] =
      some ![IE.nan, IE.nan] := by
  obtain ⟨h1, h2⟩ := steep_solve h (2 ^ (1023 : ℤ)) (-2 ^ (1023 : ℤ))
  refine ⟨h1, fun i => ?_, ?_⟩
  · rw [Fin.sum_univ_two]
    fin_cases i <;> simp [steep]
  · rw [h2, double_overflow h]
    have e1 : (IE.inf true / IE.inf true : IE binary64 fl) = IE.nan := rfl
    rw [e1, mul_nan, sub_nan, nan_div]

/-- **C161** fails: the system `x + 2¹⁰²³ y = 2¹⁰²²`, `x - 2¹⁰²³ y = -2¹⁰²²` of finite f64 numbers has the solution (0, 1/2), but the solver returns
(2¹⁰²², 0): finite numbers, with nothing to tell that an entry has overflowed. -/
theorem C161_wrong_fails (h : Rounds binary64 fl) :
    (∀ i j, Finite binary64 (steep i j)) ∧ (∀ i, ∑ j, steep i j * ![0, 1 / 2] j = ![2 ^ (1022 : ℤ), -2 ^ (1022 : ℤ)] i) ∧
    solve (IE.num (2 ^ (-52 : ℤ))) (fun i j => (IE.num (steep i j) : IE binary64 fl)) ![IE.num (2 ^ (1022 : ℤ)), IE.num (-2 ^ (1022 : ℤ))] =
      some ![IE.num (2 ^ (1022 : ℤ)), IE.num 0] := by
  obtain ⟨h1, h2⟩ := steep_solve h (2 ^ (1022 : ℤ)) (-2 ^ (1022 : ℤ))
  have e3 : (2 : ℝ) ^ (1023 : ℤ) = 2 ^ (1022 : ℤ) * 2 := by
    rw [show (1023 : ℤ) = 1022 + 1 from rfl, zpow_add₀ (by norm_num), zpow_one]
  have f2 : Finite binary64 (2 ^ (1022 : ℤ)) := pow_finite (by norm_num) (by norm_num)
  refine ⟨h1, fun i => ?_, ?_⟩
  · rw [Fin.sum_univ_two]
    unfold steep
    rw [e3]
    generalize (2 : ℝ) ^ (1022 : ℤ) = t
    fin_cases i <;> simp
  · rw [h2]
    have e0 : (IE.num (-2 ^ (1022 : ℤ)) - IE.num 1 * IE.num (2 ^ (1022 : ℤ)) : IE binary64 fl) = IE.num (-2 ^ (1023 : ℤ)) := by
      rw [mul_num, one_mul, ofReal_finite h f2, sub_num, ← ofReal_finite h (x := -2 ^ (1023 : ℤ))
        ⟨(onGrid_pow (by decide) (by decide)).neg, by
          rw [abs_neg, abs_of_pos (by positivity)]; exact zpow_lt_zpow_right₀ (by norm_num) (by decide)⟩, e3]
      congr 1; ring
    have e1 : (IE.num (-2 ^ (1023 : ℤ)) / IE.inf true : IE binary64 fl) = IE.num 0 := rfl
    rw [e0, e1, mul_num, mul_zero, ofReal_finite h ⟨onGrid_zero, by rw [abs_zero]; positivity⟩, sub_num, neg_zero, add_zero,
      ofReal_finite h f2, div_num _ one_ne_zero, div_one, ofReal_finite h f2]

/-- The premise of `C161_partial` for f64, three equations and numbers up to 2¹⁹⁰, and a system it speaks of: `2 x + y = 4`, `x + y = 3`. -/
example (h : Rounds binary64 fl) : ((190 + 3 + 52 + 3 * (190 + 2 * 3 + 52) : ℤ) < binary64.emax) ∧
    solve (IE.num (2 ^ (-(52 : ℕ) : ℤ))) ![![IE.num 2, IE.num 1], ![IE.num 1, IE.num 1]] ![IE.num 4, IE.num 3] =
      some ![(IE.num 1 : IE binary64 fl), IE.num 2] := by
  refine ⟨by decide, ?_⟩
  have fin : ∀ k : ℤ, |k| ≤ 8 → (IE.ofReal (k * 2 ^ (-1 : ℤ)) : IE binary64 fl) = IE.num (k * 2 ^ (-1 : ℤ)) := by
    intro k hk
    refine ofReal_finite h ⟨onGrid_of_le (by decide) (hk.trans (by decide)) (by decide), ?_⟩
    rw [abs_mul, abs_of_pos (show (0 : ℝ) < 2 ^ (-1 : ℤ) by positivity), ← Int.cast_abs]
    have h8 : ((|k| : ℤ) : ℝ) ≤ 8 := by exact_mod_cast hk
    calc ((|k| : ℤ) : ℝ) * 2 ^ (-1 : ℤ) ≤ 8 * 2 ^ (-1 : ℤ) := mul_le_mul_of_nonneg_right h8 (by positivity)
      _ = 2 ^ (2 : ℤ) := by norm_num
      _ < 2 ^ binary64.emax := zpow_lt_zpow_right₀ (by norm_num) (by decide)
  have a1 : (IE.ofReal (1 / 2) : IE binary64 fl) = IE.num (1 / 2) := by have := fin 1 (by decide); norm_num at this ⊢; exact this
  have a2 : (IE.ofReal 1 : IE binary64 fl) = IE.num 1 := by have := fin 2 (by decide); norm_num at this ⊢; exact this
  have a4 : (IE.ofReal 2 : IE binary64 fl) = IE.num 2 := by have := fin 4 (by decide); norm_num at this ⊢; exact this
  have el : (IE.num 1 / IE.num 2 : IE binary64 fl) = IE.num (1 / 2) := by rw [div_num _ two_ne_zero, a1]
  have eu : (IE.num 1 - IE.num 1 / IE.num 2 * IE.num 1 : IE binary64 fl) = IE.num (1 / 2) := by
    rw [el, mul_num, mul_one, a1, sub_num, show (1 + -(1 / 2) : ℝ) = 1 / 2 by norm_num, a1]
  rw [solve_two]
  · rw [eu, el, mul_num, show (1 / 2 * 4 : ℝ) = 2 by norm_num, a4, sub_num, show (3 + -2 : ℝ) = 1 by norm_num, a2, div_num _ (by norm_num),
      show (1 / (1 / 2) : ℝ) = 2 by norm_num, a4, mul_num, one_mul, a4, sub_num, show (4 + -2 : ℝ) = 2 by norm_num, a4, div_num _ two_ne_zero,
      div_self two_ne_zero, a2]
  · rw [gt_iff_lt, absV_num, absV_num, lt_num]; norm_num
  · rw [absV_num, le_num]; norm_num
  · rw [eu, absV_num, le_num]; norm_num

end Verif.Ieee
