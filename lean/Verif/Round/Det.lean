import Verif.Round.PropsLu
import Mathlib.LinearAlgebra.Matrix.Block

/-! # Lemmas: the determinant in rounded arithmetic follows the LU decomposition -/

namespace Verif.Round

open Verif.Simd (Fl Accurate)
open Verif.Mat
open Matrix

variable {fl : ℝ → ℝ} {u : ℝ} {n : Nat}

theorem pivot_congr {a b : Mat (Fl fl) n n} {k : Fin n} (h : ∀ r, k ≤ r → a r k = b r k) :
    pivot a k = pivot b k := by
  unfold pivot
  rw [h k le_rfl]
  apply List.foldl_ext
  intro s r hr
  rw [h r (Fin.le_def.2 (by have := (mem_rng.1 hr).1; omega))]

/-- The determinant loop and the LU loop after `k` columns. -/
def DetRel (u : ℝ) (k : Nat) (s : Mat (Fl fl) n n × Fl fl) (t : Lu (Fl fl) n) : Prop :=
  (∀ i j, ¬ (j < i ∧ j.1 < k) → s.1 i j = t.lu i j) ∧
    |s.2.val - t.sign * ∏ i with i.1 < k, (t.lu i i).val|
      ≤ ((1 + u) ^ k - 1) * |t.sign * ∏ i with i.1 < k, (t.lu i i).val|

/-- Both fail, or both succeed with related results. -/
def OptRel {α β : Type*} (R : α → β → Prop) : Option α → Option β → Prop
  | some a, some b => R a b
  | none, none => True
  | _, _ => False

theorem detRel_swap {s : Mat (Fl fl) n n × Fl fl} {t : Lu (Fl fl) n} {k p : Fin n} (hp : k ≤ p)
    (h : DetRel u k.1 s t) :
    DetRel u k.1 (swapRows s.1 k p, -s.2) ⟨swapRows t.lu k p, swapIdx t.piv k p, -t.sign⟩ := by
  obtain ⟨h1, h2⟩ := h
  refine ⟨?_, ?_⟩
  · intro i j hij
    simp only [swapRows_eq]
    apply h1
    by_cases hi : i.1 < k.1
    · rw [swap_low hp hi]; exact hij
    · intro hc
      exact hij ⟨Fin.lt_def.2 (by omega), hc.2⟩
  · have e : (∏ i with i.1 < k.1, (swapRows t.lu k p i i).val) = ∏ i with i.1 < k.1, (t.lu i i).val := by
      apply Finset.prod_congr rfl
      intro i hi
      simp only [swapRows_eq]
      rw [swap_low hp (Finset.mem_filter.1 hi).2]
    dsimp only
    rw [e]
    have e2 : (-s.2).val = -s.2.val := rfl
    push_cast
    rw [e2, neg_mul, abs_neg, ← neg_sub', abs_neg]
    exact h2

theorem detRel_elim (h : Accurate fl u) {s : Mat (Fl fl) n n × Fl fl} {t : Lu (Fl fl) n} {k : Fin n}
    (hr : DetRel u k.1 s t) :
    DetRel u (k.1 + 1) (detElim s.1 k, s.2 * s.1 k k) { t with lu := luElim t.lu k } := by
  obtain ⟨h1, h2⟩ := hr
  have hact : ∀ i j : Fin n, k ≤ j → s.1 i j = t.lu i j := fun i j hj =>
    h1 i j (fun hc => by have := Fin.le_def.1 hj; omega)
  refine ⟨?_, ?_⟩
  · intro i j hij
    dsimp only
    rw [detElim_apply, luElim_apply]
    by_cases hi : k < i
    · have hj : k < j := by
        rw [Fin.lt_def] at hi ⊢
        by_contra hc
        exact hij ⟨Fin.lt_def.2 (by omega), by omega⟩
      rw [if_pos ⟨hi, hj⟩, if_pos hi, if_neg (ne_of_gt hj), if_pos hj, hact i j hj.le, hact i k le_rfl,
        hact k k le_rfl, hact k j hj.le]
    · rw [if_neg (fun h => hi h.1), if_neg hi]
      apply h1
      intro hc
      exact hij ⟨hc.1, by omega⟩
  · have e : (∏ i with i.1 < k.1 + 1, (luElim t.lu k i i).val)
        = (∏ i with i.1 < k.1, (t.lu i i).val) * (t.lu k k).val := by
      have hset : (Finset.univ.filter fun i : Fin n => i.1 < k.1 + 1)
          = insert k (Finset.univ.filter fun i : Fin n => i.1 < k.1) := by
        ext i
        simp only [Finset.mem_filter, Finset.mem_univ, true_and, Finset.mem_insert, Fin.ext_iff]
        omega
      rw [hset, Finset.prod_insert (by simp), elim_row t.lu (lt_irrefl k), mul_comm]
      congr 1
      apply Finset.prod_congr rfl
      intro i hi
      have := (Finset.mem_filter.1 hi).2
      rw [elim_row t.lu (by rw [Fin.lt_def]; omega)]
    dsimp only
    rw [e, hact k k le_rfl, ← mul_assoc]
    generalize (t.sign : ℝ) * ∏ i with i.1 < k.1, (t.lu i i).val = p at h2 ⊢
    generalize t.lu k k = y
    have hu0 := h.nonneg
    have e2 : (s.2 * y).val = fl (s.2.val * y.val) := rfl
    rw [e2]
    generalize s.2.val = x at h2 ⊢
    have a1 := h (x * y.val)
    have a2 : |x| ≤ (1 + u) ^ k.1 * |p| := by
      calc |x| = |(x - p) + p| := by ring_nf
        _ ≤ _ := abs_add_le _ _
        _ ≤ _ := by linarith
    calc |fl (x * y.val) - p * y.val| = |(fl (x * y.val) - x * y.val) + (x - p) * y.val| := by ring_nf
      _ ≤ |fl (x * y.val) - x * y.val| + |(x - p) * y.val| := abs_add_le _ _
      _ ≤ u * ((1 + u) ^ k.1 * |p| * |y.val|) + ((1 + u) ^ k.1 - 1) * |p| * |y.val| := by
        refine add_le_add (a1.trans ?_) ?_
        · rw [abs_mul]
          exact mul_le_mul_of_nonneg_left (mul_le_mul_of_nonneg_right a2 (abs_nonneg _)) hu0
        · rw [abs_mul]
          exact mul_le_mul_of_nonneg_right h2 (abs_nonneg _)
      _ = _ := by rw [abs_mul]; ring

theorem detRel_step (h : Accurate fl u) (eps : Fl fl) {s : Mat (Fl fl) n n × Fl fl} {t : Lu (Fl fl) n} {k : Fin n}
    (hr : DetRel u k.1 s t) :
    OptRel (DetRel u (k.1 + 1)) (detStep eps s k) (luStep eps t k) := by
  have hp : pivot s.1 k = pivot t.lu k := pivot_congr fun r _ => hr.1 r k (fun hc => by omega)
  unfold detStep luStep
  dsimp only
  rw [hp]
  by_cases h1 : (pivot t.lu k).2 ≤ eps
  · rw [if_pos h1, if_pos h1]; trivial
  · rw [if_neg h1, if_neg h1]
    by_cases h2 : (pivot t.lu k).1 ≠ k
    · rw [if_pos h2, if_pos h2]
      exact detRel_elim h (detRel_swap (pivot_fl t.lu k).1 hr)
    · rw [if_neg h2, if_neg h2]
      exact detRel_elim h hr

theorem detRel_loop (h : Accurate fl u) (eps : Fl fl) (A : Mat (Fl fl) n n) :
    OptRel (DetRel u n) ((rng n 0 n).foldlM (detStep eps) (A, 1)) (luDecompose eps A) := by
  unfold luDecompose
  suffices H : ∀ k, k ≤ n → OptRel (DetRel u k) ((rng n 0 k).foldlM (detStep eps) (A, 1))
      ((rng n 0 k).foldlM (luStep eps) ⟨A, id, 1⟩) from H n le_rfl
  intro k
  induction k with
  | zero =>
    intro _
    rw [rng_nil (Nat.le_refl _)]
    refine ⟨fun _ _ _ => rfl, ?_⟩
    have : (1 : Fl fl).val = 1 := rfl
    simp [this]
  | succ k ih =>
    intro hk
    have := ih (by omega)
    rw [rng_snoc (Nat.zero_le _) (by omega), List.foldlM_append, List.foldlM_append]
    cases h1 : (rng n 0 k).foldlM (detStep eps) (A, 1) with
    | none =>
      cases h2 : (rng n 0 k).foldlM (luStep eps) ⟨A, id, 1⟩ with
      | none => trivial
      | some t => rw [h1, h2] at this; exact this.elim
    | some s =>
      cases h2 : (rng n 0 k).foldlM (luStep eps) ⟨A, id, 1⟩ with
      | none => rw [h1, h2] at this; exact this.elim
      | some t =>
        rw [h1, h2] at this
        have hs := detRel_step (k := ⟨k, by omega⟩) h eps this
        simpa using hs

/-- The determinant of the matrix the computed factors stand for. -/
theorem det_factors {A : Matrix (Fin n) (Fin n) ℝ} (d : Lu (Fl fl) n) (σ : Equiv.Perm (Fin n)) :
    (A + Matrix.of fun r j => (lower d * upper d) (σ.symm r) j - A r j).det
      = (Equiv.Perm.sign σ : ℤ) * ∏ i, (d.lu i i).val := by
  have e : A + (Matrix.of fun r j => (lower d * upper d) (σ.symm r) j - A r j)
      = (lower d * upper d).submatrix σ.symm id := by
    ext r j; simp
  have hL : (lower d).det = 1 := by
    have htri : (lower d).BlockTriangular OrderDual.toDual := by
      intro i j hij
      have hij' : i < j := hij
      simp only [lower, Matrix.of_apply]
      rw [if_neg (not_lt_of_gt hij'), if_neg (ne_of_lt hij')]
    rw [Matrix.det_of_isLowerTriangular _ htri]
    apply Finset.prod_eq_one
    intro i _
    simp [lower]
  have hU : (upper d).det = ∏ i, (d.lu i i).val := by
    have htri : (upper d).BlockTriangular id := by
      intro i j hij
      have hij' : j < i := hij
      simp only [upper, Matrix.of_apply]
      rw [if_neg (not_le.2 hij')]
    rw [Matrix.det_of_isUpperTriangular htri]
    apply Finset.prod_congr rfl
    intro i _
    simp [upper]
  rw [e, Matrix.det_permute, Matrix.det_mul, hL, hU, one_mul, Equiv.Perm.sign_symm]

end Verif.Round
