import Verif.Round.Lu
import Mathlib.LinearAlgebra.Matrix.NonsingularInverse

/-! # Lemmas: backward error of the solves -/

namespace Verif.Round

open Verif.Simd (Fl Accurate)
open Verif.Mat
open Matrix

variable {fl : ℝ → ℝ} {u : ℝ} {n : Nat}

/-- A componentwise residual bound is a componentwise backward error bound (Oettli and Prager). -/
theorem oettli_prager {c : ℝ} {E : Matrix (Fin n) (Fin n) ℝ} (hE : ∀ i j, 0 ≤ E i j) {x r : Fin n → ℝ}
    (hr : ∀ i, |r i| ≤ c * ∑ j, E i j * |x j|) :
    ∃ D : Matrix (Fin n) (Fin n) ℝ, (∀ i j, |D i j| ≤ |c| * E i j) ∧ D *ᵥ x = r := by
  refine ⟨Matrix.of fun i j => r i / (∑ k, E i k * |x k|) * E i j * SignType.sign (x j), ?_, ?_⟩
  · intro i j
    rw [Matrix.of_apply, abs_mul, abs_mul, abs_of_nonneg (hE i j), abs_div]
    have hS : 0 ≤ ∑ k, E i k * |x k| := Finset.sum_nonneg fun k _ => mul_nonneg (hE i k) (abs_nonneg _)
    have h1 : |r i| / abs (∑ k, E i k * |x k|) ≤ |c| := by
      rw [abs_of_nonneg hS]
      rcases eq_or_lt_of_le hS with h0 | h0
      · rw [← h0]; simp
      · rw [div_le_iff₀ h0]
        exact (hr i).trans (mul_le_mul_of_nonneg_right (le_abs_self c) hS)
    have h2 : |((SignType.sign (x j) : SignType) : ℝ)| ≤ 1 := by
      rcases lt_trichotomy (x j) 0 with h | h | h
      · simp [sign_neg h]
      · simp [h]
      · simp [sign_pos h]
    calc _ ≤ |c| * E i j * 1 := by
          apply mul_le_mul _ h2 (abs_nonneg _) (mul_nonneg (abs_nonneg _) (hE i j))
          exact mul_le_mul_of_nonneg_right h1 (hE i j)
      _ = _ := mul_one _
  · funext i
    rw [Matrix.mulVec, dotProduct]
    simp only [Matrix.of_apply]
    have e : ∀ j, r i / (∑ k, E i k * |x k|) * E i j * ((SignType.sign (x j) : SignType) : ℝ) * x j
        = r i / (∑ k, E i k * |x k|) * (E i j * |x j|) := by
      intro j
      have : ((SignType.sign (x j) : SignType) : ℝ) * x j = |x j| := sign_mul_self (x j)
      rw [← this]; ring
    rw [Finset.sum_congr rfl (fun j _ => e j), ← Finset.mul_sum]
    have hS : 0 ≤ ∑ k, E i k * |x k| := Finset.sum_nonneg fun k _ => mul_nonneg (hE i k) (abs_nonneg _)
    rcases eq_or_lt_of_le hS with h0 | h0
    · have := hr i
      rw [← h0, mul_zero] at this
      rw [← h0, mul_zero]
      exact (abs_nonpos_iff.1 this).symm
    · exact div_mul_cancel₀ _ (ne_of_gt h0)

/-- Two triangular solves with inexact factors. -/
theorem compose {L U P : Matrix (Fin n) (Fin n) ℝ} {b y x : Fin n → ℝ} {g1 g2 g3 : ℝ}
    (h1 : 0 ≤ g1) (h2 : 0 ≤ g2) (h3 : 0 ≤ g3)
    (hF : ∀ i, |b i - ∑ k, L i k * y k| ≤ g1 * ∑ k, |L i k| * |y k|)
    (hB : ∀ k, |y k - ∑ j, U k j * x j| ≤ g2 * ∑ j, |U k j| * |x j|)
    (hA : ∀ i j, |P i j - (L * U) i j| ≤ g3 * (absM L * absM U) i j) (i : Fin n) :
    |b i - (P *ᵥ x) i| ≤ ((1 + g1) * (1 + g2) * (1 + g3) - 1) * ∑ j, (absM L * absM U) i j * |x j| := by
  set z : Fin n → ℝ := fun k => ∑ j, |U k j| * |x j| with hz
  have hz0 : ∀ k, 0 ≤ z k := fun k => Finset.sum_nonneg fun j _ => by positivity
  set T : ℝ := ∑ j, (absM L * absM U) i j * |x j| with hT
  have hTz : T = ∑ k, |L i k| * z k := by
    rw [hT, hz]
    simp only [Matrix.mul_apply, absM, Matrix.of_apply, Finset.sum_mul, Finset.mul_sum]
    rw [Finset.sum_comm]
    exact Finset.sum_congr rfl fun k _ => Finset.sum_congr rfl fun j _ => by ring
  have hT0 : 0 ≤ T := by rw [hTz]; exact Finset.sum_nonneg fun k _ => mul_nonneg (abs_nonneg _) (hz0 k)
  have hux : ∀ k, |∑ j, U k j * x j| ≤ z k := by
    intro k
    refine (Finset.abs_sum_le_sum_abs _ _).trans (le_of_eq ?_)
    exact Finset.sum_congr rfl fun j _ => abs_mul _ _
  have hy : ∀ k, |y k| ≤ (1 + g2) * z k := by
    intro k
    calc |y k| = |(y k - ∑ j, U k j * x j) + ∑ j, U k j * x j| := by ring_nf
      _ ≤ _ := abs_add_le _ _
      _ ≤ _ := by linarith [hB k, hux k]
  have t1 : |b i - ∑ k, L i k * y k| ≤ g1 * ((1 + g2) * T) := by
    refine (hF i).trans (mul_le_mul_of_nonneg_left ?_ h1)
    rw [hTz, Finset.mul_sum]
    refine Finset.sum_le_sum fun k _ => ?_
    calc |L i k| * |y k| ≤ |L i k| * ((1 + g2) * z k) := mul_le_mul_of_nonneg_left (hy k) (abs_nonneg _)
      _ = _ := by ring
  have t2 : |∑ k, L i k * (y k - ∑ j, U k j * x j)| ≤ g2 * T := by
    refine (Finset.abs_sum_le_sum_abs _ _).trans ?_
    rw [hTz, Finset.mul_sum]
    refine Finset.sum_le_sum fun k _ => ?_
    rw [abs_mul]
    calc _ ≤ |L i k| * (g2 * z k) := mul_le_mul_of_nonneg_left (hB k) (abs_nonneg _)
      _ = _ := by ring
  have t3 : |∑ j, ((L * U) i j - P i j) * x j| ≤ g3 * T := by
    refine (Finset.abs_sum_le_sum_abs _ _).trans ?_
    rw [hT, Finset.mul_sum]
    refine Finset.sum_le_sum fun j _ => ?_
    rw [abs_mul, abs_sub_comm]
    calc _ ≤ (g3 * (absM L * absM U) i j) * |x j| := mul_le_mul_of_nonneg_right (hA i j) (abs_nonneg _)
      _ = _ := by ring
  have hLU : (∑ j, (L * U) i j * x j) = ∑ k, L i k * ∑ j, U k j * x j := by
    simp only [Matrix.mul_apply, Finset.sum_mul, Finset.mul_sum]
    rw [Finset.sum_comm]
    exact Finset.sum_congr rfl fun k _ => Finset.sum_congr rfl fun j _ => by ring
  have key : b i - (P *ᵥ x) i = (b i - ∑ k, L i k * y k) + (∑ k, L i k * (y k - ∑ j, U k j * x j))
      + ∑ j, ((L * U) i j - P i j) * x j := by
    rw [Matrix.mulVec, dotProduct]
    simp only [mul_sub, sub_mul, Finset.sum_sub_distrib]
    rw [hLU]; ring
  rw [key]
  refine (abs_add_le _ _).trans ?_
  have := abs_add_le (b i - ∑ k, L i k * y k) (∑ k, L i k * (y k - ∑ j, U k j * x j))
  have p1 : 0 ≤ g1 * g3 * T := by positivity
  have p2 : 0 ≤ g2 * g3 * T := by positivity
  have p3 : 0 ≤ g1 * g2 * g3 * T := by positivity
  nlinarith

/-! ## LU -/

/-- A sum over the strictly lower part of a row and the diagonal. -/
theorem lower_sum (a : Fin n → ℝ) (w : Fin n → ℝ) (i : Fin n) (dd : ℝ) (g : ℝ → ℝ) (hg : g 0 = 0) :
    (∑ j, g ((if j < i then a j else if i = j then dd else 0) * w j))
      = (∑ j with j < i, g (a j * w j)) + g (dd * w i) := by
  have e : ∀ j, g ((if j < i then a j else if i = j then dd else 0) * w j)
      = (if j < i then g (a j * w j) else 0) + (if j = i then g (dd * w i) else 0) := by
    intro j
    rcases lt_trichotomy j i with ht | ht | ht
    · rw [if_pos ht, if_pos ht, if_neg (ne_of_lt ht), add_zero]
    · subst ht; simp
    · rw [if_neg (not_lt_of_gt ht), if_neg (ne_of_lt ht), if_neg (not_lt_of_gt ht), if_neg (ne_of_gt ht),
        zero_mul, hg, add_zero]
  rw [Finset.sum_congr rfl (fun t _ => e t), Finset.sum_add_distrib, Finset.sum_filter,
    Finset.sum_ite_eq' Finset.univ i, if_pos (Finset.mem_univ _)]

/-- A sum over the upper part of a row, diagonal included. -/
theorem upper_sum (a : Fin n → ℝ) (w : Fin n → ℝ) (i : Fin n) (g : ℝ → ℝ) (hg : g 0 = 0) :
    (∑ j, g ((if i ≤ j then a j else 0) * w j)) = (∑ j with i < j, g (a j * w j)) + g (a i * w i) := by
  have e : ∀ j, g ((if i ≤ j then a j else 0) * w j)
      = (if i < j then g (a j * w j) else 0) + (if j = i then g (a i * w i) else 0) := by
    intro j
    rcases lt_trichotomy i j with ht | ht | ht
    · rw [if_pos (le_of_lt ht), if_pos ht, if_neg (ne_of_gt ht), add_zero]
    · subst ht; simp
    · rw [if_neg (not_le.2 ht), if_neg (not_lt_of_gt ht), if_neg (ne_of_lt ht), zero_mul, hg, add_zero]
  rw [Finset.sum_congr rfl (fun t _ => e t), Finset.sum_add_distrib, Finset.sum_filter,
    Finset.sum_ite_eq' Finset.univ i, if_pos (Finset.mem_univ _)]

theorem sum_abs_mul {ι : Type*} (s : Finset ι) (a b : ι → ℝ) :
    (∑ k ∈ s, |a k| * |b k|) = ∑ k ∈ s, |a k * b k| :=
  Finset.sum_congr rfl fun _ _ => (abs_mul _ _).symm

/-- The product of the stored factors, entry by entry. -/
theorem lu_prod (d : Lu (Fl fl) n) (g : ℝ → ℝ) (hg : g 0 = 0) (i j : Fin n) :
    (∑ t, g (lower d i t * upper d t j)) = taken g d.lu n i j + g (left d.lu n i j) := by
  unfold taken left
  simp only [lower, upper, Matrix.of_apply]
  by_cases hj : j < i
  · rw [if_pos ⟨hj, j.2⟩]
    have e : ∀ t, g ((if t < i then (d.lu i t).val else if i = t then 1 else 0)
          * (if t ≤ j then (d.lu t j).val else 0))
        = (if t < i ∧ t < j ∧ t.1 < n then g ((d.lu i t).val * (d.lu t j).val) else 0)
          + (if t = j then g ((d.lu i j).val * (d.lu j j).val) else 0) := by
      intro t
      have := t.2
      rcases lt_trichotomy t j with ht | ht | ht
      · rw [if_pos (lt_trans ht hj), if_pos (le_of_lt ht), if_pos ⟨lt_trans ht hj, ht, this⟩,
          if_neg (ne_of_lt ht), add_zero]
      · subst ht; simp [hj]
      · rw [if_neg (not_le.2 ht), if_neg (fun h : t < i ∧ t < j ∧ t.1 < n => not_lt_of_gt ht h.2.1),
          if_neg (ne_of_gt ht), mul_zero, hg, add_zero]
    rw [Finset.sum_congr rfl (fun t _ => e t), Finset.sum_add_distrib, Finset.sum_filter,
      Finset.sum_ite_eq' Finset.univ j, if_pos (Finset.mem_univ _)]
  · rw [if_neg (fun h => hj h.1)]
    have e : ∀ t, g ((if t < i then (d.lu i t).val else if i = t then 1 else 0)
          * (if t ≤ j then (d.lu t j).val else 0))
        = (if t < i ∧ t < j ∧ t.1 < n then g ((d.lu i t).val * (d.lu t j).val) else 0)
          + (if t = i then g (d.lu i j).val else 0) := by
      intro t
      have := t.2
      have hij := not_lt.1 hj
      rcases lt_trichotomy t i with ht | ht | ht
      · rw [if_pos ht, if_pos (le_of_lt (lt_of_lt_of_le ht hij)), if_pos ⟨ht, lt_of_lt_of_le ht hij, this⟩,
          if_neg (ne_of_lt ht), add_zero]
      · subst ht; simp [hij]
      · rw [if_neg (not_lt_of_gt ht), if_neg (ne_of_lt ht),
          if_neg (fun h : t < i ∧ t < j ∧ t.1 < n => not_lt_of_gt ht h.1),
          if_neg (ne_of_gt ht), zero_mul, hg, add_zero]
    rw [Finset.sum_congr rfl (fun t _ => e t), Finset.sum_add_distrib, Finset.sum_filter,
      Finset.sum_ite_eq' Finset.univ i, if_pos (Finset.mem_univ _)]

theorem absM_prod (d : Lu (Fl fl) n) (i j : Fin n) :
    (absM (lower d) * absM (upper d)) i j
      = taken (fun z => |z|) d.lu n i j + |left d.lu n i j| := by
  rw [← lu_prod d (fun z => |z|) abs_zero i j, Matrix.mul_apply]
  exact sum_abs_mul _ _ _

theorem luR_factor {A : Mat (Fl fl) n n} {d : Lu (Fl fl) n} {σ : Equiv.Perm (Fin n)}
    (h4 : ∀ i j, Back u n (A (σ i) j).val (taken (fun z => z) d.lu n i j)
      (taken (fun z => |z|) d.lu n i j) (left d.lu n i j)) (i j : Fin n) :
    |val A (σ i) j - (lower d * upper d) i j| ≤ growth u n * (absM (lower d) * absM (upper d)) i j := by
  have e : (lower d * upper d) i j = taken (fun z => z) d.lu n i j + left d.lu n i j := by
    rw [← lu_prod d (fun z => z) rfl i j, Matrix.mul_apply]
  have := h4 i j
  unfold Back at this
  rw [absM_prod, e, add_comm (taken (fun z => |z|) d.lu n i j)]
  rw [← sub_sub]
  exact this

theorem solve_back (h : Accurate fl u) (hu : u < 1) {d : Lu (Fl fl) n}
    (hne : ∀ i, (d.lu i i).val ≠ 0) (b : Fin n → Fl fl) :
    ∃ y : Fin n → ℝ,
      (∀ i, |(b (d.piv i)).val - ∑ k, lower d i k * y k| ≤ growth u n * ∑ k, |lower d i k| * |y k|) ∧
      ∀ k, |y k - ∑ j, upper d k j * valV (d.solve b) j|
        ≤ growth u n * ∑ j, |upper d k j| * |valV (d.solve b) j| := by
  have hF := forward_back h hu (fin1_id (fl := fl) (n := n) h hu) d.lu (fun i => b (d.piv i))
  have hB := backward_back h hu (fin1_div h hu (fun i => d.lu i i) hne) d.lu
    ((rng n 0 n).foldl (fun x i =>
          Function.update x i ((rng n 0 i.1).foldl (fun s j => s - d.lu i j * x j) (x i)))
        (fun i => b (d.piv i)))
  refine ⟨fun i => ((rng n 0 n).foldl (fun x i =>
          Function.update x i ((rng n 0 i.1).foldl (fun s j => s - d.lu i j * x j) (x i)))
        (fun i => b (d.piv i)) i).val, ?_, ?_⟩
  · intro i
    have := hF i
    dsimp only at this ⊢
    generalize (rng n 0 n).foldl _ _ = y at this ⊢
    rw [sum_abs_mul]
    simp only [lower, Matrix.of_apply]
    rw [lower_sum (fun j => (d.lu i j).val) (fun j => (y j).val) i 1 (fun z => z) rfl,
      lower_sum (fun j => (d.lu i j).val) (fun j => (y j).val) i 1 (fun z => |z|) abs_zero, ← sub_sub,
      add_comm (∑ j with j < i, abs _)]
    exact this
  · intro i
    have := hB i
    have hx : valV (d.solve b) = fun j => ((rng n 0 n).reverse.foldl (fun x i =>
        Function.update x i ((rng n (i.1 + 1) n).foldl (fun s j => s - d.lu i j * x j) (x i) / d.lu i i))
        ((rng n 0 n).foldl (fun x i =>
          Function.update x i ((rng n 0 i.1).foldl (fun s j => s - d.lu i j * x j) (x i)))
        (fun i => b (d.piv i))) j).val := by
      unfold valV Lu.solve
      rw [vecLoop (fun i => b (d.piv i))]
    rw [hx]
    dsimp only at this ⊢
    generalize (rng n 0 n).reverse.foldl _ _ = x at this ⊢
    rw [sum_abs_mul]
    simp only [upper, Matrix.of_apply]
    rw [upper_sum (fun j => (d.lu i j).val) (fun j => (x j).val) i (fun z => z) rfl,
      upper_sum (fun j => (d.lu i j).val) (fun j => (x j).val) i (fun z => |z|) abs_zero,
      add_comm (∑ j with i < j, _), add_comm (∑ j with i < j, abs _), sub_add_eq_sub_sub_swap]
    exact this

theorem absM_mul_nonneg (L U : Matrix (Fin n) (Fin n) ℝ) (i j : Fin n) : 0 ≤ (absM L * absM U) i j := by
  rw [Matrix.mul_apply]
  exact Finset.sum_nonneg fun k _ => mul_nonneg (abs_nonneg _) (abs_nonneg _)

theorem growth_three (u : ℝ) (a b c : Nat) :
    (1 + growth u a) * (1 + growth u b) * (1 + growth u c) - 1 = growth u (a + b + c) := by
  rw [growth_add, growth_add]; ring

theorem luSolve_residual (h : Accurate fl u) (hu : u < 1) {A : Mat (Fl fl) n n} {d : Lu (Fl fl) n}
    {σ : Equiv.Perm (Fin n)} (h1 : d.piv = σ) (h3 : ∀ i : Fin n, (d.lu i i).val ≠ 0)
    (h4 : ∀ i j, |val A (σ i) j - (lower d * upper d) i j|
      ≤ growth u n * (absM (lower d) * absM (upper d)) i j) (b : Fin n → Fl fl) (i : Fin n) :
    |valV b (σ i) - (val A *ᵥ valV (d.solve b)) (σ i)|
      ≤ growth u (3 * n) * ∑ j, (absM (lower d) * absM (upper d)) i j * |valV (d.solve b) j| := by
  obtain ⟨y, hF, hB⟩ := solve_back h hu h3 b
  have g := growth_nonneg h hu n
  have := compose (P := Matrix.of fun i j => val A (σ i) j) (b := fun i => valV b (σ i)) g g g
    (by intro i; have := hF i; rw [h1] at this; exact this) hB h4 i
  rw [growth_three, show n + n + n = 3 * n by ring] at this
  exact this

end Verif.Round
