import Verif.Round.Chol
import Mathlib.LinearAlgebra.Matrix.Block
import Mathlib.LinearAlgebra.Matrix.NonsingularInverse

/-! # Lemmas: Cholesky factorisation in rounded arithmetic accepts well-conditioned matrices -/

namespace Verif.Round

open Verif.Simd (Fl Accurate)
open Verif.Mat
open Matrix

variable {fl : ℝ → ℝ} {u : ℝ} {n : Nat}

/-- A combination of the rows `< i` of a triangular array that reproduces row `i`. -/
theorem tri_combine {l : Fin n → Fin n → ℝ} {i : Fin n} (hpos : ∀ p, p < i → 0 < l p p)
    (hz : ∀ p t, p < i → p < t → l p t = 0) :
    ∃ w : Fin n → ℝ, (∀ t, ¬ t < i → w t = 0) ∧ ∀ t, t < i → (∑ p with p < i, w p * l p t) = l i t := by
  let M : Matrix (Fin n) (Fin n) ℝ := Matrix.of fun p t =>
    if p < i then l p t else if p = t then 1 else 0
  have hM : M.det ≠ 0 := by
    have htri : M.BlockTriangular OrderDual.toDual := by
      intro p t hpt
      have hpt' : p < t := hpt
      simp only [M, Matrix.of_apply]
      split
      · exact hz p t ‹_› hpt'
      · exact if_neg (ne_of_lt hpt')
    rw [Matrix.det_of_isLowerTriangular M htri, Finset.prod_ne_zero_iff]
    intro p _
    simp only [M, Matrix.of_apply, if_true]
    split
    · exact ne_of_gt (hpos p ‹_›)
    · exact one_ne_zero
  let b : Fin n → ℝ := fun t => if t < i then l i t else 0
  let w : Fin n → ℝ := Matrix.vecMul b M⁻¹
  have hw : Matrix.vecMul w M = b := by
    simp only [w]
    rw [Matrix.vecMul_vecMul, Matrix.nonsing_inv_mul M (isUnit_iff_ne_zero.2 hM), Matrix.vecMul_one]
  have hwt : ∀ t, (∑ p, w p * M p t) = b t := fun t => congrFun hw t
  have hw0 : ∀ t, ¬ t < i → w t = 0 := by
    intro t ht
    have := hwt t
    simp only [b, if_neg ht] at this
    rw [← this]
    symm
    rw [Finset.sum_eq_single t]
    · simp [M, ht]
    · intro p _ hp
      simp only [M, Matrix.of_apply]
      split
      · rename_i hpi
        rw [hz p t hpi (lt_of_lt_of_le hpi (not_lt.1 ht)), mul_zero]
      · rw [mul_zero]
    · intro h; exact absurd (Finset.mem_univ _) h
  refine ⟨w, hw0, ?_⟩
  intro t ht
  have := hwt t
  simp only [b, if_pos ht] at this
  rw [← this, Finset.sum_filter]
  apply Finset.sum_congr rfl
  intro p _
  by_cases hp : p < i
  · simp [M, hp]
  · simp [hp, hw0 p hp]

/-- The factor so far, cut off below row `i`: row `i` without its diagonal. -/
theorem chol_rows {a l : Mat (Fl fl) n n} {i : Fin n} (hl : CholRowR u a i i.1 l) {p c : Fin n}
    (hp : p ≤ i) (hc : c ≤ p) (hci : c < i) :
    |(a p c).val - ∑ k with k < i, (l p k).val * (l c k).val|
      ≤ growth u (n + 1) * ∑ k with k < i, |(l p k).val * (l c k).val| := by
  have hz : ∀ k, c < k → (l c k).val = 0 := (hl.1 c (Fin.lt_def.1 hci)).2.1
  have e : ∀ g : ℝ → ℝ, g 0 = 0 → (∑ k with k < i, g ((l p k).val * (l c k).val))
      = ∑ k with k ≤ c, g ((l p k).val * (l c k).val) := by
    intro g hg
    rw [Finset.sum_filter, Finset.sum_filter]
    apply Finset.sum_congr rfl
    intro k _
    by_cases hk : k ≤ c
    · rw [if_pos hk, if_pos (lt_of_le_of_lt hk hci)]
    · rw [if_neg hk]
      split
      · rw [hz k (not_le.1 hk), mul_zero, hg]
      · rfl
  rw [e (fun z => z) rfl, e (fun z => |z|) abs_zero]
  rcases lt_or_eq_of_le hp with h | h
  · exact (hl.1 p (Fin.lt_def.1 h)).2.2 c hc
  · subst h
    exact hl.2.2 c hc (Fin.lt_def.1 hci)

/-- The value under the square root is positive if the matrix is positive definite by a margin. -/
theorem cholDiag_back (h : Accurate fl u) (hu : u < 1) {a l : Mat (Fl fl) n n} {i : Fin n} {S : ℝ} {c : ℝ}
    (hg : growth u (n + 1) < 1) (hsym : ∀ r q, a r q = a q r) (hc0 : 0 < c)
    (hc : 4 * (growth u (n + 1) / (1 - growth u (n + 1))) ≤ c)
    (hdiag : ∀ r, 0 < (a r r).val)
    (hpd : ∀ x : Fin n → ℝ, c * (∑ r, √(a r r).val * |x r|) ^ 2 ≤ ∑ r, ∑ q, x r * (a r q).val * x q)
    (hl : CholRowR u a i i.1 l)
    (hS : Back u i.1 (a i i).val (∑ k with k < i, (l i k).val * (l i k).val)
      (∑ k with k < i, |(l i k).val * (l i k).val|) S) : 0 < S := by
  by_contra hneg
  have hneg : S ≤ 0 := not_lt.1 hneg
  set g := growth u (n + 1) with hgdef
  have hg0 : 0 ≤ g := growth_nonneg h hu _
  have hg1 : 0 < 1 - g := by linarith
  set g' := g / (1 - g) with hg'def
  have hg'0 : 0 ≤ g' := div_nonneg hg0 hg1.le
  have hgg : g ≤ g' := by
    rw [hg'def, le_div_iff₀ hg1]; nlinarith
  set d : Fin n → ℝ := fun r => √(a r r).val with hd
  have hd0 : ∀ r, 0 ≤ d r := fun r => Real.sqrt_nonneg _
  have hdd : ∀ r, d r * d r = (a r r).val := fun r => Real.mul_self_sqrt (hdiag r).le
  let L : Fin n → Fin n → ℝ := fun p k => (l p k).val
  obtain ⟨w, hw0, hwl⟩ := tri_combine (l := L) (i := i) (fun p hp => (hl.1 p (Fin.lt_def.1 hp)).1)
    (fun p t hp => (hl.1 p (Fin.lt_def.1 hp)).2.1 t)
  -- sizes
  have hrow : ∀ p, p < i → (∑ k with k < i, (L p k) ^ 2) ≤ (1 - g)⁻¹ * (a p p).val := by
    intro p hp
    have := chol_rows hl hp.le le_rfl hp
    have e1 : (∑ k with k < i, (l p k).val * (l p k).val) = ∑ k with k < i, (L p k) ^ 2 :=
      Finset.sum_congr rfl fun k _ => by simp only [L]; ring
    have e2 : (∑ k with k < i, |(l p k).val * (l p k).val|) = ∑ k with k < i, (L p k) ^ 2 :=
      Finset.sum_congr rfl fun k _ => by rw [abs_mul_self]; simp only [L]; ring
    rw [e1, e2, ← hgdef] at this
    have h1 := (abs_le.1 this).1
    rw [← div_eq_inv_mul, le_div_iff₀ hg1]
    linarith
  set N2 := ∑ k with k < i, (L i k) ^ 2 with hN2
  have hN20 : 0 ≤ N2 := Finset.sum_nonneg fun _ _ => sq_nonneg _
  set W := ∑ p with p < i, d p * |w p| with hW
  have hW0 : 0 ≤ W := Finset.sum_nonneg fun p _ => mul_nonneg (hd0 p) (abs_nonneg _)
  have hprod : ∀ p q, p < i → q < i → (∑ k with k < i, |L p k| * |L q k|) ≤ (1 - g)⁻¹ * (d p * d q) := by
    intro p q hp hq
    have hcs := Finset.sum_mul_sq_le_sq_mul_sq (Finset.univ.filter fun k : Fin n => k < i)
      (fun k => |L p k|) (fun k => |L q k|)
    simp only [sq_abs] at hcs
    have h1 : (∑ k with k < i, |L p k| * |L q k|) ^ 2 ≤ ((1 - g)⁻¹ * (d p * d q)) ^ 2 := by
      refine hcs.trans ?_
      calc _ ≤ ((1 - g)⁻¹ * (a p p).val) * ((1 - g)⁻¹ * (a q q).val) :=
            mul_le_mul (hrow p hp) (hrow q hq) (Finset.sum_nonneg fun _ _ => sq_nonneg _)
              (mul_nonneg (inv_nonneg.2 hg1.le) (hdiag p).le)
        _ = _ := by rw [← hdd p, ← hdd q]; ring
    exact abs_le_of_sq_le_sq' h1 (mul_nonneg (inv_nonneg.2 hg1.le) (mul_nonneg (hd0 p) (hd0 q))) |>.2
  -- `N2` through the combination
  have hNw : N2 = ∑ p with p < i, ∑ q with q < i, w p * w q * ∑ k with k < i, L p k * L q k := by
    have e : ∀ k ∈ (Finset.univ.filter fun k : Fin n => k < i), (L i k) ^ 2
        = ∑ p with p < i, ∑ q with q < i, w p * w q * (L p k * L q k) := by
      intro k hk
      rw [← hwl k (Finset.mem_filter.1 hk).2, sq, Finset.sum_mul_sum]
      exact Finset.sum_congr rfl fun p _ => Finset.sum_congr rfl fun q _ => by ring
    rw [hN2, Finset.sum_congr rfl e, Finset.sum_comm]
    apply Finset.sum_congr rfl
    intro p _
    rw [Finset.sum_comm]
    exact Finset.sum_congr rfl fun q _ => by rw [Finset.mul_sum]
  have hWW : W ^ 2 = ∑ p with p < i, ∑ q with q < i, |w p| * |w q| * (d p * d q) := by
    rw [hW, sq, Finset.sum_mul_sum]
    exact Finset.sum_congr rfl fun p _ => Finset.sum_congr rfl fun q _ => by ring
  have hNW : N2 ≤ (1 - g)⁻¹ * W ^ 2 := by
    rw [hNw, hWW, Finset.mul_sum]
    refine Finset.sum_le_sum fun p hp => ?_
    rw [Finset.mul_sum]
    refine Finset.sum_le_sum fun q hq => ?_
    have hpi := (Finset.mem_filter.1 hp).2
    have hqi := (Finset.mem_filter.1 hq).2
    calc w p * w q * ∑ k with k < i, L p k * L q k
        ≤ |w p * w q * ∑ k with k < i, L p k * L q k| := le_abs_self _
      _ = |w p| * |w q| * |∑ k with k < i, L p k * L q k| := by rw [abs_mul, abs_mul]
      _ ≤ |w p| * |w q| * ((1 - g)⁻¹ * (d p * d q)) := by
          apply mul_le_mul_of_nonneg_left _ (by positivity)
          refine (Finset.abs_sum_le_sum_abs _ _).trans ?_
          simp only [abs_mul]
          exact hprod p q hpi hqi
      _ = _ := by ring
  -- the first part of the quadratic form
  have part1 : |(∑ p with p < i, ∑ q with q < i, w p * (a p q).val * w q) - N2| ≤ g' * W ^ 2 := by
    have eij : ∀ p q, p < i → q < i → |(a p q).val - ∑ k with k < i, L p k * L q k| ≤ g' * (d p * d q) := by
      have main : ∀ p q, p < i → q < i → q ≤ p →
          |(a p q).val - ∑ k with k < i, L p k * L q k| ≤ g' * (d p * d q) := by
        intro p q hp hq hqp
        refine (chol_rows hl hp.le hqp hq).trans ?_
        calc _ ≤ g * ((1 - g)⁻¹ * (d p * d q)) := by
              apply mul_le_mul_of_nonneg_left _ hg0
              simp only [abs_mul]
              exact hprod p q hp hq
          _ = _ := by rw [hg'def, div_eq_mul_inv]; ring
      intro p q hp hq
      rcases le_total q p with hqp | hqp
      · exact main p q hp hq hqp
      · have := main q p hq hp hqp
        rw [hsym p q, mul_comm (d p)]
        rw [Finset.sum_congr rfl (fun k _ => mul_comm (L p k) (L q k))]
        exact this
    have : (∑ p with p < i, ∑ q with q < i, w p * (a p q).val * w q) - N2
        = ∑ p with p < i, ∑ q with q < i, w p * w q * ((a p q).val - ∑ k with k < i, L p k * L q k) := by
      rw [hNw, ← Finset.sum_sub_distrib]
      apply Finset.sum_congr rfl
      intro p _
      rw [← Finset.sum_sub_distrib]
      exact Finset.sum_congr rfl fun q _ => by ring
    rw [this, hWW, Finset.mul_sum]
    refine (Finset.abs_sum_le_sum_abs _ _).trans (Finset.sum_le_sum fun p hp => ?_)
    rw [Finset.mul_sum]
    refine (Finset.abs_sum_le_sum_abs _ _).trans (Finset.sum_le_sum fun q hq => ?_)
    rw [abs_mul, abs_mul]
    calc _ ≤ |w p| * |w q| * (g' * (d p * d q)) :=
          mul_le_mul_of_nonneg_left (eij p q (Finset.mem_filter.1 hp).2 (Finset.mem_filter.1 hq).2) (by positivity)
      _ = _ := by ring
  -- the mixed part
  have part2 : |(∑ p with p < i, w p * (a i p).val) - N2| ≤ g' * W ^ 2 := by
    have hN : √N2 * √N2 = N2 := Real.mul_self_sqrt hN20
    have hNle : √N2 ≤ √((1 - g)⁻¹) * W := by
      rw [← Real.sqrt_sq hW0, ← Real.sqrt_mul (inv_nonneg.2 hg1.le)]
      exact Real.sqrt_le_sqrt hNW
    have eip : ∀ p, p < i → |(a i p).val - ∑ k with k < i, L i k * L p k|
        ≤ g * (√N2 * (√((1 - g)⁻¹) * d p)) := by
      intro p hp
      refine (chol_rows hl le_rfl hp.le hp).trans ?_
      apply mul_le_mul_of_nonneg_left _ hg0
      have hcs := Finset.sum_mul_sq_le_sq_mul_sq (Finset.univ.filter fun k : Fin n => k < i)
        (fun k => |L i k|) (fun k => |L p k|)
      simp only [sq_abs] at hcs
      simp only [abs_mul]
      have h1 : (∑ k with k < i, |L i k| * |L p k|) ^ 2 ≤ (√N2 * (√((1 - g)⁻¹) * d p)) ^ 2 := by
        refine hcs.trans ?_
        have e : (√N2 * (√((1 - g)⁻¹) * d p)) ^ 2 = N2 * ((1 - g)⁻¹ * (a p p).val) := by
          rw [mul_pow, mul_pow, Real.sq_sqrt hN20, Real.sq_sqrt (inv_nonneg.2 hg1.le), sq (d p), hdd]
        rw [e]
        exact mul_le_mul_of_nonneg_left (hrow p hp) hN20
      exact (abs_le_of_sq_le_sq' h1
        (mul_nonneg (Real.sqrt_nonneg _) (mul_nonneg (Real.sqrt_nonneg _) (hd0 p)))).2
    have hNi : N2 = ∑ p with p < i, w p * ∑ k with k < i, L i k * L p k := by
      have e : ∀ k ∈ (Finset.univ.filter fun k : Fin n => k < i), (L i k) ^ 2
          = ∑ p with p < i, w p * (L i k * L p k) := by
        intro k hk
        rw [sq]
        calc L i k * L i k = L i k * ∑ p with p < i, w p * L p k := by
              rw [hwl k (Finset.mem_filter.1 hk).2]
          _ = _ := by
              rw [Finset.mul_sum]
              exact Finset.sum_congr rfl fun p _ => by ring
      rw [hN2, Finset.sum_congr rfl e, Finset.sum_comm]
      exact Finset.sum_congr rfl fun p _ => by rw [Finset.mul_sum]
    have : (∑ p with p < i, w p * (a i p).val) - N2
        = ∑ p with p < i, w p * ((a i p).val - ∑ k with k < i, L i k * L p k) := by
      rw [hNi, ← Finset.sum_sub_distrib]
      exact Finset.sum_congr rfl fun p _ => by ring
    rw [this]
    refine (Finset.abs_sum_le_sum_abs _ _).trans ?_
    have h2 : (∑ p with p < i, |w p * ((a i p).val - ∑ k with k < i, L i k * L p k)|)
        ≤ g * √N2 * √((1 - g)⁻¹) * W := by
      rw [hW, Finset.mul_sum]
      refine Finset.sum_le_sum fun p hp => ?_
      rw [abs_mul]
      calc _ ≤ |w p| * (g * (√N2 * (√((1 - g)⁻¹) * d p))) :=
            mul_le_mul_of_nonneg_left (eip p (Finset.mem_filter.1 hp).2) (abs_nonneg _)
        _ = _ := by ring
    refine h2.trans ?_
    have hs := Real.mul_self_sqrt (inv_nonneg.2 hg1.le)
    calc g * √N2 * √((1 - g)⁻¹) * W ≤ g * (√((1 - g)⁻¹) * W) * √((1 - g)⁻¹) * W := by
          gcongr
      _ = g * (√((1 - g)⁻¹) * √((1 - g)⁻¹)) * W ^ 2 := by ring
      _ = _ := by rw [hs, hg'def, div_eq_mul_inv]
  -- the diagonal
  have part3 : (a i i).val ≤ N2 + g' * W ^ 2 := by
    unfold Back at hS
    have e1 : (∑ k with k < i, (l i k).val * (l i k).val) = N2 :=
      Finset.sum_congr rfl fun k _ => by simp only [L]; ring
    have e2 : (∑ k with k < i, |(l i k).val * (l i k).val|) = N2 :=
      Finset.sum_congr rfl fun k _ => by rw [abs_mul_self]; simp only [L]; ring
    rw [e1, e2, abs_of_nonpos hneg] at hS
    have hgi : growth u i.1 ≤ g := growth_mono h hu (by have := i.2; omega)
    have hgi0 := growth_nonneg h hu i.1
    have h1 := (abs_le.1 hS).2
    have h2 : (a i i).val ≤ N2 + g * N2 := by nlinarith
    have h3 : g * N2 ≤ g' * W ^ 2 := by
      calc g * N2 ≤ g * ((1 - g)⁻¹ * W ^ 2) := mul_le_mul_of_nonneg_left hNW hg0
        _ = _ := by rw [hg'def, div_eq_mul_inv]; ring
    linarith
  -- the test vector
  have hv := hpd (fun p => if p = i then 1 else -w p)
  have hwi : w i = 0 := hw0 i (lt_irrefl _)
  have split : ∀ f : Fin n → ℝ, (∀ p, ¬ p < i → p ≠ i → f p = 0) →
      (∑ p, f p) = (∑ p with p < i, f p) + f i := by
    intro f hf
    rw [Finset.sum_filter]
    have : ∀ p, f p = (if p < i then f p else 0) + (if p = i then f i else 0) := by
      intro p
      by_cases hp : p < i
      · rw [if_pos hp, if_neg (ne_of_lt hp), add_zero]
      · by_cases hpe : p = i
        · subst hpe; simp
        · rw [if_neg hp, if_neg hpe, hf p hp hpe, add_zero]
    rw [Finset.sum_congr rfl (fun p _ => this p), Finset.sum_add_distrib,
      Finset.sum_ite_eq' Finset.univ i, if_pos (Finset.mem_univ _)]
  have hleft : (∑ r, √(a r r).val * |if r = i then (1 : ℝ) else -w r|) = W + d i := by
    rw [split]
    · rw [if_pos rfl, abs_one, mul_one]
      congr 1
      apply Finset.sum_congr rfl
      intro p hp
      rw [if_neg (ne_of_lt (Finset.mem_filter.1 hp).2), abs_neg]
    · intro p hp hpe
      rw [if_neg hpe, hw0 p hp, neg_zero, abs_zero, mul_zero]
  have hright : (∑ r, ∑ q, (if r = i then (1 : ℝ) else -w r) * (a r q).val * (if q = i then 1 else -w q))
      = (∑ p with p < i, ∑ q with q < i, w p * (a p q).val * w q)
        - 2 * (∑ p with p < i, w p * (a i p).val) + (a i i).val := by
    rw [split]
    · rw [split]
      · simp only [if_true, one_mul, mul_one]
        have e1 : (∑ p with p < i, ∑ q, (if p = i then (1 : ℝ) else -w p) * (a p q).val * (if q = i then 1 else -w q))
            = (∑ p with p < i, ∑ q with q < i, w p * (a p q).val * w q) - ∑ p with p < i, w p * (a i p).val := by
          rw [← Finset.sum_sub_distrib]
          apply Finset.sum_congr rfl
          intro p hp
          have hpi := (Finset.mem_filter.1 hp).2
          rw [split]
          · rw [if_neg (ne_of_lt hpi), if_pos rfl, hsym i p, sub_eq_add_neg]
            congr 1
            · apply Finset.sum_congr rfl
              intro q hq
              rw [if_neg (ne_of_lt (Finset.mem_filter.1 hq).2)]; ring
            · ring
          · intro q hq hqe
            rw [if_neg hqe, hw0 q hq, neg_zero, mul_zero]
        have e2 : (∑ q with q < i, (a i q).val * (if q = i then 1 else -w q))
            = - ∑ p with p < i, w p * (a i p).val := by
          rw [← Finset.sum_neg_distrib]
          apply Finset.sum_congr rfl
          intro q hq
          rw [if_neg (ne_of_lt (Finset.mem_filter.1 hq).2)]; ring
        rw [e1, e2]; ring
      · intro q hq hqe
        rw [if_neg hqe, hw0 q hq, neg_zero, mul_zero]
    · intro p hp hpe
      apply Finset.sum_eq_zero
      intro q _
      rw [if_neg hpe, hw0 p hp, neg_zero, zero_mul, zero_mul]
  rw [hleft, hright] at hv
  have hdi : 0 < d i := Real.sqrt_pos.2 (hdiag i)
  have p1 := (abs_le.1 part1).2
  have p2 := (abs_le.1 part2).1
  have hfin : c * (W + d i) ^ 2 ≤ 4 * g' * W ^ 2 := by linarith
  have h1 : W ^ 2 < (W + d i) ^ 2 := by nlinarith
  have h2 : 4 * g' * W ^ 2 ≤ c * W ^ 2 := mul_le_mul_of_nonneg_right hc (sq_nonneg _)
  have h3 : c * W ^ 2 < c * (W + d i) ^ 2 := mul_lt_mul_of_pos_left h1 hc0
  linarith

theorem cholesky_accepts (h : Accurate fl u) (hu : u < 1) {sq : Fl fl → Fl fl}
    (hsq : ∀ s, 0 < s.val → |(sq s).val - √s.val| ≤ u * √s.val) {a : Mat (Fl fl) n n} {c : ℝ}
    (hg : growth u (n + 1) < 1) (hsym : ∀ r q, a r q = a q r) (hc0 : 0 < c)
    (hc : 4 * (growth u (n + 1) / (1 - growth u (n + 1))) ≤ c)
    (hdiag : ∀ r, 0 < (a r r).val)
    (hpd : ∀ x : Fin n → ℝ, c * (∑ r, √(a r r).val * |x r|) ^ 2 ≤ ∑ r, ∑ q, x r * (a r q).val * x q) :
    ∃ L, cholesky sq a = some L := by
  unfold cholesky
  obtain ⟨L, hL, _⟩ := foldlM_rng_total (cholRow sq a) (CholR u a) (Nat.le_refl n) (Nat.zero_le _)
    (by
      intro k hk l _ _ hinv
      obtain ⟨l', h1, h2⟩ := foldlM_rng_total (cholEntry sq a ⟨k, hk⟩) (CholRowR u a ⟨k, hk⟩)
        (b := k + 1) (by omega) (Nat.zero_le _)
        (by
          intro j hj t _ hjk hi
          suffices ∃ t', cholEntry sq a ⟨k, hk⟩ t ⟨j, hj⟩ = some t' by
            obtain ⟨t', ht'⟩ := this
            exact ⟨t', ht', cholEntry_back h hu hsq hj hjk hi ht'⟩
          unfold cholEntry
          dsimp only
          by_cases hij : (⟨k, hk⟩ : Fin n) = ⟨j, hj⟩
          · rw [if_pos hij]
            have hkj : k = j := congrArg Fin.val hij
            subst hkj
            have hb := Back.list h hu (t ⟨k, hk⟩) (t ⟨k, hk⟩) (rng n 0 k) (a ⟨k, hk⟩ ⟨k, hk⟩) 0
              (a ⟨k, hk⟩ ⟨k, hk⟩).val 0 0 le_rfl (by unfold Back; simp [growth_zero])
            rw [sum_rng, sum_rng, length_rng (by omega), zero_add, zero_add, zero_add, Nat.sub_zero] at hb
            have hset : (Finset.univ.filter fun m : Fin n => 0 ≤ m.1 ∧ m.1 < k)
                = Finset.univ.filter fun m : Fin n => m < (⟨k, hk⟩ : Fin n) := by
              ext m; simp [Fin.lt_def]
            rw [hset] at hb
            have hpos := cholDiag_back h hu (i := ⟨k, hk⟩) hg hsym hc0 hc hdiag hpd hi hb
            exact ⟨_, if_neg (not_le.2 hpos)⟩
          · rw [if_neg hij]
            exact ⟨_, rfl⟩)
        (s := l) ⟨hinv, by intro hi; omega, by intro c _ hc; omega⟩
      refine ⟨_, ?_, cholRow_finish_back (i := ⟨k, hk⟩) h2⟩
      unfold cholRow
      rw [h1]; rfl)
    (s := zeros n n) (by intro r hr; omega)
  exact ⟨L, hL⟩

end Verif.Round
