import Verif.Round.CholTotal
import Verif.Round.PropsLu

/-!
# C112: matrices the solver for symmetric positive definite systems accepts in floating-point arithmetic

The margin `κ` is the smallest eigenvalue of the matrix after scaling its diagonal to ones.
-/

namespace Verif.Round

open Verif.Simd (Fl Accurate)
open Verif.Mat
open Matrix

variable {fl : ℝ → ℝ} {u : ℝ} {n : Nat}

/-- C112. A symmetric matrix that is positive definite by a margin above the rounding errors is never rejected,
whatever the right-hand side. -/
theorem C112_accepts (h : Accurate fl u) (hu : u < 1) (hg : growth u (n + 1) < 1) {sq : Fl fl → Fl fl}
    (hsq : ∀ s, 0 < s.val → |(sq s).val - √s.val| ≤ u * √s.val)
    {A : Mat (Fl fl) n n} (hA : ∀ i j, A i j = A j i) (hd : ∀ i, 0 < val A i i) {κ : ℝ} (hκ : 0 < κ)
    (hκg : 4 * n * (growth u (n + 1) / (1 - growth u (n + 1))) ≤ κ)
    (hpd : ∀ x : Fin n → ℝ, κ * (∑ i, val A i i * x i ^ 2) ≤ x ⬝ᵥ val A *ᵥ x) (b : Fin n → Fl fl) :
    ∃ x, choleskySolve sq A b = some x := by
  rcases Nat.eq_zero_or_pos n with rfl | hn
  · refine ⟨b, ?_⟩
    unfold choleskySolve cholesky
    have : rng 0 0 0 = [] := by decide
    rw [this]
    simp only [List.foldlM_nil, Option.pure_def, Option.map_some]
    congr 1
  have hn' : (0 : ℝ) < n := by exact_mod_cast hn
  obtain ⟨L, hL⟩ := cholesky_accepts h hu hsq (c := κ / n) hg hA (by positivity)
    (by rw [le_div_iff₀ hn']; linarith) (fun r => hd r) (by
      intro x
      have hcs := Finset.sum_mul_sq_le_sq_mul_sq (Finset.univ : Finset (Fin n)) (fun _ => (1 : ℝ))
        (fun r => √(val A r r) * |x r|)
      simp only [one_mul, one_pow, Finset.sum_const, Finset.card_univ, Fintype.card_fin, nsmul_eq_mul, mul_one,
        mul_pow, sq_abs] at hcs
      rw [Finset.sum_congr rfl (fun i _ => by rw [Real.sq_sqrt (hd i).le] :
        ∀ i ∈ Finset.univ, √(val A i i) ^ 2 * x i ^ 2 = val A i i * x i ^ 2)] at hcs
      have h2 := hpd x
      have e : x ⬝ᵥ val A *ᵥ x = ∑ r, ∑ q, x r * (A r q).val * x q := by
        simp only [dotProduct, Matrix.mulVec, val, Matrix.of_apply]
        refine Finset.sum_congr rfl fun r _ => ?_
        rw [Finset.mul_sum]
        exact Finset.sum_congr rfl fun q _ => by ring
      rw [← e]
      refine le_trans ?_ h2
      calc κ / n * (∑ r, √(A r r).val * |x r|) ^ 2
          ≤ κ / n * (n * ∑ i, val A i i * x i ^ 2) :=
            mul_le_mul_of_nonneg_left hcs (by positivity)
        _ = _ := by field_simp)
  refine ⟨cholSolveWith L b, ?_⟩
  unfold choleskySolve
  rw [hL]; rfl

/-- C112 in numbers. For `f64` and up to a thousand unknowns, a symmetric matrix with positive diagonal whose
scaled smallest eigenvalue is at least `10⁻⁹` is accepted. -/
theorem C112_accepts_f64 (h : Accurate fl (2 ^ (-53 : ℤ))) (hn : n ≤ 1000) {sq : Fl fl → Fl fl}
    (hsq : ∀ s, 0 < s.val → |(sq s).val - √s.val| ≤ 2 ^ (-53 : ℤ) * √s.val)
    {A : Mat (Fl fl) n n} (hA : ∀ i j, A i j = A j i) (hd : ∀ i, 0 < val A i i)
    (hpd : ∀ x : Fin n → ℝ, 1e-9 * (∑ i, val A i i * x i ^ 2) ≤ x ⬝ᵥ val A *ᵥ x) (b : Fin n → Fl fl) :
    ∃ x, choleskySolve sq A b = some x := by
  have hu : (2 : ℝ) ^ (-53 : ℤ) < 1 := by norm_num
  have g1 : growth (2 ^ (-53 : ℤ)) (n + 1) ≤ 1001 * 2 ^ (-53 : ℤ) / (1 - 1001 * 2 ^ (-53 : ℤ)) := by
    refine (growth_mono h hu (show n + 1 ≤ 1001 by omega)).trans ?_
    have := C111_growth (n := 1001) h (by norm_num)
    push_cast at this
    exact this
  have c1 : (1001 : ℝ) * 2 ^ (-53 : ℤ) / (1 - 1001 * 2 ^ (-53 : ℤ)) ≤ 1.2e-13 := by norm_num
  have g1 := g1.trans c1
  have g0 := growth_nonneg h hu (n + 1)
  refine C112_accepts h hu (lt_of_le_of_lt g1 (by norm_num)) hsq hA hd (by norm_num) ?_ hpd b
  generalize growth (2 ^ (-53 : ℤ)) (n + 1) = g at g1 g0 ⊢
  have hn' : (n : ℝ) ≤ 1000 := by exact_mod_cast hn
  have h1 : g / (1 - g) ≤ 2e-13 := by
    rw [div_le_iff₀ (by linarith)]; linarith
  have h0 : 0 ≤ g / (1 - g) := div_nonneg g0 (by linarith)
  calc 4 * (n : ℝ) * (g / (1 - g)) ≤ 4 * 1000 * 2e-13 := by gcongr
    _ ≤ 1e-9 := by norm_num

-- The hypotheses are met by `[[4, 2], [2, 3]]`, in an arithmetic that rounds every result up.
example (fl : ℝ → ℝ) (x : Fin 2 → ℝ) :
    1e-9 * (∑ i, val (![![⟨4⟩, ⟨2⟩], ![⟨2⟩, ⟨3⟩]] : Mat (Fl fl) 2 2) i i * x i ^ 2)
      ≤ x ⬝ᵥ val (![![⟨4⟩, ⟨2⟩], ![⟨2⟩, ⟨3⟩]] : Mat (Fl fl) 2 2) *ᵥ x := by
  simp [val, dotProduct, Matrix.mulVec, Fin.sum_univ_two]
  nlinarith [sq_nonneg (x 0 + x 1), sq_nonneg (x 0), sq_nonneg (x 1)]

end Verif.Round
