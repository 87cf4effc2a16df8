import Mathlib.Algebra.Polynomial.Derivative
import Mathlib.Algebra.CharP.Defs
import Mathlib.Algebra.Polynomial.Degree.Lemmas
import Mathlib.Data.Real.Basic
import Mathlib.Tactic.LinearCombination
import Mathlib.Tactic.FieldSimp

/-!
# Legendre polynomials and their derivatives (specification and recurrences)
-/

namespace Verif.Wmm

open Polynomial

/-- The Legendre polynomial of degree `n`, by the formula of Rodrigues. -/
noncomputable def legendre (n : ℕ) : ℝ[X] := C (1 / (2 ^ n * (n.factorial : ℝ))) * derivative^[n] ((X ^ 2 - 1) ^ n)

/-- The `m`-th derivative of the Legendre polynomial of degree `n`. -/
noncomputable def legendreD (n m : ℕ) : ℝ[X] := derivative^[m] (legendre n)

theorem X_mul_iter (k : ℕ) (p : ℝ[X]) : derivative^[k + 1] (X * p) = X * derivative^[k + 1] p + (k + 1 : ℝ[X]) * derivative^[k] p := by
  induction k with
  | zero => simp [derivative_mul]; ring
  | succ k ih =>
    rw [Function.iterate_succ_apply', ih]
    simp only [derivative_add, derivative_mul, derivative_X, one_mul, ← Function.iterate_succ_apply' (f := (derivative : ℝ[X] → ℝ[X]))]
    rw [derivative_natCast, derivative_one]
    push_cast
    simp only [Nat.succ_eq_add_one]
    ring

theorem iter_C_mul (k : ℕ) (a : ℝ) (p : ℝ[X]) : derivative^[k] (C a * p) = C a * derivative^[k] p := by
  induction k with
  | zero => rfl
  | succ k ih => rw [Function.iterate_succ_apply', ih, derivative_C_mul, ← Function.iterate_succ_apply' (f := (derivative : ℝ[X] → ℝ[X]))]

theorem iter_add (k : ℕ) (p q : ℝ[X]) : derivative^[k] (p + q) = derivative^[k] p + derivative^[k] q := by
  exact iterate_map_add derivative k p q

theorem derivative_w (n : ℕ) : derivative ((X ^ 2 - 1 : ℝ[X]) ^ (n + 1)) = C (2 * ((n : ℝ) + 1)) * (X * (X ^ 2 - 1) ^ n) := by
  rw [derivative_pow]
  simp [map_mul, C_add, C_ofNat]
  ring

/-- `Pₙ₊₁' = (n+1) Pₙ + x Pₙ'`. -/
theorem legendre_succ (n : ℕ) : derivative (legendre (n + 1)) = (n + 1 : ℝ[X]) * legendre n + X * derivative (legendre n) := by
  unfold legendre
  rw [Function.iterate_succ_apply, derivative_w, derivative_C_mul, iter_C_mul, derivative_C_mul, derivative_C_mul, ← mul_assoc, ← C_mul]
  have e : (1 / (2 ^ (n + 1) * ((n + 1).factorial : ℝ)) * (2 * ((n : ℝ) + 1))) = 1 / (2 ^ n * (n.factorial : ℝ)) := by
    rw [Nat.factorial_succ]
    push_cast
    field_simp
    ring
  rw [e, ← Function.iterate_succ_apply' (f := (derivative : ℝ[X] → ℝ[X])), ← Function.iterate_succ_apply' (f := (derivative : ℝ[X] → ℝ[X])), X_mul_iter]
  ring

/-- `Pₙ₊₂' - Pₙ' = (2n+3) Pₙ₊₁`. -/
theorem legendre_two (n : ℕ) : derivative (legendre (n + 2)) = derivative (legendre n) + (2 * n + 3 : ℝ[X]) * legendre (n + 1) := by
  have hw : derivative^[2] ((X ^ 2 - 1 : ℝ[X]) ^ (n + 2)) = C (2 * ((n : ℝ) + 2) * (2 * n + 3)) * (X ^ 2 - 1) ^ (n + 1) +
      C (4 * ((n : ℝ) + 2) * (n + 1)) * (X ^ 2 - 1) ^ n := by
    rw [Function.iterate_succ_apply, Function.iterate_one, show n + 2 = (n + 1) + 1 from rfl, derivative_w, derivative_C_mul, derivative_mul, derivative_X, derivative_w]
    simp only [map_mul, map_add, map_ofNat, map_natCast, map_one, Nat.cast_add, Nat.cast_one]
    ring
  have e1 : derivative (legendre (n + 2)) = C (1 / (2 ^ (n + 2) * ((n + 2).factorial : ℝ))) * derivative^[n + 1] (derivative^[2] ((X ^ 2 - 1) ^ (n + 2))) := by
    unfold legendre
    rw [derivative_C_mul, ← Function.iterate_succ_apply' (f := (derivative : ℝ[X] → ℝ[X])), ← Function.iterate_add_apply]
  rw [e1, hw, iter_add, iter_C_mul, iter_C_mul]
  unfold legendre
  rw [derivative_C_mul, ← Function.iterate_succ_apply' (f := (derivative : ℝ[X] → ℝ[X])), mul_add, ← mul_assoc, ← mul_assoc, ← C_mul, ← C_mul]
  have e2 : (1 / (2 ^ (n + 2) * ((n + 2).factorial : ℝ)) * (2 * ((n : ℝ) + 2) * (2 * n + 3))) = (2 * n + 3) * (1 / (2 ^ (n + 1) * ((n + 1).factorial : ℝ))) := by
    rw [Nat.factorial_succ (n + 1)]
    push_cast
    field_simp
    ring
  have e3 : (1 / (2 ^ (n + 2) * ((n + 2).factorial : ℝ)) * (4 * ((n : ℝ) + 2) * (n + 1))) = 1 / (2 ^ n * (n.factorial : ℝ)) := by
    rw [Nat.factorial_succ (n + 1), Nat.factorial_succ n]
    push_cast
    field_simp
    ring
  rw [e2, e3]
  simp only [map_mul, map_add, map_ofNat, map_natCast]
  ring

theorem legendre_zero : legendre 0 = 1 := by simp [legendre]

theorem legendre_one : legendre 1 = X := by
  simp [legendre]
  rw [one_add_one_eq_two, ← C_ofNat, ← mul_assoc, ← C_mul]
  norm_num

/-- `Pₙ' = x Pₙ₊₁' - (n+1) Pₙ₊₁`. -/
theorem legendre_pred (n : ℕ) : derivative (legendre n) = X * derivative (legendre (n + 1)) - (n + 1 : ℝ[X]) * legendre (n + 1) := by
  have h1 := legendre_succ (n + 1)
  have h2 := legendre_two n
  rw [h2] at h1
  push_cast at h1
  linear_combination h1

/-- `Pₙ(1) = 1`. -/
theorem legendre_at_one (n : ℕ) : (legendre n).eval 1 = 1 := by
  induction n with
  | zero => simp [legendre_zero]
  | succ n ih =>
    have h1 := congrArg (Polynomial.eval 1) (legendre_succ n)
    have h2 := congrArg (Polynomial.eval 1) (legendre_pred n)
    simp at h1 h2
    rw [ih] at h1
    have : ((n : ℝ) + 1) * (eval 1 (legendre (n + 1)) - 1) = 0 := by linarith
    have h0 : ((n : ℝ) + 1) ≠ 0 := by positivity
    have := (mul_eq_zero.mp this).resolve_left h0
    linarith

/-- Bonnet's recurrence. -/
theorem bonnet (n : ℕ) : (n + 2 : ℝ[X]) * legendre (n + 2) = (2 * n + 3 : ℝ[X]) * (X * legendre (n + 1)) - (n + 1 : ℝ[X]) * legendre n := by
  have hd : derivative ((n + 2 : ℝ[X]) * legendre (n + 2) - ((2 * n + 3 : ℝ[X]) * (X * legendre (n + 1)) - (n + 1 : ℝ[X]) * legendre n)) = 0 := by
    have h1 := legendre_succ (n + 1)
    have h2 := legendre_pred n
    simp [derivative_mul]
    push_cast at h1
    linear_combination (n + 2 : ℝ[X]) * h1 + (n + 1 : ℝ[X]) * h2
  have hc := derivative_eq_zero.mp hd
  rw [natDegree_eq_zero] at hc
  obtain ⟨a, ha⟩ := hc
  have h1 := congrArg (Polynomial.eval 1) ha
  simp [legendre_at_one] at h1
  have : a = 0 := by linarith
  rw [this, C_0] at ha
  linear_combination -ha

/-- `Pₙ₊₁⁽ᵐ⁺¹⁾ = (n+m+1) Pₙ⁽ᵐ⁾ + x Pₙ⁽ᵐ⁺¹⁾`. -/
theorem legendreD_succ (n m : ℕ) : legendreD (n + 1) (m + 1) = (n + m + 1 : ℝ[X]) * legendreD n m + X * legendreD n (m + 1) := by
  unfold legendreD
  induction m with
  | zero => simpa using legendre_succ n
  | succ m ih =>
    rw [Function.iterate_succ_apply', ih]
    simp only [derivative_add, derivative_mul, derivative_X, ← Function.iterate_succ_apply' (f := (derivative : ℝ[X] → ℝ[X]))]
    simp
    ring

/-- `Pₙ⁽ᵐ⁺¹⁾ = x Pₙ₊₁⁽ᵐ⁺¹⁾ - (n+1-m) Pₙ₊₁⁽ᵐ⁾`. -/
theorem legendreD_pred (n m : ℕ) : legendreD n (m + 1) = X * legendreD (n + 1) (m + 1) - (n + 1 - m : ℝ[X]) * legendreD (n + 1) m := by
  unfold legendreD
  induction m with
  | zero => simpa using legendre_pred n
  | succ m ih =>
    rw [Function.iterate_succ_apply', ih]
    simp only [derivative_sub, derivative_mul, derivative_X, ← Function.iterate_succ_apply' (f := (derivative : ℝ[X] → ℝ[X]))]
    simp
    ring

/-- The recurrence in the degree: `(n+2-m) Pₙ₊₂⁽ᵐ⁾ = (2n+3) x Pₙ₊₁⁽ᵐ⁾ - (n+1+m) Pₙ⁽ᵐ⁾`. -/
theorem legendreD_rec (n m : ℕ) : (n + 2 - m : ℝ[X]) * legendreD (n + 2) m =
    (2 * n + 3 : ℝ[X]) * (X * legendreD (n + 1) m) - (n + 1 + m : ℝ[X]) * legendreD n m := by
  cases m with
  | zero => simpa [legendreD] using bonnet n
  | succ m =>
    have h1 := legendreD_succ (n + 1) m
    have h2 := legendreD_pred n m
    push_cast at h1 ⊢
    linear_combination (n + 1 - m : ℝ[X]) * h1 + (n + 2 + m : ℝ[X]) * h2

/-- `(1-x²) Pₙ₊₁⁽ᵐ⁺¹⁾ = (n+1+m) Pₙ⁽ᵐ⁾ - (n+1-m) x Pₙ₊₁⁽ᵐ⁾`. -/
theorem legendreD_deriv (n m : ℕ) : (1 - X ^ 2) * legendreD (n + 1) (m + 1) =
    (n + 1 + m : ℝ[X]) * legendreD n m - (n + 1 - m : ℝ[X]) * (X * legendreD (n + 1) m) := by
  linear_combination legendreD_succ n m + X * legendreD_pred n m

theorem legendre_natDegree (n : ℕ) : (legendre n).natDegree ≤ n := by
  unfold legendre
  refine (natDegree_C_mul_le _ _).trans ?_
  refine (natDegree_iterate_derivative _ _).trans ?_
  have : ((X ^ 2 - 1 : ℝ[X]) ^ n).natDegree ≤ n * 2 := by
    refine natDegree_pow_le.trans (Nat.mul_le_mul_left _ ?_)
    refine (natDegree_sub_le _ _).trans ?_
    simp
  omega

theorem legendreD_zero {n m : ℕ} (h : n < m) : legendreD n m = 0 :=
  iterate_derivative_eq_zero ((legendre_natDegree n).trans_lt h)

/-- `Pₘ₊₁⁽ᵐ⁺¹⁾ = (2m+1) Pₘ⁽ᵐ⁾`. -/
theorem legendreD_diag (m : ℕ) : legendreD (m + 1) (m + 1) = (2 * m + 1 : ℝ[X]) * legendreD m m := by
  rw [legendreD_succ, legendreD_zero (Nat.lt_succ_self m)]
  ring

/-- `Pₘ₊₁⁽ᵐ⁾ = (2m+1) x Pₘ⁽ᵐ⁾`. -/
theorem legendreD_off (m : ℕ) : legendreD (m + 1) m = (2 * m + 1 : ℝ[X]) * (X * legendreD m m) := by
  cases m with
  | zero => simp [legendreD, legendre_one, legendre_zero]
  | succ m =>
    have := legendreD_rec m (m + 1)
    rw [legendreD_zero (Nat.lt_succ_self m)] at this
    push_cast at this ⊢
    linear_combination this

end Verif.Wmm
