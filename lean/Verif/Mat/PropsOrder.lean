import Verif.Mat.PropsSolve

/-! # C210: the order and the scale of the equations and unknowns of a linear system -/

namespace Verif.Mat

open Matrix

section
variable {K : Type*} [Field K] [LinearOrder K] [IsStrictOrderedRing K] {n : ℕ}

theorem det_reorder (A : Mat K n n) (σ τ : Equiv.Perm (Fin n)) {r s : Fin n → K} (hr : ∀ i, r i ≠ 0) (hs : ∀ j, s j ≠ 0) :
    (of fun i j => r i * A (σ i) (τ j) * s j).det = 0 ↔ (of A).det = 0 := by
  have e : (of fun i j => r i * A (σ i) (τ j) * s j) = diagonal r * (of A).submatrix σ τ * diagonal s := by
    ext i j
    simp [mul_diagonal, diagonal_mul]
  have e2 : (of A).submatrix σ τ = ((of A).submatrix σ id).submatrix id τ := rfl
  rw [e, det_mul, det_mul, det_diagonal, det_diagonal, e2, det_permute', det_permute]
  have h1 : ∏ i, r i ≠ 0 := Finset.prod_ne_zero_iff.2 fun i _ => hr i
  have h2 : ∏ i, s i ≠ 0 := Finset.prod_ne_zero_iff.2 fun i _ => hs i
  have hu : ∀ π : Equiv.Perm (Fin n), ((Equiv.Perm.sign π : ℤ) : K) ≠ 0 := fun π => by
    rcases Int.units_eq_one_or (Equiv.Perm.sign π) with h | h <;> simp [h]
  constructor
  · intro h
    rcases mul_eq_zero.1 h with h | h
    · rcases mul_eq_zero.1 h with h | h
      · exact absurd h h1
      · rcases mul_eq_zero.1 h with h | h
        · exact absurd h (hu _)
        · rcases mul_eq_zero.1 h with h | h
          · exact absurd h (hu _)
          · exact h
    · exact absurd h h2
  · intro h
    rw [h]; ring

/-- **C210**. If the equations and unknowns of a system are put into another order (`σ`, `τ`), the equations are multiplied by factors `r` and the unknowns
given in other units (divided by `s`), then the solver, if it solves both systems, returns the same solution in the new order and units.
Missing: that it solves both or neither, see `C210_fails`, `C210_unknowns_fails` and `C210_units_fails`. -/
theorem C210_partial {eps : K} (he : 0 ≤ eps) (σ τ : Equiv.Perm (Fin n)) {r s : Fin n → K} (hr : ∀ i, r i ≠ 0) {A : Mat K n n} {b x x' : Fin n → K}
    (h : solve eps A b = some x) (h' : solve eps (fun i j => r i * A (σ i) (τ j) * s j) (fun i => r i * b (σ i)) = some x') (j : Fin n) :
    x (τ j) = s j * x' j := by
  have h1 := (C24_solve he h').1
  have h2 := (C24_solve he h).2 (fun j => s (τ.symm j) * x' (τ.symm j)) (by
    funext i
    have := congrFun h1 (σ.symm i)
    simp only [Matrix.mulVec, dotProduct, of_apply, Equiv.apply_symm_apply] at this ⊢
    have e : ∀ j, r (σ.symm i) * A i (τ j) * s j * x' j = r (σ.symm i) * (A i (τ j) * (s j * x' j)) := fun j => by ring
    simp only [e, ← Finset.mul_sum] at this
    rw [← mul_left_cancel₀ (hr _) this]
    rw [← Equiv.sum_comp τ]
    simp only [Equiv.symm_apply_apply])
  rw [← h2]
  simp only [Equiv.symm_apply_apply]

/-- **C210**. Without a threshold the solver solves both systems or neither. -/
theorem C210_exact (σ τ : Equiv.Perm (Fin n)) {r s : Fin n → K} (hr : ∀ i, r i ≠ 0) (hs : ∀ j, s j ≠ 0) (A : Mat K n n) (b : Fin n → K) :
    (solve 0 (fun i j => r i * A (σ i) (τ j) * s j) (fun i => r i * b (σ i))).isSome = (solve 0 A b).isSome := by
  have key : ∀ (A : Mat K n n) (b : Fin n → K), (solve 0 A b).isSome = true ↔ (of A).det ≠ 0 := by
    intro A b
    unfold solve
    rw [Option.isSome_map, Option.isSome_iff_exists, (C26_consistent (le_refl 0) A).2.1, C26_determinant_exact]
  rw [Bool.eq_iff_iff, key, key]
  exact not_congr (det_reorder A σ τ hr hs)

end

/-- **C210 fails**: exchanging the first two of three equations, whose first coefficients are equal, decides whether the solver (with the threshold of `f64`)
returns the solution. -/
theorem C210_fails :
    solve (1 / 2 ^ 52 : ℚ) ![![1, 0, 0], ![1, 1, 0], ![1 / 2, 5 / 4, 9 / 8 / 2 ^ 52]] ![1, 2, 3] = none ∧
    solve (1 / 2 ^ 52 : ℚ) ![![1, 1, 0], ![1, 0, 0], ![1 / 2, 5 / 4, 9 / 8 / 2 ^ 52]] ![2, 1, 3] = some ![1, 1, 10 / 9 * 2 ^ 52] := by
  decide +kernel

/-- **C210 fails** for the order of the unknowns. -/
theorem C210_unknowns_fails :
    solve (1 / 2 ^ 52 : ℚ) ![![1, 10], ![0, 2 / 2 ^ 52]] ![11, 2 / 2 ^ 52] = some ![1, 1] ∧
    solve (1 / 2 ^ 52 : ℚ) ![![10, 1], ![2 / 2 ^ 52, 0]] ![11, 2 / 2 ^ 52] = none := by
  decide +kernel

/-- **C210 fails** for the units: one equation, divided by 2 to the power 52. -/
theorem C210_units_fails : solve (1 / 2 ^ 52 : ℚ) ![![1]] ![5] = some ![5] ∧ solve (1 / 2 ^ 52 : ℚ) ![![1 / 2 ^ 52]] ![5 / 2 ^ 52] = none := by
  decide +kernel

-- The hypotheses of `C210_partial` are met: two equations exchanged, one of them doubled, an unknown in other units.
example : solve (1 / 2 ^ 52 : ℚ) ![![1, 1], ![1, -1]] ![3, 1] = some ![2, 1] ∧
    solve (1 / 2 ^ 52 : ℚ) ![![2, -6], ![1, 3]] ![2, 3] = some ![2, 1 / 3] := by decide +kernel

end Verif.Mat
