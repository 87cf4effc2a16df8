import Verif.Mat.Couple
import Mathlib.Analysis.Real.Sqrt
import Mathlib.LinearAlgebra.Matrix.Nondegenerate
import Mathlib.LinearAlgebra.Matrix.NonsingularInverse
import Mathlib.Data.Rat.Defs
import Mathlib.Tactic.NormNum

/-!
# C24–C26: LU, Cholesky, determinant and inverses, in exact arithmetic

`K` is any ordered field (ℚ, ℝ). On the specification side `Matrix.of A` is Mathlib's matrix with the entries
of the array `A`, and `det`, `*`, `*ᵥ`, `ᵀ`, `1` are Mathlib's operations on it.
The threshold (`T::EPSILON` or `1e-12` in the code) is any `eps ≥ 0`.
-/

namespace Verif.Mat

open Matrix

section LU
variable {K : Type*} [Field K] [LinearOrder K] [IsStrictOrderedRing K] {n k : Nat}

/-- C24. When LU succeeds: the recorded pivots are a permutation `σ` whose parity is `sign`, and the packed
result holds a unit lower-triangular `L` and an upper-triangular `U` with nonzero diagonal such that row
`σ i` of `A` is row `i` of `L U`, i.e. `P A = L U`. -/
theorem C24_factors {eps : K} (he : 0 ≤ eps) {A : Mat K n n} {d : Lu K n}
    (h : luDecompose eps A = some d) :
    ∃ (σ : Equiv.Perm (Fin n)) (L U : Matrix (Fin n) (Fin n) K),
      (∀ i, d.piv i = σ i) ∧ d.sign = (Equiv.Perm.sign σ : ℤ) ∧
      (∀ i, L i i = 1) ∧ (∀ i j, i < j → L i j = 0) ∧
      (∀ i j, j < i → U i j = 0) ∧ (∀ i, U i i ≠ 0) ∧
      (∀ i j, d.lu i j = if j < i then L i j else U i j) ∧
      ∀ i j, A (σ i) j = (L * U) i j := by
  obtain ⟨σ, h1, h2, h3, h4⟩ := luDecompose_inv he h
  refine ⟨σ, lowerOf d, upperOf d, fun i => congrFun h1 i, h2, ?_, ?_, ?_, ?_, ?_, ?_⟩
  · intro i; simp [lowerOf]
  · intro i j hij; simp [lowerOf, not_lt_of_gt hij, ne_of_lt hij]
  · intro i j hij; simp [upperOf, not_le.2 hij]
  · intro i; simpa [upperOf] using h3 i i.2
  · intro i j
    by_cases hj : j < i
    · simp [lowerOf, hj]
    · simp [upperOf, hj, not_lt.1 hj]
  · intro i j; exact (luInv_mul h4 i j).symm

/-- C24. When `solve` returns `x`, then `A x = b`, and no other vector satisfies that. -/
theorem C24_solve {eps : K} (he : 0 ≤ eps) {A : Mat K n n} {b x : Fin n → K}
    (h : solve eps A b = some x) : of A *ᵥ x = b ∧ ∀ y, of A *ᵥ y = b → y = x := by
  unfold solve at h
  rw [Option.map_eq_some_iff] at h
  obtain ⟨d, hd, rfl⟩ := h
  have hinv := luDecompose_inv he hd
  have hx : ∀ b, of A *ᵥ (d.solve b) = b := fun b => luSolve_spec hinv b
  refine ⟨hx b, ?_⟩
  intro y hy
  have hsurj : Function.Surjective (of A).mulVec := fun b => ⟨_, hx b⟩
  have hinj : Function.Injective (of A).mulVec := Matrix.mulVec_injective_iff_isUnit.2
    (Matrix.mulVec_surjective_iff_isUnit.1 hsurj)
  apply hinj
  rw [hy, hx b]

/-- C24. When the multi-right-hand-side solve returns `X`, then `A X = B`, and it agrees column by column
with the single solve. -/
theorem C24_solve_multi {eps : K} (he : 0 ≤ eps) {A : Mat K n n}
    {B X : Mat K n k} (h : solveMulti eps A B = some X) :
    of A * of X = of B ∧ ∀ c, solve eps A (fun r => B r c) = some (fun r => X r c) := by
  unfold solveMulti at h
  rw [Option.map_eq_some_iff] at h
  obtain ⟨d, hd, rfl⟩ := h
  have hinv := luDecompose_inv he hd
  have hc : ∀ c, (fun r => d.solveMulti B r c) = d.solve (fun r => B r c) := fun c => solveMulti_col d B c
  refine ⟨?_, ?_⟩
  · ext r c
    have := congrFun (luSolve_spec hinv (fun r => B r c)) r
    rw [← hc c] at this
    rw [of_apply, ← this]
    rfl
  · intro c
    unfold solve
    rw [hd, hc c]; rfl

/-- C24. The determinant of `A` is the sign of the permutation times the product of the stored diagonal;
hence a singular matrix is always rejected. -/
theorem C24_det {eps : K} (he : 0 ≤ eps) {A : Mat K n n} {d : Lu K n}
    (h : luDecompose eps A = some d) : (of A).det = (d.sign : K) * ∏ i, d.lu i i ∧ (of A).det ≠ 0 := by
  obtain ⟨σ, L, U, h1, h2, hL1, hL2, hU1, hU2, h7, h8⟩ := C24_factors he h
  have e : (of A).submatrix σ id = L * U := by ext i j; exact h8 i j
  have hdet : ((of A).submatrix σ id).det = ∏ i, U i i := by
    rw [e, Matrix.det_mul, Matrix.det_of_isLowerTriangular L (fun i j hij => hL2 i j hij),
      Matrix.det_of_isUpperTriangular (fun i j hij => hU1 i j hij)]
    simp [hL1]
  rw [Matrix.det_permute] at hdet
  have hdiag : ∀ i, d.lu i i = U i i := fun i => by rw [h7]; simp
  have hdet2 : (of A).det = ((Equiv.Perm.sign σ : ℤ) : K) * ∏ i, U i i := by
    rw [← hdet, ← mul_assoc, ← Int.cast_mul, ← Units.val_mul, Int.units_mul_self]; simp
  have hm : (of A).det = (d.sign : K) * ∏ i, d.lu i i := by
    simp only [hdiag]; rw [h2]; exact hdet2
  refine ⟨hm, ?_⟩
  rw [hdet2]
  apply mul_ne_zero
  · have := (Equiv.Perm.sign σ).ne_zero
    exact_mod_cast this
  · exact Finset.prod_ne_zero_iff.2 (fun i _ => hU2 i)

/-- C24. A singular matrix is never "solved". -/
theorem C24_singular_none {eps : K} (he : 0 ≤ eps) {A : Mat K n n} (hA : (of A).det = 0)
    (b : Fin n → K) : solve eps A b = none := by
  unfold solve
  cases h : luDecompose eps A with
  | none => rfl
  | some d => exact absurd hA (C24_det he h).2

end LU

-- A matrix that needs a row exchange; both right-hand sides are solved.
example : solve (1 / 2 ^ 52 : ℚ) ![![0, 1], ![2, 3]] ![5, 7] = some ![-4, 5] := by decide +kernel
example : ((luDecompose (1 / 2 ^ 52 : ℚ) ![![0, 1], ![2, 3]]).map (·.piv)) = some ![1, 0] := by
  decide +kernel
example : (solveMulti (1 / 2 ^ 52 : ℚ) ![![0, 1], ![2, 3]] ![![5, 1], ![7, 0]])
    = some ![![-4, -3/2], ![5, 1]] := by
  decide +kernel
-- A singular matrix meets the hypothesis of `C24_singular_none`.
example : (of ![![1, 2], ![2, 4]] : Matrix (Fin 2) (Fin 2) ℚ).det = 0 := by decide +kernel

/-! ## C25 -/

section Chol
variable {n : Nat}

/-- What `Real::sqrt` satisfies on positive arguments. -/
theorem sqrt_ok : ∀ x : ℝ, 0 < x → 0 < Real.sqrt x ∧ Real.sqrt x * Real.sqrt x = x :=
  fun _ hx => ⟨Real.sqrt_pos.2 hx, Real.mul_self_sqrt (le_of_lt hx)⟩

theorem dot_self_pos {x : Fin n → ℝ} (hx : x ≠ 0) : 0 < x ⬝ᵥ x := by
  have hex : ∃ i, x i ≠ 0 := by
    by_contra hc
    apply hx
    funext i
    by_contra hi
    exact hc ⟨i, hi⟩
  obtain ⟨i, hi⟩ := hex
  exact Finset.sum_pos' (fun j _ => mul_self_nonneg _) ⟨i, Finset.mem_univ _, mul_self_pos.2 hi⟩

/-- C25. If a factor is returned for a symmetric `A`, it is lower triangular with positive diagonal and
`L Lᵀ = A`. -/
theorem C25_factor {A L : Mat ℝ n n} (hA : ∀ i j, A i j = A j i) (h : cholesky Real.sqrt A = some L) :
    of L * (of L)ᵀ = of A ∧ (∀ i j, i < j → L i j = 0) ∧ ∀ i, 0 < L i i := by
  have hinv := cholesky_inv sqrt_ok h
  exact ⟨cholInv_mul hinv hA, fun i j hij => (hinv i i.2).2.1 j hij, fun i => (hinv i i.2).1⟩

/-- C25. The factorisation succeeds on a symmetric matrix exactly when the matrix is positive definite. -/
theorem C25_iff_posdef {A : Mat ℝ n n} (hA : ∀ i j, A i j = A j i) :
    (∃ L, cholesky Real.sqrt A = some L) ↔ ∀ x : Fin n → ℝ, x ≠ 0 → 0 < x ⬝ᵥ (of A *ᵥ x) := by
  have hform : ∀ x : Fin n → ℝ, x ⬝ᵥ (of A *ᵥ x) = ∑ r, ∑ c, x r * A r c * x c := by
    intro x
    simp only [dotProduct, Matrix.mulVec, Finset.mul_sum, mul_assoc, of_apply]
  constructor
  · rintro ⟨L, h⟩ x hx
    obtain ⟨h1, h2, h3⟩ := C25_factor hA h
    have hdet : (of L).det ≠ 0 := by
      rw [Matrix.det_of_isLowerTriangular (of L) (fun i j hij => h2 i j hij)]
      exact Finset.prod_ne_zero_iff.2 (fun i _ => ne_of_gt (h3 i))
    have hne : (of L)ᵀ *ᵥ x ≠ 0 := by
      intro e
      apply hx
      have hdt : (of L)ᵀ.det ≠ 0 := by rw [Matrix.det_transpose]; exact hdet
      exact Matrix.eq_zero_of_mulVec_eq_zero hdt e
    rw [← h1, ← Matrix.mulVec_mulVec, Matrix.dotProduct_mulVec, ← Matrix.mulVec_transpose]
    exact dot_self_pos hne
  · intro hpd
    exact cholesky_total sqrt_ok hA (fun x hx => by rw [← hform]; exact hpd x hx)

/-- C25. When the SPD solve returns `x` for a symmetric `A`, then `A x = b`. -/
theorem C25_solve {A : Mat ℝ n n} (hA : ∀ i j, A i j = A j i) {b x : Fin n → ℝ}
    (h : choleskySolve Real.sqrt A b = some x) : of A *ᵥ x = b := by
  unfold choleskySolve at h
  rw [Option.map_eq_some_iff] at h
  obtain ⟨L, hL, rfl⟩ := h
  exact cholSolve_spec (cholesky_inv sqrt_ok hL) hA b

/-- C25. The factorisation reads only the lower triangle: matrices that agree there give the same result.
So it does not return `None` for a matrix that is not symmetric, contrary to its documentation ("Returns
None if not SPD"). -/
theorem C25_lower_only {A B : Mat ℝ n n} (h : ∀ i j, j ≤ i → A i j = B i j) :
    cholesky Real.sqrt A = cholesky Real.sqrt B := by
  have hrow : ∀ (l : Mat ℝ n n) (i : Fin n), cholRow Real.sqrt A l i = cholRow Real.sqrt B l i := by
    intro l i
    unfold cholRow
    congr 1
    have : ∀ (xs : List (Fin n)), (∀ j ∈ xs, j ≤ i) → ∀ l : Mat ℝ n n,
        xs.foldlM (cholEntry Real.sqrt A i) l = xs.foldlM (cholEntry Real.sqrt B i) l := by
      intro xs
      induction xs with
      | nil => intros; rfl
      | cons j xs ih =>
        intro hx l
        rw [List.foldlM_cons, List.foldlM_cons]
        have e : cholEntry Real.sqrt A i l j = cholEntry Real.sqrt B i l j := by
          unfold cholEntry; rw [h i j (hx j (by simp))]
        rw [e]
        congr 1
        funext l'
        exact ih (fun j hj => hx j (List.mem_cons_of_mem _ hj)) l'
    apply this
    intro j hj
    have := (mem_rng.1 hj).2
    rw [Fin.le_def]; omega
  unfold cholesky
  congr 1
  funext l i
  exact hrow l i

/-- C25 fails without symmetry: `A = [[1, 1], [0, 1]]` is not symmetric, yet the SPD solve of `A x = (0, 1)`
returns a vector, and that vector does not satisfy `A x = b`. -/
theorem C25_asymmetric_fails :
    ∃ x, choleskySolve Real.sqrt ![![1, 1], ![0, 1]] ![0, 1] = some x ∧
      of ![![1, 1], ![0, 1]] *ᵥ x ≠ ![0, 1] := by
  let I : Mat ℝ 2 2 := ![![1, 0], ![0, 1]]
  have hI : of I = (1 : Matrix (Fin 2) (Fin 2) ℝ) := by
    ext i j; fin_cases i <;> fin_cases j <;> simp [I]
  have hsym : ∀ i j, I i j = I j i := by
    intro i j; fin_cases i <;> fin_cases j <;> rfl
  have hone : choleskySolve Real.sqrt ![![1, 1], ![0, 1]] ![0, 1]
      = choleskySolve Real.sqrt I ![0, 1] := by
    unfold choleskySolve
    rw [C25_lower_only (A := ![![1, 1], ![0, 1]]) (B := I)]
    intro i j hij
    fin_cases i <;> fin_cases j <;> first | rfl | (exact absurd hij (by decide))
  have hpd : ∃ L, cholesky Real.sqrt I = some L := by
    rw [C25_iff_posdef hsym]
    intro x hx
    rw [hI, Matrix.one_mulVec]
    exact dot_self_pos hx
  obtain ⟨L, hL⟩ := hpd
  have hs : choleskySolve Real.sqrt I ![0, 1] = some (cholSolveWith L ![0, 1]) := by
    unfold choleskySolve; rw [hL]; rfl
  have hx := C25_solve hsym hs
  rw [hI, Matrix.one_mulVec] at hx
  rw [hx] at hs
  refine ⟨![0, 1], by rw [hone, hs], ?_⟩
  intro e
  have := congrFun e 0
  simp at this

end Chol

-- The hypotheses are met by a concrete symmetric positive definite matrix.
example : ∃ L, cholesky Real.sqrt ![![4, 2], ![2, 3]] = some L := by
  rw [C25_iff_posdef (by intro i j; fin_cases i <;> fin_cases j <;> rfl)]
  intro x hx
  have : x ⬝ᵥ (of ![![4, 2], ![2, 3]] *ᵥ x) = (2 * x 0 + x 1) ^ 2 + 2 * x 1 ^ 2 := by
    simp [dotProduct, Fin.sum_univ_two]; ring
  rw [this]
  by_cases h1 : x 1 = 0
  · have h0 : x 0 ≠ 0 := by
      intro h0; apply hx; funext i; fin_cases i <;> simp [h0, h1]
    rw [h1, add_zero]
    positivity
  · positivity

/-! ## C26 -/

section Det
variable {K : Type*} [Field K] [LinearOrder K] [IsStrictOrderedRing K] {n : Nat}

/-- C26. The returned value is the determinant, or zero (the early return under the threshold). In
particular a nonzero result is the determinant and a singular matrix gives zero. -/
theorem C26_determinant {eps : K} (he : 0 ≤ eps) (A : Mat K n n) :
    (determinant eps A = (of A).det ∨ determinant eps A = 0) ∧
      ((of A).det = 0 → determinant eps A = 0) := by
  unfold determinant
  cases h : (rng n 0 n).foldlM (detStep eps) (A, 1) with
  | none => exact ⟨Or.inr rfl, fun _ => rfl⟩
  | some s =>
    have e : s.2 = (of A).det := (determinant_inv he A h).1
    exact ⟨Or.inl e, fun h0 => by rw [← h0]; exact e⟩

/-- C26. Without a threshold the result is always the determinant: the threshold is the only source of
error. -/
theorem C26_determinant_exact (A : Mat K n n) : determinant 0 A = (of A).det := by
  by_cases hA : (of A).det = 0
  · rw [(C26_determinant (le_refl 0) A).2 hA, hA]
  · obtain ⟨s, hs⟩ := determinant_zero_eps A hA
    unfold determinant
    have e : s.2 = (of A).det := (determinant_inv (le_refl 0) A hs).1
    rw [hs]
    exact e

/-- C84, refuted. The threshold makes `determinant` wrong for small but regular matrices: the 1×1 matrix `(eps)` has
determinant `eps ≠ 0`, the result is zero. -/
theorem C84_fails {eps : K} (he : 0 < eps) :
    determinant eps (fun _ _ => eps : Mat K 1 1) = 0 ∧ (of (fun _ _ => eps : Mat K 1 1)).det ≠ 0 := by
  refine ⟨?_, by simpa using ne_of_gt he⟩
  have h1 : rng 1 0 1 = [0] := by decide
  have h2 : rng 1 1 1 = [] := by decide
  unfold determinant
  rw [h1]
  simp [detStep, pivot, absV, h2, abs_of_pos he]

/-- C26. When the 3×3 inverse is returned, it is a two-sided inverse. -/
theorem C26_inverse3 {eps : K} (he : 0 ≤ eps) {A B : Mat K 3 3}
    (h : inverse3 eps A = some B) : of A * of B = 1 ∧ of B * of A = 1 := by
  unfold inverse3 at h
  dsimp only at h
  split at h
  · cases h
  · rename_i hd
    have hne : determinant eps A ≠ 0 := by
      intro h0; apply hd; rw [h0, abs_zero]; exact he
    have hdet : determinant eps A = (of A).det := by
      rcases (C26_determinant he A).1 with h | h
      · exact h
      · exact absurd h hne
    rw [hdet] at h hne
    have hd3 := Matrix.det_fin_three (of A)
    simp only [of_apply] at hd3
    generalize (of A).det = D at *
    injection h with h
    have hBA : of B * of A = 1 := by
      rw [← h]
      ext i j
      fin_cases i <;> fin_cases j <;>
        simp [Matrix.mul_apply, Fin.sum_univ_three] <;>
        field_simp <;> rw [hd3] <;> ring
    exact ⟨mul_eq_one_comm.1 hBA, hBA⟩

/-- C26. The 3×3 inverse returns `None` for every singular matrix. -/
theorem C26_inverse3_singular {eps : K} (he : 0 ≤ eps) {A : Mat K 3 3} (hA : (of A).det = 0) :
    inverse3 eps A = none := by
  unfold inverse3
  dsimp only
  rw [if_pos]
  rw [(C26_determinant he A).2 hA, abs_zero]; exact he

/-- C26. When Gauss–Jordan returns a matrix, it is a two-sided inverse. -/
theorem C26_gauss_jordan {eps : K} (he : 0 ≤ eps) {A B : Mat K n n}
    (h : gaussJordan eps A = some B) : of A * of B = 1 ∧ of B * of A = 1 := by
  have hBA : of B * of A = 1 := gaussJordan_inv he h
  exact ⟨mul_eq_one_comm.1 hBA, hBA⟩

/-- C26. Gauss–Jordan returns `None` for every singular matrix. -/
theorem C26_gauss_jordan_singular {eps : K} (he : 0 ≤ eps) {A : Mat K n n} (hA : (of A).det = 0) :
    gaussJordan eps A = none := by
  cases h : gaussJordan eps A with
  | none => rfl
  | some B =>
    have h1 := (C26_gauss_jordan he h).1
    have := congrArg Matrix.det h1
    rw [Matrix.det_mul, hA, zero_mul, Matrix.det_one] at this
    exact absurd this zero_ne_one

/-- C26. With the same threshold the determinant, the Gauss–Jordan inverse and LU stand and fall together: they see the same
pivots. So the determinant is right whenever no pivot of the LU decomposition falls under the threshold. -/
theorem C26_consistent {eps : K} (he : 0 ≤ eps) (A : Mat K n n) :
    ((∃ B, gaussJordan eps A = some B) ↔ determinant eps A ≠ 0) ∧
    ((∃ d, luDecompose eps A = some d) ↔ determinant eps A ≠ 0) ∧
    ((∃ d, luDecompose eps A = some d) → determinant eps A = (of A).det) := by
  have h1 : (∃ B, gaussJordan eps A = some B) ↔ determinant eps A ≠ 0 := by
    rw [Ne, determinant_zero_iff he]
    rcases det_gj_together eps A with ⟨e1, e2⟩ | ⟨s, B, e1, e2⟩
    · simp [e1, e2]
    · simp [e1, e2]
  have h2 : (∃ d, luDecompose eps A = some d) ↔ determinant eps A ≠ 0 := by
    rw [Ne, determinant_zero_iff he]
    rcases det_lu_together eps A with ⟨e1, e2⟩ | ⟨s, B, e1, e2⟩
    · simp [e1, e2]
    · simp [e1, e2]
  refine ⟨h1, h2, fun h => ?_⟩
  rcases (C26_determinant he A).1 with e | e
  · exact e
  · exact absurd e (h2.1 h)

/-- C26. Without a threshold the Gauss–Jordan inverse exists for every regular matrix: the threshold is the only reason for
`None` on a regular matrix. -/
theorem C26_gauss_jordan_exact (A : Mat K n n) :
    (∃ B, gaussJordan 0 A = some B) ↔ (of A).det ≠ 0 := by
  rw [(C26_consistent (le_refl 0) A).1, C26_determinant_exact]

end Det

example : determinant (1 / 10 ^ 12 : ℚ) ![![0, 2, 1], ![1, 1, 0], ![3, 0, 1]] = -5 := by decide +kernel
example : inverse3 (1 / 10 ^ 12 : ℚ) ![![0, 2, 1], ![1, 1, 0], ![3, 0, 1]] ≠ none := by decide +kernel
example : gaussJordan (1 / 10 ^ 12 : ℚ) ![![0, 2], ![1, 1]] = some ![![-1/2, 1], ![1/2, 0]] := by
  decide +kernel

end Verif.Mat
