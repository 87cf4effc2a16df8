import Verif.Mat.Lemmas
import Mathlib.Analysis.SpecialFunctions.Trigonometric.Inverse
import Mathlib.Analysis.SpecialFunctions.Sqrt

/-!
# C21–C23: products and elementwise algebra

`A * B`, `A *ᵥ v`, `Aᵀ`, `1`, `⬝ᵥ`, `Matrix.trace` on the specification side are Mathlib's.
-/

namespace Verif.Mat

/-! ## C21 -/

section C21
variable {α : Type*} [Zero α] [Add α] [Mul α] {m n p : Nat}

/-- C21. Every entry of a product is the left-to-right accumulation over `k` from zero, for every size and
for any scalar arithmetic (no algebraic law is assumed, so this holds for floats). -/
theorem C21_mul_entry (a : Mat α m n) (b : Mat α n p) (i : Fin m) (j : Fin p) :
    mul a b i j = (List.finRange n).foldl (fun s k => s + a i k * b k j) 0 :=
  mul_apply a b i j

/-- C21. The direct and the cache-blocked path give the same matrix at every size. -/
theorem C21_paths_agree (a : Mat α m n) (b : Mat α n p) : mulDirect a b = mulBlocked a b := by
  funext i j
  rw [mulDirect_apply, mulBlocked_apply]

end C21

/-- C21. Over the reals (over any semiring) the result is the matrix product. -/
theorem C21_mul_is_product {R : Type*} [Semiring R] {m n p : Nat} (a : Matrix (Fin m) (Fin n) R)
    (b : Matrix (Fin n) (Fin p) R) : Matrix.of (mul (α := R) (Matrix.of.symm a) (Matrix.of.symm b)) = a * b := by
  rw [mul_eq]; rfl

-- A size above the threshold with both block edges in play: 1×20 times 20×17, all ones.
example : mul (fun (_ : Fin 1) (_ : Fin 20) => (1 : Nat)) (fun (_ : Fin 20) (_ : Fin 17) => 1) 0 16 = 20 := by
  rw [C21_mul_entry]; decide

/-! ## C22 -/

section C22
variable {α : Type*} [Zero α] [Add α] [Mul α] {m n : Nat}

/-- C22. Entry `i` of `A v` is the left-to-right accumulation of row `i` against `v`. -/
theorem C22_mulVec_entry (a : Mat α m n) (v : Fin n → α) (i : Fin m) :
    mulVec a v i = (List.finRange n).foldl (fun s j => s + a i j * v j) 0 := by
  unfold mulVec
  rw [vecLoop (fun i => (rng n 0 n).foldl (fun sum j => sum + a i j * v j) 0), rng_full]

/-- C22. `dot` accumulates in index order from zero. -/
theorem C22_dot (u v : Fin n → α) : dot u v = (List.finRange n).foldl (fun s i => s + u i * v i) 0 := by
  unfold dot; rw [rng_full]

/-- C22. `norm` is the square root of the in-order accumulation of squares. -/
theorem C22_norm (sqrt : α → α) (v : Fin n → α) :
    norm sqrt v = sqrt ((List.finRange n).foldl (fun s i => s + v i * v i) 0) := by
  unfold norm; rw [rng_full]

end C22

open Matrix in
/-- C22. Over a commutative semiring: `A v`, the dot product and the fixed-width kernels are the textbook
ones. -/
theorem C22_real {R : Type*} [CommSemiring R] {m n : Nat} (a : Mat R m n) (u v : Fin n → R)
    (a4 : Mat R m 4) (v4 : Fin 4 → R) (a6 : Mat R m 6) (v6 : Fin 6 → R) :
    mulVec a v = Matrix.of a *ᵥ v ∧ dot u v = u ⬝ᵥ v ∧
      mulVec4 a4 v4 = Matrix.of a4 *ᵥ v4 ∧ mulVec6 a6 v6 = Matrix.of a6 *ᵥ v6 := by
  refine ⟨?_, ?_, ?_, ?_⟩
  · funext i; rw [C22_mulVec_entry, foldl_finRange_sum]; rfl
  · rw [C22_dot, foldl_finRange_sum]; rfl
  · unfold mulVec4; rw [vecLoop]; funext i; simp [Matrix.mulVec, dotProduct, Fin.sum_univ_succ]; ring
  · unfold mulVec6; rw [vecLoop]; funext i; simp [Matrix.mulVec, dotProduct, Fin.sum_univ_succ]; ring

/-- C22. Over the reals the norm is the Euclidean norm. -/
theorem C22_norm_real {n : Nat} (v : Fin n → ℝ) : norm Real.sqrt v = Real.sqrt (∑ i, v i ^ 2) := by
  rw [C22_norm, foldl_finRange_sum]
  simp only [pow_two]

example : mulVec (fun (i : Fin 2) (j : Fin 3) => (i.1 + 2 * j.1 : Nat)) (fun j => j.1 + 1) = ![16, 22] := by
  funext i; rw [C22_mulVec_entry]; revert i; decide

/-! ## C23 -/

/-- C23. Entrywise meaning of every elementwise operation, for any scalar arithmetic. -/
theorem C23_entries {α : Type*} [Zero α] [One α] [Add α] [Sub α] [Neg α] [Mul α] [Div α] {m n : Nat}
    (a b : Mat α m n) (s : α) (u : Fin m → α) (v : Fin n → α) (i : Fin m) (j : Fin n) :
    add a b i j = a i j + b i j ∧ sub a b i j = a i j - b i j ∧ neg a i j = -a i j ∧
      mulS a s i j = a i j * s ∧ divS a s i j = a i j / s ∧ transpose a j i = a i j ∧
      outer u v i j = u i * v j ∧ (zeros m n : Mat α m n) i j = 0 ∧ (ones m n : Mat α m n) i j = 1 :=
  ⟨fillLoop_apply _ _ _ _, fillLoop_apply _ _ _ _, fillLoop_apply _ _ _ _, fillLoop_apply _ _ _ _,
    fillLoop_apply _ _ _ _, transpose_apply _ _ _, fillLoop_apply _ _ _ _, rfl, rfl⟩

/-- C23. Square-matrix constructors and trace. -/
theorem C23_square {α : Type*} [Zero α] [One α] [Add α] {n : Nat} (a : Mat α n n) (d : Fin n → α)
    (i j : Fin n) :
    (identity n : Mat α n n) i j = (if i = j then 1 else 0) ∧ diag d i j = (if i = j then d i else 0) ∧
      trace a = (List.finRange n).foldl (fun s i => s + a i i) 0 :=
  ⟨identity_apply _ _, diag_apply _ _ _, by unfold trace; rw [rng_full]⟩

/-- C23. Transposing twice is the identity. -/
theorem C23_transpose_involution {α : Type*} [Zero α] {m n : Nat} (a : Mat α m n) :
    transpose (transpose a) = a := by
  funext i j; rw [transpose_apply, transpose_apply]

/-- C23. Transpose reverses products, in any commutative scalar arithmetic. -/
theorem C23_transpose_mul {R : Type*} [CommSemiring R] {m n p : Nat} (a : Mat R m n) (b : Mat R n p) :
    transpose (mul a b) = mul (transpose b) (transpose a) := by
  funext i j
  rw [transpose_apply, mul_apply, mul_apply, foldl_finRange_sum, foldl_finRange_sum]
  apply Finset.sum_congr rfl
  intro k _
  rw [transpose_apply, transpose_apply, mul_comm]

/-- C23. The identity is neutral on both sides, products are associative and distribute over sums, and the
trace is the sum of the diagonal. -/
theorem C23_ring_laws {R : Type*} [Ring R] {m n p q : Nat} (a a' : Mat R m n) (b : Mat R n p)
    (c : Mat R p q) (d : Mat R n n) :
    mul (identity m) a = a ∧ mul a (identity n) = a ∧ mul (mul a b) c = mul a (mul b c) ∧
      mul (add a a') b = add (mul a b) (mul a' b) ∧ trace d = ∑ i, d i i := by
  have hid : ∀ k, Matrix.of (identity k : Mat R k k) = 1 := by
    intro k; ext i j; rw [Matrix.of_apply, identity_apply, Matrix.one_apply]
  refine ⟨?_, ?_, ?_, ?_, ?_⟩
  · rw [mul_eq, hid, Matrix.one_mul]; rfl
  · rw [mul_eq, hid, Matrix.mul_one]; rfl
  · have e : ∀ {k l r : Nat} (x : Mat R k l) (y : Mat R l r),
        Matrix.of (mul x y) = Matrix.of x * Matrix.of y := by
      intro k l r x y; rw [mul_eq]; rfl
    apply Matrix.of.injective
    rw [e, e, e, e, Matrix.mul_assoc]
  · have hadd : ∀ {k l : Nat} (x y : Mat R k l), Matrix.of (add x y) = Matrix.of x + Matrix.of y := by
      intro k l x y; ext i j; exact fillLoop_apply _ _ _ _
    rw [mul_eq, hadd, Matrix.add_mul]
    funext i j
    have : add (mul a b) (mul a' b) i j = mul a b i j + mul a' b i j := fillLoop_apply _ _ _ _
    rw [this, mul_eq, mul_eq]
    rfl
  · unfold trace; rw [rng_full, foldl_finRange_sum]

/-- C23. The flat form of a 4×4 matrix lists the rows one after the other. -/
theorem C23_flat {α : Type*} (a : Mat α 4 4) (i j : Fin 4) :
    asFlat a ⟨4 * i.1 + j.1, by omega⟩ = a i j := by
  have : rng 4 0 4 = [0, 1, 2, 3] := by decide
  unfold asFlat
  rw [this]
  simp only [List.foldl_cons, List.foldl_nil, Function.update_apply]
  fin_cases i <;> fin_cases j <;> rfl

/-- C23. `max_abs` bounds every entry and, unless the matrix is zero everywhere, is attained. -/
theorem C23_maxAbs {K : Type*} [AddCommGroup K] [LinearOrder K] [IsOrderedAddMonoid K] {m n : Nat}
    (a : Mat K m n) :
    (∀ i j, |a i j| ≤ maxAbs a) ∧ 0 ≤ maxAbs a ∧
      (maxAbs a = 0 ∨ ∃ i j, maxAbs a = |a i j|) := by
  have inner : ∀ (r : Fin m) (mx : K), 0 ≤ mx →
      let mx' := (rng n 0 n).foldl (fun mx c => if |a r c| > mx then |a r c| else mx) mx
      mx ≤ mx' ∧ (∀ c, |a r c| ≤ mx') ∧ (mx' = mx ∨ ∃ c, mx' = |a r c|) := by
    intro r mx _
    have := foldl_rng (fun mx c => if |a r c| > mx then |a r c| else mx)
      (fun t mx' => mx ≤ mx' ∧ (∀ c : Fin n, c.1 < t → |a r c| ≤ mx') ∧ (mx' = mx ∨ ∃ c, mx' = |a r c|))
      (a := 0) (b := n) (Nat.le_refl _) (Nat.zero_le _)
      (by
        intro t ht x _ _ ⟨h1, h2, h3⟩
        have hlt : ∀ c : Fin n, c.1 < t + 1 → c.1 < t ∨ c = ⟨t, ht⟩ := by
          intro c hc
          rcases Nat.lt_succ_iff_lt_or_eq.1 hc with h | h
          · exact Or.inl h
          · exact Or.inr (Fin.ext h)
        split
        · rename_i hgt
          refine ⟨le_trans h1 (le_of_lt hgt), ?_, Or.inr ⟨_, rfl⟩⟩
          intro c hc
          rcases hlt c hc with h | h
          · exact le_trans (h2 c h) (le_of_lt hgt)
          · rw [h]
        · rename_i hgt
          refine ⟨h1, ?_, h3⟩
          intro c hc
          rcases hlt c hc with h | h
          · exact h2 c h
          · rw [h]; exact not_lt.1 hgt)
      (s := mx) ⟨le_refl _, by intro c hc; omega, Or.inl rfl⟩
    exact ⟨this.1, fun c => this.2.1 c c.2, this.2.2⟩
  have := foldl_rng (fun mx r => (rng n 0 n).foldl (fun mx c =>
      if |a r c| > mx then |a r c| else mx) mx)
    (fun t mx => 0 ≤ mx ∧ (∀ (r : Fin m) (c : Fin n), r.1 < t → |a r c| ≤ mx) ∧
      (mx = 0 ∨ ∃ i j, mx = |a i j|))
    (a := 0) (b := m) (Nat.le_refl _) (Nat.zero_le _)
    (by
      intro t ht x _ _ ⟨h1, h2, h3⟩
      obtain ⟨g1, g2, g3⟩ := inner ⟨t, ht⟩ x h1
      refine ⟨le_trans h1 g1, ?_, ?_⟩
      · intro r c hr
        rcases Nat.lt_succ_iff_lt_or_eq.1 hr with h | h
        · exact le_trans (h2 r c h) g1
        · have : r = ⟨t, ht⟩ := Fin.ext h
          rw [this]; exact g2 c
      · rcases g3 with g | ⟨c, g⟩
        · rw [g]; exact h3
        · exact Or.inr ⟨_, c, g⟩)
    (s := (0 : K)) ⟨le_refl _, by intro r c hr; omega, Or.inl rfl⟩
  exact ⟨fun i j => this.2.1 i j i.2, this.1, this.2.2⟩

example : mul (transpose (fun (i : Fin 2) (j : Fin 3) => (i.1 + 2 * j.1 : Nat))) (identity 2) 2 1 = 5 := by
  rw [mul_apply]; simp only [transpose_apply, identity_apply]; decide

end Verif.Mat
