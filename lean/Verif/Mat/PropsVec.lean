import Verif.Mat.Vec
import Verif.Mat.PropsAlg
import Mathlib.Analysis.Real.Sqrt
import Mathlib.Algebra.Order.Chebyshev
import Mathlib.Tactic.Linarith

/-!
# C75: vector geometry, over the reals
-/

namespace Verif.Mat

variable {n : Nat}

/-- C75. The cross product is perpendicular to both factors, changes sign when they are exchanged, has
squared length `|a|²|b|² - (a·b)²`, and vanishes for parallel factors; and `x × y = z` for the basis. -/
theorem C75_cross {R : Type*} [CommRing R] (a b : Fin 3 → R) (k : R) :
    (∑ i, a i * cross a b i = 0) ∧ (∑ i, b i * cross a b i = 0) ∧
      (∀ i, cross b a i = -cross a b i) ∧
      (∑ i, cross a b i ^ 2 = (∑ i, a i ^ 2) * (∑ i, b i ^ 2) - (∑ i, a i * b i) ^ 2) ∧
      (∀ i, cross a (fun j => k * a j) i = 0) ∧
      cross (![1, 0, 0] : Fin 3 → R) ![0, 1, 0] = ![0, 0, 1] := by
  refine ⟨?_, ?_, ?_, ?_, ?_, ?_⟩
  · simp [cross, Fin.sum_univ_three]; ring
  · simp [cross, Fin.sum_univ_three]; ring
  · intro i; fin_cases i <;> simp [cross] <;> ring
  · simp [cross, Fin.sum_univ_three]; ring
  · intro i; fin_cases i <;> simp [cross] <;> ring
  · funext i; fin_cases i <;> simp [cross]

theorem dot_sum (u v : Fin n → ℝ) : dot u v = ∑ i, u i * v i := by
  rw [C22_dot, foldl_finRange_sum]

theorem norm_sq (v : Fin n → ℝ) : norm Real.sqrt v ^ 2 = ∑ i, v i ^ 2 := by
  rw [C22_norm_real v]
  rw [Real.sq_sqrt (Finset.sum_nonneg fun i _ => sq_nonneg _)]

theorem norm_nonneg' (v : Fin n → ℝ) : 0 ≤ norm Real.sqrt v := by
  rw [C22_norm_real v]; exact Real.sqrt_nonneg _

theorem norm_eq_zero' (v : Fin n → ℝ) : norm Real.sqrt v = 0 ↔ v = 0 := by
  rw [C22_norm_real v, Real.sqrt_eq_zero (Finset.sum_nonneg fun i _ => sq_nonneg _),
    Finset.sum_eq_zero_iff_of_nonneg (fun i _ => sq_nonneg _)]
  constructor
  · intro h; funext i; simpa using h i (Finset.mem_univ _)
  · rintro rfl; simp

theorem norm_vdiv (v : Fin n → ℝ) {s : ℝ} (hs : 0 < s) :
    norm Real.sqrt (vdiv v s) = norm Real.sqrt v / s := by
  rw [C22_norm_real, C22_norm_real]
  have : ∑ i, vdiv v s i ^ 2 = (∑ i, v i ^ 2) / s ^ 2 := by
    rw [div_eq_mul_inv, Finset.sum_mul]
    apply Finset.sum_congr rfl
    intro i _; unfold vdiv; rw [div_pow, div_eq_mul_inv]
  rw [this, Real.sqrt_div' _ (sq_nonneg s), Real.sqrt_sq (le_of_lt hs)]

/-- C75. Normalising a nonzero vector gives length 1 and keeps the direction: the vector is its length times
the result. -/
theorem C75_normalize (v : Fin n → ℝ) (hv : v ≠ 0) :
    norm Real.sqrt (normalize v) = 1 ∧ ∀ i, v i = norm Real.sqrt v * normalize v i := by
  have hp : 0 < norm Real.sqrt v :=
    lt_of_le_of_ne (norm_nonneg' v) (fun h => hv ((norm_eq_zero' v).1 h.symm))
  refine ⟨?_, ?_⟩
  · unfold normalize; rw [norm_vdiv v hp, div_self (ne_of_gt hp)]
  · intro i; unfold normalize vdiv; field_simp

/-- C75. `try_normalize` always returns the length; above the threshold the vector returned is the
normalised one, otherwise it is the argument unchanged. -/
theorem C75_try_normalize {eps : ℝ} (he : 0 ≤ eps) (v : Fin n → ℝ) :
    (tryNormalize eps v).2 = norm Real.sqrt v ∧
      (eps < norm Real.sqrt v → (tryNormalize eps v).1 = normalize v ∧
        norm Real.sqrt (tryNormalize eps v).1 = 1) ∧
      (norm Real.sqrt v ≤ eps → (tryNormalize eps v).1 = v) := by
  unfold tryNormalize
  dsimp only
  refine ⟨?_, ?_, ?_⟩
  · split <;> rfl
  · intro h
    rw [if_pos h]
    refine ⟨rfl, ?_⟩
    have hp : 0 < norm Real.sqrt v := lt_of_le_of_lt he h
    rw [norm_vdiv v hp, div_self (ne_of_gt hp)]
  · intro h; rw [if_neg (not_lt.2 h)]

/-- C75. For nonzero vectors the angle is the number in `[0, π]` whose cosine is `a·b / (|a||b|)`: the
clamp never acts in exact arithmetic. -/
theorem C75_angle (a b : Fin n → ℝ) (ha : a ≠ 0) (hb : b ≠ 0) :
    0 ≤ angle a b ∧ angle a b ≤ Real.pi ∧
      Real.cos (angle a b) * (norm Real.sqrt a * norm Real.sqrt b) = ∑ i, a i * b i := by
  have hpa : 0 < norm Real.sqrt a :=
    lt_of_le_of_ne (norm_nonneg' a) (fun h => ha ((norm_eq_zero' a).1 h.symm))
  have hpb : 0 < norm Real.sqrt b :=
    lt_of_le_of_ne (norm_nonneg' b) (fun h => hb ((norm_eq_zero' b).1 h.symm))
  have hp : 0 < norm Real.sqrt a * norm Real.sqrt b := mul_pos hpa hpb
  have hdot : dot a b = ∑ i, a i * b i := dot_sum a b
  have hcs : (∑ i, a i * b i) ^ 2 ≤ (norm Real.sqrt a * norm Real.sqrt b) ^ 2 := by
    rw [mul_pow, norm_sq, norm_sq]
    exact Finset.sum_mul_sq_le_sq_mul_sq _ _ _
  have habs := abs_le_of_sq_le_sq' hcs (le_of_lt hp)
  have h1 : (∑ i, a i * b i) / (norm Real.sqrt a * norm Real.sqrt b) ≤ 1 := (div_le_one hp).2 habs.2
  have h2 : -1 ≤ (∑ i, a i * b i) / (norm Real.sqrt a * norm Real.sqrt b) := by
    rw [le_div_iff₀ hp]; linarith [habs.1]
  have e : angle a b = Real.arccos ((∑ i, a i * b i) / (norm Real.sqrt a * norm Real.sqrt b)) := by
    unfold angle
    dsimp only
    rw [if_neg (ne_of_gt hp), hdot, if_neg (not_lt.2 h1), if_neg (not_lt.2 h2)]
  rw [e]
  refine ⟨Real.arccos_nonneg _, Real.arccos_le_pi _, ?_⟩
  rw [Real.cos_arccos h2 h1]
  field_simp

/-- C75. The angle does not depend on the order of its arguments, is zero when an argument is zero, and
always lies in `[0, π]`. -/
theorem C75_angle_symm (a b : Fin n → ℝ) :
    angle a b = angle b a ∧ angle 0 b = 0 ∧ 0 ≤ angle a b ∧ angle a b ≤ Real.pi := by
  have hc : dot a b = dot b a := by
    rw [dot_sum, dot_sum]
    exact Finset.sum_congr rfl (fun i _ => mul_comm _ _)
  refine ⟨?_, ?_, ?_, ?_⟩
  · unfold angle; rw [hc, mul_comm (norm Real.sqrt a)]
  · unfold angle
    dsimp only
    rw [if_pos]
    rw [(norm_eq_zero' (0 : Fin n → ℝ)).2 rfl, zero_mul]
  · unfold angle
    dsimp only
    split
    · exact le_refl _
    · exact Real.arccos_nonneg _
  · unfold angle
    dsimp only
    split
    · exact Real.pi_pos.le
    · exact Real.arccos_le_pi _

/-- C75. Two nonzero perpendicular vectors are at a right angle; a vector and a positive multiple of it are
at angle 0. -/
theorem C75_angle_cases (a b : Fin n → ℝ) (ha : a ≠ 0) (hb : b ≠ 0) :
    ((∑ i, a i * b i = 0) → angle a b = Real.pi / 2) ∧
      ∀ k : ℝ, 0 < k → angle a (fun i => k * a i) = 0 := by
  have hpa : 0 < norm Real.sqrt a :=
    lt_of_le_of_ne (norm_nonneg' a) (fun h => ha ((norm_eq_zero' a).1 h.symm))
  have hpb : 0 < norm Real.sqrt b :=
    lt_of_le_of_ne (norm_nonneg' b) (fun h => hb ((norm_eq_zero' b).1 h.symm))
  refine ⟨?_, ?_⟩
  · intro h0
    obtain ⟨g1, g2, g3⟩ := C75_angle a b ha hb
    rw [h0] at g3
    have hcos : Real.cos (angle a b) = 0 := by
      rcases mul_eq_zero.1 g3 with h | h
      · exact h
      · exact absurd h (ne_of_gt (mul_pos hpa hpb))
    have : Real.arccos (Real.cos (angle a b)) = angle a b := Real.arccos_cos g1 g2
    rw [← this, hcos, Real.arccos_zero]
  · intro k hk
    have hka : (fun i => k * a i) ≠ 0 := by
      intro h
      apply ha
      funext i
      have := congrFun h i
      simpa [ne_of_gt hk] using this
    obtain ⟨g1, g2, g3⟩ := C75_angle a _ ha hka
    have hn : norm Real.sqrt (fun i => k * a i) = k * norm Real.sqrt a := by
      have hsq : norm Real.sqrt (fun i => k * a i) ^ 2 = (k * norm Real.sqrt a) ^ 2 := by
        rw [norm_sq, mul_pow, norm_sq, Finset.mul_sum]
        apply Finset.sum_congr rfl; intro i _; ring
      exact (sq_eq_sq₀ (norm_nonneg' _) (mul_nonneg (le_of_lt hk) (norm_nonneg' _))).1 hsq
    have hs : ∑ i, a i * (k * a i) = k * norm Real.sqrt a ^ 2 := by
      rw [norm_sq, Finset.mul_sum]
      apply Finset.sum_congr rfl; intro i _; ring
    rw [hn, hs] at g3
    have hcos : Real.cos (angle a fun i => k * a i) = 1 := by
      have hne : k * norm Real.sqrt a ^ 2 ≠ 0 := ne_of_gt (by positivity)
      apply mul_right_cancel₀ hne
      linarith
    rw [← Real.arccos_cos g1 g2, hcos, Real.arccos_one]

example : (![3, 4] : Fin 2 → ℝ) ≠ 0 := by
  intro h; have := congrFun h 0; simp at this
example : normalize (![3, 4] : Fin 2 → ℝ) 0 = 3 / 5 := by
  have hs : (3 : ℝ) ^ 2 + 4 ^ 2 = 5 ^ 2 := by norm_num
  have : norm Real.sqrt (![3, 4] : Fin 2 → ℝ) = 5 := by
    rw [C22_norm_real]
    simp only [Fin.sum_univ_two, Matrix.cons_val_zero, Matrix.cons_val_one]
    rw [hs, Real.sqrt_sq (by norm_num)]
  unfold normalize vdiv
  rw [this]; rfl

end Verif.Mat
