import Verif.Stats.PropsDist
import Verif.Mat.PropsSolve
import Verif.Mat.PropsAlg
import Mathlib.MeasureTheory.Measure.Lebesgue.Basic
import Mathlib.MeasureTheory.Integral.Pi

/-!
# The multivariate normal density (C83)

On the specification side `Matrix.of cov` is Mathlib's matrix with the entries of the array `cov`; `⁻¹`, `det`, `*ᵥ`, `⬝ᵥ`
and `∫` are Mathlib's.
-/

namespace Verif.Stats

open Verif.Mat Matrix MeasureTheory

variable {n : ℕ}

/-- The textbook density with mean `μ` and covariance `S`. -/
noncomputable def normalDensity (μ : Fin n → ℝ) (S : Matrix (Fin n) (Fin n) ℝ) (x : Fin n → ℝ) : ℝ :=
  Real.exp (-(1 / 2) * ((x - μ) ⬝ᵥ (S⁻¹ *ᵥ (x - μ)))) / Real.sqrt ((2 * Real.pi) ^ n * S.det)

theorem diffLoop (mu x : Fin n → ℝ) :
    (rng n 0 n).foldl (fun d i => Function.update d i (d i - mu i)) x = x - mu := by
  funext i
  rw [foldl_update (fun (d : Fin n → ℝ) i => d i - mu i) _ (nodup_rng _ _ _)]
  · simp [mem_rng]
  · intro b b' r _ h1 _
    simp only [h1]

/-- C83. For a matrix with a determinant that is not negative, as every covariance, the density is the textbook one whenever no pivot of the covariance falls under the threshold, i.e. whenever the
computed determinant is not zero; otherwise, in particular for every singular covariance, the call panics. -/
theorem C83_formula {eps : ℝ} (he : 0 ≤ eps) (mu : Fin n → ℝ) (cov : Mat ℝ n n) (_hc : 0 ≤ (of cov).det) (x : Fin n → ℝ) :
    mvnPdf eps mu cov x = (if determinant eps cov = 0 then none else some (normalDensity mu (of cov) x)) ∧
      ((of cov).det = 0 → mvnPdf eps mu cov x = none) := by
  have h : mvnPdf eps mu cov x = if determinant eps cov = 0 then none else some (normalDensity mu (of cov) x) := by
    unfold mvnPdf
    dsimp only
    rw [diffLoop]
    by_cases hd : determinant eps cov = 0
    · have : gaussJordan eps cov = none := by
        cases hg : gaussJordan eps cov with
        | none => rfl
        | some B => exact absurd hd ((C26_consistent he cov).1.1 ⟨B, hg⟩)
      rw [if_pos hd, this]
      rfl
    · obtain ⟨B, hB⟩ := (C26_consistent he cov).1.2 hd
      have hdet : determinant eps cov = (of cov).det := by
        rcases (C26_determinant he cov).1 with h | h
        · exact h
        · exact absurd h hd
      have hinv : (of cov)⁻¹ = of B := Matrix.inv_eq_right_inv (C26_gauss_jordan he hB).1
      have hq := (C22_real B (x - mu) (Verif.Mat.mulVec B (x - mu)) (fun _ _ => 0 : Mat ℝ n 4) (fun _ => 0)
        (fun _ _ => 0 : Mat ℝ n 6) (fun _ => 0)).2.1
      have hm := (C22_real B (x - mu) (x - mu) (fun _ _ => 0 : Mat ℝ n 4) (fun _ => 0)
        (fun _ _ => 0 : Mat ℝ n 6) (fun _ => 0)).1
      rw [if_neg hd, hB]
      simp only [Option.bind_eq_bind, Option.bind_some, Option.pure_def, normalDensity]
      rw [hq, hm, hdet, hinv]
      norm_num
  exact ⟨h, fun h0 => by rw [h, if_pos ((C26_determinant he cov).2 h0)]⟩

theorem integral_std (n : ℕ) : ∫ y : Fin n → ℝ, Real.exp (-(1 / 2) * ∑ i, y i ^ 2) = Real.sqrt ((2 * Real.pi) ^ n) := by
  have h1 : ∀ y : Fin n → ℝ, Real.exp (-(1 / 2) * ∑ i, y i ^ 2) = ∏ i, Real.exp (-(1 / 2) * y i ^ 2) := by
    intro y
    rw [Finset.mul_sum, Real.exp_sum]
  simp only [h1]
  rw [integral_fintype_prod_volume_eq_pow (fun t : ℝ => Real.exp (-(1 / 2) * t ^ 2)), integral_gaussian, Fintype.card_fin]
  rw [show Real.pi / (1 / 2) = 2 * Real.pi by ring]
  symm
  rw [Real.sqrt_eq_iff_mul_self_eq (by positivity) (by positivity), ← mul_pow, Real.mul_self_sqrt (by positivity)]

/-- C83. For a positive definite covariance the density is positive everywhere and integrates to one. -/
theorem C83_density (mu : Fin n → ℝ) (cov : Mat ℝ n n) (hsym : ∀ i j, cov i j = cov j i)
    (hpd : ∀ x : Fin n → ℝ, x ≠ 0 → 0 < x ⬝ᵥ (of cov *ᵥ x)) :
    (∀ x, 0 < normalDensity mu (of cov) x) ∧ ∫ x, normalDensity mu (of cov) x = 1 := by
  obtain ⟨L, hL⟩ := (C25_iff_posdef hsym).2 hpd
  obtain ⟨h1, h2, h3⟩ := C25_factor hsym hL
  have hdL : 0 < (of L).det := by
    rw [Matrix.det_of_isLowerTriangular (of L) (fun i j hij => h2 i j hij)]
    exact Finset.prod_pos fun i _ => h3 i
  have hdet : (of cov).det = (of L).det ^ 2 := by
    rw [← h1, Matrix.det_mul, Matrix.det_transpose, sq]
  have hdpos : 0 < (of cov).det := by rw [hdet]; positivity
  refine ⟨fun x => ?_, ?_⟩
  · unfold normalDensity
    have := Real.pi_pos
    positivity
  · set M := (of L)⁻¹ with hM
    have hu : IsUnit (of L).det := isUnit_iff_ne_zero.2 hdL.ne'
    have hMd : M.det = ((of L).det)⁻¹ := by
      rw [hM, Matrix.det_nonsing_inv, Ring.inverse_eq_inv']
    have hMd0 : M.det ≠ 0 := by rw [hMd]; exact inv_ne_zero hdL.ne'
    have hinv : (of cov)⁻¹ = Mᵀ * M := by
      rw [← h1, Matrix.mul_inv_rev, Matrix.transpose_nonsing_inv]
    have hquad : ∀ v : Fin n → ℝ, v ⬝ᵥ ((of cov)⁻¹ *ᵥ v) = ∑ i, (M *ᵥ v) i ^ 2 := by
      intro v
      rw [hinv, ← Matrix.mulVec_mulVec, Matrix.dotProduct_mulVec, Matrix.vecMul_transpose]
      simp only [dotProduct, sq]
    have hval : ∀ x, normalDensity mu (of cov) x
        = (fun v : Fin n → ℝ => Real.exp (-(1 / 2) * ∑ i, (M *ᵥ v) i ^ 2)) (x - mu)
          / Real.sqrt ((2 * Real.pi) ^ n * (of cov).det) := by
      intro x
      unfold normalDensity
      rw [hquad]
    simp only [hval]
    rw [integral_div, integral_sub_right_eq_self (fun v : Fin n → ℝ => Real.exp (-(1 / 2) * ∑ i, (M *ᵥ v) i ^ 2)) mu]
    have hmap := Real.map_matrix_volume_pi_eq_smul_volume_pi hMd0
    have hcont : Continuous (Matrix.toLin' M) := LinearMap.continuous_on_pi _
    have hint : ∫ v : Fin n → ℝ, Real.exp (-(1 / 2) * ∑ i, (M *ᵥ v) i ^ 2)
        = ∫ y, Real.exp (-(1 / 2) * ∑ i, y i ^ 2) ∂(Measure.map (Matrix.toLin' M) volume) := by
      rw [integral_map hcont.measurable.aemeasurable]
      · rfl
      · exact Continuous.aestronglyMeasurable (by fun_prop)
    rw [hint, hmap, integral_smul_measure, integral_std, ENNReal.toReal_ofReal (abs_nonneg _), hMd, inv_inv, abs_of_pos hdL,
      hdet, Real.sqrt_mul (by positivity), Real.sqrt_sq hdL.le, smul_eq_mul, mul_comm]
    have : 0 < Real.sqrt ((2 * Real.pi) ^ n) := Real.sqrt_pos.2 (by positivity)
    field_simp

/-- C83. In one dimension it is the density of the univariate normal distribution with that variance. -/
theorem C83_univariate {eps : ℝ} (he : 0 ≤ eps) (mu s x : ℝ) (hs : eps < s ^ 2) :
    mvnPdf eps (fun _ => mu : Fin 1 → ℝ) (fun _ _ => s ^ 2) (fun _ => x) = some ((Gauss.mk mu s).pdf x) := by
  have hpos : 0 < s ^ 2 := lt_of_le_of_lt he hs
  have hd : determinant eps (fun _ _ => s ^ 2 : Mat ℝ 1 1) = s ^ 2 := by
    have h1 : rng 1 0 1 = [0] := by decide
    have h2 : rng 1 1 1 = [] := by decide
    unfold determinant
    rw [h1]
    simp [detStep, pivot, absV, h2, detElim, not_le.2 hs]
  rw [(C83_formula he _ _ (by rw [Matrix.det_unique]; simp; positivity) _).1, if_neg (by rw [hd]; exact hpos.ne'), pdf_eq]
  unfold normalDensity
  congr 1
  have hi : (of (fun _ _ => s ^ 2 : Mat ℝ 1 1))⁻¹ = of (fun _ _ => (s ^ 2)⁻¹) := by
    apply Matrix.inv_eq_right_inv
    ext i j
    have : i = j := Subsingleton.elim _ _
    subst this
    simp [Matrix.mul_apply, hpos.ne']
  rw [hi]
  simp [dotProduct, Matrix.mulVec]
  rw [div_eq_inv_mul]
  congr 2
  field_simp

example : determinant (1 / 10 ^ 12 : ℚ) ![![2, 1], ![1, 2]] = 3 := by decide +kernel

example : ∀ x : Fin 2 → ℝ, x ≠ 0 → 0 < x ⬝ᵥ (of ![![2, 1], ![1, 2]] *ᵥ x) := by
  intro x hx
  have e : x ⬝ᵥ (of ![![2, 1], ![1, 2]] *ᵥ x) = x 0 ^ 2 + x 1 ^ 2 + (x 0 + x 1) ^ 2 := by
    simp [dotProduct, Matrix.mulVec, Fin.sum_univ_two]; ring
  rw [e]
  by_cases h0 : x 0 = 0
  · have h1 : x 1 ≠ 0 := by
      intro h1; apply hx; funext i; fin_cases i <;> simp [h0, h1]
    positivity
  · positivity

end Verif.Stats
