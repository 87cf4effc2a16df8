import Verif.Stats.PropsCov
import Verif.Stats.PropsMvn
import Mathlib.Data.Real.Sign

/-!
# Statistics in other units (C221, C222)

Data are rewritten in other units and with another origin: component `i` of a sample, `x i`, becomes `c i * x i + b i`.
`Real.sign` and `|·|` are Mathlib's.
-/

namespace Verif.Stats

open Verif.Mat Matrix

variable {n : ℕ}

/-! ## C221: correlations -/

/-- C221, where the variances are above the threshold in both units: correlation coefficients keep their size, and change
sign where exactly one of the two axes is reversed. Standard deviations are multiplied by the size of the unit. -/
theorem C221_partial (eps : ℝ) (he : 0 ≤ eps) (c b : Fin n → ℝ) (hc : ∀ i, c i ≠ 0) (xs : List (Fin n → ℝ)) (S R : Mat ℝ n n)
    (hS : sampleCovariance xs = .ok S) (hR : correlation Real.sqrt eps S = .ok R) (hv : ∀ i, eps < c i ^ 2 * S i i) :
    ∃ S', sampleCovariance (xs.map fun x i => c i * x i + b i) = .ok S' ∧
      correlation Real.sqrt eps S' = .ok (fun i j => Real.sign (c i) * Real.sign (c j) * R i j) ∧
      ∃ sd, standardDeviations Real.sqrt eps S = .ok sd ∧ standardDeviations Real.sqrt eps S' = .ok fun i => |c i| * sd i := by
  have haff := C49_affine (fun i j => if i = j then c i else 0) b xs S hS
  have e1 : ∀ x : Fin n → ℝ, (fun i => (∑ l, (if i = l then c i else 0) * x l) + b i) = fun i => c i * x i + b i := by
    intro x; funext i; simp
  have e2 : ∀ i j, (∑ s, ∑ t, (if i = s then c i else 0) * S s t * (if j = t then c j else 0)) = c i * c j * S i j := by
    intro i j; simp; ring
  rw [show (fun (x : Fin n → ℝ) i => (∑ l, (if i = l then c i else 0) * x l) + b i) = fun x i => c i * x i + b i from funext e1] at haff
  simp only [e2] at haff
  have hs1 : ∀ i, eps < S i i := (C50_defined eps S).2.2 ⟨R, hR⟩
  have hs2 : ∀ i, eps < c i * c i * S i i := fun i => by have := hv i; rwa [sq] at this
  have hsd1 : standardDeviations Real.sqrt eps S = .ok fun i => Real.sqrt (S i i) := by
    rcases sd_eq eps S with ⟨⟨i, hi⟩, -⟩ | ⟨-, h⟩
    · exact absurd hi (not_le.2 (hs1 i))
    · exact h
  have hroot : ∀ i, Real.sqrt (c i * c i * S i i) = |c i| * Real.sqrt (S i i) := by
    intro i
    rw [Real.sqrt_mul (mul_self_nonneg _), Real.sqrt_mul_self_eq_abs]
  have hsd2 : standardDeviations Real.sqrt eps (fun i j => c i * c j * S i j : Mat ℝ n n) = .ok fun i => |c i| * Real.sqrt (S i i) := by
    rcases sd_eq eps (fun i j => c i * c j * S i j : Mat ℝ n n) with ⟨⟨i, hi⟩, -⟩ | ⟨-, h⟩
    · exact absurd hi (not_le.2 (hs2 i))
    · simp only [hroot] at h
      exact h
  refine ⟨_, haff, ?_, _, hsd1, hsd2⟩
  unfold correlation at hR ⊢
  rw [hsd1] at hR
  rw [hsd2]
  injection hR with hR
  subst hR
  show Except.ok _ = Except.ok _
  congr 1
  funext i j
  rw [fillLoop_apply, fillLoop_apply]
  have h1 : |c i| ≠ 0 := abs_ne_zero.2 (hc i)
  have h2 : |c j| ≠ 0 := abs_ne_zero.2 (hc j)
  have h3 : Real.sqrt (S i i) ≠ 0 := (Real.sqrt_pos.2 (lt_of_le_of_lt he (hs1 i))).ne'
  have h4 : Real.sqrt (S j j) ≠ 0 := (Real.sqrt_pos.2 (lt_of_le_of_lt he (hs1 j))).ne'
  have hsg : ∀ t : ℝ, t ≠ 0 → t = Real.sign t * |t| := by
    intro t ht
    rcases lt_or_gt_of_ne ht with h | h
    · rw [Real.sign_of_neg h, abs_of_neg h]; ring
    · rw [Real.sign_of_pos h, abs_of_pos h]; ring
  dsimp only
  rw [show c i * c j * S i j = (Real.sign (c i) * |c i|) * (Real.sign (c j) * |c j|) * S i j by rw [← hsg _ (hc i), ← hsg _ (hc j)]]
  field_simp

/-- C221 fails for the code as it is: with the scalar type's machine epsilon as an absolute threshold on variances, the
perfectly correlated samples `(0, 0)` and `(2, 2)` have correlation coefficients in one unit and are refused in a unit
`2²⁸` times larger (nanometres and about a quarter of a metre). -/
theorem C221_fails : ∃ S S' : Mat ℝ 2 2,
    sampleCovariance [(![0, 0] : Fin 2 → ℝ), ![2, 2]] = .ok S ∧
    sampleCovariance ([(![0, 0] : Fin 2 → ℝ), ![2, 2]].map fun x i => 2⁻¹ ^ 28 * x i) = .ok S' ∧
    correlation Real.sqrt (2⁻¹ ^ 52) S = .ok (fun _ _ => 1) ∧
    correlation Real.sqrt (2⁻¹ ^ 52) S' = .error .zeroVarianceAxis := by
  have hS : sampleCovariance [(![0, 0] : Fin 2 → ℝ), ![2, 2]] = .ok fun _ _ => 2 := by
    rw [C49_formula, if_neg (by simp), if_neg (by simp)]
    congr 1
    funext i j
    fin_cases i <;> fin_cases j <;> norm_num [avg]
  have hS' := C49_affine (fun i j => if i = j then (2⁻¹ : ℝ) ^ 28 else 0) (fun _ => 0) _ _ hS
  have e1 : ∀ x : Fin 2 → ℝ, (fun i => (∑ l, (if i = l then (2⁻¹ : ℝ) ^ 28 else 0) * x l) + 0) = fun i => 2⁻¹ ^ 28 * x i := by
    intro x; funext i; simp
  rw [show (fun (x : Fin 2 → ℝ) i => (∑ l, (if i = l then (2⁻¹ : ℝ) ^ 28 else 0) * x l) + 0) = fun x i => 2⁻¹ ^ 28 * x i from
    funext e1] at hS'
  refine ⟨_, _, hS, hS', ?_, (C50_defined _ _).1.1 ⟨0, ?_⟩⟩
  · unfold correlation
    rcases sd_eq (2⁻¹ ^ 52) (fun _ _ => 2 : Mat ℝ 2 2) with ⟨⟨i, hi⟩, -⟩ | ⟨-, h⟩
    · norm_num at hi
    rw [h]
    show Except.ok _ = Except.ok _
    congr 1
    funext i j
    rw [fillLoop_apply, Real.mul_self_sqrt (by norm_num)]
    norm_num
  · norm_num

example : ∃ S R : Mat ℝ 2 2, sampleCovariance [(![0, 0] : Fin 2 → ℝ), ![2, 2]] = .ok S ∧
    correlation Real.sqrt (2⁻¹ ^ 52) S = .ok R := by
  obtain ⟨S, -, h1, -, h2, -⟩ := C221_fails
  exact ⟨S, _, h1, h2⟩

/-! ## C222: normal distributions -/

/-- C222, where the spread is above the floor in both units: fitting a normal distribution in other units and from another
origin gives the fitted distribution in these units. -/
theorem C222_fit_partial (eps : ℝ) (c b : ℝ) (xs : List ℝ) (hne : xs ≠ [])
    (h1 : eps ≤ Real.sqrt ((xs.map fun x => (x - xs.sum / xs.length) ^ 2).sum / xs.length))
    (h2 : eps ≤ |c| * Real.sqrt ((xs.map fun x => (x - xs.sum / xs.length) ^ 2).sum / xs.length)) :
    Gauss.fit eps (xs.map fun x => c * x + b) = ⟨c * (Gauss.fit eps xs).mu + b, |c| * (Gauss.fit eps xs).sigma⟩ := by
  have hn : (xs.length : ℝ) ≠ 0 := by exact_mod_cast (List.length_pos_iff.2 hne).ne'
  obtain ⟨hm, hs⟩ := (C81_fit eps xs).2 hne
  obtain ⟨hm', hs'⟩ := (C81_fit eps (xs.map fun x => c * x + b)).2 (by simpa using hne)
  have hsum : ∀ l : List ℝ, (l.map fun x => c * x + b).sum = c * l.sum + l.length * b := by
    intro l
    induction l with
    | nil => simp
    | cons a l ih => simp only [List.map_cons, List.sum_cons, ih, List.length_cons]; push_cast; ring
  have hmean : (xs.map fun x => c * x + b).sum / (xs.map fun x => c * x + b).length = c * (xs.sum / xs.length) + b := by
    rw [hsum, List.length_map]; field_simp
  have hsq : ∀ (m : ℝ) (l : List ℝ), ((l.map fun x => c * x + b).map fun x => (x - (c * m + b)) ^ 2).sum = c ^ 2 * (l.map fun x => (x - m) ^ 2).sum := by
    intro m l
    induction l with
    | nil => simp
    | cons a l ih => simp only [List.map_cons, List.sum_cons, ih]; ring
  rw [max_eq_left h1] at hs
  have hsd : Real.sqrt (((xs.map fun x => c * x + b).map fun x => (x - (c * (xs.sum / xs.length) + b)) ^ 2).sum / xs.length)
      = |c| * Real.sqrt ((xs.map fun x => (x - xs.sum / xs.length) ^ 2).sum / xs.length) := by
    rw [hsq, mul_div_assoc, Real.sqrt_mul (sq_nonneg c), Real.sqrt_sq_eq_abs]
  rw [hmean, List.length_map, hsd, max_eq_left h2, ← hs] at hs'
  rw [hmean, ← hm] at hm'
  cases hg : Gauss.fit eps (xs.map fun x => c * x + b)
  rw [hg] at hm' hs'
  simp_all

/-- C222. Densities transform as densities: a unit `|c|` times smaller divides the density by `|c|`. -/
theorem C222_pdf (g : Gauss) (c b x : ℝ) (hc : c ≠ 0) :
    (Gauss.mk (c * g.mu + b) (|c| * g.sigma)).pdf (c * x + b) = g.pdf x / |c| := by
  rw [pdf_eq, pdf_eq]
  dsimp only
  have hca : |c| ≠ 0 := abs_ne_zero.2 hc
  rw [mul_pow, sq_abs, show 2 * Real.pi * (c ^ 2 * g.sigma ^ 2) = c ^ 2 * (2 * Real.pi * g.sigma ^ 2) by ring,
    Real.sqrt_mul (sq_nonneg c), Real.sqrt_sq_eq_abs, mul_inv,
    show -(c * x + b - (c * g.mu + b)) ^ 2 / (2 * (c ^ 2 * g.sigma ^ 2)) = (c ^ 2 * -(x - g.mu) ^ 2) / (c ^ 2 * (2 * g.sigma ^ 2)) by ring,
    mul_div_mul_left _ _ (pow_ne_zero 2 hc)]
  field_simp

/-- C222. The multivariate density with mean `A μ + b` and covariance `A S Aᵀ` at the point `A x + b` is the original density
divided by `|det A|`, whenever neither of the two calls panics. -/
theorem C222_mvn_partial {eps : ℝ} (he : 0 ≤ eps) (A : Matrix (Fin n) (Fin n) ℝ) (b mu x : Fin n → ℝ) (S : Mat ℝ n n)
    (hdet : 0 ≤ (of S).det) (hd : determinant eps S ≠ 0)
    (hd' : determinant eps (fun i j => (A * of S * Aᵀ) i j : Mat ℝ n n) ≠ 0) :
    ∃ d, mvnPdf eps mu S x = some d ∧
      mvnPdf eps (A *ᵥ mu + b) (fun i j => (A * of S * Aᵀ) i j : Mat ℝ n n) (A *ᵥ x + b) = some (d / |A.det|) := by
  have hS' : of (fun i j => (A * of S * Aᵀ) i j : Mat ℝ n n) = A * of S * Aᵀ := rfl
  have hdS' : (A * of S * Aᵀ).det = A.det ^ 2 * (of S).det := by rw [det_mul, det_mul, det_transpose]; ring
  refine ⟨normalDensity mu (of S) x, ?_, ?_⟩
  · rw [(C83_formula he mu S hdet x).1, if_neg hd]
  have hnn : 0 ≤ (of (fun i j => (A * of S * Aᵀ) i j : Mat ℝ n n)).det := by
    rw [hS', hdS']; positivity
  rw [(C83_formula he _ _ hnn _).1, if_neg hd']
  congr 1
  have hA : A.det ≠ 0 := by
    intro h0
    rcases (C26_determinant he (fun i j => (A * of S * Aᵀ) i j : Mat ℝ n n)).1 with h | h
    · apply hd'; rw [h, hS', hdS', h0]; ring
    · exact hd' h
  have hAu : IsUnit A.det := isUnit_iff_ne_zero.2 hA
  unfold normalDensity
  rw [hS', hdS', show A *ᵥ x + b - (A *ᵥ mu + b) = A *ᵥ (x - mu) by rw [mulVec_sub]; abel]
  have hq : (A *ᵥ (x - mu)) ⬝ᵥ ((A * of S * Aᵀ)⁻¹ *ᵥ (A *ᵥ (x - mu))) = (x - mu) ⬝ᵥ ((of S)⁻¹ *ᵥ (x - mu)) := by
    have hAt : IsUnit Aᵀ.det := by rw [det_transpose]; exact hAu
    have hi : (A * of S * Aᵀ)⁻¹ = Aᵀ⁻¹ * ((of S)⁻¹ * A⁻¹) := by rw [Matrix.mul_inv_rev, Matrix.mul_inv_rev]
    rw [hi, mulVec_mulVec, dotProduct_comm, dotProduct_mulVec, ← mulVec_transpose]
    rw [mulVec_mulVec, dotProduct_comm]
    congr 2
    rw [← Matrix.mul_assoc, ← Matrix.mul_assoc, Matrix.mul_nonsing_inv _ hAt, Matrix.one_mul, Matrix.mul_assoc,
      Matrix.nonsing_inv_mul _ hAu, Matrix.mul_one]
  rw [hq, show (2 * Real.pi) ^ n * (A.det ^ 2 * (of S).det) = A.det ^ 2 * ((2 * Real.pi) ^ n * (of S).det) by ring,
    Real.sqrt_mul (sq_nonneg _), Real.sqrt_sq_eq_abs, div_div, mul_comm |A.det|]

/-- C222. The fitted normal distribution does not depend on the order of the observations. -/
theorem C222_order (eps : ℝ) (xs ys : List ℝ) (h : xs.Perm ys) : Gauss.fit eps xs = Gauss.fit eps ys := by
  by_cases hne : xs = []
  · subst hne; rw [List.nil_perm.1 h]
  have hne' : ys ≠ [] := by rintro rfl; exact hne (List.perm_nil.1 h)
  obtain ⟨hm, hs⟩ := (C81_fit eps xs).2 hne
  obtain ⟨hm', hs'⟩ := (C81_fit eps ys).2 hne'
  rw [h.sum_eq, h.length_eq] at hm hs
  rw [(h.map _).sum_eq] at hs
  cases hx : Gauss.fit eps xs
  cases hy : Gauss.fit eps ys
  rw [hx] at hm hs
  rw [hy] at hm' hs'
  simp_all

/-- C222 fails for fits of data on a small scale: the observations `0` and `2` have standard deviation `1`, the same
observations in a unit `2⁶⁰` times larger are given the standard deviation `2⁻⁵²` instead of `2⁻⁶⁰`. -/
theorem C222_fit_fails : (Gauss.fit (2⁻¹ ^ 52) [0, 2]).sigma = 1 ∧
    (Gauss.fit (2⁻¹ ^ 52) ([0, 2].map fun x => 2⁻¹ ^ 60 * x)).sigma = 2⁻¹ ^ 52 := by
  constructor
  · rw [((C81_fit _ _).2 (by simp)).2]
    norm_num
  · rw [((C81_fit _ _).2 (by simp)).2, max_eq_right]
    rw [Real.sqrt_le_left (by positivity)]
    norm_num

/-- C222 fails for multivariate densities on a small scale: with the threshold `10⁻¹²` of the code the standard normal
density in one dimension is defined, and the call panics in a unit `10⁶` times larger, where the variance is `10⁻¹²`. -/
theorem C222_mvn_fails (x : Fin 1 → ℝ) : (∃ d, mvnPdf (1 / 10 ^ 12) (fun _ => 0) (fun _ _ => 1 : Mat ℝ 1 1) x = some d) ∧
    mvnPdf (1 / 10 ^ 12) (fun _ => 0) (fun _ _ => 1 / 10 ^ 12 : Mat ℝ 1 1) (fun i => 1 / 10 ^ 6 * x i) = none := by
  constructor
  · have := C83_univariate (eps := 1 / 10 ^ 12) (by positivity) 0 1 (x 0) (by norm_num)
    rw [show (fun _ => x 0 : Fin 1 → ℝ) = x from funext fun i => by rw [Subsingleton.elim i 0], one_pow] at this
    exact ⟨_, this⟩
  · rw [(C83_formula (by positivity) _ _ (by rw [det_unique]; simp) _).1, if_pos]
    exact (C84_fails (by positivity)).1

-- Two observations whose spread is above the floor in both units.
example : Gauss.fit (2⁻¹ ^ 52) ([0, 2].map fun x => -3 * x + 5) =
    ⟨-3 * (Gauss.fit (2⁻¹ ^ 52) [0, 2]).mu + 5, |-3| * (Gauss.fit (2⁻¹ ^ 52) [0, 2]).sigma⟩ := by
  refine C222_fit_partial _ _ _ _ (by simp) ?_ ?_ <;> norm_num

-- A change of unit in one dimension for which neither call panics.
example : ∃ d, mvnPdf (1 / 10 ^ 12) (fun _ => 0) (fun _ _ => 1 ^ 2 : Mat ℝ 1 1) (fun _ => 0) = some d := by
  exact ⟨_, C83_univariate (by positivity) 0 1 0 (by norm_num)⟩

end Verif.Stats
