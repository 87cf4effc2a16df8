import Verif.Stats.PropsCov
import Verif.Stats.PropsMvn
import Mathlib.LinearAlgebra.FiniteDimensional.Lemmas

/-!
# What can be done with a sample covariance (C225)

The samples lie in a common hyperplane when some combination `v · x` of the components, with `v ≠ 0`, has the same value for
all of them. `⬝ᵥ` is Mathlib's dot product.
-/

namespace Verif.Stats

open Verif.Mat Matrix

variable {n : ℕ}

/-- All samples lie in one hyperplane. -/
def Flat (xs : List (Fin n → ℝ)) : Prop := ∃ v : Fin n → ℝ, v ≠ 0 ∧ ∃ c : ℝ, ∀ x ∈ xs, v ⬝ᵥ x = c

theorem list_sum_mul (l : List (Fin n → ℝ)) (f : (Fin n → ℝ) → ℝ) (a : ℝ) : a * (l.map f).sum = (l.map fun x => a * f x).sum := by
  induction l with
  | nil => simp
  | cons x l ih => simp only [List.map_cons, List.sum_cons, mul_add, ih]

theorem list_sum_comm (l : List (Fin n → ℝ)) (f : (Fin n → ℝ) → Fin n → ℝ) :
    ∑ j, (l.map fun x => f x j).sum = (l.map fun x => ∑ j, f x j).sum := by
  induction l with
  | nil => simp
  | cons x l ih => simp only [List.map_cons, List.sum_cons, Finset.sum_add_distrib, ih]

theorem avg_dot (xs : List (Fin n → ℝ)) (v : Fin n → ℝ) : v ⬝ᵥ avg xs = (xs.map fun x => v ⬝ᵥ x).sum / xs.length := by
  simp only [dotProduct, avg]
  rw [← list_sum_comm xs fun x j => v j * x j, Finset.sum_div]
  refine Finset.sum_congr rfl fun j _ => ?_
  rw [← list_sum_mul, mul_div_assoc]

/-- The covariance applied to a vector. -/
theorem cov_mulVec (xs : List (Fin n → ℝ)) (S : Mat ℝ n n) (h : sampleCovariance xs = .ok S) (v : Fin n → ℝ) (i : Fin n) :
    (of S *ᵥ v) i = (xs.map fun x => (x i - avg xs i) * (v ⬝ᵥ (x - avg xs))).sum / ((xs.length : ℝ) - 1) ∧ 2 ≤ xs.length := by
  have h2 : 2 ≤ xs.length := by
    by_contra hc
    rw [C49_formula] at h
    have : xs.length = 0 ∨ xs.length = 1 := by omega
    rcases this with h0 | h0
    · rw [if_pos h0] at h; cases h
    · rw [if_neg (by omega), if_pos h0] at h; cases h
  refine ⟨?_, h2⟩
  rw [ok_of xs h2] at h
  injection h with h
  subst h
  simp only [Matrix.mulVec, dotProduct, of_apply, Finset.mul_sum]
  rw [← list_sum_comm xs fun x j => (x i - avg xs i) * (v j * (x - avg xs) j), Finset.sum_div]
  refine Finset.sum_congr rfl fun j _ => ?_
  rw [div_mul_eq_mul_div, mul_comm _ (v j), list_sum_mul]
  congr 2
  refine List.map_congr_left fun x _ => ?_
  simp only [Pi.sub_apply]
  ring

theorem cov_form (xs : List (Fin n → ℝ)) (S : Mat ℝ n n) (h : sampleCovariance xs = .ok S) (v : Fin n → ℝ) :
    v ⬝ᵥ (of S *ᵥ v) = (xs.map fun x => (v ⬝ᵥ (x - avg xs)) ^ 2).sum / ((xs.length : ℝ) - 1) := by
  have e : ∀ i, v i * (of S *ᵥ v) i = (xs.map fun x => v i * ((x i - avg xs i) * (v ⬝ᵥ (x - avg xs)))).sum / ((xs.length : ℝ) - 1) := by
    intro i
    rw [(cov_mulVec xs S h v i).1, ← mul_div_assoc, list_sum_mul]
  rw [dotProduct, Finset.sum_congr rfl fun i _ => e i, ← Finset.sum_div,
    list_sum_comm xs fun x i => v i * ((x i - avg xs i) * (v ⬝ᵥ (x - avg xs)))]
  congr 2
  refine List.map_congr_left fun x _ => ?_
  have : ∑ i, v i * ((x i - avg xs i) * (v ⬝ᵥ (x - avg xs))) = (∑ i, v i * (x - avg xs) i) * (v ⬝ᵥ (x - avg xs)) := by
    rw [Finset.sum_mul]
    exact Finset.sum_congr rfl fun i _ => by simp only [Pi.sub_apply]; ring
  rw [this, pow_two]
  rfl

theorem sum_sq_zero (l : List (Fin n → ℝ)) (f : (Fin n → ℝ) → ℝ) : 0 ≤ (l.map fun x => f x ^ 2).sum ∧
    ((l.map fun x => f x ^ 2).sum = 0 → ∀ x ∈ l, f x = 0) := by
  induction l with
  | nil => simp
  | cons a l ih =>
    simp only [List.map_cons, List.sum_cons]
    refine ⟨add_nonneg (sq_nonneg _) ih.1, fun h0 x hx => ?_⟩
    have h1 := sq_nonneg (f a)
    have h2 : (l.map fun x => f x ^ 2).sum = 0 := by linarith [ih.1]
    rcases List.mem_cons.1 hx with rfl | hx
    · exact pow_eq_zero_iff two_ne_zero |>.1 (by linarith)
    · exact ih.2 h2 x hx

/-- A direction in which all samples agree is a direction of no variance, and conversely. -/
theorem flat_iff (xs : List (Fin n → ℝ)) (S : Mat ℝ n n) (h : sampleCovariance xs = .ok S) (v : Fin n → ℝ) :
    (∃ c, ∀ x ∈ xs, v ⬝ᵥ x = c) ↔ ∀ x ∈ xs, v ⬝ᵥ (x - avg xs) = 0 := by
  have hne : (xs.length : ℝ) ≠ 0 := by
    rcases Nat.eq_zero_or_pos xs.length with h0 | h0
    · rw [C49_formula, if_pos h0] at h; cases h
    · exact_mod_cast h0.ne'
  constructor
  · rintro ⟨c, hc⟩ x hx
    have hs : ∀ l : List (Fin n → ℝ), (∀ x ∈ l, v ⬝ᵥ x = c) → (l.map fun x => v ⬝ᵥ x).sum = l.length * c := by
      intro l
      induction l with
      | nil => simp
      | cons a l ih =>
        intro hl
        rw [List.map_cons, List.sum_cons, ih (fun x hx => hl x (by simp [hx])), hl a (by simp), List.length_cons]
        push_cast; ring
    rw [dotProduct_sub, hc x hx, avg_dot, hs xs hc]
    field_simp
    ring
  · intro h0
    exact ⟨v ⬝ᵥ avg xs, fun x hx => by have := h0 x hx; rw [dotProduct_sub] at this; linarith⟩

/-- C225. A sample covariance has a Cholesky factor, and is regular, exactly when the samples do not lie in a common
hyperplane. -/
theorem C225_definite (xs : List (Fin n → ℝ)) (S : Mat ℝ n n) (h : sampleCovariance xs = .ok S) :
    ((∃ L, cholesky Real.sqrt S = some L) ↔ ¬ Flat xs) ∧ ((of S).det = 0 ↔ Flat xs) := by
  have hsym := (C49_posSemidef xs S h).1
  have h2 : 2 ≤ xs.length := by
    by_contra hc
    rw [C49_formula] at h
    have : xs.length = 0 ∨ xs.length = 1 := by omega
    rcases this with h0 | h0
    · rw [if_pos h0] at h; cases h
    · rw [if_neg (by omega), if_pos h0] at h; cases h
  have hp : (0 : ℝ) < (xs.length : ℝ) - 1 := by
    have : (2 : ℝ) ≤ xs.length := by exact_mod_cast h2
    linarith
  constructor
  · rw [C25_iff_posdef hsym]
    constructor
    · rintro hpd ⟨v, hv, hc⟩
      have h0 := (flat_iff xs S h v).1 hc
      have := hpd v hv
      rw [cov_form xs S h, List.map_congr_left (g := fun _ => (0 : ℝ)) (fun x hx => by rw [h0 x hx]; ring)] at this
      simp at this
    · intro hf v hv
      rw [cov_form xs S h]
      have hs := sum_sq_zero xs fun x => v ⬝ᵥ (x - avg xs)
      refine div_pos (lt_of_le_of_ne hs.1 fun h0 => hf ⟨v, hv, (flat_iff xs S h v).2 (hs.2 h0.symm)⟩) hp
  · rw [← Matrix.exists_mulVec_eq_zero_iff]
    constructor
    · rintro ⟨v, hv, hz⟩
      have hf := cov_form xs S h v
      rw [hz, dotProduct_zero] at hf
      have hs := sum_sq_zero xs fun x => v ⬝ᵥ (x - avg xs)
      have : (xs.map fun x => (v ⬝ᵥ (x - avg xs)) ^ 2).sum = 0 := by
        rcases div_eq_zero_iff.1 hf.symm with h0 | h0
        · exact h0
        · exact absurd h0 hp.ne'
      exact ⟨v, hv, (flat_iff xs S h v).2 (hs.2 this)⟩
    · rintro ⟨v, hv, hc⟩
      have h0 := (flat_iff xs S h v).1 hc
      refine ⟨v, hv, funext fun i => ?_⟩
      rw [(cov_mulVec xs S h v i).1, List.map_congr_left (g := fun _ => (0 : ℝ)) (fun x hx => by rw [h0 x hx]; ring)]
      simp

/-- At most as many samples as dimensions lie in a hyperplane. -/
theorem flat_of_few (xs : List (Fin n → ℝ)) (h0 : 0 < xs.length) (hn : xs.length ≤ n) : Flat xs := by
  let f : (Fin n → ℝ) →ₗ[ℝ] (Fin (xs.length - 1) → ℝ) :=
    { toFun := fun v k => v ⬝ᵥ (xs[k.1 + 1] - xs[0])
      map_add' := fun u v => funext fun k => add_dotProduct _ _ _
      map_smul' := fun c v => funext fun k => smul_dotProduct _ _ _ }
  have hk : LinearMap.ker f ≠ ⊥ := LinearMap.ker_ne_bot_of_finrank_lt (by
    rw [Module.finrank_fin_fun, Module.finrank_fin_fun]; omega)
  obtain ⟨v, hv, hne⟩ := (Submodule.ne_bot_iff _).1 hk
  refine ⟨v, hne, v ⬝ᵥ xs[0], fun x hx => ?_⟩
  obtain ⟨k, hkl, rfl⟩ := List.getElem_of_mem hx
  rcases Nat.eq_zero_or_pos k with rfl | hpos
  · rfl
  · have := congrFun (LinearMap.mem_ker.1 hv) ⟨k - 1, by omega⟩
    have e : v ⬝ᵥ (xs[k - 1 + 1] - xs[0]) = 0 := this
    rw [dotProduct_sub] at e
    simp only [Nat.sub_add_cancel hpos] at e
    linarith

/-- C225. With at most as many samples as dimensions nothing can be done with the covariance, whatever the samples: the
multivariate normal density panics at every point, and the Cholesky factorisation, the linear solver and the inverse
refuse; the determinant is zero. -/
theorem C225_few {eps : ℝ} (he : 0 ≤ eps) (xs : List (Fin n → ℝ)) (S : Mat ℝ n n) (h : sampleCovariance xs = .ok S)
    (hn : xs.length ≤ n) (mu x b : Fin n → ℝ) :
    mvnPdf eps mu S x = none ∧ cholesky Real.sqrt S = none ∧ solve eps S b = none ∧ gaussJordan eps S = none ∧ determinant eps S = 0 := by
  have h0 : 0 < xs.length := by
    rcases Nat.eq_zero_or_pos xs.length with h0 | h0
    · rw [C49_formula, if_pos h0] at h; cases h
    · exact h0
  have hf := flat_of_few xs h0 hn
  obtain ⟨h1, h2⟩ := C225_definite xs S h
  have hd := h2.2 hf
  refine ⟨(C83_formula he mu S hd.ge x).2 hd, ?_, C24_singular_none he hd b, ?_, (C26_determinant he S).2 hd⟩
  · cases hc : cholesky Real.sqrt S with
    | none => rfl
    | some L => exact absurd hf (h1.1 ⟨L, hc⟩)
  · cases hg : gaussJordan eps S with
    | none => rfl
    | some B => exact absurd ((C26_determinant he S).2 hd) ((C26_consistent he S).1.1 ⟨B, hg⟩)

/-- C225. With samples that do not lie in a common hyperplane, the density of the normal distribution with the covariance of
the samples, where the call does not panic, is positive and integrates to one. -/
theorem C225_density {eps : ℝ} (he : 0 ≤ eps) (xs : List (Fin n → ℝ)) (S : Mat ℝ n n) (h : sampleCovariance xs = .ok S)
    (hf : ¬ Flat xs) (mu : Fin n → ℝ) (hd : determinant eps S ≠ 0) :
    ∃ p : (Fin n → ℝ) → ℝ, (∀ x, mvnPdf eps mu S x = some (p x) ∧ 0 < p x) ∧ ∫ x, p x = 1 := by
  have hsym := (C49_posSemidef xs S h).1
  have hpd := (C25_iff_posdef hsym).1 ((C225_definite xs S h).1.2 hf)
  obtain ⟨h1, h2⟩ := C83_density mu S hsym hpd
  obtain ⟨L, hL⟩ := (C25_iff_posdef hsym).2 hpd
  have hdet : 0 ≤ (of S).det := by
    rw [← (C25_factor hsym hL).1, det_mul, det_transpose]
    exact mul_self_nonneg _
  exact ⟨_, fun x => ⟨by rw [(C83_formula he mu S hdet x).1, if_neg hd], h1 x⟩, h2⟩

-- Three samples in the plane that do not lie on a line, and two that do.
example : ¬ Flat [(![0, 0] : Fin 2 → ℝ), ![1, 0], ![0, 1]] ∧ Flat [(![0, 0] : Fin 2 → ℝ), ![2, 2]] := by
  constructor
  · rintro ⟨v, hv, c, hc⟩
    have h1 := hc ![0, 0] (by simp)
    have h2 := hc ![1, 0] (by simp)
    have h3 := hc ![0, 1] (by simp)
    simp [dotProduct, Fin.sum_univ_two] at h1 h2 h3
    apply hv
    funext i
    fin_cases i <;> simp [h2, h3, ← h1]
  · exact flat_of_few _ (by simp) (by simp)

end Verif.Stats
