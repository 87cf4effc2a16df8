import Verif.Graphics.Model
import Verif.Mat.PropsAlg
import Mathlib.LinearAlgebra.CrossProduct
import Mathlib.LinearAlgebra.Matrix.Determinant.Basic
import Mathlib.Tactic.LinearCombination
import Mathlib.Analysis.SpecialFunctions.Trigonometric.Basic

/-!
# View and projection matrices (C62, C92, C93)
-/

namespace Verif.Graphics

open Verif.Mat Matrix

/-- Homogeneous coordinates of a point. -/
def hom (p : Fin 3 → ℝ) : Fin 4 → ℝ := ![p 0, p 1, p 2, 1]

/-- A matrix applied to a point, as a column vector. -/
noncomputable def apply (m : Mat ℝ 4 4) (p : Fin 3 → ℝ) : Fin 4 → ℝ := Matrix.of m *ᵥ hom p

theorem dot3 (u v : Fin 3 → ℝ) : Mat.dot u v = u 0 * v 0 + u 1 * v 1 + u 2 * v 2 := by
  rw [C22_dot, foldl_finRange_sum, Fin.sum_univ_three]

theorem sumsq_pos {v : Fin 3 → ℝ} (h : v ≠ 0) : 0 < v 0 ^ 2 + v 1 ^ 2 + v 2 ^ 2 := by
  by_contra hn
  refine h (funext fun i => ?_)
  have h0 : v 0 = 0 := by nlinarith [sq_nonneg (v 0), sq_nonneg (v 1), sq_nonneg (v 2)]
  have h1 : v 1 = 0 := by nlinarith [sq_nonneg (v 0), sq_nonneg (v 1), sq_nonneg (v 2)]
  have h2 : v 2 = 0 := by nlinarith [sq_nonneg (v 0), sq_nonneg (v 1), sq_nonneg (v 2)]
  fin_cases i
  · exact h0
  · exact h1
  · exact h2

/-- Normalising a nonzero vector divides it by a positive number and gives a unit vector. -/
theorem normalize_spec {v : Fin 3 → ℝ} (h : v ≠ 0) : ∃ n, 0 < n ∧ n ^ 2 = v 0 ^ 2 + v 1 ^ 2 + v 2 ^ 2 ∧ (∀ i, v i = n * Mat.normalize v i) ∧
    Mat.normalize v 0 ^ 2 + Mat.normalize v 1 ^ 2 + Mat.normalize v 2 ^ 2 = 1 := by
  have hp := sumsq_pos h
  have hn : Mat.norm Real.sqrt v = Real.sqrt (v 0 ^ 2 + v 1 ^ 2 + v 2 ^ 2) := by rw [C22_norm_real, Fin.sum_univ_three]
  have hs := Real.sqrt_pos.2 hp
  have h2 := Real.sq_sqrt hp.le
  refine ⟨_, hs, h2, fun i => ?_, ?_⟩
  · simp only [Mat.normalize, vdiv, hn]
    field_simp
  · simp only [Mat.normalize, vdiv, hn, div_pow, h2]
    field_simp

/-- What `look_at` needs: the look-at point is not the eye, and the up direction is not along the line of sight. -/
def Valid (eye center up : Fin 3 → ℝ) : Prop := eye ≠ center ∧ crossProduct up (center - eye) ≠ 0

theorem cross_eq (u v : Fin 3 → ℝ) : Mat.cross u v = crossProduct u v := by
  rw [cross_apply]; rfl

/-- The axes of the camera: forward, right (as the code has it), up, and how they come from the arguments. -/
theorem axes {eye center up : Fin 3 → ℝ} (h : Valid eye center up) : ∃ f r u : Fin 3 → ℝ, ∃ d k : ℝ, 0 < d ∧ 0 < k ∧
    d ^ 2 = (center 0 - eye 0) ^ 2 + (center 1 - eye 1) ^ 2 + (center 2 - eye 2) ^ 2 ∧
    (∀ i, center i - eye i = d * f i) ∧ f 0 ^ 2 + f 1 ^ 2 + f 2 ^ 2 = 1 ∧ r 0 ^ 2 + r 1 ^ 2 + r 2 ^ 2 = 1 ∧
    (∀ i, Mat.cross up f i = k * r i) ∧ u = Mat.cross f r ∧ r 0 * f 0 + r 1 * f 1 + r 2 * f 2 = 0 ∧
    lookAt eye center up = ![![r 0, r 1, r 2, -(r 0 * eye 0 + r 1 * eye 1 + r 2 * eye 2)],
      ![u 0, u 1, u 2, -(u 0 * eye 0 + u 1 * eye 1 + u 2 * eye 2)],
      ![-f 0, -f 1, -f 2, f 0 * eye 0 + f 1 * eye 1 + f 2 * eye 2], ![0, 0, 0, 1]] := by
  obtain ⟨h1, h2⟩ := h
  have hne : (fun i => center i - eye i) ≠ 0 := fun h => h1 (funext fun i => by have := congrFun h i; simp at this; linarith)
  obtain ⟨d, hd, hd2, hf, hfu⟩ := normalize_spec hne
  have hc : Mat.cross up (Mat.normalize fun i => center i - eye i) ≠ 0 := by
    intro h
    apply h2
    have e : center - eye = d • Mat.normalize fun i => center i - eye i := funext fun i => by simpa using hf i
    rw [e, map_smul, ← cross_eq, h, smul_zero]
  obtain ⟨k, hk, -, hr, hru⟩ := normalize_spec hc
  refine ⟨_, _, _, d, k, hd, hk, hd2, hf, hfu, hru, hr, rfl, ?_, ?_⟩
  · have : k * (Mat.normalize (Mat.cross up (Mat.normalize fun i => center i - eye i)) 0 * (Mat.normalize fun i => center i - eye i) 0 +
      Mat.normalize (Mat.cross up (Mat.normalize fun i => center i - eye i)) 1 * (Mat.normalize fun i => center i - eye i) 1 +
      Mat.normalize (Mat.cross up (Mat.normalize fun i => center i - eye i)) 2 * (Mat.normalize fun i => center i - eye i) 2) = 0 := by
      have e0 := hr 0; have e1 := hr 1; have e2 := hr 2
      generalize Mat.normalize (Mat.cross up (Mat.normalize fun i => center i - eye i)) = r at *
      generalize (Mat.normalize fun i => center i - eye i) = f at *
      simp only [Mat.cross, cons_val_zero, cons_val_one, cons_val_two, head_cons, tail_cons] at e0 e1 e2
      linear_combination -f 0 * e0 - f 1 * e1 - f 2 * e2
    exact (mul_eq_zero.mp this).resolve_left hk.ne'
  · unfold lookAt
    simp only [dot3]

theorem apply_rows (a b c d : Fin 4 → ℝ) (p : Fin 3 → ℝ) : apply ![a, b, c, d] p =
    ![a 0 * p 0 + a 1 * p 1 + a 2 * p 2 + a 3, b 0 * p 0 + b 1 * p 1 + b 2 * p 2 + b 3,
      c 0 * p 0 + c 1 * p 1 + c 2 * p 2 + c 3, d 0 * p 0 + d 1 * p 1 + d 2 * p 2 + d 3] := by
  funext i
  fin_cases i <;> simp [apply, hom, Matrix.mulVec, dotProduct, Fin.sum_univ_four]

/-- C62, partial. For every eye, look-at point and up direction (not along the line of sight) the view transform maps the eye to the origin, the
look-at point onto the negative z axis at its distance, and a point above the eye in the up direction to `x = 0` and positive `y`; it preserves
the distance of every two points and keeps the homogeneous coordinate one. (Missing: orientation, see `C62_fails`.) -/
theorem C62_partial (eye center up : Fin 3 → ℝ) (h : Valid eye center up) :
    apply (lookAt eye center up) eye = hom ![0, 0, 0] ∧
    apply (lookAt eye center up) center =
      hom ![0, 0, -Real.sqrt ((center 0 - eye 0) ^ 2 + (center 1 - eye 1) ^ 2 + (center 2 - eye 2) ^ 2)] ∧
    (apply (lookAt eye center up) (eye + up) 0 = 0 ∧ 0 < apply (lookAt eye center up) (eye + up) 1) ∧
    (∀ p q, ∑ i, (apply (lookAt eye center up) p i - apply (lookAt eye center up) q i) ^ 2 = ∑ i, (p i - q i) ^ 2) ∧
    (∀ p, apply (lookAt eye center up) p 3 = 1) := by
  obtain ⟨f, r, u, d, k, hd, hk, hd2, hf, hfu, hru, hr, hu, hrf, hm⟩ := axes h
  rw [hm]
  simp only [apply_rows]
  have hu0 : u 0 = f 1 * r 2 - f 2 * r 1 := by rw [hu]; rfl
  have hu1 : u 1 = f 2 * r 0 - f 0 * r 2 := by rw [hu]; rfl
  have hu2 : u 2 = f 0 * r 1 - f 1 * r 0 := by rw [hu]; rfl
  have huu : u 0 ^ 2 + u 1 ^ 2 + u 2 ^ 2 = 1 := by
    rw [hu0, hu1, hu2]
    linear_combination (r 0 ^ 2 + r 1 ^ 2 + r 2 ^ 2) * hfu + hru - (r 0 * f 0 + r 1 * f 1 + r 2 * f 2) * hrf
  have k0 : up 1 * f 2 - up 2 * f 1 = k * r 0 := hr 0
  have k1 : up 2 * f 0 - up 0 * f 2 = k * r 1 := hr 1
  have k2 : up 0 * f 1 - up 1 * f 0 = k * r 2 := hr 2
  have c0 : center 0 = eye 0 + d * f 0 := by linarith [hf 0]
  have c1 : center 1 = eye 1 + d * f 1 := by linarith [hf 1]
  have c2 : center 2 = eye 2 + d * f 2 := by linarith [hf 2]
  refine ⟨?_, ?_, ⟨?_, ?_⟩, ?_, ?_⟩
  · funext i
    fin_cases i <;> simp [hom]
    ring
  · rw [← hd2, Real.sqrt_sq hd.le]
    funext i
    fin_cases i <;> simp [hom]
    · rw [c0, c1, c2]; linear_combination d * hrf
    · rw [c0, c1, c2, hu0, hu1, hu2]; ring
    · rw [c0, c1, c2]; linear_combination -d * hfu
  · have : k * (r 0 * up 0 + r 1 * up 1 + r 2 * up 2) = 0 := by linear_combination -up 0 * k0 - up 1 * k1 - up 2 * k2
    have := (mul_eq_zero.mp this).resolve_left hk.ne'
    simp
    linear_combination this
  · have : u 0 * up 0 + u 1 * up 1 + u 2 * up 2 = k := by
      rw [hu0, hu1, hu2]
      linear_combination r 0 * k0 + r 1 * k1 + r 2 * k2 + k * hru
    simp
    linarith
  · intro p q
    have hc := hru
    -- the rows are orthonormal, hence so are the columns
    have rows : (!![r 0, r 1, r 2; u 0, u 1, u 2; -f 0, -f 1, -f 2] : Matrix (Fin 3) (Fin 3) ℝ) *
        (!![r 0, r 1, r 2; u 0, u 1, u 2; -f 0, -f 1, -f 2] : Matrix (Fin 3) (Fin 3) ℝ)ᵀ = 1 := by
      have ruz : r 0 * u 0 + r 1 * u 1 + r 2 * u 2 = 0 := by rw [hu0, hu1, hu2]; ring
      have fuz : f 0 * u 0 + f 1 * u 1 + f 2 * u 2 = 0 := by rw [hu0, hu1, hu2]; ring
      ext i j
      fin_cases i <;> fin_cases j <;> simp [Matrix.mul_apply, Fin.sum_univ_three]
      · linarith
      · linarith
      · linarith
      · linarith
      · linarith
      · linarith
      · linarith
      · linarith
      · linarith
    have cols := mul_eq_one_comm.1 rows
    have e : ∀ i j, ((!![r 0, r 1, r 2; u 0, u 1, u 2; -f 0, -f 1, -f 2] : Matrix (Fin 3) (Fin 3) ℝ)ᵀ *
        (!![r 0, r 1, r 2; u 0, u 1, u 2; -f 0, -f 1, -f 2] : Matrix (Fin 3) (Fin 3) ℝ)) i j = (1 : Matrix (Fin 3) (Fin 3) ℝ) i j := fun i j => by rw [cols]
    have e00 := e 0 0; have e11 := e 1 1; have e22 := e 2 2; have e01 := e 0 1; have e02 := e 0 2; have e12 := e 1 2
    simp [Matrix.mul_apply, Fin.sum_univ_three] at e00 e11 e22 e01 e02 e12
    simp only [Fin.sum_univ_four, Fin.sum_univ_three]
    simp
    linear_combination (p 0 - q 0) ^ 2 * e00 + (p 1 - q 1) ^ 2 * e11 + (p 2 - q 2) ^ 2 * e22 + 2 * (p 0 - q 0) * (p 1 - q 1) * e01 +
      2 * (p 0 - q 0) * (p 2 - q 2) * e02 + 2 * (p 1 - q 1) * (p 2 - q 2) * e12
  · intro p
    simp

/-- Eye at (1,2,3) looking at the origin, z up. -/
example : Valid ![1, 2, 3] ![0, 0, 0] ![0, 0, 1] := by
  refine ⟨fun h => ?_, fun h => ?_⟩
  · have := congrFun h 0
    simp at this
  · have := congrFun h 0
    simp [cross_apply] at this

/-- C62 fails: for every eye, look-at point and up direction the view transform is a reflection (determinant minus one): it shows a point on the
right of the line of sight, in the direction `(center - eye) × up`, on the left (`x < 0`). -/
theorem C62_fails (eye center up : Fin 3 → ℝ) (h : Valid eye center up) :
    (Matrix.of (lookAt eye center up)).det = -1 ∧
    apply (lookAt eye center up) (eye + crossProduct (center - eye) up) 0 < 0 := by
  obtain ⟨f, r, u, d, k, hd, hk, hd2, hf, hfu, hru, hr, hu, hrf, hm⟩ := axes h
  rw [hm]
  have hu0 : u 0 = f 1 * r 2 - f 2 * r 1 := by rw [hu]; rfl
  have hu1 : u 1 = f 2 * r 0 - f 0 * r 2 := by rw [hu]; rfl
  have hu2 : u 2 = f 0 * r 1 - f 1 * r 0 := by rw [hu]; rfl
  have k0 : up 1 * f 2 - up 2 * f 1 = k * r 0 := hr 0
  have k1 : up 2 * f 0 - up 0 * f 2 = k * r 1 := hr 1
  have k2 : up 0 * f 1 - up 1 * f 0 = k * r 2 := hr 2
  constructor
  · rw [Matrix.det_succ_row _ 3, Fin.sum_univ_four]
    simp [Matrix.det_fin_three, Fin.succAbove, Fin.lt_def]
    rw [hu0, hu1, hu2]
    linear_combination (-(r 0 ^ 2 + r 1 ^ 2 + r 2 ^ 2)) * hfu - hru + (r 0 * f 0 + r 1 * f 1 + r 2 * f 2) * hrf
  · rw [apply_rows]
    simp [cross_apply]
    have f0 := hf 0; have f1 := hf 1; have f2 := hf 2
    have : r 0 * ((center 1 - eye 1) * up 2 - (center 2 - eye 2) * up 1) + r 1 * ((center 2 - eye 2) * up 0 - (center 0 - eye 0) * up 2) +
        r 2 * ((center 0 - eye 0) * up 1 - (center 1 - eye 1) * up 0) = -(d * k) := by
      rw [f0, f1, f2]
      linear_combination -d * r 0 * k0 - d * r 1 * k1 - d * r 2 * k2 - d * k * hru
    have hdk := mul_pos hd hk
    nlinarith

/-- A point as a row vector times a matrix. -/
noncomputable def applyRow (m : Mat ℝ 4 4) (p : Fin 3 → ℝ) : Fin 4 → ℝ := hom p ᵥ* Matrix.of m

/-- C92, partial. With points as row vectors the projection maps the viewing frustum to the cube: for a point at depth `d > 0` in front of the
camera (`z = -d`) the homogeneous coordinate is `d`; after division by it, depth `near` goes to -1, depth `far` to 1, greater depth to a greater
value, a point is within the field of view exactly if `x` and `y` are in `[-1, 1]`, and the edges of the field of view are at ±1.
(Missing: points as column vectors, as `look_at` has them, see `C92_fails`.) -/
theorem C92_partial (aspect fovY near far : ℝ) (ha : 0 < aspect) (hf0 : 0 < fovY) (hf1 : fovY < Real.pi) (hn : 0 < near) (hnf : near < far) :
    (∀ x y z, applyRow (perspective aspect fovY near far) ![x, y, z] 3 = -z) ∧
    (∀ x y, applyRow (perspective aspect fovY near far) ![x, y, -near] 2 / near = -1) ∧
    (∀ x y, applyRow (perspective aspect fovY near far) ![x, y, -far] 2 / far = 1) ∧
    (∀ x y x' y' d d', 0 < d → d < d' → applyRow (perspective aspect fovY near far) ![x, y, -d] 2 / d <
      applyRow (perspective aspect fovY near far) ![x', y', -d'] 2 / d') ∧
    (∀ x y d, 0 < d → (|applyRow (perspective aspect fovY near far) ![x, y, -d] 0 / d| ≤ 1 ↔ |x| ≤ aspect * (d * Real.tan (fovY / 2)))) ∧
    (∀ x y d, 0 < d → (|applyRow (perspective aspect fovY near far) ![x, y, -d] 1 / d| ≤ 1 ↔ |y| ≤ d * Real.tan (fovY / 2))) ∧
    (∀ y d, 0 < d → applyRow (perspective aspect fovY near far) ![aspect * (d * Real.tan (fovY / 2)), y, -d] 0 / d = 1) ∧
    (∀ x d, 0 < d → applyRow (perspective aspect fovY near far) ![x, d * Real.tan (fovY / 2), -d] 1 / d = 1) := by
  have ht : 0 < Real.tan (fovY / 2) := Real.tan_pos_of_pos_of_lt_pi_div_two (by linarith) (by linarith)
  have hf : far - near ≠ 0 := by linarith
  have hf' : near - far ≠ 0 := by linarith
  have hfar : 0 < far := hn.trans hnf
  have e : ∀ x y z, applyRow (perspective aspect fovY near far) ![x, y, z] =
      ![x * (1 / Real.tan (fovY / 2) / aspect), y * (1 / Real.tan (fovY / 2)), z * ((far + near) * (1 / (near - far))) + 2 * far * near * (1 / (near - far)), -z] := by
    intro x y z
    funext i
    fin_cases i <;> simp [applyRow, hom, perspective, Matrix.vecMul, dotProduct, Fin.sum_univ_four]
  simp only [e]
  refine ⟨fun x y z => by simp, fun x y => ?_, fun x y => ?_, fun x y x' y' d d' h1 h2 => ?_, fun x y d h => ?_, fun x y d h => ?_, fun y d h => ?_, fun x d h => ?_⟩
  · simp
    field_simp
    ring
  · simp
    field_simp
    ring
  · have h3 := h1.trans h2
    have key : ∀ d, 0 < d → (-d * ((far + near) * (1 / (near - far))) + 2 * far * near * (1 / (near - far))) / d =
        (far + near) / (far - near) - 2 * far * near / (far - near) * (1 / d) := by
      intro d hd
      have : near - far = -(far - near) := by ring
      rw [this]
      field_simp
      ring
    show (-d * _ + _) / d < (-d' * _ + _) / d'
    rw [key d h1, key d' h3]
    have hpos : 0 < 2 * far * near / (far - near) := div_pos (by positivity) (by linarith)
    have := mul_lt_mul_of_pos_left (one_div_lt_one_div_of_lt h1 h2) hpos
    linarith
  · show |x * (1 / Real.tan (fovY / 2) / aspect) / d| ≤ 1 ↔ _
    have : x * (1 / Real.tan (fovY / 2) / aspect) / d = x / (aspect * (d * Real.tan (fovY / 2))) := by field_simp
    rw [this, abs_div, abs_of_pos (show 0 < aspect * (d * Real.tan (fovY / 2)) by positivity), div_le_one (by positivity)]
  · show |y * (1 / Real.tan (fovY / 2)) / d| ≤ 1 ↔ _
    have : y * (1 / Real.tan (fovY / 2)) / d = y / (d * Real.tan (fovY / 2)) := by field_simp
    rw [this, abs_div, abs_of_pos (show 0 < d * Real.tan (fovY / 2) by positivity), div_le_one (by positivity)]
  · show aspect * (d * Real.tan (fovY / 2)) * (1 / Real.tan (fovY / 2) / aspect) / d = 1
    field_simp
  · show d * Real.tan (fovY / 2) * (1 / Real.tan (fovY / 2)) / d = 1
    field_simp

/-- A wide screen with a right-angled field of view. -/
example : (0 : ℝ) < 16 / 9 ∧ 0 < Real.pi / 2 ∧ Real.pi / 2 < Real.pi ∧ (0 : ℝ) < 1 ∧ (1 : ℝ) < 3 :=
  ⟨by norm_num, by positivity, by linarith [Real.pi_pos], by norm_num, by norm_num⟩

/-- C92 fails: view and projection come out in different conventions. With points as column vectors (as the view matrix needs) the look-at
point at depth `near` does not go to -1 and its homogeneous coordinate is not its depth, and with points as row vectors the view matrix does
not map the eye to the origin. -/
theorem C92_fails : ∃ eye center up : Fin 3 → ℝ, Valid eye center up ∧ ∀ aspect fovY : ℝ, 0 < aspect → 0 < fovY → fovY < Real.pi →
    (let vp := lookAtPerspective eye center up aspect fovY 1 3
     let clip := Matrix.of vp.2 *ᵥ apply vp.1 center
     apply vp.1 center = hom ![0, 0, -1] ∧ clip 3 ≠ 1 ∧ clip 2 / clip 3 ≠ -1 ∧ applyRow vp.1 eye ≠ hom ![0, 0, 0]) := by
  have hv : Valid ![0, 0, 1] ![0, 0, 0] ![0, 1, 0] := by
    refine ⟨fun h => ?_, fun h => ?_⟩
    · have := congrFun h 2
      simp at this
    · have := congrFun h 0
      simp [cross_apply] at this
  refine ⟨![0, 0, 1], ![0, 0, 0], ![0, 1, 0], hv, fun aspect fovY _ _ _ => ?_⟩
  have h1 := (C62_partial _ _ _ hv).2.1
  have h2 : apply (lookAt ![0, 0, 1] ![0, 0, 0] ![0, 1, 0]) ![0, 0, 0] = hom ![0, 0, -1] := by
    rw [h1]
    simp
  have h3 : Matrix.of (perspective aspect fovY 1 3) *ᵥ hom ![0, 0, -1] = ![0, 0, 1, 3] := by
    funext i
    fin_cases i <;> simp [hom, perspective, Matrix.mulVec, dotProduct, Fin.sum_univ_four] <;> norm_num
  refine ⟨h2, ?_, ?_, ?_⟩
  · show (Matrix.of (perspective aspect fovY 1 3) *ᵥ apply (lookAt ![0, 0, 1] ![0, 0, 0] ![0, 1, 0]) ![0, 0, 0]) 3 ≠ 1
    rw [h2, h3]
    show (3 : ℝ) ≠ 1
    norm_num
  · show (Matrix.of (perspective aspect fovY 1 3) *ᵥ apply (lookAt ![0, 0, 1] ![0, 0, 0] ![0, 1, 0]) ![0, 0, 0]) 2 /
      (Matrix.of (perspective aspect fovY 1 3) *ᵥ apply (lookAt ![0, 0, 1] ![0, 0, 0] ![0, 1, 0]) ![0, 0, 0]) 3 ≠ -1
    rw [h2, h3]
    show (1 : ℝ) / 3 ≠ -1
    norm_num
  · intro h
    have := congrFun h 2
    obtain ⟨f, r, u, d, k, hd, hk, hd2, hf, hfu, hru, hr, hu, hrf, hm⟩ := axes hv
    have hf2 := hf 2
    have hd1 : d = 1 := by
      have : d ^ 2 = 1 := by rw [hd2]; simp
      nlinarith
    simp only [lookAtPerspective, hm] at this
    simp [applyRow, hom, Matrix.vecMul, dotProduct, Fin.sum_univ_four] at this
    simp [hd1] at hf2
    linarith

/-- The matrix of a translation. -/
def translation (t : Fin 3 → ℝ) : Matrix (Fin 4) (Fin 4) ℝ := !![1, 0, 0, t 0; 0, 1, 0, t 1; 0, 0, 1, t 2; 0, 0, 0, 1]

theorem translate_entries (m : Mat ℝ 4 4) (t : Fin 3 → ℝ) : Matrix.of (translate m t) =
    !![m 0 0, m 0 1, m 0 2, m 0 0 * t 0 + m 0 1 * t 1 + m 0 2 * t 2 + m 0 3;
       m 1 0, m 1 1, m 1 2, m 1 0 * t 0 + m 1 1 * t 1 + m 1 2 * t 2 + m 1 3;
       m 2 0, m 2 1, m 2 2, m 2 0 * t 0 + m 2 1 * t 1 + m 2 2 * t 2 + m 2 3;
       m 3 0, m 3 1, m 3 2, m 3 3] := by
  ext i j
  fin_cases i <;> fin_cases j <;> simp [translate, setE]

/-- C93, partial. For a matrix whose last row is that of an affine map, `translate` multiplies by the translation on the right: a point is first
moved, then mapped. (Missing: other matrices, for instance projections, see `C93_fails`.) -/
theorem C93_partial (m : Mat ℝ 4 4) (hm : m 3 0 = 0 ∧ m 3 1 = 0 ∧ m 3 2 = 0) (t p : Fin 3 → ℝ) :
    Matrix.of (translate m t) = Matrix.of m * translation t ∧ apply (translate m t) p = apply m (p + t) := by
  have e : Matrix.of (translate m t) = Matrix.of m * translation t := by
    rw [translate_entries]
    ext i j
    fin_cases i <;> fin_cases j <;> simp [translation, Matrix.mul_apply, Fin.sum_univ_four, hm]
  refine ⟨e, ?_⟩
  unfold apply
  rw [e, ← Matrix.mulVec_mulVec]
  congr 1
  funext i
  fin_cases i <;> simp [translation, hom, Matrix.mulVec, dotProduct, Fin.sum_univ_four]

/-- A view matrix is such a matrix. -/
example (eye center up : Fin 3 → ℝ) : lookAt eye center up 3 0 = 0 ∧ lookAt eye center up 3 1 = 0 ∧ lookAt eye center up 3 2 = 0 := by
  simp [lookAt]

/-- C93 fails: translating a projection matrix does not multiply it by the translation, on either side. -/
theorem C93_fails : ∃ t : Fin 3 → ℝ, ∀ aspect fovY : ℝ, 0 < aspect → 0 < fovY → fovY < Real.pi →
    Matrix.of (translate (perspective aspect fovY 1 3) t) ≠ Matrix.of (perspective aspect fovY 1 3) * translation t ∧
    Matrix.of (translate (perspective aspect fovY 1 3) t) ≠ translation t * Matrix.of (perspective aspect fovY 1 3) := by
  refine ⟨![0, 0, 1], fun aspect fovY _ _ _ => ⟨fun h => ?_, fun h => ?_⟩⟩
  · have := congrFun (congrFun h 3) 3
    rw [translate_entries] at this
    simp [translation, perspective, Matrix.mul_apply, Fin.sum_univ_four] at this
    norm_num at this
  · have := congrFun (congrFun h 2) 3
    rw [translate_entries] at this
    simp [translation, perspective, Matrix.mul_apply, Fin.sum_univ_four] at this
    norm_num at this

end Verif.Graphics
