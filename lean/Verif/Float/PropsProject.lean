import Verif.Float.Project
import Verif.Float.Eval
import Verif.Float.Rel
import Verif.Graphics.PropsView

/-!
# The projection matrix in floating point (C228)
-/

namespace Verif.Float

open Verif.Mat (Mat)
open Verif.Graphics (applyRow hom)

variable {fl : ℝ → ℝ} {lib : Libm} {p : ℕ}

/-- A tangent function of the platform. -/
noncomputable def flTan (fl : ℝ → ℝ) (lib : Libm) (tn : ℝ → ℝ) : CF fl lib → CF fl lib := CF.op1 (fun _ => True) tn

/-- The computed tangent of an angle below a right angle is right up to `k` roundings. -/
def TanNear (tn : ℝ → ℝ) (u k : ℝ) : Prop := ∀ x, 0 < x → x < Real.pi / 2 → Rel u k (tn x) (Real.tan x)

/-- What the computed projection is. -/
theorem project_entries (hp : 24 ≤ p) (h : Nearest p fl) {tn : ℝ → ℝ} {k : ℝ} (hk0 : 0 ≤ k) (hk : k ≤ 40)
    (ht : TanNear tn (2 ^ (-p : ℤ)) k) {aspect fovY near far : ℝ} (ha : 0 < aspect) (hf0 : 0 < fovY) (hf1 : fovY < Real.pi)
    (hff : IsFloat p fovY) (hnf : near < far) :
    ∃ X Y A B : ℝ, perspective (flTan fl lib tn) (CF.num 2) (CF.num aspect) (CF.num fovY) (CF.num near) (CF.num far) =
        (fun i j => CF.num ((![![X, 0, 0, 0], ![0, Y, 0, 0], ![0, 0, A, -1], ![0, 0, B, 0]] : Mat ℝ 4 4) i j)) ∧
      Rel (2 ^ (-p : ℤ)) (k + 21 / 10) X (1 / Real.tan (fovY / 2) / aspect) ∧
      Rel (2 ^ (-p : ℤ)) (k + 11 / 10) Y (1 / Real.tan (fovY / 2)) ∧
      Rel (2 ^ (-p : ℤ)) (41 / 10) A ((far + near) * (1 / (near - far))) ∧
      Rel (2 ^ (-p : ℤ)) (51 / 10) B (2 * far * near * (1 / (near - far))) := by
  have hs := nearest_small hp h
  have hhalf : fl (fovY / 2) = fovY / 2 := by
    refine h.fix ?_
    have := hff.scale (-1)
    rwa [zpow_neg_one, ← div_eq_mul_inv] at this
  have tpos : 0 < Real.tan (fovY / 2) := Real.tan_pos_of_pos_of_lt_pi_div_two (by linarith) (by linarith)
  have t1 := ht (fovY / 2) (by linarith) (by linarith)
  have t1p := t1.pos hs hk0 (by linarith) tpos
  have t2 := (Rel.div hs le_rfl (by norm_num) hk0 (by linarith) (Rel.refl _ 1) t1 tpos.ne').round hs (by linarith) (by linarith)
  have t3 := (Rel.div hs (by linarith) (by linarith) le_rfl (by norm_num) t2 (Rel.refl _ aspect) ha.ne').round hs (by linarith) (by linarith)
  have hd : near - far ≠ 0 := by linarith
  have s1 := hs.rel (near - far)
  have s1n : fl (near - far) ≠ 0 := by
    intro h0
    rw [h0] at s1
    unfold Rel at s1
    rw [zero_sub, abs_neg, one_mul] at s1
    have := hs.le
    have := abs_pos.2 hd
    nlinarith
  have s2 := (Rel.div hs le_rfl (by norm_num) zero_le_one (by norm_num) (Rel.refl _ 1) s1 hd).round hs (by norm_num) (by norm_num)
  have a1 := (Rel.mul hs zero_le_one (by norm_num) (by norm_num) (by norm_num) (hs.rel (far + near)) s2).round hs (by norm_num) (by norm_num)
  have b1 := (Rel.mul hs zero_le_one (by norm_num) le_rfl (by norm_num) (hs.rel (2 * far)) (Rel.refl _ near)).round hs (by norm_num) (by norm_num)
  have b2 := (Rel.mul hs (by norm_num) (by norm_num) (by norm_num) (by norm_num) b1 s2).round hs (by norm_num) (by norm_num)
  refine ⟨fl (fl (1 / tn (fovY / 2)) / aspect), fl (1 / tn (fovY / 2)), fl (fl (far + near) * fl (1 / fl (near - far))),
    fl (fl (fl (2 * far) * near) * fl (1 / fl (near - far))), ?_, t3.mono hs (by linarith), t2.mono hs (by linarith),
    a1.mono hs (by norm_num), b2.mono hs (by norm_num)⟩
  have e1 : flTan fl lib tn (CF.num (fovY / 2)) = CF.num (tn (fovY / 2)) := cf_op1 _ _ trivial
  unfold perspective
  dsimp only
  rw [cf_one, cf_zero, cf_div _ (two_ne_zero), hhalf, e1, cf_div _ t1p.ne', cf_div _ ha.ne', cf_sub, cf_div _ s1n, cf_add, cf_mul, cf_mul, cf_mul,
    cf_mul, cf_neg]
  funext i j
  fin_cases i <;> fin_cases j <;> rfl

/-- C228. The computed projection consists of numbers, and used on points it is a projection up to rounding: the homogeneous
coordinate is exactly the depth; greater depth goes to greater depth, exactly; the near and far planes go to -1 and 1 and the
edges of the field of view to 1, up to a few roundings, where those of the planes are multiplied by how close the planes are. -/
theorem C228_frustum (hp : 24 ≤ p) (h : Nearest p fl) {tn : ℝ → ℝ} {k : ℝ} (hk0 : 0 ≤ k) (hk : k ≤ 40)
    (ht : TanNear tn (2 ^ (-p : ℤ)) k) {aspect fovY near far : ℝ} (ha : 0 < aspect) (hf0 : 0 < fovY) (hf1 : fovY < Real.pi)
    (hff : IsFloat p fovY) (hn : 0 < near) (hnf : near < far) :
    ∃ M : Mat ℝ 4 4, perspective (flTan fl lib tn) (CF.num 2) (CF.num aspect) (CF.num fovY) (CF.num near) (CF.num far) =
        (fun i j => CF.num (M i j)) ∧
      (∀ x y z, applyRow M ![x, y, z] 3 = -z) ∧
      (∀ x y x' y' d d', 0 < d → d < d' → applyRow M ![x, y, -d] 2 / d < applyRow M ![x', y', -d'] 2 / d') ∧
      (∀ x y, |applyRow M ![x, y, -near] 2 / near - -1| ≤ 51 / 10 * 2 ^ (-p : ℤ) * ((3 * far + near) / (far - near))) ∧
      (∀ x y, |applyRow M ![x, y, -far] 2 / far - 1| ≤ 51 / 10 * 2 ^ (-p : ℤ) * ((far + 3 * near) / (far - near))) ∧
      (∀ y d, 0 < d → |applyRow M ![aspect * (d * Real.tan (fovY / 2)), y, -d] 0 / d - 1| ≤ (k + 21 / 10) * 2 ^ (-p : ℤ)) ∧
      (∀ x d, 0 < d → |applyRow M ![x, d * Real.tan (fovY / 2), -d] 1 / d - 1| ≤ (k + 11 / 10) * 2 ^ (-p : ℤ)) := by
  have hs := nearest_small hp h
  obtain ⟨X, Y, A, B, e, hX, hY, hA, hB⟩ := project_entries (lib := lib) hp h hk0 hk ht ha hf0 hf1 hff hnf
  have tpos : 0 < Real.tan (fovY / 2) := Real.tan_pos_of_pos_of_lt_pi_div_two (by linarith) (by linarith)
  have hfar : 0 < far := hn.trans hnf
  have hfn : 0 < far - near := by linarith
  have hnf' : near - far ≠ 0 := by linarith
  generalize hu : (2 : ℝ) ^ (-p : ℤ) = u at *
  have hu0 := hs.pos
  refine ⟨_, e, ?_⟩
  have r : ∀ x y z, applyRow (![![X, 0, 0, 0], ![0, Y, 0, 0], ![0, 0, A, -1], ![0, 0, B, 0]] : Mat ℝ 4 4) ![x, y, z] =
      ![x * X, y * Y, z * A + B, -z] := by
    intro x y z
    funext i
    fin_cases i <;> simp [applyRow, hom, Matrix.vecMul, dotProduct, Fin.sum_univ_four]
  simp only [r]
  have hB0 : B < 0 := by
    have h1 : 0 < -(2 * far * near * (1 / (near - far))) := by
      rw [show -(2 * far * near * (1 / (near - far))) = 2 * far * near / (far - near) by field_simp; ring]
      positivity
    have h2 : Rel u (51 / 10) (-B) (-(2 * far * near * (1 / (near - far)))) := by
      unfold Rel at *
      rwa [abs_neg, show -B - -(2 * far * near * (1 / (near - far))) = -(B - 2 * far * near * (1 / (near - far))) by ring, abs_neg]
    linarith [h2.pos hs (by norm_num) (by norm_num) h1]
  have eA : (far + near) * (1 / (near - far)) = -((far + near) / (far - near)) := by
    rw [show near - far = -(far - near) by ring]; field_simp
  have eB : 2 * far * near * (1 / (near - far)) = -(2 * far * near / (far - near)) := by
    rw [show near - far = -(far - near) by ring]; field_simp
  unfold Rel at hA hB hX hY
  rw [eA, abs_neg, abs_of_pos (show 0 < (far + near) / (far - near) by positivity)] at hA
  rw [eB, abs_neg, abs_of_pos (show 0 < 2 * far * near / (far - near) by positivity)] at hB
  refine ⟨fun x y z => by simp, fun x y x' y' d d' h1 h2 => ?_, fun x y => ?_, fun x y => ?_, fun y d hd => ?_, fun x d hd => ?_⟩
  · have h3 := h1.trans h2
    simp
    rw [show (-(d * A) + B) / d = -A + B / d by field_simp, show (-(d' * A) + B) / d' = -A + B / d' by field_simp]
    have : B / d < B / d' := by
      rw [div_lt_div_iff₀ h1 h3]
      nlinarith
    linarith
  · simp only [Matrix.cons_val]
    have e1 : (-near * A + B) / near - -1 = -(A - -((far + near) / (far - near))) + (B - -(2 * far * near / (far - near))) / near := by
      field_simp
      ring
    rw [e1]
    have h1 := abs_add_le (-(A - -((far + near) / (far - near)))) ((B - -(2 * far * near / (far - near))) / near)
    rw [abs_neg, abs_div, abs_of_pos hn] at h1
    have h2 := div_le_div_of_nonneg_right hB hn.le
    rw [show 51 / 10 * u * (2 * far * near / (far - near)) / near = 51 / 10 * u * (2 * far / (far - near)) by field_simp] at h2
    have h3 : 41 / 10 * u * ((far + near) / (far - near)) ≤ 51 / 10 * u * ((far + near) / (far - near)) := by gcongr; norm_num
    have e2 : 51 / 10 * u * ((far + near) / (far - near)) + 51 / 10 * u * (2 * far / (far - near)) =
      51 / 10 * u * ((3 * far + near) / (far - near)) := by ring
    linarith
  · simp only [Matrix.cons_val]
    have e1 : (-far * A + B) / far - 1 = -(A - -((far + near) / (far - near))) + (B - -(2 * far * near / (far - near))) / far := by
      field_simp
      ring
    rw [e1]
    have h1 := abs_add_le (-(A - -((far + near) / (far - near)))) ((B - -(2 * far * near / (far - near))) / far)
    rw [abs_neg, abs_div, abs_of_pos hfar] at h1
    have h2 := div_le_div_of_nonneg_right hB hfar.le
    rw [show 51 / 10 * u * (2 * far * near / (far - near)) / far = 51 / 10 * u * (2 * near / (far - near)) by field_simp] at h2
    have h3 : 41 / 10 * u * ((far + near) / (far - near)) ≤ 51 / 10 * u * ((far + near) / (far - near)) := by gcongr; norm_num
    have e2 : 51 / 10 * u * ((far + near) / (far - near)) + 51 / 10 * u * (2 * near / (far - near)) =
      51 / 10 * u * ((far + 3 * near) / (far - near)) := by ring
    linarith
  · simp only [Matrix.cons_val]
    have e1 : aspect * (d * Real.tan (fovY / 2)) * X / d - 1 = aspect * Real.tan (fovY / 2) * (X - 1 / Real.tan (fovY / 2) / aspect) := by
      field_simp
    rw [e1, abs_mul, abs_of_pos (by positivity)]
    rw [abs_of_pos (a := 1 / Real.tan (fovY / 2) / aspect) (by positivity)] at hX
    refine (mul_le_mul_of_nonneg_left hX (by positivity)).trans (le_of_eq ?_)
    field_simp
  · simp only [Matrix.cons_val]
    have e1 : d * Real.tan (fovY / 2) * Y / d - 1 = Real.tan (fovY / 2) * (Y - 1 / Real.tan (fovY / 2)) := by
      field_simp
    rw [e1, abs_mul, abs_of_pos tpos]
    rw [abs_of_pos (a := 1 / Real.tan (fovY / 2)) (by positivity)] at hY
    refine (mul_le_mul_of_nonneg_left hY (by positivity)).trans (le_of_eq ?_)
    field_simp

/-- Planes at 1/10 and 100 and a field of view of one radian, in single precision, with a correctly rounded tangent. -/
example : TanNear (fun x => rnd 24 (Real.tan x)) (2 ^ (-(24 : ℕ) : ℤ)) 1 ∧ IsFloat 24 1 ∧ (1 : ℝ) < Real.pi :=
  ⟨fun x _ _ => (nearest_small le_rfl (rnd_nearest (by norm_num))).rel _, isFloat_one (by norm_num), by linarith [Real.two_le_pi]⟩

/-- Over the reals this is `Verif.Graphics.perspective`. -/
theorem perspective_agree (aspect fovY near far : ℝ) : perspective Real.tan 2 aspect fovY near far = Graphics.perspective aspect fovY near far := rfl

end Verif.Float
