import Verif.Shapes.PropsMass
import Verif.Shapes.PropsSolid

/-!
# Assemblies of the library's solids (C53, C54)
-/

namespace Verif.Shapes

open MeasureTheory

/-- C53, C54. So every mass model of one of the shapes, with any orientation and position, describes the shape filled uniformly, turned and
moved there: the theorems C53 apply to all of them. -/
theorem C53_solids (s : Solid ℝ) (region : Set (Fin 3 → ℝ)) (hs : s.Right region) (ρ : ℝ) (hρ : 0 ≤ ρ)
    (R : Verif.Mat.Mat ℝ 3 3) (hR : Matrix.of R * (Matrix.of R).transpose = 1) (t : Fin 3 → ℝ) :
    (Model.mk s ρ R t).Describes ((uniform ρ region).map fun x i => (∑ j, R i j * x j) + t i) :=
  C53_place ⟨s, ρ, R, t⟩ _ hR (hs.2 ρ hρ)

/-- A ball of radius 1 and a block, each of density 1, side by side: the hypotheses of C53 and C54 are met. -/
example : ∃ (a b : Model ℝ) (P : MassProps ℝ) (μ ν : Measure (Fin 3 → ℝ)), a.Describes μ ∧ b.Describes ν ∧ a.add b = some P ∧ P.mass = 4 / 3 * Real.pi + 1 := by
  have hR : Matrix.of (fun i j : Fin 3 => if i = j then (1 : ℝ) else 0) = 1 := by ext i j; simp [Matrix.one_apply]
  have hR' : Matrix.of (fun i j : Fin 3 => if i = j then (1 : ℝ) else 0)
      * (Matrix.of (fun i j : Fin 3 => if i = j then (1 : ℝ) else 0)).transpose = 1 := by rw [hR]; simp
  have hp := Real.pi_pos
  refine ⟨_, _, _, _, _, C53_solids _ _ (C54_sphere 1 zero_le_one) 1 zero_le_one _ hR' ![0, 0, 0],
    C53_solids _ _ (C54_prism 1 1 1 zero_le_one zero_le_one zero_le_one) 1 zero_le_one _ hR' ![3, 0, 0],
    (add_eq _ _).trans (if_neg ?_), ?_⟩
  · norm_num [sphere, sphereOf, prism, prismOf]
    exact ⟨by positivity, by positivity⟩
  · norm_num [sphere, sphereOf, prism, prismOf]

end Verif.Shapes
