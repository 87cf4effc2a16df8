import Verif.Simd.Spec
import Verif.Mat.Model
import Mathlib.Data.Matrix.Mul

/-!
# Specification: linear algebra in rounded arithmetic

`Fl fl` (`Verif/Simd/Spec.lean`) is the reals with every operation rounded by `fl`. Here it gets the
operations the factorisations use: subtraction and division are rounded, negation, absolute value and
comparison are exact, as they are for `f64` and `f32`.

`Accurate fl u` is the standard model of floating-point arithmetic, valid as long as nothing overflows or
underflows. `growth u n = (1 - u)⁻ⁿ - 1` is the accumulated relative effect of `n` roundings; it is at most
`n u / (1 - n u)` when `n u < 1`.
-/

namespace Verif.Round

open Verif.Simd (Fl Accurate)
open Verif.Mat (Mat AbsVal Lu)

variable {fl : ℝ → ℝ} {n : Nat}

noncomputable instance : One (Fl fl) := ⟨⟨1⟩⟩
noncomputable instance : Neg (Fl fl) := ⟨fun a => ⟨-a.val⟩⟩
noncomputable instance : Sub (Fl fl) := ⟨fun a b => ⟨fl (a.val - b.val)⟩⟩
noncomputable instance : Div (Fl fl) := ⟨fun a b => ⟨fl (a.val / b.val)⟩⟩
noncomputable instance : AbsVal (Fl fl) := ⟨fun a => ⟨|a.val|⟩⟩
instance : LT (Fl fl) := ⟨fun a b => a.val < b.val⟩
instance : LE (Fl fl) := ⟨fun a b => a.val ≤ b.val⟩
noncomputable instance : DecidableLT (Fl fl) := fun _ _ => Classical.propDecidable _
noncomputable instance : DecidableLE (Fl fl) := fun _ _ => Classical.propDecidable _

/-- A matrix of rounded numbers as a matrix of reals. -/
def val {m : Nat} (a : Mat (Fl fl) m n) : Matrix (Fin m) (Fin n) ℝ := Matrix.of fun i j => (a i j).val

/-- A vector of rounded numbers as a vector of reals. -/
def valV (b : Fin n → Fl fl) : Fin n → ℝ := fun i => (b i).val

/-- The unit lower triangular factor stored in an LU decomposition. -/
def lower (d : Lu (Fl fl) n) : Matrix (Fin n) (Fin n) ℝ :=
  Matrix.of fun i j => if j < i then (d.lu i j).val else if i = j then 1 else 0

/-- The upper triangular factor stored in an LU decomposition. -/
def upper (d : Lu (Fl fl) n) : Matrix (Fin n) (Fin n) ℝ :=
  Matrix.of fun i j => if i ≤ j then (d.lu i j).val else 0

/-- The entrywise absolute value of a matrix. -/
def absM (a : Matrix (Fin n) (Fin n) ℝ) : Matrix (Fin n) (Fin n) ℝ := Matrix.of fun i j => |a i j|

/-- The accumulated relative effect of `n` roundings. -/
noncomputable def growth (u : ℝ) (n : Nat) : ℝ := ((1 - u) ^ n)⁻¹ - 1

end Verif.Round
