import Verif.Round.Spec
import Verif.Att.Model

/-!
# Specification: geometry in rounded arithmetic

The arithmetic is that of `Verif/Round/Spec.lean`: `Fl fl` is the reals with every operation rounded by `fl`, and
`Accurate fl u` says that rounding moves a number by at most the fraction `u` of it. The square root is rounded like the
other operations; sine and cosine are those of some mathematics library, as accurate as `m` roundings.
-/

namespace Verif.Geom

open Verif.Simd (Fl Accurate)
open Verif.Round (growth)
open Verif.Att (Quat)

variable {fl : ℝ → ℝ} {n : Nat}

/-- The length of a vector. -/
noncomputable def len (v : Fin n → ℝ) : ℝ := √(∑ i, v i ^ 2)

/-- The distance of two vectors. -/
noncomputable def dist (v w : Fin n → ℝ) : ℝ := len fun i => v i - w i

/-- The length of a quaternion. -/
noncomputable def qlen (q : Quat ℝ) : ℝ := √(q.w ^ 2 + q.i ^ 2 + q.j ^ 2 + q.k ^ 2)

/-- The distance of two quaternions. -/
noncomputable def qdist (p q : Quat ℝ) : ℝ := qlen ⟨p.w - q.w, p.i - q.i, p.j - q.j, p.k - q.k⟩

/-- The value of a quaternion of rounded numbers. -/
def qval (q : Quat (Fl fl)) : Quat ℝ := ⟨q.w.val, q.i.val, q.j.val, q.k.val⟩

/-- The square root, correctly rounded. -/
noncomputable def rsqrt (a : Fl fl) : Fl fl := ⟨fl √a.val⟩

/-- A function of the library, which need not be correctly rounded. -/
def lift (f : ℝ → ℝ) (a : Fl fl) : Fl fl := ⟨f a.val⟩

/-- The library's `f` is as accurate as `m` roundings of the function `g`. -/
def Library (u : ℝ) (m : Nat) (f g : ℝ → ℝ) : Prop := ∀ x, |f x - g x| ≤ growth u m * |g x|

end Verif.Geom
