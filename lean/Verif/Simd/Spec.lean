import Verif.Simd.Model
import Mathlib.Data.Real.Basic
import Mathlib.Algebra.BigOperators.Fin
import Mathlib.Algebra.Order.BigOperators.Group.Finset

/-!
# Specification: rounded arithmetic, and being close to a sum of products

`Fl fl` is the reals with every sum, product and fused multiply-add rounded by `fl`. The standard model of
floating-point arithmetic is `Accurate fl u`: rounding moves a number by at most the fraction `u` of it
(`u = 2⁻⁵³` for `f64`, `2⁻²⁴` for `f32`, as long as nothing overflows or underflows). `fl = id` is exact
arithmetic.
-/

namespace Verif.Simd

/-- A number in the arithmetic rounded by `fl`. -/
structure Fl (fl : ℝ → ℝ) where
  /-- The value. -/
  val : ℝ

variable {fl : ℝ → ℝ}

noncomputable instance : Zero (Fl fl) := ⟨⟨0⟩⟩
noncomputable instance : Add (Fl fl) := ⟨fun a b => ⟨fl (a.val + b.val)⟩⟩
noncomputable instance : Mul (Fl fl) := ⟨fun a b => ⟨fl (a.val * b.val)⟩⟩
noncomputable instance : Fma (Fl fl) := ⟨fun a b c => ⟨fl (a.val * b.val + c.val)⟩⟩

/-- Rounding is relatively accurate to `u`. -/
def Accurate (fl : ℝ → ℝ) (u : ℝ) : Prop := ∀ x, |fl x - x| ≤ u * |x|

/-- `r` is the sum of products `Σ a k * b k` up to the accumulated effect of at most `d` roundings on each
term. -/
def Close (u : ℝ) (d : Nat) {n : Nat} (r : Fl fl) (a b : Fin n → Fl fl) : Prop :=
  |r.val - ∑ k, (a k).val * (b k).val| ≤ ((1 + u) ^ d - 1) * ∑ k, |(a k).val * (b k).val|

/-- The build can run on the processor: the target features the compiler was told to assume are there, and
the `f64`/`f32` registers of a 64-bit ARM are NEON registers. -/
structure RunsOn (b : Build) (c : Cpu) : Prop where
  avx : b.tAvx → c.avx
  fma : b.tFma → c.fma
  sse : b.tSse → c.sse
  sse2 : b.tSse2 → c.sse2
  neon : b.arch = .aarch64 → c.neon

end Verif.Simd
