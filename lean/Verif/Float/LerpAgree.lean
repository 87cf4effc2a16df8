import Verif.Float.Lerp

/-! # Over the reals the generic interpolation is that of `Verif/Interp/Model.lean` -/

namespace Verif.Float

/-- Over the reals. -/
theorem lerp_real (a b t : ℝ) : lerp a b t = Interp.lerp a b t := by
  unfold lerp Interp.lerp
  rw [smul_eq_mul, mul_comm]

/-- Over the reals. -/
theorem inverseLerp_real (a b v : ℝ) : inverseLerp Interp.eps a b v = Interp.inverseLerp a b v := by
  unfold inverseLerp Interp.inverseLerp
  congr

/-- Over the reals. -/
theorem remap_real (v a b c d : ℝ) : remap Interp.eps v a b c d = Interp.remap v a b c d := by
  unfold remap Interp.remap
  rw [lerp_real, inverseLerp_real]

end Verif.Float
