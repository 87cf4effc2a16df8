import Verif.Round.PropsDet

/-! # The inverse of a 3 × 3 matrix over any scalar type -/

namespace Verif.Round

open Verif.Mat

/-- `math/matrix.rs:699-725`: `Matrix<T, 3, 3>::inverse`, with the threshold (`1e-12` in the code) as a parameter. -/
def inverse3Of {K : Type*} [Zero K] [One K] [Neg K] [Sub K] [Mul K] [Div K] [AbsVal K] [LT K] [DecidableLT K] [LE K] [DecidableLE K]
    (eps : K) (m : Mat K 3 3) : Option (Mat K 3 3) :=
  let det := determinant eps m
  if absV det ≤ eps then none
  else
    let inv_det := 1 / det
    some ![![(m 1 1 * m 2 2 - m 1 2 * m 2 1) * inv_det,
             -(m 0 1 * m 2 2 - m 0 2 * m 2 1) * inv_det,
             (m 0 1 * m 1 2 - m 0 2 * m 1 1) * inv_det],
           ![-(m 1 0 * m 2 2 - m 1 2 * m 2 0) * inv_det,
             (m 0 0 * m 2 2 - m 0 2 * m 2 0) * inv_det,
             -(m 0 0 * m 1 2 - m 1 0 * m 0 2) * inv_det],
           ![(m 1 0 * m 2 1 - m 1 1 * m 2 0) * inv_det,
             -(m 0 0 * m 2 1 - m 0 1 * m 2 0) * inv_det,
             (m 0 0 * m 1 1 - m 0 1 * m 1 0) * inv_det]]

end Verif.Round
