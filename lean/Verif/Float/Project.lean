import Verif.Float.Model

/-!
# The projection matrix over any scalar type
-/

namespace Verif.Float

open Verif.Mat (Mat)

variable {K : Type} [Scalar K]

/-- `crates/aether_graphics/src/graphics/transforms.rs:24-45` `perspective`; `tan` is the tangent of the scalar type and `two`
the constant 2. -/
def perspective (tan : K → K) (two aspect fovY near far : K) : Mat K 4 4 :=
  let f := 1 / tan (fovY / two)
  let nf := 1 / (near - far)
  ![![f / aspect, 0, 0, 0],
    ![0, f, 0, 0],
    ![0, 0, (far + near) * nf, -1],
    ![0, 0, two * far * near * nf, 0]]

end Verif.Float
