import Verif.Float.Model
import Verif.Graphics.Model

/-!
# The view matrix over any scalar type
-/

namespace Verif.Float

open Verif.Mat (Mat)

variable {K : Type} [Scalar K]

/-- `math/vector.rs:284-286` `normalize`. -/
def unitOf (v : Fin 3 → K) : Fin 3 → K :=
  let n := Mat.norm Scalar.sqrt v
  fun i => v i / n

/-- `crates/aether_graphics/src/graphics/transforms.rs:7-22` `look_at`. -/
def lookAt (eye center up : Fin 3 → K) : Mat K 4 4 :=
  let f := unitOf fun i => center i - eye i
  let r := unitOf (Mat.cross up f)
  let u := Mat.cross f r
  ![![r 0, r 1, r 2, -Mat.dot r eye],
    ![u 0, u 1, u 2, -Mat.dot u eye],
    ![-f 0, -f 1, -f 2, Mat.dot f eye],
    ![0, 0, 0, 1]]

end Verif.Float
