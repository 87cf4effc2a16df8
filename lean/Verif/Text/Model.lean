import Verif.Att.Model

/-!
# Model of the printed forms (`Display`) of vectors, matrices and attitudes

Text is a list of characters. `fmt` is the text that `{}` gives for a scalar (`Display` of `f32`, `f64`); it is a parameter. The formatter is
taken never to fail, so the `?` of the code always goes on.
-/

namespace Verif.Text

open Verif.Mat Verif.Att

variable {α : Type*} (fmt : α → List Char)

/-- `crates/aether_core/src/math/vector.rs:740-751` `Display for Vector`. -/
def showVec {n : ℕ} (v : Fin n → α) : List Char :=
  let f := ['[']
  let f := (List.finRange n).foldl (fun f i =>
    let f := f ++ fmt (v i)
    if i.1 < n - 1 then f ++ [' '] else f) f
  f ++ [']']

/-- `math/matrix.rs:1135-1155` `Display for Matrix`; `attitude/dcm.rs:278-285` prints the matrix. -/
def showMat {m n : ℕ} (a : Mat α m n) : List Char :=
  let f := ['[']
  let f := (List.finRange m).foldl (fun f i =>
    let f := (List.finRange n).foldl (fun f j =>
      let f := f ++ fmt (a i j)
      if j.1 < n - 1 then f ++ [' '] else f) f
    if i.1 < m - 1 then f ++ [';', ' '] else f) f
  f ++ [']']

/-- `attitude/quaternion.rs:471-488` `Display for Quaternion`. -/
def showQuat (q : Quat α) : List Char :=
  ['q', '=', '['] ++ fmt q.w ++ [',', ' '] ++ fmt q.i ++ [',', ' '] ++ fmt q.j ++ [',', ' '] ++ fmt q.k ++ [']']

/-- `attitude/rotation.rs:112-123` `Display for Rotation`. -/
def showRotation (q : Quat α) : List Char := ['R', 'o', 't', 'a', 't', 'i', 'o', 'n', ':', ' '] ++ showQuat fmt q

/-- `coordinate/cartesian.rs:443-456` `Display for Cartesian`. -/
def showCartesian (v : Fin 3 → α) : List Char :=
  ['C', 'a', 'r', 't', 'e', 's', 'i', 'a', 'n', ' ', '[', 'x', ',', 'y', ',', 'z', ']', ':', ' ', '['] ++ fmt (v 0) ++ [',', ' '] ++ fmt (v 1) ++ [',', ' '] ++ fmt (v 2) ++ [']']

end Verif.Text
