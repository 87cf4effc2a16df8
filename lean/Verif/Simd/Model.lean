import Verif.Mat.Model

/-!
# Model of the vector-instruction kernels and of the functions that choose between them

`crates/aether_core/src/math/arch/x86/{matrix_simd,vector_simd}.rs`, `arch/arm/{neon,m33_dsp}.rs` and the
dispatchers in `math/matrix.rs` and `math/vector.rs`.

A register with `k` lanes is `Fin k → α`. The kernels are `unsafe`: a load or a store that leaves the array it
was derived from, an index panic, and executing an instruction the CPU does not have are all `none` here, so
"the result is `some _`" says that the call is free of these. The scalar type carries only `+`, `*`, `0` and a
fused multiply-add, without laws: the same definitions are used with exact and with rounded arithmetic.

Not modelled: alignment (all the loads are the unaligned ones), the aliasing rules between the raw row pointer
and the array it points into, signed zeros, infinities and NaN.
-/

namespace Verif.Simd

open Verif.Mat (Mat)

/-- A fused multiply-add `a * b + c`, rounded once. -/
class Fma (α : Type*) where
  /-- `a * b + c`. -/
  fma : α → α → α → α

export Fma (fma)

section
variable {α : Type*}

/-! ## Memory and lanes -/

/-- `_mm256_loadu_pd(p.add(off))`, `_mm_loadu_ps`, `vld1q_f32`, … : `k` consecutive elements of an array of
`n`. -/
def load (k : Nat) {n : Nat} (p : Fin n → α) (off : Nat) : Option (Fin k → α) :=
  if h : off + k ≤ n then some fun l => p ⟨off + l.val, by omega⟩ else none

/-- `_mm256_storeu_pd(p.add(off), w)`, `vst1q_f32`, … -/
def store {k n : Nat} (p : Fin n → α) (off : Nat) (w : Fin k → α) : Option (Fin n → α) :=
  if off + k ≤ n then
    some fun j => if h : off ≤ j.val ∧ j.val < off + k then w ⟨j.val - off, by omega⟩ else p j
  else none

/-- Checked array indexing `p[j]`. -/
def idx {n : Nat} (p : Fin n → α) (j : Nat) : Option α := if h : j < n then some (p ⟨j, h⟩) else none

/-- Checked assignment `p[j] = x`. -/
def setIdx {n : Nat} (p : Fin n → α) (j : Nat) (x : α) : Option (Fin n → α) :=
  if h : j < n then some (Function.update p ⟨j, h⟩ x) else none

/-- `_mm256_mul_pd`, `_mm_mul_ps`, `vmulq_f32`, … -/
def mulL [Mul α] {k : Nat} (a b : Fin k → α) : Fin k → α := fun l => a l * b l

/-- `_mm256_add_pd`, `vaddq_f64`, … -/
def addL [Add α] {k : Nat} (a b : Fin k → α) : Fin k → α := fun l => a l + b l

/-- `_mm256_fmadd_pd(a, b, c)`, `_mm_fmadd_ps`, … -/
def fmaL [Fma α] {k : Nat} (a b c : Fin k → α) : Fin k → α := fun l => fma (a l) (b l) (c l)

/-- `_mm256_setzero_pd`, `vdupq_n_f32(0.0)`, and a fresh `[0.0; k]`. -/
def zeroL [Zero α] (k : Nat) : Fin k → α := fun _ => 0

/-- `_mm256_set1_pd`. -/
def set1 (k : Nat) (a : α) : Fin k → α := fun _ => a

/-- `_mm256_set_ps(e7, …, e0)`: the arguments are in descending lane order. -/
def set8 (e7 e6 e5 e4 e3 e2 e1 e0 : α) : Fin 8 → α := ![e0, e1, e2, e3, e4, e5, e6, e7]

/-- `vfmaq_n_f32(c, b, a)` and `vfmaq_n_f64`: `c + b * a`, fused. -/
def vfmaN [Fma α] {k : Nat} (c b : Fin k → α) (a : α) : Fin k → α := fun l => fma (b l) a (c l)

/-- `vmlaq_n_f32(c, b, a)`: `c + b * a`, product and sum rounded separately. -/
def vmlaN [Add α] [Mul α] {k : Nat} (c b : Fin k → α) (a : α) : Fin k → α := fun l => c l + b l * a

/-- `vaddvq_f32`: pairwise sum of four lanes. -/
def vaddv4 [Add α] (a : Fin 4 → α) : α := (a 0 + a 1) + (a 2 + a 3)

/-- `vaddvq_f64`, `vaddv_f32`: sum of two lanes. -/
def vaddv2 [Add α] (a : Fin 2 → α) : α := a 0 + a 1

/-- `for i in 0..M { out.data[i] = … }` over a vector. -/
def rows {m : Nat} [Zero α] (f : Fin m → Option α) : Option (Fin m → α) :=
  (List.finRange m).foldlM (fun out i => do
    let x ← f i
    some (Function.update out i x)) (fun _ => 0)

/-- `for i in 0..M { … }` over the rows of a matrix, where the body reads and writes row `i` only. The row is
threaded through the body and written back, in place of the pointer `c_row` into it. -/
def matRows {m p : Nat} [Zero α] (f : Fin m → (Fin p → α) → Option (Fin p → α)) : Option (Mat α m p) :=
  (List.finRange m).foldlM (fun out i => do
    let r ← f i (out i)
    some (Function.update out i r)) (fun _ _ => 0)

end

section Kernels
variable {α : Type*} [Zero α] [Add α] [Mul α] [Fma α] {m n p : Nat}

/-! ## x86: dot product -/

/-- `arch/x86/vector_simd.rs:8-17` `dot4_avx_fma_f64`. -/
def dot4AvxFmaF64 (a b : Fin 4 → α) : Option α := do
  let av ← load 4 a 0
  let bv ← load 4 b 0
  let lanes ← store (zeroL 4) 0 (fmaL av bv (zeroL 4))
  some (lanes 0 + lanes 1 + lanes 2 + lanes 3)

/-- `arch/x86/vector_simd.rs:19-26` `dot4_avx_f64`. -/
def dot4AvxF64 (a b : Fin 4 → α) : Option α := do
  let av ← load 4 a 0
  let bv ← load 4 b 0
  let lanes ← store (zeroL 4) 0 (mulL av bv)
  some (lanes 0 + lanes 1 + lanes 2 + lanes 3)

/-- `arch/x86/vector_simd.rs:29-36` `dot4_sse_fma_f32`. -/
def dot4SseFmaF32 (a b : Fin 4 → α) : Option α := do
  let av ← load 4 a 0
  let bv ← load 4 b 0
  let lanes ← store (zeroL 4) 0 (fmaL av bv (zeroL 4))
  some (lanes 0 + lanes 1 + lanes 2 + lanes 3)

/-- `arch/x86/vector_simd.rs:39-46` `dot4_sse_f32`. -/
def dot4SseF32 (a b : Fin 4 → α) : Option α := do
  let av ← load 4 a 0
  let bv ← load 4 b 0
  let lanes ← store (zeroL 4) 0 (mulL av bv)
  some (lanes 0 + lanes 1 + lanes 2 + lanes 3)

/-! ## x86: matrix times vector -/

/-- `arch/x86/matrix_simd.rs:8-36` `mul_vec6_avx_fma_f64`. -/
def mulVec6AvxFmaF64 (a : Mat α m 6) (v : Fin 6 → α) : Option (Fin m → α) := do
  let v0123 ← load 4 v 0
  let v45 ← load 2 v 4
  rows fun i => do
    let r0123 ← load 4 (a i) 0
    let r45 ← load 2 (a i) 4
    let lanes4 ← store (zeroL 4) 0 (fmaL r0123 v0123 (zeroL 4))
    let lanes2 ← store (zeroL 2) 0 (mulL r45 v45)
    some (lanes4 0 + lanes4 1 + lanes4 2 + lanes4 3 + lanes2 0 + lanes2 1)

/-- `arch/x86/matrix_simd.rs:38-66` `mul_vec6_avx_f64`. -/
def mulVec6AvxF64 (a : Mat α m 6) (v : Fin 6 → α) : Option (Fin m → α) := do
  let v0123 ← load 4 v 0
  let v45 ← load 2 v 4
  rows fun i => do
    let r0123 ← load 4 (a i) 0
    let r45 ← load 2 (a i) 4
    let lanes4 ← store (zeroL 4) 0 (mulL r0123 v0123)
    let lanes2 ← store (zeroL 2) 0 (mulL r45 v45)
    some (lanes4 0 + lanes4 1 + lanes4 2 + lanes4 3 + lanes2 0 + lanes2 1)

/-- `arch/x86/matrix_simd.rs:68-97` `mul_vec6_fma128_f64`. -/
def mulVec6Fma128F64 (a : Mat α m 6) (v : Fin 6 → α) : Option (Fin m → α) := do
  let v01 ← load 2 v 0
  let v23 ← load 2 v 2
  let v45 ← load 2 v 4
  rows fun i => do
    let r01 ← load 2 (a i) 0
    let r23 ← load 2 (a i) 2
    let r45 ← load 2 (a i) 4
    let acc := fmaL r45 v45 (fmaL r23 v23 (fmaL r01 v01 (zeroL 2)))
    let lanes ← store (zeroL 2) 0 acc
    some (lanes 0 + lanes 1)

/-- `arch/x86/matrix_simd.rs:99-128` `mul_vec6_sse2_f64`. -/
def mulVec6Sse2F64 (a : Mat α m 6) (v : Fin 6 → α) : Option (Fin m → α) := do
  let v01 ← load 2 v 0
  let v23 ← load 2 v 2
  let v45 ← load 2 v 4
  rows fun i => do
    let r01 ← load 2 (a i) 0
    let r23 ← load 2 (a i) 2
    let r45 ← load 2 (a i) 4
    let lanes ← store (zeroL 2) 0 (addL (addL (mulL r01 v01) (mulL r23 v23)) (mulL r45 v45))
    some (lanes 0 + lanes 1)

/-- `arch/x86/matrix_simd.rs:130-146` `mul_vec4_avx_fma_f64`. -/
def mulVec4AvxFmaF64 (a : Mat α m 4) (v : Fin 4 → α) : Option (Fin m → α) := do
  let v ← load 4 v 0
  rows fun i => do
    let r ← load 4 (a i) 0
    let lanes ← store (zeroL 4) 0 (fmaL r v (zeroL 4))
    some (lanes 0 + lanes 1 + lanes 2 + lanes 3)

/-- `arch/x86/matrix_simd.rs:148-164` `mul_vec4_avx_f64`. -/
def mulVec4AvxF64 (a : Mat α m 4) (v : Fin 4 → α) : Option (Fin m → α) := do
  let v ← load 4 v 0
  rows fun i => do
    let r ← load 4 (a i) 0
    let lanes ← store (zeroL 4) 0 (mulL r v)
    some (lanes 0 + lanes 1 + lanes 2 + lanes 3)

/-- `arch/x86/matrix_simd.rs:166-194` `mul_vec6_avx_fma_f32`. -/
def mulVec6AvxFmaF32 (a : Mat α m 6) (v : Fin 6 → α) : Option (Fin m → α) :=
  let v := set8 0 0 (v 5) (v 4) (v 3) (v 2) (v 1) (v 0)
  rows fun i => do
    let r := set8 0 0 (a i 5) (a i 4) (a i 3) (a i 2) (a i 1) (a i 0)
    let lanes ← store (zeroL 8) 0 (fmaL r v (zeroL 8))
    some (lanes 0 + lanes 1 + lanes 2 + lanes 3 + lanes 4 + lanes 5)

/-- `arch/x86/matrix_simd.rs:196-224` `mul_vec6_avx_f32`. -/
def mulVec6AvxF32 (a : Mat α m 6) (v : Fin 6 → α) : Option (Fin m → α) :=
  let v := set8 0 0 (v 5) (v 4) (v 3) (v 2) (v 1) (v 0)
  rows fun i => do
    let r := set8 0 0 (a i 5) (a i 4) (a i 3) (a i 2) (a i 1) (a i 0)
    let lanes ← store (zeroL 8) 0 (mulL r v)
    some (lanes 0 + lanes 1 + lanes 2 + lanes 3 + lanes 4 + lanes 5)

/-- `arch/x86/matrix_simd.rs:226-247` `mul_vec6_fma128_f32`. -/
def mulVec6Fma128F32 (a : Mat α m 6) (v : Fin 6 → α) : Option (Fin m → α) := do
  let v0123 ← load 4 v 0
  rows fun i => do
    let r0123 ← load 4 (a i) 0
    let lanes ← store (zeroL 4) 0 (fmaL r0123 v0123 (zeroL 4))
    some (lanes 0 + lanes 1 + lanes 2 + lanes 3 + a i 4 * v 4 + a i 5 * v 5)

/-- `arch/x86/matrix_simd.rs:249-269` `mul_vec6_sse_f32`. -/
def mulVec6SseF32 (a : Mat α m 6) (v : Fin 6 → α) : Option (Fin m → α) := do
  let v0123 ← load 4 v 0
  rows fun i => do
    let r0123 ← load 4 (a i) 0
    let lanes ← store (zeroL 4) 0 (mulL r0123 v0123)
    some (lanes 0 + lanes 1 + lanes 2 + lanes 3 + a i 4 * v 4 + a i 5 * v 5)

/-- `arch/x86/matrix_simd.rs:271-287` `mul_vec4_sse_fma_f32`. -/
def mulVec4SseFmaF32 (a : Mat α m 4) (v : Fin 4 → α) : Option (Fin m → α) := do
  let v ← load 4 v 0
  rows fun i => do
    let r ← load 4 (a i) 0
    let lanes ← store (zeroL 4) 0 (fmaL r v (zeroL 4))
    some (lanes 0 + lanes 1 + lanes 2 + lanes 3)

/-- `arch/x86/matrix_simd.rs:289-305` `mul_vec4_sse_f32`. -/
def mulVec4SseF32 (a : Mat α m 4) (v : Fin 4 → α) : Option (Fin m → α) := do
  let v ← load 4 v 0
  rows fun i => do
    let r ← load 4 (a i) 0
    let lanes ← store (zeroL 4) 0 (mulL r v)
    some (lanes 0 + lanes 1 + lanes 2 + lanes 3)

/-! ## Matrix times matrix: blocks of lanes, then a scalar tail -/

/-- `while j + LANES <= P { c = load(c_row + j); b = load(b_row + j); store(c_row + j, op(c, b)); j += LANES }`:
`arch/x86/matrix_simd.rs:321-329`, `355-362`, `388-396`, `422-429`, `arch/arm/neon.rs:164-171`, `196-203`.
Returns the row and the final `j`. -/
def blocks {w : Nat} (hw : 0 < w) (op : (Fin w → α) → (Fin w → α) → Fin w → α) (b : Fin p → α) (j : Nat)
    (c : Fin p → α) : Option ((Fin p → α) × Nat) :=
  if j + w ≤ p then do
    let cv ← load w c j
    let bv ← load w b j
    let c ← store c j (op cv bv)
    blocks hw op b (j + w) c
  else some (c, j)
termination_by p - j

/-- `while j < P { out.data[i][j] += a * rhs.data[k][j]; j += 1 }`: `arch/x86/matrix_simd.rs:331-334`,
`364-367`, `398-401`, `431-434`, `arch/arm/neon.rs:173-176`, `205-208`. -/
def tail (a : α) (b : Fin p → α) (j : Nat) (c : Fin p → α) : Option (Fin p → α) :=
  if j < p then do
    let cj ← idx c j
    let bj ← idx b j
    let c ← setIdx c j (cj + a * bj)
    tail a b (j + 1) c
  else some c
termination_by p - j

/-- The three nested loops of the six general kernels; `op a c b` is what one block of lanes is replaced by. -/
def mulMatrixLanes {w : Nat} (hw : 0 < w) (op : α → (Fin w → α) → (Fin w → α) → Fin w → α) (l : Mat α m n)
    (r : Mat α n p) : Option (Mat α m p) :=
  matRows fun i c => (List.finRange n).foldlM (fun c k => do
    let (c, j) ← blocks hw (op (l i k)) (r k) 0 c
    tail (l i k) (r k) j c) c

/-- `arch/x86/matrix_simd.rs:307-339` `mul_matrix_avx_f64`. -/
def mulMatrixAvxF64 (l : Mat α m n) (r : Mat α n p) : Option (Mat α m p) :=
  mulMatrixLanes (w := 4) (by decide) (fun a c b => addL c (mulL (set1 4 a) b)) l r

/-- `arch/x86/matrix_simd.rs:341-372` `mul_matrix_avx_fma_f64`. -/
def mulMatrixAvxFmaF64 (l : Mat α m n) (r : Mat α n p) : Option (Mat α m p) :=
  mulMatrixLanes (w := 4) (by decide) (fun a c b => fmaL (set1 4 a) b c) l r

/-- `arch/x86/matrix_simd.rs:374-406` `mul_matrix_avx_f32`. -/
def mulMatrixAvxF32 (l : Mat α m n) (r : Mat α n p) : Option (Mat α m p) :=
  mulMatrixLanes (w := 8) (by decide) (fun a c b => addL c (mulL (set1 8 a) b)) l r

/-- `arch/x86/matrix_simd.rs:408-439` `mul_matrix_avx_fma_f32`. -/
def mulMatrixAvxFmaF32 (l : Mat α m n) (r : Mat α n p) : Option (Mat α m p) :=
  mulMatrixLanes (w := 8) (by decide) (fun a c b => fmaL (set1 8 a) b c) l r

/-! ## NEON -/

/-- `arch/arm/neon.rs:11-17` `dot4_neon_f32`. -/
def dot4NeonF32 (a b : Fin 4 → α) : Option α := do
  let va ← load 4 a 0
  let vb ← load 4 b 0
  some (vaddv4 (mulL va vb))

/-- `arch/arm/neon.rs:19-26` `dot4_neon_f64`. -/
def dot4NeonF64 (a b : Fin 4 → α) : Option α := do
  let va0 ← load 2 a 0
  let vb0 ← load 2 b 0
  let va1 ← load 2 a 2
  let vb1 ← load 2 b 2
  some (vaddv2 (mulL va0 vb0) + vaddv2 (mulL va1 vb1))

/-- `arch/arm/neon.rs:28-42` `mul_vec4_neon_f32`. -/
def mulVec4NeonF32 (a : Mat α m 4) (v : Fin 4 → α) : Option (Fin m → α) := do
  let v ← load 4 v 0
  rows fun i => do
    let r ← load 4 (a i) 0
    some (vaddv4 (mulL r v))

/-- `arch/arm/neon.rs:44-61` `mul_vec4_neon_f64`. -/
def mulVec4NeonF64 (a : Mat α m 4) (v : Fin 4 → α) : Option (Fin m → α) := do
  let v0 ← load 2 v 0
  let v1 ← load 2 v 2
  rows fun i => do
    let r0 ← load 2 (a i) 0
    let r1 ← load 2 (a i) 2
    some (vaddv2 (mulL r0 v0) + vaddv2 (mulL r1 v1))

/-- `arch/arm/neon.rs:63-79` `mul_vec6_neon_f32`. -/
def mulVec6NeonF32 (a : Mat α m 6) (v : Fin 6 → α) : Option (Fin m → α) := do
  let v0123 ← load 4 v 0
  let v45 ← load 2 v 4
  rows fun i => do
    let r0123 ← load 4 (a i) 0
    let r45 ← load 2 (a i) 4
    some (vaddv4 (mulL r0123 v0123) + vaddv2 (mulL r45 v45))

/-- `arch/arm/neon.rs:81-104` `mul_vec6_neon_f64`. -/
def mulVec6NeonF64 (a : Mat α m 6) (v : Fin 6 → α) : Option (Fin m → α) := do
  let v01 ← load 2 v 0
  let v23 ← load 2 v 2
  let v45 ← load 2 v 4
  rows fun i => do
    let r01 ← load 2 (a i) 0
    let r23 ← load 2 (a i) 2
    let r45 ← load 2 (a i) 4
    some (vaddv2 (addL (addL (mulL r01 v01) (mulL r23 v23)) (mulL r45 v45)))

/-- `c[j] += a * b[j]` with checked indices (`arch/arm/neon.rs:139-140`, `150-152`). -/
def bump (a : α) (b : Fin p → α) (j : Nat) (c : Fin p → α) : Option (Fin p → α) := do
  let cj ← idx c j
  let bj ← idx b j
  setIdx c j (cj + a * bj)

/-- `arch/arm/neon.rs:106-181` `mul_matrix_neon_f32`, with its paths for 4, 6 and 3 columns. -/
def mulMatrixNeonF32 (l : Mat α m n) (r : Mat α n p) : Option (Mat α m p) :=
  if p = 4 then
    matRows fun i c => (List.finRange n).foldlM (fun c k => do
      let cv ← load 4 c 0
      let bv ← load 4 (r k) 0
      store c 0 (vfmaN cv bv (l i k))) c
  else if p = 6 then
    matRows fun i c => (List.finRange n).foldlM (fun c k => do
      let cv ← load 4 c 0
      let bv ← load 4 (r k) 0
      let c ← store c 0 (vfmaN cv bv (l i k))
      let c ← bump (l i k) (r k) 4 c
      bump (l i k) (r k) 5 c) c
  else if p = 3 then
    matRows fun i c => (List.finRange n).foldlM (fun c k => do
      let c ← bump (l i k) (r k) 0 c
      let c ← bump (l i k) (r k) 1 c
      bump (l i k) (r k) 2 c) c
  else
    mulMatrixLanes (w := 4) (by decide) (fun a c b => vfmaN c b a) l r

/-- `arch/arm/neon.rs:183-213` `mul_matrix_neon_f64`. -/
def mulMatrixNeonF64 (l : Mat α m n) (r : Mat α n p) : Option (Mat α m p) :=
  mulMatrixLanes (w := 2) (by decide) (fun a c b => vfmaN c b a) l r

/-- `arch/arm/neon.rs:215-237` `mul_mat3_neon_f32`. -/
def mulMat3NeonF32 (l r : Mat α 3 3) : Option (Mat α 3 3) :=
  matRows fun i c => do
    let acc ← (List.finRange 3).foldlM (fun acc k => do
      let b ← load 4 ![r k 0, r k 1, r k 2, 0] 0
      some (vmlaN acc b (l i k))) (zeroL 4)
    let lanes ← store (zeroL 4) 0 acc
    let c ← setIdx c 0 (lanes 0)
    let c ← setIdx c 1 (lanes 1)
    setIdx c 2 (lanes 2)

/-- `arch/arm/neon.rs:239-263` `mul_mat3_neon_f64`. -/
def mulMat3NeonF64 (l r : Mat α 3 3) : Option (Mat α 3 3) :=
  matRows fun i c => do
    let (acc01, acc2x) ← (List.finRange 3).foldlM (fun acc k => do
      let b01 ← load 2 ![r k 0, r k 1] 0
      let b2x ← load 2 ![r k 2, 0] 0
      some (vfmaN acc.1 b01 (l i k), vfmaN acc.2 b2x (l i k))) (zeroL 2, zeroL 2)
    let c ← setIdx c 0 (acc01 0)
    let c ← setIdx c 1 (acc01 1)
    setIdx c 2 (acc2x 0)

/-- `arch/arm/neon.rs:265-282` `mul_mat4_neon_f32`. -/
def mulMat4NeonF32 (l r : Mat α 4 4) : Option (Mat α 4 4) :=
  matRows fun i c => do
    let acc ← (List.finRange 4).foldlM (fun acc k => do
      let b ← load 4 (r k) 0
      some (vmlaN acc b (l i k))) (zeroL 4)
    store c 0 acc

/-- `arch/arm/neon.rs:284-307` `mul_mat4_neon_f64`. -/
def mulMat4NeonF64 (l r : Mat α 4 4) : Option (Mat α 4 4) :=
  matRows fun i c => do
    let (acc01, acc23) ← (List.finRange 4).foldlM (fun acc k => do
      let b01 ← load 2 (r k) 0
      let b23 ← load 2 (r k) 2
      some (vfmaN acc.1 b01 (l i k), vfmaN acc.2 b23 (l i k))) (zeroL 2, zeroL 2)
    let c ← store c 0 acc01
    store c 2 acc23

/-- `arch/arm/neon.rs:309-337` `mul_mat6_neon_f32`. -/
def mulMat6NeonF32 (l r : Mat α 6 6) : Option (Mat α 6 6) :=
  matRows fun i c => do
    let (acc0123, acc45xx) ← (List.finRange 6).foldlM (fun acc k => do
      let b0123 ← load 4 (r k) 0
      let b45xx ← load 4 ![r k 4, r k 5, 0, 0] 0
      some (vmlaN acc.1 b0123 (l i k), vmlaN acc.2 b45xx (l i k))) (zeroL 4, zeroL 4)
    let c ← store c 0 acc0123
    let tl ← store (zeroL 4) 0 acc45xx
    let c ← setIdx c 4 (tl 0)
    setIdx c 5 (tl 1)

/-- `arch/arm/neon.rs:339-366` `mul_mat6_neon_f64`. -/
def mulMat6NeonF64 (l r : Mat α 6 6) : Option (Mat α 6 6) :=
  matRows fun i c => do
    let (acc01, acc23, acc45) ← (List.finRange 6).foldlM (fun acc k => do
      let b01 ← load 2 (r k) 0
      let b23 ← load 2 (r k) 2
      let b45 ← load 2 (r k) 4
      some (vfmaN acc.1 b01 (l i k), vfmaN acc.2.1 b23 (l i k), vfmaN acc.2.2 b45 (l i k)))
        (zeroL 2, zeroL 2, zeroL 2)
    let c ← store c 0 acc01
    let c ← store c 2 acc23
    store c 4 acc45

/-! ## Cortex-M33 (plain scalar code) -/

/-- `arch/arm/m33_dsp.rs:4-34` `mul_vec4_m33_f64`, `mul_vec4_m33_f32`. -/
def mulVec4M33 (a : Mat α m 4) (v : Fin 4 → α) : Option (Fin m → α) :=
  rows fun i => some (a i 0 * v 0 + a i 1 * v 1 + a i 2 * v 2 + a i 3 * v 3)

/-- `arch/arm/m33_dsp.rs:36-43` `dot4_m33_f64`, `dot4_m33_f32`. -/
def dot4M33 (a b : Fin 4 → α) : Option α := some (a 0 * b 0 + a 1 * b 1 + a 2 * b 2 + a 3 * b 3)

end Kernels

/-! ## Choosing a kernel -/

/-- `target_arch`. -/
inductive Arch
  | x86 | x86_64 | aarch64 | arm | other
  deriving DecidableEq

/-- What is fixed at compile time: the architecture, the crate features `simd`, `std`, `fma`
(`crates/aether_core/Cargo.toml`), and the target features the compiler was told to assume. -/
structure Build where
  arch : Arch
  simd : Bool
  std : Bool
  fma : Bool
  tAvx : Bool
  tFma : Bool
  tSse : Bool
  tSse2 : Bool
  tDsp : Bool

/-- What the running processor supports; `is_x86_feature_detected!` reports these. -/
structure Cpu where
  avx : Bool
  fma : Bool
  sse : Bool
  sse2 : Bool
  neon : Bool

/-- `any(target_arch = "x86", target_arch = "x86_64")`. -/
def Build.x86 (b : Build) : Bool := b.arch = .x86 || b.arch = .x86_64

/-- `all(feature = "simd", target_arch = "aarch64")`. -/
def Build.neon (b : Build) : Bool := b.simd && b.arch = .aarch64

/-- `all(feature = "simd", target_arch = "arm", target_feature = "dsp")`. -/
def Build.dsp (b : Build) : Bool := b.simd && b.arch = .arm && b.tDsp

/-- `all(feature = "simd", feature = "std", any(x86))`: detection at run time. -/
def Build.detects (b : Build) : Bool := b.simd && b.std && b.x86

/-- `all(feature = "simd", not(feature = "std"), any(x86))`: selection at compile time. -/
def Build.static (b : Build) : Bool := b.simd && !b.std && b.x86

/-- Executing a function compiled with `#[target_feature(enable = …)]`: undefined without the feature. -/
def needs {β : Type*} (has : Bool) (x : Option β) : Option β := if has then x else none

section Dispatch
variable {α : Type*} [Zero α] [Add α] [Mul α] [Fma α] {m n p : Nat}

/-- `math/matrix.rs:239-325` `Matrix<f64, M, 6>::mul_vec6_simd`. -/
def mulVec6SimdF64 (b : Build) (c : Cpu) (a : Mat α m 6) (v : Fin 6 → α) : Option (Fin m → α) :=
  if b.neon then needs c.neon (mulVec6NeonF64 a v)
  else if b.detects && (c.avx && c.fma) then needs (c.avx && c.fma) (mulVec6AvxFmaF64 a v)
  else if b.detects && c.avx then needs c.avx (mulVec6AvxF64 a v)
  else if b.detects && (c.fma && c.sse2) then needs (c.sse2 && c.fma) (mulVec6Fma128F64 a v)
  else if b.detects && c.sse2 then needs c.sse2 (mulVec6Sse2F64 a v)
  else if b.static && b.fma && b.tAvx && b.tFma then needs (c.avx && c.fma) (mulVec6AvxFmaF64 a v)
  else if b.static && b.tAvx then needs c.avx (mulVec6AvxF64 a v)
  else if b.static && b.fma && b.tFma && b.tSse2 then needs (c.sse2 && c.fma) (mulVec6Fma128F64 a v)
  else if b.static && b.tSse2 then needs c.sse2 (mulVec6Sse2F64 a v)
  else some (Mat.mulVec6 a v)

/-- `math/matrix.rs:345-408` `Matrix<f64, M, 4>::mul_vec4_simd`. -/
def mulVec4SimdF64 (b : Build) (c : Cpu) (a : Mat α m 4) (v : Fin 4 → α) : Option (Fin m → α) :=
  if b.neon then needs c.neon (mulVec4NeonF64 a v)
  else if b.dsp then mulVec4M33 a v
  else if b.detects && b.fma && (c.avx && c.fma) then needs (c.avx && c.fma) (mulVec4AvxFmaF64 a v)
  else if b.detects && c.avx then needs c.avx (mulVec4AvxF64 a v)
  else if b.static && b.fma && b.tAvx && b.tFma then needs (c.avx && c.fma) (mulVec4AvxFmaF64 a v)
  else if b.static && b.tAvx then needs c.avx (mulVec4AvxF64 a v)
  else some (Mat.mulVec4 a v)

/-- `math/matrix.rs:426-512` `Matrix<f32, M, 6>::mul_vec6_simd`. -/
def mulVec6SimdF32 (b : Build) (c : Cpu) (a : Mat α m 6) (v : Fin 6 → α) : Option (Fin m → α) :=
  if b.neon then needs c.neon (mulVec6NeonF32 a v)
  else if b.detects && (c.avx && c.fma) then needs (c.avx && c.fma) (mulVec6AvxFmaF32 a v)
  else if b.detects && c.avx then needs c.avx (mulVec6AvxF32 a v)
  else if b.detects && (c.fma && c.sse) then needs (c.sse && c.fma) (mulVec6Fma128F32 a v)
  else if b.detects && c.sse then needs c.sse (mulVec6SseF32 a v)
  else if b.static && b.fma && b.tAvx && b.tFma then needs (c.avx && c.fma) (mulVec6AvxFmaF32 a v)
  else if b.static && b.tAvx then needs c.avx (mulVec6AvxF32 a v)
  else if b.static && b.fma && b.tFma && b.tSse then needs (c.sse && c.fma) (mulVec6Fma128F32 a v)
  else if b.static && b.tSse then needs c.sse (mulVec6SseF32 a v)
  else some (Mat.mulVec6 a v)

/-- `math/matrix.rs:531-597` `Matrix<f32, M, 4>::mul_vec4_simd`. -/
def mulVec4SimdF32 (b : Build) (c : Cpu) (a : Mat α m 4) (v : Fin 4 → α) : Option (Fin m → α) :=
  if b.neon then needs c.neon (mulVec4NeonF32 a v)
  else if b.dsp then mulVec4M33 a v
  else if b.detects && b.fma && (c.fma && c.sse) then needs (c.sse && c.fma) (mulVec4SseFmaF32 a v)
  else if b.detects && c.sse then needs c.sse (mulVec4SseF32 a v)
  else if b.static && b.fma && b.tSse && b.tFma then needs (c.sse && c.fma) (mulVec4SseFmaF32 a v)
  else if b.static && b.tSse then needs c.sse (mulVec4SseF32 a v)
  else some (Mat.mulVec4 a v)

/-- `math/matrix.rs:742-804` `Matrix<f32, M, N>::mul_matrix_simd`. -/
def mulMatrixSimdF32 (b : Build) (c : Cpu) (l : Mat α m n) (r : Mat α n p) : Option (Mat α m p) :=
  if b.neon then needs c.neon (mulMatrixNeonF32 l r)
  else if b.detects && b.fma && (c.avx && c.fma) then needs (c.avx && c.fma) (mulMatrixAvxFmaF32 l r)
  else if b.detects && c.avx then needs c.avx (mulMatrixAvxF32 l r)
  else if b.static && b.fma && b.tAvx && b.tFma then needs (c.avx && c.fma) (mulMatrixAvxFmaF32 l r)
  else if b.static && b.tAvx then needs c.avx (mulMatrixAvxF32 l r)
  else some (Mat.mul l r)

/-- `math/matrix.rs:806-868` `Matrix<f64, M, N>::mul_matrix_simd`. -/
def mulMatrixSimdF64 (b : Build) (c : Cpu) (l : Mat α m n) (r : Mat α n p) : Option (Mat α m p) :=
  if b.neon then needs c.neon (mulMatrixNeonF64 l r)
  else if b.detects && b.fma && (c.avx && c.fma) then needs (c.avx && c.fma) (mulMatrixAvxFmaF64 l r)
  else if b.detects && c.avx then needs c.avx (mulMatrixAvxF64 l r)
  else if b.static && b.fma && b.tAvx && b.tFma then needs (c.avx && c.fma) (mulMatrixAvxFmaF64 l r)
  else if b.static && b.tAvx then needs c.avx (mulMatrixAvxF64 l r)
  else some (Mat.mul l r)

/-- `math/matrix.rs:870-883` `Matrix<f32, 3, 3>::mul_mat3_simd`. -/
def mulMat3SimdF32 (b : Build) (c : Cpu) (l r : Mat α 3 3) : Option (Mat α 3 3) :=
  if b.neon then needs c.neon (mulMat3NeonF32 l r) else some (Mat.mul l r)

/-- `math/matrix.rs:885-898` `Matrix<f64, 3, 3>::mul_mat3_simd`. -/
def mulMat3SimdF64 (b : Build) (c : Cpu) (l r : Mat α 3 3) : Option (Mat α 3 3) :=
  if b.neon then needs c.neon (mulMat3NeonF64 l r) else some (Mat.mul l r)

/-- `math/matrix.rs:900-913` `Matrix<f32, 4, 4>::mul_mat4_simd`. -/
def mulMat4SimdF32 (b : Build) (c : Cpu) (l r : Mat α 4 4) : Option (Mat α 4 4) :=
  if b.neon then needs c.neon (mulMat4NeonF32 l r) else some (Mat.mul l r)

/-- `math/matrix.rs:915-928` `Matrix<f64, 4, 4>::mul_mat4_simd`. -/
def mulMat4SimdF64 (b : Build) (c : Cpu) (l r : Mat α 4 4) : Option (Mat α 4 4) :=
  if b.neon then needs c.neon (mulMat4NeonF64 l r) else some (Mat.mul l r)

/-- `math/matrix.rs:930-943` `Matrix<f32, 6, 6>::mul_mat6_simd`. -/
def mulMat6SimdF32 (b : Build) (c : Cpu) (l r : Mat α 6 6) : Option (Mat α 6 6) :=
  if b.neon then needs c.neon (mulMat6NeonF32 l r) else some (Mat.mul l r)

/-- `math/matrix.rs:945-958` `Matrix<f64, 6, 6>::mul_mat6_simd`. -/
def mulMat6SimdF64 (b : Build) (c : Cpu) (l r : Mat α 6 6) : Option (Mat α 6 6) :=
  if b.neon then needs c.neon (mulMat6NeonF64 l r) else some (Mat.mul l r)

/-- The function pointers a dot-product cache can hold: `math/vector.rs:392-408`, `478-494`. -/
inductive Dot4Kernel
  | fused | plain | scalar
  deriving DecidableEq

/-- `math/vector.rs:344-362` and `430-448`: the closure of `KERNEL.get_or_init`; `wide` is `avx` for `f64` and
`sse` for `f32`. -/
def pickDot4 (b : Build) (c : Cpu) (wide : Bool) : Dot4Kernel :=
  if b.fma && (wide && c.fma) then .fused else if wide then .plain else .scalar

/-- `math/vector.rs:325-390` `Vector<f64, 4>::dot4_simd`, with the state of its `static KERNEL: OnceLock`
before and after the call. -/
def dot4SimdF64 (b : Build) (c : Cpu) (cache : Option Dot4Kernel) (x y : Fin 4 → α) :
    Option (α × Option Dot4Kernel) :=
  if b.neon then (needs c.neon (dot4NeonF64 x y)).map (·, cache)
  else if b.dsp then (dot4M33 x y).map (·, cache)
  else if b.detects then
    let k := cache.getD (pickDot4 b c c.avx)
    (match k with
      | .fused => needs (c.avx && c.fma) (dot4AvxFmaF64 x y)
      | .plain => needs c.avx (dot4AvxF64 x y)
      | .scalar => some (Mat.dot x y)).map (·, some k)
  else if b.static && b.fma && b.tAvx && b.tFma then
    (needs (c.avx && c.fma) (dot4AvxFmaF64 x y)).map (·, cache)
  else if b.static && b.tAvx then (needs c.avx (dot4AvxF64 x y)).map (·, cache)
  else some (Mat.dot x y, cache)

/-- `math/vector.rs:411-476` `Vector<f32, 4>::dot4_simd`. -/
def dot4SimdF32 (b : Build) (c : Cpu) (cache : Option Dot4Kernel) (x y : Fin 4 → α) :
    Option (α × Option Dot4Kernel) :=
  if b.neon then (needs c.neon (dot4NeonF32 x y)).map (·, cache)
  else if b.dsp then (dot4M33 x y).map (·, cache)
  else if b.detects then
    let k := cache.getD (pickDot4 b c c.sse)
    (match k with
      | .fused => needs (c.sse && c.fma) (dot4SseFmaF32 x y)
      | .plain => needs c.sse (dot4SseF32 x y)
      | .scalar => some (Mat.dot x y)).map (·, some k)
  else if b.static && b.fma && b.tSse && b.tFma then
    (needs (c.sse && c.fma) (dot4SseFmaF32 x y)).map (·, cache)
  else if b.static && b.tSse then (needs c.sse (dot4SseF32 x y)).map (·, cache)
  else some (Mat.dot x y, cache)

/-- A history of `dot4_simd` calls in one process, starting with an empty cache: the list of results. -/
def dot4Calls (call : Option Dot4Kernel → (Fin 4 → α) → (Fin 4 → α) → Option (α × Option Dot4Kernel)) :
    Option Dot4Kernel → List ((Fin 4 → α) × (Fin 4 → α)) → Option (List α)
  | _, [] => some []
  | cache, (x, y) :: rest => do
    let (d, cache) ← call cache x y
    let ds ← dot4Calls call cache rest
    some (d :: ds)

end Dispatch

end Verif.Simd
