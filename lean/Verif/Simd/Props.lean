import Verif.Simd.Kernels

/-!
# C76: the vector-instruction entry points compute the same thing on every machine

For every crate-feature combination, every target architecture, every set of compile-time and run-time CPU
features and every matrix size, the `*_simd` functions execute only instructions the processor has, read and
write only inside the arrays they are given (`some _`), and return the sums of products up to rounding: `d`
roundings per term at most, however the terms are grouped. `Close u d r a b` is
`|r − Σ aₖbₖ| ≤ ((1+u)^d − 1) · Σ |aₖbₖ|`.
-/

namespace Verif.Simd

open Verif.Mat (Mat)

variable {fl : ℝ → ℝ} {u : ℝ} {m n p : Nat}

theorem needs_of {β : Type*} {has : Bool} (hh : has = true) (x : Option β) : needs has x = x := by
  simp [needs, hh]

/-- C76. Matrix times 4-vector, both precisions. -/
theorem C76_vec4 (h : Accurate fl u) {b : Build} {c : Cpu} (hr : RunsOn b c) (a : Mat (Fl fl) m 4)
    (v : Fin 4 → Fl fl) :
    (∃ out, mulVec4SimdF64 b c a v = some out ∧ ∀ i, Close u 4 (out i) (a i) v) ∧
    (∃ out, mulVec4SimdF32 b c a v = some out ∧ ∀ i, Close u 4 (out i) (a i) v) := by
  constructor
  · show OkVec u 4 (mulVec4SimdF64 b c a v) a v
    unfold mulVec4SimdF64
    split_ifs with h1 h2 h3 h4 h5 h6
    · rw [needs_of (hr.neon (by simp [Build.neon] at h1; exact h1.2))]; exact mulVec4NeonF64_ok h a v
    · exact mulVec4M33_ok h a v
    · rw [needs_of (by simp at h3 ⊢; exact h3.2)]; exact mulVec4AvxFmaF64_ok h a v
    · rw [needs_of (by simp at h4 ⊢; exact h4.2)]; exact mulVec4AvxF64_ok h a v
    · rw [needs_of (by simp at h5 ⊢; exact ⟨hr.avx h5.1.2, hr.fma h5.2⟩)]; exact mulVec4AvxFmaF64_ok h a v
    · rw [needs_of (by simp at h6; exact hr.avx h6.2)]; exact mulVec4AvxF64_ok h a v
    · exact mulVec4_ok h a v
  · show OkVec u 4 (mulVec4SimdF32 b c a v) a v
    unfold mulVec4SimdF32
    split_ifs with h1 h2 h3 h4 h5 h6
    · rw [needs_of (hr.neon (by simp [Build.neon] at h1; exact h1.2))]; exact mulVec4NeonF32_ok h a v
    · exact mulVec4M33_ok h a v
    · rw [needs_of (by simp at h3 ⊢; exact h3.2.symm)]; exact mulVec4SseFmaF32_ok h a v
    · rw [needs_of (by simp at h4 ⊢; exact h4.2)]; exact mulVec4SseF32_ok h a v
    · rw [needs_of (by simp at h5 ⊢; exact ⟨hr.sse h5.1.2, hr.fma h5.2⟩)]; exact mulVec4SseFmaF32_ok h a v
    · rw [needs_of (by simp at h6; exact hr.sse h6.2)]; exact mulVec4SseF32_ok h a v
    · exact mulVec4_ok h a v

/-- C76. Matrix times 6-vector, both precisions. -/
theorem C76_vec6 (h : Accurate fl u) {b : Build} {c : Cpu} (hr : RunsOn b c) (a : Mat (Fl fl) m 6)
    (v : Fin 6 → Fl fl) :
    (∃ out, mulVec6SimdF64 b c a v = some out ∧ ∀ i, Close u 6 (out i) (a i) v) ∧
    (∃ out, mulVec6SimdF32 b c a v = some out ∧ ∀ i, Close u 6 (out i) (a i) v) := by
  constructor
  · show OkVec u 6 (mulVec6SimdF64 b c a v) a v
    unfold mulVec6SimdF64
    split_ifs with h1 h2 h3 h4 h5 h6 h7 h8 h9
    · rw [needs_of (hr.neon (by simp [Build.neon] at h1; exact h1.2))]; exact mulVec6NeonF64_ok h a v
    · rw [needs_of (by simp at h2 ⊢; exact h2.2)]; exact mulVec6AvxFmaF64_ok h a v
    · rw [needs_of (by simp at h3 ⊢; exact h3.2)]; exact mulVec6AvxF64_ok h a v
    · rw [needs_of (by simp at h4 ⊢; exact h4.2.symm)]; exact mulVec6Fma128F64_ok h a v
    · rw [needs_of (by simp at h5 ⊢; exact h5.2)]; exact mulVec6Sse2F64_ok h a v
    · rw [needs_of (by simp at h6 ⊢; exact ⟨hr.avx h6.1.2, hr.fma h6.2⟩)]; exact mulVec6AvxFmaF64_ok h a v
    · rw [needs_of (by simp at h7; exact hr.avx h7.2)]; exact mulVec6AvxF64_ok h a v
    · rw [needs_of (by simp at h8 ⊢; exact ⟨hr.sse2 h8.2, hr.fma h8.1.2⟩)]; exact mulVec6Fma128F64_ok h a v
    · rw [needs_of (by simp at h9; exact hr.sse2 h9.2)]; exact mulVec6Sse2F64_ok h a v
    · exact mulVec6_ok h a v
  · show OkVec u 6 (mulVec6SimdF32 b c a v) a v
    unfold mulVec6SimdF32
    split_ifs with h1 h2 h3 h4 h5 h6 h7 h8 h9
    · rw [needs_of (hr.neon (by simp [Build.neon] at h1; exact h1.2))]; exact mulVec6NeonF32_ok h a v
    · rw [needs_of (by simp at h2 ⊢; exact h2.2)]; exact mulVec6AvxFmaF32_ok h a v
    · rw [needs_of (by simp at h3 ⊢; exact h3.2)]; exact mulVec6AvxF32_ok h a v
    · rw [needs_of (by simp at h4 ⊢; exact h4.2.symm)]; exact mulVec6Fma128F32_ok h a v
    · rw [needs_of (by simp at h5 ⊢; exact h5.2)]; exact mulVec6SseF32_ok h a v
    · rw [needs_of (by simp at h6 ⊢; exact ⟨hr.avx h6.1.2, hr.fma h6.2⟩)]; exact mulVec6AvxFmaF32_ok h a v
    · rw [needs_of (by simp at h7; exact hr.avx h7.2)]; exact mulVec6AvxF32_ok h a v
    · rw [needs_of (by simp at h8 ⊢; exact ⟨hr.sse h8.2, hr.fma h8.1.2⟩)]; exact mulVec6Fma128F32_ok h a v
    · rw [needs_of (by simp at h9; exact hr.sse h9.2)]; exact mulVec6SseF32_ok h a v
    · exact mulVec6_ok h a v

/-- C76. Matrix times matrix, for all sizes `m × n` and `n × p`, both precisions. -/
theorem C76_matrix (h : Accurate fl u) {b : Build} {c : Cpu} (hr : RunsOn b c) (l : Mat (Fl fl) m n)
    (r : Mat (Fl fl) n p) :
    (∃ out, mulMatrixSimdF64 b c l r = some out ∧
      ∀ i j, Close u (n + 1) (out i j) (l i) (fun k => r k j)) ∧
    (∃ out, mulMatrixSimdF32 b c l r = some out ∧
      ∀ i j, Close u (n + 1) (out i j) (l i) (fun k => r k j)) := by
  constructor
  · show OkMat u (n + 1) (mulMatrixSimdF64 b c l r) l r
    unfold mulMatrixSimdF64
    split_ifs with h1 h2 h3 h4 h5
    · rw [needs_of (hr.neon (by simp [Build.neon] at h1; exact h1.2))]; exact mulMatrixNeonF64_ok h l r
    · rw [needs_of (by simp at h2 ⊢; exact h2.2)]; exact mulMatrixAvxFmaF64_ok h l r
    · rw [needs_of (by simp at h3 ⊢; exact h3.2)]; exact mulMatrixAvxF64_ok h l r
    · rw [needs_of (by simp at h4 ⊢; exact ⟨hr.avx h4.1.2, hr.fma h4.2⟩)]; exact mulMatrixAvxFmaF64_ok h l r
    · rw [needs_of (by simp at h5; exact hr.avx h5.2)]; exact mulMatrixAvxF64_ok h l r
    · exact mul_ok h l r
  · show OkMat u (n + 1) (mulMatrixSimdF32 b c l r) l r
    unfold mulMatrixSimdF32
    split_ifs with h1 h2 h3 h4 h5
    · rw [needs_of (hr.neon (by simp [Build.neon] at h1; exact h1.2))]; exact mulMatrixNeonF32_ok h l r
    · rw [needs_of (by simp at h2 ⊢; exact h2.2)]; exact mulMatrixAvxFmaF32_ok h l r
    · rw [needs_of (by simp at h3 ⊢; exact h3.2)]; exact mulMatrixAvxF32_ok h l r
    · rw [needs_of (by simp at h4 ⊢; exact ⟨hr.avx h4.1.2, hr.fma h4.2⟩)]; exact mulMatrixAvxFmaF32_ok h l r
    · rw [needs_of (by simp at h5; exact hr.avx h5.2)]; exact mulMatrixAvxF32_ok h l r
    · exact mul_ok h l r

/-- C76. The fixed-size products: 3 × 3, 4 × 4 and 6 × 6, both precisions. -/
theorem C76_square (h : Accurate fl u) {b : Build} {c : Cpu} (hr : RunsOn b c) (l3 r3 : Mat (Fl fl) 3 3)
    (l4 r4 : Mat (Fl fl) 4 4) (l6 r6 : Mat (Fl fl) 6 6) :
    (∃ out, mulMat3SimdF64 b c l3 r3 = some out ∧ ∀ i j, Close u 4 (out i j) (l3 i) (fun k => r3 k j)) ∧
    (∃ out, mulMat3SimdF32 b c l3 r3 = some out ∧ ∀ i j, Close u 4 (out i j) (l3 i) (fun k => r3 k j)) ∧
    (∃ out, mulMat4SimdF64 b c l4 r4 = some out ∧ ∀ i j, Close u 5 (out i j) (l4 i) (fun k => r4 k j)) ∧
    (∃ out, mulMat4SimdF32 b c l4 r4 = some out ∧ ∀ i j, Close u 5 (out i j) (l4 i) (fun k => r4 k j)) ∧
    (∃ out, mulMat6SimdF64 b c l6 r6 = some out ∧ ∀ i j, Close u 7 (out i j) (l6 i) (fun k => r6 k j)) ∧
    (∃ out, mulMat6SimdF32 b c l6 r6 = some out ∧ ∀ i j, Close u 7 (out i j) (l6 i) (fun k => r6 k j)) := by
  have hn : b.neon = true → c.neon = true := fun h1 => hr.neon (by simp [Build.neon] at h1; exact h1.2)
  refine ⟨?_, ?_, ?_, ?_, ?_, ?_⟩
  · unfold mulMat3SimdF64
    split_ifs with h1
    · rw [needs_of (hn h1)]; exact mulMat3NeonF64_ok h l3 r3
    · exact mul_ok h l3 r3
  · unfold mulMat3SimdF32
    split_ifs with h1
    · rw [needs_of (hn h1)]; exact mulMat3NeonF32_ok h l3 r3
    · exact mul_ok h l3 r3
  · unfold mulMat4SimdF64
    split_ifs with h1
    · rw [needs_of (hn h1)]; exact mulMat4NeonF64_ok h l4 r4
    · exact mul_ok h l4 r4
  · unfold mulMat4SimdF32
    split_ifs with h1
    · rw [needs_of (hn h1)]; exact mulMat4NeonF32_ok h l4 r4
    · exact mul_ok h l4 r4
  · unfold mulMat6SimdF64
    split_ifs with h1
    · rw [needs_of (hn h1)]; exact mulMat6NeonF64_ok h l6 r6
    · exact mul_ok h l6 r6
  · unfold mulMat6SimdF32
    split_ifs with h1
    · rw [needs_of (hn h1)]; exact mulMat6NeonF32_ok h l6 r6
    · exact mul_ok h l6 r6

/-! ## The dot product with its cached kernel -/

theorem pick_fused {b : Build} {c : Cpu} {w : Bool} (hk : pickDot4 b c w = .fused) :
    (w && c.fma) = true := by
  unfold pickDot4 at hk
  split_ifs at hk with h1 h2
  simp at h1 ⊢; exact h1.2

theorem pick_plain {b : Build} {c : Cpu} {w : Bool} (hk : pickDot4 b c w = .plain) : w = true := by
  unfold pickDot4 at hk
  split_ifs at hk with h1 h2
  exact h2

theorem dot4F64_step (h : Accurate fl u) {b : Build} {c : Cpu} (hr : RunsOn b c) {cache : Option Dot4Kernel}
    (hc : cache = none ∨ cache = some (pickDot4 b c c.avx)) (x y : Fin 4 → Fl fl) :
    ∃ d cache', dot4SimdF64 b c cache x y = some (d, cache') ∧
      (cache' = none ∨ cache' = some (pickDot4 b c c.avx)) ∧ Close u 5 d x y := by
  have lift : ∀ {r : Option (Fl fl)} {k : Option Dot4Kernel}, OkDot u 4 r x y →
      (k = none ∨ k = some (pickDot4 b c c.avx)) →
      ∃ d cache', r.map (·, k) = some (d, cache') ∧ (cache' = none ∨ cache' = some (pickDot4 b c c.avx)) ∧
        Close u 5 d x y := by
    rintro r k ⟨z, rfl, hz⟩ hk
    exact ⟨z, k, rfl, hk, hz.mono h (by decide)⟩
  unfold dot4SimdF64
  split_ifs with h1 h2 h3 h4 h5
  · rw [needs_of (hr.neon (by simp [Build.neon] at h1; exact h1.2))]; exact lift (dot4NeonF64_ok h x y) hc
  · exact lift (dot4M33_ok h x y) hc
  · have hk : cache.getD (pickDot4 b c c.avx) = pickDot4 b c c.avx := by rcases hc with rfl | rfl <;> rfl
    rw [hk]
    dsimp only
    cases hp : pickDot4 b c c.avx
    · dsimp only
      rw [needs_of (pick_fused hp), ← hp]
      exact lift (dot4AvxFmaF64_ok h x y) (Or.inr rfl)
    · dsimp only
      rw [needs_of (pick_plain hp), ← hp]
      exact lift (dot4AvxF64_ok h x y) (Or.inr rfl)
    · exact ⟨_, _, rfl, Or.inr rfl, dot_ok h x y⟩
  · rw [needs_of (by simp at h4 ⊢; exact ⟨hr.avx h4.1.2, hr.fma h4.2⟩)]
    exact lift (dot4AvxFmaF64_ok h x y) hc
  · rw [needs_of (by simp at h5; exact hr.avx h5.2)]; exact lift (dot4AvxF64_ok h x y) hc
  · exact ⟨_, _, rfl, hc, dot_ok h x y⟩

theorem dot4F32_step (h : Accurate fl u) {b : Build} {c : Cpu} (hr : RunsOn b c) {cache : Option Dot4Kernel}
    (hc : cache = none ∨ cache = some (pickDot4 b c c.sse)) (x y : Fin 4 → Fl fl) :
    ∃ d cache', dot4SimdF32 b c cache x y = some (d, cache') ∧
      (cache' = none ∨ cache' = some (pickDot4 b c c.sse)) ∧ Close u 5 d x y := by
  have lift : ∀ {r : Option (Fl fl)} {k : Option Dot4Kernel}, OkDot u 4 r x y →
      (k = none ∨ k = some (pickDot4 b c c.sse)) →
      ∃ d cache', r.map (·, k) = some (d, cache') ∧ (cache' = none ∨ cache' = some (pickDot4 b c c.sse)) ∧
        Close u 5 d x y := by
    rintro r k ⟨z, rfl, hz⟩ hk
    exact ⟨z, k, rfl, hk, hz.mono h (by decide)⟩
  unfold dot4SimdF32
  split_ifs with h1 h2 h3 h4 h5
  · rw [needs_of (hr.neon (by simp [Build.neon] at h1; exact h1.2))]; exact lift (dot4NeonF32_ok h x y) hc
  · exact lift (dot4M33_ok h x y) hc
  · have hk : cache.getD (pickDot4 b c c.sse) = pickDot4 b c c.sse := by rcases hc with rfl | rfl <;> rfl
    rw [hk]
    dsimp only
    cases hp : pickDot4 b c c.sse
    · dsimp only
      rw [needs_of (pick_fused hp), ← hp]
      exact lift (dot4SseFmaF32_ok h x y) (Or.inr rfl)
    · dsimp only
      rw [needs_of (pick_plain hp), ← hp]
      exact lift (dot4SseF32_ok h x y) (Or.inr rfl)
    · exact ⟨_, _, rfl, Or.inr rfl, dot_ok h x y⟩
  · rw [needs_of (by simp at h4 ⊢; exact ⟨hr.sse h4.1.2, hr.fma h4.2⟩)]
    exact lift (dot4SseFmaF32_ok h x y) hc
  · rw [needs_of (by simp at h5; exact hr.sse h5.2)]; exact lift (dot4SseF32_ok h x y) hc
  · exact ⟨_, _, rfl, hc, dot_ok h x y⟩

theorem calls_ok {Inv : Option Dot4Kernel → Prop}
    {call : Option Dot4Kernel → (Fin 4 → Fl fl) → (Fin 4 → Fl fl) → Option (Fl fl × Option Dot4Kernel)}
    (hcall : ∀ cache, Inv cache → ∀ x y, ∃ d cache', call cache x y = some (d, cache') ∧ Inv cache' ∧
      Close u 5 d x y) (args : List ((Fin 4 → Fl fl) × (Fin 4 → Fl fl))) :
    ∀ cache, Inv cache → ∃ ds, dot4Calls call cache args = some ds ∧
      List.Forall₂ (fun d a => Close u 5 d a.1 a.2) ds args := by
  induction args with
  | nil => intro cache _; exact ⟨[], rfl, .nil⟩
  | cons a rest ih =>
    intro cache hc
    obtain ⟨d, cache', h1, h2, h3⟩ := hcall cache hc a.1 a.2
    obtain ⟨ds, h4, h5⟩ := ih cache' h2
    refine ⟨d :: ds, ?_, .cons h3 h5⟩
    show (do let (d, cache) ← call cache a.1 a.2; let ds ← dot4Calls call cache rest; some (d :: ds)) = _
    rw [h1]
    show (do let ds ← dot4Calls call cache' rest; some (d :: ds)) = _
    rw [h4]; rfl

/-- C76. Any history of 4-vector dot products in one process, with the kernel chosen on the first call and
reused afterwards: every call is answered, each with its own dot product; both precisions. -/
theorem C76_dot4 (h : Accurate fl u) {b : Build} {c : Cpu} (hr : RunsOn b c)
    (args : List ((Fin 4 → Fl fl) × (Fin 4 → Fl fl))) :
    (∃ ds, dot4Calls (dot4SimdF64 b c) none args = some ds ∧
      List.Forall₂ (fun d a => Close u 5 d a.1 a.2) ds args) ∧
    (∃ ds, dot4Calls (dot4SimdF32 b c) none args = some ds ∧
      List.Forall₂ (fun d a => Close u 5 d a.1 a.2) ds args) :=
  ⟨calls_ok (fun _ hc => dot4F64_step h hr hc) args none (Or.inl rfl),
    calls_ok (fun _ hc => dot4F32_step h hr hc) args none (Or.inl rfl)⟩

/-! ## Consequences -/

/-- Exact arithmetic is accurate to `0`. -/
theorem accurate_id : Accurate id 0 := fun x => by simp

theorem close_exact {d : Nat} {r : Fl id} {a b : Fin n → Fl id} (h : Close 0 d r a b) :
    r.val = ∑ k, (a k).val * (b k).val := by
  unfold Close at h
  simp only [add_zero, one_pow, sub_self, zero_mul] at h
  linarith [abs_nonpos_iff.1 h]

/-- C76. In exact arithmetic the vector-instruction product of two matrices is the matrix product, and the
matrix–vector products are the matrix–vector products, on every machine. -/
theorem C76_exact {b : Build} {c : Cpu} (hr : RunsOn b c) (l : Mat (Fl id) m n) (r : Mat (Fl id) n p)
    (a4 : Mat (Fl id) m 4) (v4 : Fin 4 → Fl id) (a6 : Mat (Fl id) m 6) (v6 : Fin 6 → Fl id) :
    (∀ out, mulMatrixSimdF64 b c l r = some out → ∀ i j, (out i j).val = ∑ k, (l i k).val * (r k j).val) ∧
    (∀ out, mulMatrixSimdF32 b c l r = some out → ∀ i j, (out i j).val = ∑ k, (l i k).val * (r k j).val) ∧
    (∀ out, mulVec4SimdF64 b c a4 v4 = some out → ∀ i, (out i).val = ∑ k, (a4 i k).val * (v4 k).val) ∧
    (∀ out, mulVec4SimdF32 b c a4 v4 = some out → ∀ i, (out i).val = ∑ k, (a4 i k).val * (v4 k).val) ∧
    (∀ out, mulVec6SimdF64 b c a6 v6 = some out → ∀ i, (out i).val = ∑ k, (a6 i k).val * (v6 k).val) ∧
    (∀ out, mulVec6SimdF32 b c a6 v6 = some out → ∀ i, (out i).val = ∑ k, (a6 i k).val * (v6 k).val) := by
  obtain ⟨⟨o1, e1, c1⟩, o2, e2, c2⟩ := C76_matrix accurate_id hr l r
  obtain ⟨⟨o3, e3, c3⟩, o4, e4, c4⟩ := C76_vec4 accurate_id hr a4 v4
  obtain ⟨⟨o5, e5, c5⟩, o6, e6, c6⟩ := C76_vec6 accurate_id hr a6 v6
  refine ⟨?_, ?_, ?_, ?_, ?_, ?_⟩
  · rintro out ho i j; rw [e1] at ho; cases ho; exact close_exact (c1 i j)
  · rintro out ho i j; rw [e2] at ho; cases ho; exact close_exact (c2 i j)
  · rintro out ho i; rw [e3] at ho; cases ho; exact close_exact (c3 i)
  · rintro out ho i; rw [e4] at ho; cases ho; exact close_exact (c4 i)
  · rintro out ho i; rw [e5] at ho; cases ho; exact close_exact (c5 i)
  · rintro out ho i; rw [e6] at ho; cases ho; exact close_exact (c6 i)

/-- C76. The vector-instruction product and the operator `*` never differ by more than twice the rounding
bound, entry by entry. -/
theorem C76_agrees (h : Accurate fl u) {b : Build} {c : Cpu} (hr : RunsOn b c) (l : Mat (Fl fl) m n)
    (r : Mat (Fl fl) n p) (out : Mat (Fl fl) m p)
    (ho : mulMatrixSimdF64 b c l r = some out ∨ mulMatrixSimdF32 b c l r = some out) (i : Fin m) (j : Fin p) :
    |(out i j).val - (Mat.mul l r i j).val| ≤
      2 * (((1 + u) ^ (n + 1) - 1) * ∑ k, |(l i k).val * (r k j).val|) := by
  have key : Close u (n + 1) (out i j) (l i) (fun k => r k j) := by
    obtain ⟨⟨o1, e1, c1⟩, o2, e2, c2⟩ := C76_matrix h hr l r
    rcases ho with ho | ho
    · rw [e1] at ho; cases ho; exact c1 i j
    · rw [e2] at ho; cases ho; exact c2 i j
  obtain ⟨o, e, co⟩ := mul_ok h l r
  cases e
  have h2 : Close u (n + 1) (Mat.mul l r i j) (l i) (fun k => r k j) := co i j
  unfold Close at key h2
  rw [abs_le] at key h2 ⊢
  constructor <;> linarith [key.1, key.2, h2.1, h2.2]

/-! ## The hypotheses are met -/

/-- A desktop build with run-time detection on a processor with AVX and FMA. -/
def desktop : Build := ⟨.x86_64, true, true, true, false, false, true, true, false⟩

/-- Its processor. -/
def desktopCpu : Cpu := ⟨true, true, true, true, false⟩

theorem desktop_runs : RunsOn desktop desktopCpu := ⟨by simp [desktop], by simp [desktop],
  fun _ => rfl, fun _ => rfl, by simp [desktop]⟩

/-- Rounding every number up in size by a tenth is accurate to a tenth. -/
example : Accurate (fun x => x * (11 / 10)) (1 / 10) := fun x => by
  rw [show x * (11 / 10) - x = 1 / 10 * x by ring, abs_mul]; norm_num

-- A 2 × 3 by 3 × 11 product: one block of eight lanes and a tail of three, in integer arithmetic.
instance : Fma Nat := ⟨fun a b c => a * b + c⟩

example : (mulMatrixSimdF32 desktop desktopCpu (fun (i : Fin 2) (k : Fin 3) => i.val + k.val)
    (fun (k : Fin 3) (j : Fin 11) => k.val * 10 + j.val)).map (fun out => (out 1 7, out 1 10))
      = some (122, 140) := by decide +kernel

-- Without the assumption that a 64-bit ARM has NEON, the call is undefined.
example : mulMat3SimdF64 ⟨.aarch64, true, false, false, false, false, false, false, false⟩
    ⟨false, false, false, false, false⟩ (fun _ _ => (0 : Nat)) (fun _ _ => 0) = none := rfl

end Verif.Simd
