import Verif.Round.Det

/-! # C113: the determinant in floating-point arithmetic -/

namespace Verif.Round

open Verif.Simd (Fl Accurate)
open Verif.Mat
open Matrix

variable {fl : ℝ → ℝ} {u : ℝ} {n : Nat}

/-- C113. When the pivots stay above the threshold (that is, when `lu_decompose` with that threshold would
succeed), the returned determinant is, up to `n` roundings, the exact determinant of a matrix that differs from
the given one by at most `growth u n · n (1 + u) (2 (1 + u)³)ⁿ⁻¹` times its largest entry. -/
theorem C113_determinant (h : Accurate fl u) (hu : u < 1) {eps : Fl fl} (he : 0 ≤ eps.val)
    {A : Mat (Fl fl) n n} {M : ℝ} (hA : ∀ i j, |val A i j| ≤ M) (hd : luDecompose eps A ≠ none) :
    ∃ D : Matrix (Fin n) (Fin n) ℝ,
      (∀ i j, |D i j| ≤ growth u n * (n * (1 + u) * (2 * (1 + u) ^ 3) ^ (n - 1) * M)) ∧
      |(determinant eps A).val - (val A + D).det| ≤ ((1 + u) ^ n - 1) * |(val A + D).det| := by
  obtain ⟨d, hd⟩ := Option.ne_none_iff_exists'.1 hd
  obtain ⟨σ, _, hs, hf⟩ := C111_factor h hu he hd
  have hrel := detRel_loop h eps A
  refine ⟨Matrix.of fun r j => (lower d * upper d) (σ.symm r) j - val A r j, ?_, ?_⟩
  · intro i j
    rw [Matrix.of_apply, abs_sub_comm]
    have := hf (σ.symm i) j
    rw [Equiv.apply_symm_apply] at this
    exact this.trans (mul_le_mul_of_nonneg_left (absM_le h he hA hd _ _) (growth_nonneg h hu _))
  · rw [det_factors]
    unfold determinant
    rw [hd] at hrel
    cases h1 : (rng n 0 n).foldlM (detStep eps) (A, 1) with
    | none => rw [h1] at hrel; exact hrel.elim
    | some s =>
      rw [h1] at hrel
      have := hrel.2
      rw [hs] at this
      have e : (Finset.univ.filter fun i : Fin n => i.1 < n) = Finset.univ := by
        ext i; simp
      rw [e] at this
      exact this

/-- C113. When a pivot falls to the threshold, the returned determinant is zero. -/
theorem C113_threshold {A : Mat (Fl fl) n n} {eps : Fl fl} (h : Accurate fl u)
    (hd : luDecompose eps A = none) : (determinant eps A).val = 0 := by
  have hrel := detRel_loop h eps A
  rw [hd] at hrel
  unfold determinant
  cases h1 : (rng n 0 n).foldlM (detStep eps) (A, 1) with
  | none => rfl
  | some s => rw [h1] at hrel; exact hrel.elim

-- The hypotheses are met by the system of the example beside `C111_f64`: `solve` returns a vector there, so
-- the decomposition succeeds. The second theorem applies to the zero matrix.
example {A : Mat (Fl fl) n n} {eps : Fl fl} {b x : Fin n → Fl fl} (h : solve eps A b = some x) :
    luDecompose eps A ≠ none := by
  intro h0
  unfold solve at h
  rw [h0] at h
  cases h

example : luDecompose (⟨0⟩ : Fl fl) (fun _ _ => ⟨0⟩ : Mat (Fl fl) 1 1) = none := by
  have r1 : rng 1 0 1 = [0] := by decide
  have r2 : rng 1 1 1 = [] := by decide
  have le : ∀ a b : Fl fl, (a ≤ b) = (a.val ≤ b.val) := fun _ _ => rfl
  have ab : ∀ a : Fl fl, (absV a).val = |a.val| := fun _ => rfl
  unfold luDecompose
  rw [r1]
  simp [luStep, pivot, r2, le, ab]

end Verif.Round
