import Verif.Round.Chol
import Verif.Round.PropsLu

/-!
# C112: the solver for symmetric positive definite systems in floating-point arithmetic

`sq` is the square root function of the arithmetic; it is assumed accurate to `u`, as `f64::sqrt` is.
-/

namespace Verif.Round

open Verif.Simd (Fl Accurate)
open Verif.Mat
open Matrix

variable {fl : ℝ → ℝ} {u : ℝ} {n : Nat}

/-- C112. The computed factor is lower triangular with a positive diagonal and reproduces the symmetric
matrix: entry by entry, `A` and `L Lᵀ` differ by at most `growth u (n + 1)` times `|L| |L|ᵀ`. -/
theorem C112_factor (h : Accurate fl u) (hu : u < 1) {sq : Fl fl → Fl fl}
    (hsq : ∀ s, 0 < s.val → |(sq s).val - √s.val| ≤ u * √s.val)
    {A L : Mat (Fl fl) n n} (hA : ∀ i j, A i j = A j i) (hL : cholesky sq A = some L) :
    (∀ i, 0 < val L i i) ∧ (∀ i j, i < j → val L i j = 0) ∧
      ∀ i j, |val A i j - (val L * (val L)ᵀ) i j|
        ≤ growth u (n + 1) * (absM (val L) * absM (val L)ᵀ) i j := by
  have hinv := cholesky_back h hu hsq hL
  exact ⟨fun i => (hinv i i.2).1, fun i j => (hinv i i.2).2.1 j, chol_factor hinv hA⟩

/-- C112. Whenever the solver returns a vector `x`, that vector solves `(A + D) x = b` exactly for some `D`
that is small against the diagonal of `A`: no growth factor and no assumption on the conditioning of `A`. -/
theorem C112_solve (h : Accurate fl u) (hu : u < 1) (hg : growth u (n + 1) < 1) {sq : Fl fl → Fl fl}
    (hsq : ∀ s, 0 < s.val → |(sq s).val - √s.val| ≤ u * √s.val)
    {A : Mat (Fl fl) n n} (hA : ∀ i j, A i j = A j i) {b x : Fin n → Fl fl}
    (hx : choleskySolve sq A b = some x) :
    ∃ D : Matrix (Fin n) (Fin n) ℝ,
      (∀ i j, |D i j| ≤ growth u (3 * n + 1) / (1 - growth u (n + 1)) * √(val A i i * val A j j)) ∧
      (val A + D) *ᵥ valV x = valV b := by
  unfold choleskySolve at hx
  rw [Option.map_eq_some_iff] at hx
  obtain ⟨L, hL, rfl⟩ := hx
  have hinv := cholesky_back h hu hsq hL
  have g3 := growth_nonneg h hu (3 * n + 1)
  obtain ⟨D, hD1, hD2⟩ := oettli_prager (c := growth u (3 * n + 1))
    (E := absM (val L) * absM (val L)ᵀ) (fun _ _ => absM_mul_nonneg _ _ _ _)
    (r := fun r => valV b r - (val A *ᵥ valV (cholSolveWith L b)) r) (x := valV (cholSolveWith L b))
    (cholSolve_residual h hu hinv hA b)
  refine ⟨D, ?_, ?_⟩
  · intro i j
    refine (hD1 i j).trans ?_
    rw [abs_of_nonneg g3, div_mul_eq_mul_div, mul_div_assoc]
    apply mul_le_mul_of_nonneg_left _ g3
    rw [div_eq_inv_mul]
    exact chol_size hinv hA hg i j
  · rw [Matrix.add_mulVec, hD2]
    funext r
    simp

/-- C112 in numbers. For `f64` (`u = 2⁻⁵³`) and up to a thousand unknowns, the returned vector solves exactly a
system whose entry `(i, j)` differs from the given one by at most `10⁻¹²` of `√(Aᵢᵢ Aⱼⱼ)`. -/
theorem C112_f64 (h : Accurate fl (2 ^ (-53 : ℤ))) (hn : n ≤ 1000) {sq : Fl fl → Fl fl}
    (hsq : ∀ s, 0 < s.val → |(sq s).val - √s.val| ≤ 2 ^ (-53 : ℤ) * √s.val)
    {A : Mat (Fl fl) n n} (hA : ∀ i j, A i j = A j i) {b x : Fin n → Fl fl}
    (hx : choleskySolve sq A b = some x) :
    ∃ D : Matrix (Fin n) (Fin n) ℝ, (∀ i j, |D i j| ≤ 1e-12 * √(val A i i * val A j j)) ∧
      (val A + D) *ᵥ valV x = valV b := by
  have hu : (2 : ℝ) ^ (-53 : ℤ) < 1 := by norm_num
  have g1 : growth (2 ^ (-53 : ℤ)) (n + 1) ≤ 1001 * 2 ^ (-53 : ℤ) / (1 - 1001 * 2 ^ (-53 : ℤ)) := by
    refine (growth_mono h hu (show n + 1 ≤ 1001 by omega)).trans ?_
    have := C111_growth (n := 1001) h (by norm_num)
    push_cast at this
    exact this
  have g2 : growth (2 ^ (-53 : ℤ)) (3 * n + 1) ≤ 3001 * 2 ^ (-53 : ℤ) / (1 - 3001 * 2 ^ (-53 : ℤ)) := by
    refine (growth_mono h hu (show 3 * n + 1 ≤ 3001 by omega)).trans ?_
    have := C111_growth (n := 3001) h (by norm_num)
    push_cast at this
    exact this
  have c1 : (1001 : ℝ) * 2 ^ (-53 : ℤ) / (1 - 1001 * 2 ^ (-53 : ℤ)) ≤ 1 / 2 := by norm_num
  have c2 : (3001 : ℝ) * 2 ^ (-53 : ℤ) / (1 - 3001 * 2 ^ (-53 : ℤ)) ≤ 5e-13 := by norm_num
  have g1 := g1.trans c1
  have g2 := g2.trans c2
  obtain ⟨D, h1, h2⟩ := C112_solve h hu (lt_of_le_of_lt g1 (by norm_num)) hsq hA hx
  refine ⟨D, ?_, h2⟩
  intro i j
  refine (h1 i j).trans (mul_le_mul_of_nonneg_right ?_ (Real.sqrt_nonneg _))
  generalize growth (2 ^ (-53 : ℤ)) (n + 1) = a at g1 ⊢
  generalize growth (2 ^ (-53 : ℤ)) (3 * n + 1) = c at g2 ⊢
  rw [div_le_iff₀ (by linarith)]
  linarith

-- The hypotheses are met: an arithmetic that rounds every result up by one part in `2⁵³`, its square root,
-- and the symmetric positive definite matrix `[[4, 2], [2, 3]]`.
example (fl : ℝ → ℝ) (hfl : fl = fun x => x * (1 + 2 ^ (-53 : ℤ))) :
    ∃ L, cholesky (fun s : Fl fl => ⟨fl (√s.val)⟩) ![![⟨4⟩, ⟨2⟩], ![⟨2⟩, ⟨3⟩]] = some L := by
  have r0 : rng 2 0 0 = [] := by decide
  have r1 : rng 2 0 2 = [0, 1] := by decide
  have r2 : rng 2 1 2 = [1] := by decide
  have r3 : rng 2 2 2 = [] := by decide
  have r4 : rng 2 0 1 = [0] := by decide
  have le : ∀ a b : Fl fl, (a ≤ b) = (a.val ≤ b.val) := fun _ _ => rfl
  have sb : ∀ a b : Fl fl, (a - b).val = fl (a.val - b.val) := fun _ _ => rfl
  have ml : ∀ a b : Fl fl, (a * b).val = fl (a.val * b.val) := fun _ _ => rfl
  have dv : ∀ a b : Fl fl, (a / b).val = fl (a.val / b.val) := fun _ _ => rfl
  have z : (0 : Fl fl).val = 0 := rfl
  have h4 : √(4 : ℝ) = 2 := by
    rw [show (4 : ℝ) = 2 ^ 2 by norm_num]; exact Real.sqrt_sq (by norm_num)
  unfold cholesky
  rw [r1]
  simp only [List.foldlM_cons, List.foldlM_nil]
  simp [cholRow, cholEntry, r0, r1, r2, r3, r4, le, z, setE_apply, sb, ml, dv, h4, hfl]
  norm_num
  simp only [setE_apply]
  norm_num

end Verif.Round
