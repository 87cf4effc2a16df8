import Verif.Round.Solve
import Mathlib.Data.Fin.VecNotation
import Mathlib.Tactic.NormNum
import Mathlib.Algebra.Order.Ring.Pow

/-!
# C111: the linear solver in floating-point arithmetic

`solve` is run with every operation rounded. The returned vector solves exactly a system whose matrix differs
from the given one by a small amount, for every matrix, right-hand side and dimension.
-/

namespace Verif.Round

open Verif.Simd (Fl Accurate)
open Verif.Mat
open Matrix

variable {fl : ℝ → ℝ} {u : ℝ} {n k : Nat}

/-- `growth u n` is at most `n u / (1 - n u)`. -/
theorem C111_growth (h : Accurate fl u) (hn : n * u < 1) : growth u n ≤ n * u / (1 - n * u) := by
  rcases Nat.eq_zero_or_pos n with rfl | hpos
  · simp [growth]
  have hu0 := h.nonneg
  have hu1 : u < 1 := by
    have : (1 : ℝ) ≤ n := by exact_mod_cast hpos
    nlinarith
  have hb : 1 - n * u ≤ (1 - u) ^ n := by
    have := one_add_mul_le_pow (show (-2 : ℝ) ≤ -u by linarith) n
    calc 1 - n * u = 1 + n * -u := by ring
      _ ≤ (1 + -u) ^ n := this
      _ = _ := by ring
  have h0 : 0 < 1 - n * u := by linarith
  unfold growth
  have : ((1 - u) ^ n)⁻¹ ≤ (1 - n * u)⁻¹ := inv_anti₀ h0 hb
  have e : n * u / (1 - n * u) = (1 - n * u)⁻¹ - 1 := by field_simp; ring
  rw [e]; linarith

/-- C111. The computed factors reproduce the row-permuted matrix: entry by entry, `P A` and `L U` differ by
at most `growth u n` times `|L| |U|`. The recorded permutation is a permutation and the recorded sign is its
sign. -/
theorem C111_factor (h : Accurate fl u) (hu : u < 1) {eps : Fl fl} (he : 0 ≤ eps.val)
    {A : Mat (Fl fl) n n} {d : Lu (Fl fl) n} (hd : luDecompose eps A = some d) :
    ∃ σ : Equiv.Perm (Fin n), d.piv = σ ∧ d.sign = (Equiv.Perm.sign σ : ℤ) ∧
      ∀ i j, |val A (σ i) j - (lower d * upper d) i j|
        ≤ growth u n * (absM (lower d) * absM (upper d)) i j := by
  obtain ⟨σ, h1, h2, _, h4⟩ := luDecompose_back h hu he hd
  exact ⟨σ, h1, h2, luR_factor h4⟩

/-- C111. Partial pivoting keeps the multipliers at or below `1 + u`, and every entry of `U` at or below
`(2 (1 + u)³)ⁿ⁻¹` times the largest entry of the matrix. -/
theorem C111_bounded (h : Accurate fl u) {eps : Fl fl} (he : 0 ≤ eps.val)
    {A : Mat (Fl fl) n n} {M : ℝ} (hA : ∀ i j, |val A i j| ≤ M) {d : Lu (Fl fl) n}
    (hd : luDecompose eps A = some d) (i j : Fin n) :
    |lower d i j| ≤ 1 + u ∧ |upper d i j| ≤ (2 * (1 + u) ^ 3) ^ (n - 1) * M := by
  have hg := luDecompose_grow h he (M := M) hA hd i j
  have hu0 := h.nonneg
  have hM : 0 ≤ M := (abs_nonneg _).trans (hA i j)
  have hgr := one_le_grow h
  constructor
  · simp only [lower, Matrix.of_apply]
    by_cases hj : j < i
    · rw [if_pos hj]
      rw [if_pos ⟨hj, j.2⟩] at hg
      exact hg
    · rw [if_neg hj]
      by_cases hij : i = j
      · rw [if_pos hij, abs_one]; linarith
      · rw [if_neg hij, abs_zero]; linarith
  · have hpow : (0 : ℝ) ≤ (2 * (1 + u) ^ 3) ^ (n - 1) * M := by positivity
    simp only [upper, Matrix.of_apply]
    by_cases hij : i ≤ j
    · rw [if_pos hij]
      rw [if_neg (fun h => not_lt.2 hij h.1)] at hg
      refine hg.trans (mul_le_mul_of_nonneg_right ?_ hM)
      exact pow_le_pow_right₀ hgr (by have := i.2; omega)
    · rw [if_neg hij, abs_zero]; exact hpow

/-- The size of the product of the computed factors. -/
theorem absM_le (h : Accurate fl u) {eps : Fl fl} (he : 0 ≤ eps.val)
    {A : Mat (Fl fl) n n} {M : ℝ} (hA : ∀ i j, |val A i j| ≤ M) {d : Lu (Fl fl) n}
    (hd : luDecompose eps A = some d) (i j : Fin n) :
    (absM (lower d) * absM (upper d)) i j ≤ n * (1 + u) * (2 * (1 + u) ^ 3) ^ (n - 1) * M := by
  have hu0 := h.nonneg
  rw [Matrix.mul_apply]
  have : ∀ t ∈ Finset.univ, absM (lower d) i t * absM (upper d) t j
      ≤ (1 + u) * ((2 * (1 + u) ^ 3) ^ (n - 1) * M) := by
    intro t _
    exact mul_le_mul (C111_bounded h he hA hd i t).1 (C111_bounded h he hA hd t j).2 (abs_nonneg _)
      (by linarith)
  refine (Finset.sum_le_card_nsmul _ _ _ this).trans (le_of_eq ?_)
  rw [Finset.card_univ, Fintype.card_fin, nsmul_eq_mul]; ring

/-- C111. Whenever `solve` returns a vector `x`, that vector solves `(A + D) x = b` exactly for some `D` whose
entries are at most `growth u (3 n) · n (1 + u) (2 (1 + u)³)ⁿ⁻¹` times the largest entry of `A`. -/
theorem C111_solve (h : Accurate fl u) (hu : u < 1) {eps : Fl fl} (he : 0 ≤ eps.val)
    {A : Mat (Fl fl) n n} {M : ℝ} (hA : ∀ i j, |val A i j| ≤ M) {b x : Fin n → Fl fl}
    (hx : solve eps A b = some x) :
    ∃ D : Matrix (Fin n) (Fin n) ℝ,
      (∀ i j, |D i j| ≤ growth u (3 * n) * (n * (1 + u) * (2 * (1 + u) ^ 3) ^ (n - 1) * M)) ∧
      (val A + D) *ᵥ valV x = valV b := by
  unfold solve at hx
  rw [Option.map_eq_some_iff] at hx
  obtain ⟨d, hd, rfl⟩ := hx
  obtain ⟨σ, h1, _, h3, h4⟩ := luDecompose_back h hu he hd
  have hres := luSolve_residual h hu h1 (fun i => h3 i i.2) (luR_factor h4) b
  obtain ⟨D, hD1, hD2⟩ := oettli_prager (c := growth u (3 * n))
    (E := Matrix.of fun r j => (absM (lower d) * absM (upper d)) (σ.symm r) j)
    (fun _ _ => absM_mul_nonneg _ _ _ _)
    (r := fun r => valV b r - (val A *ᵥ valV (d.solve b)) r) (x := valV (d.solve b))
    (by
      intro r
      have := hres (σ.symm r)
      rw [Equiv.apply_symm_apply] at this
      exact this)
  refine ⟨D, ?_, ?_⟩
  · intro i j
    refine (hD1 i j).trans ?_
    rw [abs_of_nonneg (growth_nonneg h hu _)]
    exact mul_le_mul_of_nonneg_left (absM_le h he hA hd _ _) (growth_nonneg h hu _)
  · rw [Matrix.add_mulVec, hD2]
    funext r
    simp

/-- C111. The same for every column of a system with many right-hand sides. -/
theorem C111_multi (h : Accurate fl u) (hu : u < 1) {eps : Fl fl} (he : 0 ≤ eps.val)
    {A : Mat (Fl fl) n n} {M : ℝ} (hA : ∀ i j, |val A i j| ≤ M) {B X : Mat (Fl fl) n k}
    (hX : solveMulti eps A B = some X) (c : Fin k) :
    ∃ D : Matrix (Fin n) (Fin n) ℝ,
      (∀ i j, |D i j| ≤ growth u (3 * n) * (n * (1 + u) * (2 * (1 + u) ^ 3) ^ (n - 1) * M)) ∧
      (val A + D) *ᵥ (fun r => val X r c) = fun r => val B r c := by
  unfold solveMulti at hX
  rw [Option.map_eq_some_iff] at hX
  obtain ⟨d, hd, rfl⟩ := hX
  have hs : solve eps A (fun r => B r c) = some (fun r => d.solveMulti B r c) := by
    unfold solve; rw [hd, solveMulti_col]; rfl
  exact C111_solve h hu he hA hs

/-- C111 in numbers. For `f64` (`u = 2⁻⁵³`) and systems of at most six unknowns, the returned vector solves
exactly a system whose matrix differs from the given one by at most `10⁻¹²` of its largest entry. -/
theorem C111_f64 (h : Accurate fl (2 ^ (-53 : ℤ))) {eps : Fl fl} (he : 0 ≤ eps.val) (hn : n ≤ 6)
    {A : Mat (Fl fl) n n} {M : ℝ} (hA : ∀ i j, |val A i j| ≤ M) {b x : Fin n → Fl fl}
    (hx : solve eps A b = some x) :
    ∃ D : Matrix (Fin n) (Fin n) ℝ, (∀ i j, |D i j| ≤ 1e-12 * M) ∧ (val A + D) *ᵥ valV x = valV b := by
  obtain ⟨D, h1, h2⟩ := C111_solve h (by norm_num) he hA hx
  refine ⟨D, ?_, h2⟩
  intro i j
  have hM : 0 ≤ M := (abs_nonneg _).trans (hA i j)
  refine (h1 i j).trans ?_
  have hg : growth (2 ^ (-53 : ℤ)) (3 * n) ≤ 18 * 2 ^ (-53 : ℤ) / (1 - 18 * 2 ^ (-53 : ℤ)) := by
    refine (growth_mono h (by norm_num) (show 3 * n ≤ 18 by omega)).trans ?_
    have := C111_growth (n := 18) h (by norm_num)
    push_cast at this
    exact this
  have hp : (n : ℝ) * (1 + 2 ^ (-53 : ℤ)) * (2 * (1 + 2 ^ (-53 : ℤ)) ^ 3) ^ (n - 1)
      ≤ 6 * (1 + 2 ^ (-53 : ℤ)) * (2 * (1 + 2 ^ (-53 : ℤ)) ^ 3) ^ 5 := by
    have a1 : (n : ℝ) ≤ 6 := by exact_mod_cast hn
    have a2 : ((2 : ℝ) * (1 + 2 ^ (-53 : ℤ)) ^ 3) ^ (n - 1) ≤ (2 * (1 + 2 ^ (-53 : ℤ)) ^ 3) ^ 5 :=
      pow_le_pow_right₀ (one_le_grow h) (by omega)
    exact mul_le_mul (mul_le_mul_of_nonneg_right a1 (by positivity)) a2 (by positivity) (by positivity)
  calc _ ≤ 18 * 2 ^ (-53 : ℤ) / (1 - 18 * 2 ^ (-53 : ℤ))
        * (6 * (1 + 2 ^ (-53 : ℤ)) * (2 * (1 + 2 ^ (-53 : ℤ)) ^ 3) ^ 5 * M) := by
        apply mul_le_mul hg (mul_le_mul_of_nonneg_right hp hM) (by positivity)
        norm_num
    _ = (18 * 2 ^ (-53 : ℤ) / (1 - 18 * 2 ^ (-53 : ℤ))
        * (6 * (1 + 2 ^ (-53 : ℤ)) * (2 * (1 + 2 ^ (-53 : ℤ)) ^ 3) ^ 5)) * M := by ring
    _ ≤ 1e-12 * M := by
        apply mul_le_mul_of_nonneg_right _ hM
        norm_num

-- The hypotheses are met: an arithmetic that rounds every result up by one part in `2⁵³`, and a 2×2 matrix
-- whose rows have to be exchanged.
example : Accurate (fun x => x * (1 + 2 ^ (-53 : ℤ))) (2 ^ (-53 : ℤ)) := by
  intro x
  have : x * (1 + 2 ^ (-53 : ℤ)) - x = 2 ^ (-53 : ℤ) * x := by ring
  rw [this, abs_mul, abs_of_pos (by positivity)]

example (fl : ℝ → ℝ) (hfl : fl = fun x => x * (1 + 2 ^ (-53 : ℤ))) :
    ∃ x, solve (⟨0⟩ : Fl fl) ![![⟨1⟩, ⟨2⟩], ![⟨3⟩, ⟨4⟩]] ![⟨5⟩, ⟨6⟩] = some x := by
  have r1 : rng 2 0 2 = [0, 1] := by decide
  have r2 : rng 2 1 2 = [1] := by decide
  have r3 : rng 2 2 2 = [] := by decide
  have gt : ∀ a b : Fl fl, (a > b) = (b.val < a.val) := fun _ _ => rfl
  have le : ∀ a b : Fl fl, (a ≤ b) = (a.val ≤ b.val) := fun _ _ => rfl
  have ab : ∀ a : Fl fl, (absV a).val = |a.val| := fun _ => rfl
  have sb : ∀ a b : Fl fl, (a - b).val = fl (a.val - b.val) := fun _ _ => rfl
  have ml : ∀ a b : Fl fl, (a * b).val = fl (a.val * b.val) := fun _ _ => rfl
  have dv : ∀ a b : Fl fl, (a / b).val = fl (a.val / b.val) := fun _ _ => rfl
  unfold solve
  suffices ∃ d, luDecompose (⟨0⟩ : Fl fl) ![![⟨1⟩, ⟨2⟩], ![⟨3⟩, ⟨4⟩]] = some d by
    obtain ⟨d, hd⟩ := this
    exact ⟨_, by rw [hd]; rfl⟩
  unfold luDecompose
  rw [r1]
  simp only [List.foldlM_cons, List.foldlM_nil]
  have s1 : luStep (⟨0⟩ : Fl fl) ⟨![![⟨1⟩, ⟨2⟩], ![⟨3⟩, ⟨4⟩]], id, 1⟩ 0
      = some ⟨luElim ![![⟨3⟩, ⟨4⟩], ![⟨1⟩, ⟨2⟩]] 0, swapIdx id 0 1, -1⟩ := by
    have hp : pivot (![![⟨1⟩, ⟨2⟩], ![⟨3⟩, ⟨4⟩]] : Mat (Fl fl) 2 2) 0 = (1, absV ⟨3⟩) := by
      unfold pivot
      simp [r2, gt, ab]
    have hsw : swapRows (![![⟨1⟩, ⟨2⟩], ![⟨3⟩, ⟨4⟩]] : Mat (Fl fl) 2 2) 0 1
        = ![![⟨3⟩, ⟨4⟩], ![⟨1⟩, ⟨2⟩]] := by
      rw [swapRows_eq]; funext r; fin_cases r <;> rfl
    unfold luStep
    dsimp only
    rw [hp]
    rw [if_neg (by rw [le, ab]; norm_num), if_pos (show (1 : Fin 2) ≠ 0 by decide), hsw]
  rw [s1]
  simp only [Option.bind_eq_bind, Option.bind_some]
  have hv : (luElim (![![⟨3⟩, ⟨4⟩], ![⟨1⟩, ⟨2⟩]] : Mat (Fl fl) 2 2) 0 1 1).val ≠ 0 := by
    rw [luElim_apply]
    simp [sb, ml, dv, hfl]
    norm_num
  have hp2 : pivot (luElim (![![⟨3⟩, ⟨4⟩], ![⟨1⟩, ⟨2⟩]] : Mat (Fl fl) 2 2) 0) 1
      = (1, absV (luElim (![![⟨3⟩, ⟨4⟩], ![⟨1⟩, ⟨2⟩]] : Mat (Fl fl) 2 2) 0 1 1)) := by
    unfold pivot
    simp [r3]
  unfold luStep
  dsimp only
  rw [hp2, if_neg (by rw [le, ab]; simpa using hv)]
  exact ⟨_, rfl⟩

end Verif.Round
