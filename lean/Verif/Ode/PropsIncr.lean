import Verif.Ode.Round

/-!
# C130: the increments of the Euler and trapezoidal rules in rounded arithmetic
-/

namespace Verif.Ode

open Verif.Simd (Fl Accurate)
open Verif.Round (growth)
open Verif.Geom

variable {fl : ℝ → ℝ} {u : ℝ} {n : ℕ}

/-- **C130**: the computed increments against value times step, and mean of two values times step. -/
theorem C130_increments (hf : Accurate fl u) (hu : u < 1) (v w : Fin n → Fl fl) (dt : Fl fl) (i : Fin n) :
    |(euler v dt i).val - (v i).val * dt.val| ≤ growth u 1 * |(v i).val * dt.val| ∧
      |(trapezoidal v w dt i).val - ((v i).val + (w i).val) / 2 * dt.val| ≤
        growth u 4 * ((|(v i).val| + |(w i).val|) / 2 * |dt.val|) := by
  have z : ∀ y : ℝ, Near u 0 |y| y y := fun y => Near.refl y
  constructor
  · have := (z ((v i).val * dt.val)).round hf hu
    exact this.2
  · have h1 := (z (v i).val).radd hf hu (z (w i).val) le_rfl
    have h2 : Near u 1 |(1 : ℝ) / 2| (fl (1 / 2)) (1 / 2) := (z _).round hf hu
    have h3 := ((h1.rmul hf hu h2).rmul hf hu (z dt.val)).2
    rw [abs_of_pos (by norm_num : (0 : ℝ) < 1 / 2)] at h3
    rw [div_eq_mul_one_div (|(v i).val| + |(w i).val|), div_eq_mul_one_div ((v i).val + (w i).val)]
    exact h3

/-- The hypotheses hold for exact arithmetic; the rounding units of single and double precision are below one. -/
example : Accurate (fun x => x) 0 ∧ (0 : ℝ) < 1 := ⟨fun x => by simp, zero_lt_one⟩

end Verif.Ode
