import Verif.Float.Model
import Verif.Float.Lemmas
import Verif.Mat.Lemmas

/-! # Evaluating checked floating-point expressions -/

namespace Verif.Float

open Verif.Mat (Mat)

variable {fl : ℝ → ℝ} {lib : Libm} {p : ℕ} {n : Nat}

theorem num_inj {x y : ℝ} : (CF.num x : CF fl lib) = CF.num y ↔ x = y := Option.some_inj

theorem num_ne_nan (x : ℝ) : (CF.num x : CF fl lib) ≠ CF.nan := Option.some_ne_none x

theorem cf_zero : (0 : CF fl lib) = CF.num 0 := rfl
theorem cf_one : (1 : CF fl lib) = CF.num 1 := rfl

theorem cf_op1 (dom : ℝ → Prop) (f : ℝ → ℝ) {x : ℝ} (h : dom x) :
    CF.op1 dom f (CF.num x : CF fl lib) = CF.num (f x) := by
  classical
  exact if_pos h

theorem cf_op2 (dom : ℝ → ℝ → Prop) (f : ℝ → ℝ → ℝ) {x y : ℝ} (h : dom x y) :
    CF.op2 dom f (CF.num x : CF fl lib) (CF.num y) = CF.num (f x y) := by
  classical
  exact if_pos h

theorem cf_add (x y : ℝ) : (CF.num x + CF.num y : CF fl lib) = CF.num (fl (x + y)) := cf_op2 _ _ trivial
theorem cf_sub (x y : ℝ) : (CF.num x - CF.num y : CF fl lib) = CF.num (fl (x - y)) := cf_op2 _ _ trivial
theorem cf_mul (x y : ℝ) : (CF.num x * CF.num y : CF fl lib) = CF.num (fl (x * y)) := cf_op2 _ _ trivial
theorem cf_neg (x : ℝ) : (-CF.num x : CF fl lib) = CF.num (-x) := cf_op1 _ _ trivial

theorem cf_div (x : ℝ) {y : ℝ} (h : y ≠ 0) : (CF.num x / CF.num y : CF fl lib) = CF.num (fl (x / y)) :=
  cf_op2 (fun _ y => y ≠ 0) _ h

theorem cf_sqrt {x : ℝ} (h : 0 ≤ x) : Scalar.sqrt (CF.num x : CF fl lib) = CF.num (fl √x) :=
  cf_op1 (fun x => 0 ≤ x) _ h

theorem cf_sin (x : ℝ) : Scalar.sin (CF.num x : CF fl lib) = CF.num (lib.sin x) := cf_op1 _ _ trivial
theorem cf_cos (x : ℝ) : Scalar.cos (CF.num x : CF fl lib) = CF.num (lib.cos x) := cf_op1 _ _ trivial

theorem cf_asin {x : ℝ} (h : |x| ≤ 1) : Scalar.asin (CF.num x : CF fl lib) = CF.num (lib.asin x) :=
  cf_op1 (fun x => |x| ≤ 1) _ h

theorem cf_asin_nan {x : ℝ} (h : ¬ |x| ≤ 1) : Scalar.asin (CF.num x : CF fl lib) = CF.nan := by
  show CF.op1 (fun x => |x| ≤ 1) lib.asin (CF.num x) = _
  classical
  exact if_neg h

theorem cf_acos {x : ℝ} (h : |x| ≤ 1) : Scalar.acos (CF.num x : CF fl lib) = CF.num (lib.acos x) :=
  cf_op1 (fun x => |x| ≤ 1) _ h

theorem cf_atan2 (x y : ℝ) : Scalar.atan2 (CF.num x : CF fl lib) (CF.num y) = CF.num (lib.atan2 x y) :=
  cf_op2 _ _ trivial

theorem cf_powf2 (x : ℝ) : Scalar.powf (CF.num x : CF fl lib) (CF.num 2) = CF.num (lib.powf x 2) :=
  cf_op2 (fun x y => 0 < x ∨ y = 2) _ (Or.inr rfl)

theorem cf_abs (x : ℝ) : Scalar.abs (CF.num x : CF fl lib) = CF.num |x| := cf_op1 _ _ trivial

theorem cf_signum (x : ℝ) : Scalar.signum (CF.num x : CF fl lib) = CF.num (if x < 0 then -1 else 1) :=
  cf_op1 _ _ trivial

theorem cf_pi : (Scalar.fracPi2 : CF fl lib) = CF.num lib.fracPi2 := rfl

theorem cf_rel (r : ℝ → ℝ → Prop) (x y : ℝ) : CF.rel r (CF.num x : CF fl lib) (CF.num y) ↔ r x y := by
  unfold CF.rel
  constructor
  · rintro ⟨a, b, ha, hb, h⟩
    rw [num_inj] at ha hb
    rwa [ha, hb]
  · intro h
    exact ⟨x, y, rfl, rfl, h⟩

theorem cf_eq (x y : ℝ) : Scalar.eq (CF.num x : CF fl lib) (CF.num y) ↔ x = y := cf_rel _ x y
theorem cf_lt (x y : ℝ) : Scalar.lt (CF.num x : CF fl lib) (CF.num y) ↔ x < y := cf_rel _ x y
theorem cf_le (x y : ℝ) : Scalar.le (CF.num x : CF fl lib) (CF.num y) ↔ x ≤ y := cf_rel _ x y

section Nearest

variable (h : Nearest p fl)
include h

theorem Nearest.nonneg {x : ℝ} (hx : 0 ≤ x) : 0 ≤ fl x := by
  have := h.mono hx
  rwa [h.fix isFloat_zero] at this

theorem Nearest.le_float {x y : ℝ} (hy : IsFloat p y) (hxy : x ≤ y) : fl x ≤ y := by
  have := h.mono hxy
  rwa [h.fix hy] at this

theorem Nearest.float_le {x y : ℝ} (hx : IsFloat p x) (hxy : x ≤ y) : x ≤ fl y := by
  have := h.mono hxy
  rwa [h.fix hx] at this

theorem Nearest.pos (hp : 1 ≤ p) {x : ℝ} (hx : 0 < x) : 0 < fl x := by
  have := h.accurate hp x
  rw [abs_of_pos hx] at this
  have h2 : (2 : ℝ) ^ (-p : ℤ) ≤ 1 / 2 := by
    calc (2 : ℝ) ^ (-p : ℤ) ≤ 2 ^ (-1 : ℤ) := zpow_le_zpow_right₀ (by norm_num) (by omega)
      _ = _ := by norm_num
  have := (abs_le.1 this).1
  nlinarith

theorem Nearest.abs_le_one (hp : 1 ≤ p) {x : ℝ} (hx : |x| ≤ 1) : |fl x| ≤ 1 := by
  rw [abs_le] at hx ⊢
  exact ⟨h.float_le (isFloat_one hp).neg hx.1, h.le_float (isFloat_one hp) hx.2⟩

theorem Nearest.two (hp : 1 ≤ p) : fl (1 + 1) = 2 := by
  rw [show (1 + 1 : ℝ) = 2 ^ (1 : ℤ) by norm_num]
  rw [h.fix (isFloat_zpow hp 1)]
  norm_num

theorem Nearest.four (hp : 1 ≤ p) : fl (2 + 2) = 4 := by
  rw [show (2 + 2 : ℝ) = 2 ^ (2 : ℤ) by norm_num]
  rw [h.fix (isFloat_zpow hp 2)]
  norm_num

/-- A coordinate over the rounded norm of a vector that contains it. -/
theorem Nearest.ratio (hp : 1 ≤ p) {z t : ℝ} (hz : IsFloat p z) (ht : fl (z * z) ≤ t) (h0 : fl √t ≠ 0) :
    |fl (z / fl √t)| ≤ 1 := by
  apply h.abs_le_one hp
  have h1 := h.sqrt_sq hp hz ht
  have h2 : 0 < fl √t := lt_of_le_of_ne (h.nonneg (Real.sqrt_nonneg _)) (Ne.symm h0)
  rw [abs_div, abs_of_pos h2, div_le_one h2]
  exact h1

/-- Adding a nonnegative number to a floating-point number does not make it smaller. -/
theorem Nearest.le_add {x y : ℝ} (hx : 0 ≤ x) (hy : IsFloat p y) : y ≤ fl (x + y) :=
  h.float_le hy (by linarith)

end Nearest

/-- Sums of products of numbers are numbers; of squares, nonnegative numbers. -/
theorem cf_dot (a b : Fin n → ℝ) :
    ∃ d, Mat.dot (fun i => (CF.num (a i) : CF fl lib)) (fun i => CF.num (b i)) = CF.num d := by
  unfold Mat.dot
  generalize Verif.rng n 0 n = l
  have : ∀ s : ℝ, ∃ d, l.foldl (fun acc i => acc + (CF.num (a i) : CF fl lib) * CF.num (b i)) (CF.num s) = CF.num d := by
    induction l with
    | nil => exact fun s => ⟨s, rfl⟩
    | cons i l ih =>
      intro s
      rw [List.foldl_cons, cf_mul, cf_add]
      exact ih _
  exact this 0

theorem cf_norm (h : Nearest p fl) (a : Fin n → ℝ) :
    ∃ d, Mat.norm Scalar.sqrt (fun i => (CF.num (a i) : CF fl lib)) = CF.num d ∧ 0 ≤ d := by
  unfold Mat.norm
  generalize Verif.rng n 0 n = l
  have : ∀ s : ℝ, 0 ≤ s →
      ∃ d, l.foldl (fun acc i => acc + (CF.num (a i) : CF fl lib) * CF.num (a i)) (CF.num s) = CF.num d ∧ 0 ≤ d := by
    induction l with
    | nil => exact fun s hs => ⟨s, rfl, hs⟩
    | cons i l ih =>
      intro s hs
      rw [List.foldl_cons, cf_mul, cf_add]
      exact ih _ (h.nonneg (add_nonneg hs (h.nonneg (mul_self_nonneg _))))
  obtain ⟨d, h1, h2⟩ := this 0 le_rfl
  rw [cf_zero, h1, cf_sqrt h2]
  exact ⟨_, rfl, h.nonneg (Real.sqrt_nonneg _)⟩

end Verif.Float
