import Verif.Float.Lemmas
import Verif.Round.Lu
import Verif.Geom.Spec
import Verif.Ode.Round

/-! # Multiplying by a power of two in floating point: the operations, and loops run side by side -/

namespace Verif.Float

open Verif.Simd (Fl)
open Verif.Mat

variable {fl : ℝ → ℝ}

/-- Rounding does not depend on the exponent: true of every rounding that looks at the digits only, as long as nothing overflows or
underflows. -/
def DigitsOnly (fl : ℝ → ℝ) : Prop := ∀ (k : ℤ) (x : ℝ), fl (2 ^ k * x) = 2 ^ k * fl x

theorem rnd_digits (p : ℕ) : DigitsOnly (rnd p) := by
  intro k x
  by_cases hx : x = 0
  · subst hx; simp [rnd]
  have h2 : (0 : ℝ) < 2 ^ k := zpow_pos (by norm_num) _
  have hlog : Int.log 2 |2 ^ k * x| = k + Int.log 2 |x| := by
    rw [abs_mul, abs_of_pos h2]
    obtain ⟨b1, b2⟩ := binade hx
    have hp : (0 : ℝ) < 2 ^ k * |x| := mul_pos h2 (abs_pos.2 hx)
    have l1 : k + Int.log 2 |x| ≤ Int.log 2 (2 ^ k * |x|) := by
      rw [← Int.zpow_le_iff_le_log (by norm_num) hp]
      push_cast
      rw [zpow_add₀ (by norm_num)]
      exact mul_le_mul_of_nonneg_left b1 h2.le
    have l2 : Int.log 2 (2 ^ k * |x|) < k + (Int.log 2 |x| + 1) := by
      rw [← Int.lt_zpow_iff_log_lt (by norm_num) hp]
      push_cast
      rw [zpow_add₀ (by norm_num)]
      exact mul_lt_mul_of_pos_left b2 h2
    omega
  have hulp : ulp p (2 ^ k * x) = 2 ^ k * ulp p x := by
    unfold ulp
    rw [hlog, ← zpow_add₀ (by norm_num)]
    congr 1; ring
  unfold rnd
  rw [hulp, mul_div_mul_left _ _ h2.ne']
  ring

/-- A rounded number in another unit. -/
def scl (s : ℝ) (a : Fl fl) : Fl fl := ⟨s * a.val⟩

/-- A positive factor that commutes with rounding. -/
def Unit2 (fl : ℝ → ℝ) (s : ℝ) : Prop := 0 < s ∧ ∀ x, fl (s * x) = s * fl x

theorem DigitsOnly.unit (h : DigitsOnly fl) (k : ℤ) : Unit2 fl (2 ^ k) := ⟨zpow_pos (by norm_num) _, h k⟩

variable {s t : ℝ}

theorem Unit2.one : Unit2 fl 1 := ⟨one_pos, fun x => by rw [one_mul, one_mul]⟩

theorem Unit2.mul (hs : Unit2 fl s) (ht : Unit2 fl t) : Unit2 fl (s * t) :=
  ⟨mul_pos hs.1 ht.1, fun x => by rw [mul_assoc, hs.2, ht.2, mul_assoc]⟩

theorem Unit2.inv (hs : Unit2 fl s) : Unit2 fl s⁻¹ :=
  ⟨inv_pos.2 hs.1, fun x => by
    have := hs.2 (s⁻¹ * x)
    rw [← mul_assoc, mul_inv_cancel₀ hs.1.ne', one_mul] at this
    rw [this, ← mul_assoc, inv_mul_cancel₀ hs.1.ne', one_mul]⟩

theorem Unit2.div (hs : Unit2 fl s) (ht : Unit2 fl t) : Unit2 fl (s / t) := by
  rw [div_eq_mul_inv]; exact hs.mul ht.inv

@[ext] theorem fl_ext {a b : Fl fl} (h : a.val = b.val) : a = b := by cases a; cases b; cases h; rfl

theorem scl_one (a : Fl fl) : scl 1 a = a := by ext; simp [scl]

theorem scl_zero : scl s (0 : Fl fl) = 0 := by ext; exact mul_zero s

theorem scl_add (hs : Unit2 fl s) (a b : Fl fl) : scl s a + scl s b = scl s (a + b) := by
  ext; show fl (s * a.val + s * b.val) = s * fl (a.val + b.val)
  rw [← mul_add, hs.2]

theorem scl_sub (hs : Unit2 fl s) (a b : Fl fl) : scl s a - scl s b = scl s (a - b) := by
  ext; show fl (s * a.val - s * b.val) = s * fl (a.val - b.val)
  rw [← mul_sub, hs.2]

theorem scl_mul (hs : Unit2 fl s) (ht : Unit2 fl t) (a b : Fl fl) : scl s a * scl t b = scl (s * t) (a * b) := by
  ext; show fl (s * a.val * (t * b.val)) = s * t * fl (a.val * b.val)
  rw [mul_mul_mul_comm, (hs.mul ht).2]

theorem scl_div (hs : Unit2 fl s) (ht : Unit2 fl t) (a b : Fl fl) : scl s a / scl t b = scl (s / t) (a / b) := by
  ext; show fl (s * a.val / (t * b.val)) = s / t * fl (a.val / b.val)
  rw [mul_div_mul_comm, (hs.div ht).2]

theorem scl_neg (a : Fl fl) : -scl s a = scl s (-a) := by
  ext; show -(s * a.val) = s * -a.val; ring

theorem scl_abs (hs : 0 < s) (a : Fl fl) : absV (scl s a) = scl s (absV a) := by
  ext; show |s * a.val| = s * |a.val|
  rw [abs_mul, abs_of_pos hs]

theorem scl_lt (hs : 0 < s) (a b : Fl fl) : scl s a < scl s b ↔ a < b := mul_lt_mul_iff_right₀ hs

theorem scl_eq_zero (hs : 0 < s) (a : Fl fl) : scl s a = 0 ↔ a = 0 := by
  constructor
  · intro h
    have : s * a.val = 0 := congrArg Fl.val h
    ext; exact (mul_eq_zero.1 this).resolve_left hs.ne'
  · rintro rfl; exact scl_zero

theorem scl_rsqrt (hs : Unit2 fl s) (a : Fl fl) : Geom.rsqrt (scl (s * s) a) = scl s (Geom.rsqrt a) := by
  ext; show fl √(s * s * a.val) = s * fl √a.val
  rw [Real.sqrt_mul (mul_self_nonneg s), Real.sqrt_mul_self hs.1.le, hs.2]

/-- Two loops over the same list, run side by side. -/
theorem foldl_pair {ι σ τ : Type*} (f : σ → ι → σ) (g : τ → ι → τ) (l : List ι) (a : σ) (b : τ) :
    l.foldl (fun (p : σ × τ) i => (f p.1 i, g p.2 i)) (a, b) = (l.foldl f a, l.foldl g b) := by
  induction l generalizing a b with
  | nil => rfl
  | cons i l ih => exact ih _ _

theorem foldl_sim {ι σ τ : Type*} (R : σ → τ → Prop) (f : σ → ι → σ) (g : τ → ι → τ) (l : List ι)
    (h : ∀ i ∈ l, ∀ a b, R a b → R (f a i) (g b i)) {a : σ} {b : τ} (hab : R a b) : R (l.foldl f a) (l.foldl g b) := by
  induction l generalizing a b with
  | nil => exact hab
  | cons i l ih => exact ih (fun j hj => h j (List.mem_cons_of_mem _ hj)) (h i List.mem_cons_self a b hab)

end Verif.Float
