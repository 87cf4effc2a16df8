import Verif.Geom.Calculus
import Verif.Ode.Model
import Mathlib.Analysis.Normed.Group.Constructions
import Mathlib.Analysis.Complex.Exponential

/-! # Integrators in rounded arithmetic: literals, and the effect of perturbing the stages -/

namespace Verif.Ode

open Verif.Simd (Fl Accurate)
open Verif.Round (valV growth)
open Verif.Geom

variable {fl : ℝ → ℝ} {n : ℕ}

/-- The literals `2` and `6` are exact. -/
noncomputable instance : OfNat (Fl fl) 2 := ⟨⟨2⟩⟩
noncomputable instance : OfNat (Fl fl) 6 := ⟨⟨6⟩⟩

theorem norm_le_of {v w : Fin n → ℝ} {A : ℝ} (hA : 0 ≤ A) (h : ∀ i, |v i - w i| ≤ A) : ‖v - w‖ ≤ A :=
  (pi_norm_le_iff_of_nonneg hA).2 fun i => by rw [Real.norm_eq_abs]; exact h i

theorem abs_le_norm (v : Fin n → ℝ) (i : Fin n) : |v i| ≤ ‖v‖ := by
  rw [← Real.norm_eq_abs]
  exact norm_le_pi_norm v i

/-- Perturbing each stage point and the result by at most `S`, and each derivative by at most `ε`. -/
theorem perturbed {F : (Fin n → ℝ) → Fin n → ℝ} {L : ℝ} (hL : 0 ≤ L) (hF : ∀ u v, ‖F u - F v‖ ≤ L * ‖u - v‖) {h S ε : ℝ}
    (hh : 0 ≤ h) {x a1 a2 a3 a4 p2 p3 p4 r : Fin n → ℝ} (h1 : ‖a1 - F x‖ ≤ ε) (h2 : ‖a2 - F p2‖ ≤ ε)
    (h3 : ‖a3 - F p3‖ ≤ ε) (h4 : ‖a4 - F p4‖ ≤ ε) (s2 : ‖p2 - (x + (h / 2) • a1)‖ ≤ S)
    (s3 : ‖p3 - (x + (h / 2) • a2)‖ ≤ S) (s4 : ‖p4 - (x + h • a3)‖ ≤ S)
    (sr : ‖r - (x + (h / 6) • (a1 + (2 : ℝ) • a2 + (2 : ℝ) • a3 + a4))‖ ≤ S) :
    ‖r - (x + (h / 6) • (F x + (2 : ℝ) • F (x + (h / 2) • F x) + (2 : ℝ) • F (x + (h / 2) • F (x + (h / 2) • F x)) +
      F (x + h • F (x + (h / 2) • F (x + (h / 2) • F x)))))‖ ≤ S + h * Real.exp (h * L) * (ε + L * S) := by
  have stage : ∀ (c : ℝ) (a b k p : Fin n → ℝ) (e : ℝ), 0 ≤ c → ‖a - b‖ ≤ e → ‖k - F p‖ ≤ ε →
      ‖p - (x + c • a)‖ ≤ S → ‖k - F (x + c • b)‖ ≤ (ε + L * S) + L * c * e := by
    intro c a b k p e hc hab hk hp
    have e1 : k - F (x + c • b) = (k - F p) + (F p - F (x + c • b)) := by abel
    have e2 : p - (x + c • b) = (p - (x + c • a)) + c • (a - b) := by rw [smul_sub]; abel
    have b1 : ‖p - (x + c • b)‖ ≤ S + c * e := by
      rw [e2]
      refine (norm_add_le _ _).trans (add_le_add hp ?_)
      rw [norm_smul, Real.norm_eq_abs, abs_of_nonneg hc]
      exact mul_le_mul_of_nonneg_left hab hc
    rw [e1]
    have b2 := (hF p (x + c • b)).trans (mul_le_mul_of_nonneg_left b1 hL)
    calc _ ≤ _ := norm_add_le _ _
      _ ≤ ε + L * (S + c * e) := add_le_add hk b2
      _ = _ := by ring
  have hS : 0 ≤ S := (norm_nonneg _).trans s2
  have hε : 0 ≤ ε := (norm_nonneg _).trans h1
  have hE : 0 ≤ ε + L * S := by positivity
  have g1 : ‖a1 - F x‖ ≤ ε + L * S := h1.trans (by nlinarith)
  have g2 := stage (h / 2) _ _ _ _ _ (by positivity) g1 h2 s2
  have g3 := stage (h / 2) _ _ _ _ _ (by positivity) g2 h3 s3
  have g4 := stage h _ _ _ _ _ hh g3 h4 s4
  set E := ε + L * S
  set b1 := F x
  set b2 := F (x + (h / 2) • b1)
  set b3 := F (x + (h / 2) • b2)
  set b4 := F (x + h • b3)
  have hsum := Real.sum_le_exp_of_nonneg (mul_nonneg hh hL) 4
  have e : r - (x + (h / 6) • (b1 + (2 : ℝ) • b2 + (2 : ℝ) • b3 + b4)) =
      (r - (x + (h / 6) • (a1 + (2 : ℝ) • a2 + (2 : ℝ) • a3 + a4))) +
        (h / 6) • ((a1 - b1) + (2 : ℝ) • (a2 - b2) + (2 : ℝ) • (a3 - b3) + (a4 - b4)) := by
    module
  rw [e]
  refine (norm_add_le _ _).trans (add_le_add sr ?_)
  rw [norm_smul, Real.norm_eq_abs, abs_of_nonneg (by positivity : (0 : ℝ) ≤ h / 6)]
  have hs : ‖(a1 - b1) + (2 : ℝ) • (a2 - b2) + (2 : ℝ) • (a3 - b3) + (a4 - b4)‖
      ≤ ‖a1 - b1‖ + 2 * ‖a2 - b2‖ + 2 * ‖a3 - b3‖ + ‖a4 - b4‖ := by
    refine le_trans (norm_add_le _ _) (add_le_add ?_ le_rfl)
    refine le_trans (norm_add_le _ _) (add_le_add (le_trans (norm_add_le _ _) (add_le_add le_rfl ?_)) ?_)
    · rw [norm_smul]; simp
    · rw [norm_smul]; simp
  calc h / 6 * ‖(a1 - b1) + (2 : ℝ) • (a2 - b2) + (2 : ℝ) • (a3 - b3) + (a4 - b4)‖
      ≤ h / 6 * (‖a1 - b1‖ + 2 * ‖a2 - b2‖ + 2 * ‖a3 - b3‖ + ‖a4 - b4‖) := by gcongr
    _ ≤ h / 6 * (E + 2 * (E + L * (h / 2) * E) + 2 * (E + L * (h / 2) * (E + L * (h / 2) * E)) +
          (E + L * h * (E + L * (h / 2) * (E + L * (h / 2) * E)))) := by gcongr
    _ = h * (∑ i ∈ Finset.range 4, (h * L) ^ i / i.factorial - (h * L) / 2 - (h * L) ^ 2 / 3 - (h * L) ^ 3 / 8) * E := by
      simp only [Finset.sum_range_succ, Finset.sum_range_zero, Nat.factorial]
      push_cast
      ring
    _ ≤ h * Real.exp (h * L) * E := by
      gcongr
      have : 0 ≤ h * L := by positivity
      have h2 : 0 ≤ (h * L) ^ 2 := by positivity
      have h3 : 0 ≤ (h * L) ^ 3 := by positivity
      linarith

/-- Errors that are multiplied by at most `exp a` and increased by `δ` in each step. -/
theorem accumulate {d : ℕ → ℝ} {a δ : ℝ} (ha : 0 ≤ a) (hδ : 0 ≤ δ) (h0 : d 0 = 0) {N : ℕ}
    (hs : ∀ k < N, d (k + 1) ≤ Real.exp a * d k + δ) : ∀ k ≤ N, d k ≤ Real.exp (k * a) * (k * δ) := by
  intro k
  induction k with
  | zero => intro _; simp [h0]
  | succ k ih =>
    intro hk
    have i1 := ih (by omega)
    have i2 := hs k (by omega)
    have hx : Real.exp (((k + 1 : ℕ) : ℝ) * a) = Real.exp a * Real.exp (k * a) := by
      rw [← Real.exp_add]; congr 1; push_cast; ring
    have hone : (1 : ℝ) ≤ Real.exp (((k + 1 : ℕ) : ℝ) * a) := Real.one_le_exp (by positivity)
    calc d (k + 1) ≤ Real.exp a * (Real.exp (k * a) * (k * δ)) + 1 * δ := by
          have := mul_le_mul_of_nonneg_left i1 (Real.exp_pos a).le
          linarith
      _ ≤ Real.exp a * (Real.exp (k * a) * (k * δ)) + Real.exp (((k + 1 : ℕ) : ℝ) * a) * δ := by gcongr
      _ = _ := by rw [hx]; push_cast; ring

end Verif.Ode
