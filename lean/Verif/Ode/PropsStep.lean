import Verif.Ode.Model
import Mathlib.Analysis.SpecialFunctions.Integrals.Basic
import Mathlib.Analysis.SpecialFunctions.Exponential
import Mathlib.MeasureTheory.Integral.IntervalIntegral.TrapezoidalRule
import Mathlib.Analysis.Complex.ExponentialBounds
import Mathlib.Algebra.Polynomial.Eval.Degree
import Mathlib.Data.Matrix.Mul
import Mathlib.Analysis.Matrix.Normed
import Mathlib.Analysis.Normed.Algebra.MatrixExponential
import Mathlib.Analysis.ODE.Gronwall
import Mathlib.Analysis.Calculus.MeanValue

/-!
# One-step integrators (C72)
-/

namespace Verif.Ode

open MeasureTheory Matrix

/-! ## The classical scheme -/

/-- The classical Runge–Kutta step, as in the textbooks. -/
noncomputable def classical {n : ℕ} (f : (Fin n → ℝ) → Fin n → ℝ) (h : ℝ) (x : Fin n → ℝ) : Fin n → ℝ :=
  let k1 := f x
  let k2 := f (x + (h / 2) • k1)
  let k3 := f (x + (h / 2) • k2)
  let k4 := f (x + h • k3)
  x + (h / 6) • (k1 + (2 : ℝ) • k2 + (2 : ℝ) • k3 + k4)

theorem vscale_eq {n : ℕ} (v : Fin n → ℝ) (s : ℝ) : vscale v s = s • v := by
  funext i; simp [vscale, mul_comm]

/-- C72. All three variants of the Runge–Kutta integrator are the classical scheme. -/
theorem C72_rk4_classical :
    (∀ (n : ℕ) (f : (Fin n → ℝ) → Fin n → ℝ) (h : ℝ) (x : Fin n → ℝ), rk4 x f h = classical f h x) ∧
    (∀ (f : (Fin 3 → ℝ) → Fin 3 → ℝ) (h : ℝ) (x : Fin 3 → ℝ), rk4Cartesian x f h = classical f h x ∧ rk4Euler x f h = classical f h x) := by
  refine ⟨fun n f h x => ?_, fun f h x => ⟨?_, ?_⟩⟩
  · unfold rk4 classical
    simp only [vscale_eq, two_smul]
    congr 2
    abel
  · unfold rk4Cartesian classical
    simp only [vscale_eq]
  · unfold rk4Euler classical
    simp only [vscale_eq, two_smul]
    congr 2
    abel

/-- C72. Integrating `y' = p(t)` for a polynomial `p` of degree at most three (state: time and value) is exact for every step. -/
theorem C72_rk4_quadrature (p : Polynomial ℝ) (hp : p.natDegree ≤ 3) (t y h : ℝ) :
    rk4 ![t, y] (fun s => ![1, p.eval (s 0)]) h = ![t + h, y + ∫ s in t..(t + h), p.eval s] := by
  have hev : ∀ s, p.eval s = p.coeff 0 + p.coeff 1 * s + p.coeff 2 * s ^ 2 + p.coeff 3 * s ^ 3 := by
    intro s
    rw [Polynomial.eval_eq_sum_range' (Nat.lt_succ_of_le hp)]
    simp [Finset.sum_range_succ]
  have hint : ∫ s in t..(t + h), p.eval s
      = p.coeff 0 * h + p.coeff 1 * (((t + h) ^ 2 - t ^ 2) / 2) + p.coeff 2 * (((t + h) ^ 3 - t ^ 3) / 3)
        + p.coeff 3 * (((t + h) ^ 4 - t ^ 4) / 4) := by
    simp only [hev]
    rw [intervalIntegral.integral_add (by apply Continuous.intervalIntegrable; fun_prop) (by apply Continuous.intervalIntegrable; fun_prop), intervalIntegral.integral_add (by apply Continuous.intervalIntegrable; fun_prop) (by apply Continuous.intervalIntegrable; fun_prop),
      intervalIntegral.integral_add (by apply Continuous.intervalIntegrable; fun_prop) (by apply Continuous.intervalIntegrable; fun_prop), intervalIntegral.integral_const, intervalIntegral.integral_const_mul,
      intervalIntegral.integral_const_mul, intervalIntegral.integral_const_mul, integral_id, integral_pow, integral_pow]
    simp
    ring
  rw [hint]
  funext i
  fin_cases i
  · simp [rk4, vscale_eq]
    ring
  · simp [rk4, vscale_eq, hev]
    ring

/-- C72. For a linear system `x' = A x` of any dimension a step multiplies by the Taylor polynomial of the exponential of degree four. -/
theorem C72_rk4_linear {n : ℕ} (A : Matrix (Fin n) (Fin n) ℝ) (h : ℝ) (x : Fin n → ℝ) :
    rk4 x (fun v => A *ᵥ v) h
      = (∑ k ∈ Finset.range 5, ((k.factorial : ℝ)⁻¹) • (h • A) ^ k) *ᵥ x := by
  rw [C72_rk4_classical.1]
  unfold classical
  simp only [Finset.sum_range_succ, Finset.sum_range_zero, zero_add, Matrix.add_mulVec, Matrix.smul_mulVec, pow_zero, Matrix.one_mulVec,
    smul_pow, Matrix.mulVec_add, Matrix.mulVec_smul, pow_succ, one_mul, ← Matrix.mulVec_mulVec, smul_add, smul_smul]
  norm_num [Nat.factorial]
  module

/-! ## Order four on linear systems -/

section Algebra
variable {𝔸 : Type*} [NormedRing 𝔸] [NormedAlgebra ℝ 𝔸]

/-- The Taylor polynomial of degree four of the exponential. -/
noncomputable def taylor4 (z : 𝔸) : 𝔸 := ∑ k ∈ Finset.range 5, ((k.factorial : ℝ)⁻¹) • z ^ k

theorem exp_taylor4 [CompleteSpace 𝔸] (z : 𝔸) : ‖NormedSpace.exp z - taylor4 z‖ ≤ ‖z‖ ^ 5 / 120 * Real.exp ‖z‖ := by
  have hs : Summable fun k : ℕ => ((k.factorial : ℝ)⁻¹) • z ^ k := NormedSpace.expSeries_summable' (𝕂 := ℝ) z
  have he : NormedSpace.exp z = ∑' k : ℕ, ((k.factorial : ℝ)⁻¹) • z ^ k := by
    rw [NormedSpace.exp_eq_tsum ℝ]
  have hd : NormedSpace.exp z - taylor4 z = ∑' k : ℕ, (((k + 5).factorial : ℝ)⁻¹) • z ^ (k + 5) := by
    rw [he, taylor4, ← hs.sum_add_tsum_nat_add 5, add_sub_cancel_left]
  have hr : HasSum (fun k : ℕ => ‖z‖ ^ 5 / 120 * (‖z‖ ^ k / k.factorial)) (‖z‖ ^ 5 / 120 * Real.exp ‖z‖) := by
    have := (NormedSpace.expSeries_div_hasSum_exp ‖z‖).mul_left (‖z‖ ^ 5 / 120)
    rwa [← Real.exp_eq_exp_ℝ] at this
  rw [hd]
  refine tsum_of_norm_bounded hr fun k => ?_
  have h1 : ‖z ^ (k + 5)‖ ≤ ‖z‖ ^ (k + 5) := norm_pow_le' z (by omega)
  have h2 : (120 : ℝ) * k.factorial ≤ (k + 5).factorial := by
    have := Nat.factorial_mul_factorial_dvd_factorial_add k 5
    have := Nat.le_of_dvd (Nat.factorial_pos _) this
    have e : Nat.factorial 5 = 120 := rfl
    rw [e, mul_comm] at this
    exact_mod_cast this
  have hk : (0 : ℝ) < k.factorial := by exact_mod_cast Nat.factorial_pos k
  rw [norm_smul, norm_inv, Real.norm_natCast]
  calc ((k + 5).factorial : ℝ)⁻¹ * ‖z ^ (k + 5)‖ ≤ (120 * (k.factorial : ℝ))⁻¹ * ‖z‖ ^ (k + 5) := by
        gcongr
    _ = ‖z‖ ^ 5 / 120 * (‖z‖ ^ k / k.factorial) := by rw [pow_add]; field_simp

theorem taylor4_norm [NormOneClass 𝔸] (z : 𝔸) : ‖taylor4 z‖ ≤ Real.exp ‖z‖ := by
  refine le_trans (norm_sum_le _ _) ?_
  refine le_trans (Finset.sum_le_sum (g := fun k : ℕ => ‖z‖ ^ k / k.factorial) fun k _ => ?_) (Real.sum_le_exp_of_nonneg (norm_nonneg z) 5)
  rw [norm_smul, norm_inv, Real.norm_natCast, div_eq_inv_mul]
  exact mul_le_mul_of_nonneg_left (norm_pow_le z k) (by positivity)

theorem exp_norm [NormOneClass 𝔸] (z : 𝔸) : ‖NormedSpace.exp z‖ ≤ Real.exp ‖z‖ := by
  have he : NormedSpace.exp z = ∑' k : ℕ, ((k.factorial : ℝ)⁻¹) • z ^ k := by
    rw [NormedSpace.exp_eq_tsum ℝ]
  rw [he, Real.exp_eq_exp_ℝ]
  refine tsum_of_norm_bounded (NormedSpace.expSeries_div_hasSum_exp ‖z‖) fun k => ?_
  rw [norm_smul, norm_inv, Real.norm_natCast, div_eq_inv_mul]
  exact mul_le_mul_of_nonneg_left (norm_pow_le z k) (by positivity)

omit [NormedAlgebra ℝ 𝔸] in
theorem pow_sub_pow_norm [NormOneClass 𝔸] (a b : 𝔸) (M : ℝ) (ha : ‖a‖ ≤ M) (hb : ‖b‖ ≤ M) (N : ℕ) :
    ‖a ^ (N + 1) - b ^ (N + 1)‖ ≤ (N + 1) * M ^ N * ‖a - b‖ := by
  have hM : 0 ≤ M := le_trans (norm_nonneg a) ha
  induction N with
  | zero => simp
  | succ N ih =>
    have e : a ^ (N + 1 + 1) - b ^ (N + 1 + 1) = a ^ (N + 1) * (a - b) + (a ^ (N + 1) - b ^ (N + 1)) * b := by
      rw [pow_succ a (N + 1), pow_succ b (N + 1)]; noncomm_ring
    rw [e]
    calc ‖a ^ (N + 1) * (a - b) + (a ^ (N + 1) - b ^ (N + 1)) * b‖
        ≤ ‖a ^ (N + 1)‖ * ‖a - b‖ + ‖a ^ (N + 1) - b ^ (N + 1)‖ * ‖b‖ :=
          le_trans (norm_add_le _ _) (add_le_add (norm_mul_le _ _) (norm_mul_le _ _))
      _ ≤ M ^ (N + 1) * ‖a - b‖ + ((N + 1) * M ^ N * ‖a - b‖) * M := by
          gcongr
          exact le_trans (norm_pow_le a _) (pow_le_pow_left₀ (norm_nonneg a) ha _)
      _ = ((N + 1 : ℕ) + 1) * M ^ (N + 1) * ‖a - b‖ := by push_cast; ring

theorem taylor4_power [CompleteSpace 𝔸] [NormOneClass 𝔸] (z : 𝔸) (N : ℕ) :
    ‖taylor4 z ^ (N + 1) - NormedSpace.exp z ^ (N + 1)‖ ≤ (N + 1) * (‖z‖ ^ 5 / 120) * Real.exp ((N + 1) * ‖z‖) := by
  refine le_trans (pow_sub_pow_norm _ _ _ (taylor4_norm z) (exp_norm z) N) ?_
  rw [norm_sub_rev]
  calc ((N : ℝ) + 1) * Real.exp ‖z‖ ^ N * ‖NormedSpace.exp z - taylor4 z‖
      ≤ (N + 1) * Real.exp ‖z‖ ^ N * (‖z‖ ^ 5 / 120 * Real.exp ‖z‖) :=
        mul_le_mul_of_nonneg_left (exp_taylor4 z) (by positivity)
    _ = (N + 1) * (‖z‖ ^ 5 / 120) * Real.exp ((N + 1) * ‖z‖) := by
        have e : Real.exp ((N + 1) * ‖z‖) = Real.exp ‖z‖ ^ N * Real.exp ‖z‖ := by
          rw [← Real.exp_nat_mul, ← Real.exp_add]; congr 1; ring
        rw [e]; ring

end Algebra

open scoped Matrix.Norms.Operator

theorem linear_solution {n : ℕ} (A : Matrix (Fin n) (Fin n) ℝ) (y : ℝ → Fin n → ℝ) (hy : ∀ t, HasDerivAt y (A *ᵥ y t) t) (T : ℝ) :
    y T = NormedSpace.exp (T • A) *ᵥ y 0 := by
  -- `exp (-t A) y t` is constant
  set c : ℝ → Fin n → ℝ := fun t => NormedSpace.exp (t • (-A)) *ᵥ y t with hc
  have hE : ∀ t : ℝ, HasDerivAt (fun t : ℝ => NormedSpace.exp (t • (-A))) (NormedSpace.exp (t • (-A)) * (-A)) t :=
    fun t => hasDerivAt_exp_smul_const (𝕂 := ℝ) (-A) t
  have hd : ∀ t, HasDerivAt c 0 t := by
    intro t
    rw [hasDerivAt_pi]
    intro i
    have h1 : ∀ j, HasDerivAt (fun t : ℝ => NormedSpace.exp (t • (-A)) i j) ((NormedSpace.exp (t • (-A)) * (-A)) i j) t := by
      intro j
      have := (hasDerivAt_pi.mp ((hasDerivAt_pi.mp (hE t)) i)) j
      exact this
    have h2 := fun j => (hasDerivAt_pi.mp (hy t)) j
    have h3 : HasDerivAt (fun t : ℝ => ∑ j, NormedSpace.exp (t • (-A)) i j * y t j)
        (∑ j, ((NormedSpace.exp (t • (-A)) * (-A)) i j * y t j + NormedSpace.exp (t • (-A)) i j * (A *ᵥ y t) j)) t :=
      HasDerivAt.fun_sum fun j _ => (h1 j).mul (h2 j)
    refine h3.congr_deriv ?_
    have e : (NormedSpace.exp (t • (-A)) * (-A)) *ᵥ y t + NormedSpace.exp (t • (-A)) *ᵥ (A *ᵥ y t) = 0 := by
      rw [Matrix.mulVec_mulVec, ← Matrix.add_mulVec, Matrix.mul_neg, neg_add_cancel, Matrix.zero_mulVec]
    have := congrFun e i
    rw [Finset.sum_add_distrib]
    exact this
  have hconst : c T = c 0 := is_const_of_deriv_eq_zero (fun t => (hd t).differentiableAt) (fun t => (hd t).deriv) T 0
  have h0 : c 0 = y 0 := by simp [hc]
  rw [← h0, ← hconst, hc]
  simp only
  rw [Matrix.mulVec_mulVec, ← Matrix.exp_add_of_commute]
  · simp
  · exact ((Commute.refl A).neg_right.smul_left _).smul_right _

/-- C72. On every linear system `y' = A y`, of any dimension, `N` Runge–Kutta steps of size `T/N` reach the exact solution up to an error of
fourth order in the step: at most `‖TA‖⁵ exp ‖TA‖ / (120 N⁴)` times the size of the initial state (largest-entry norm of vectors, largest
row sum of matrices). -/
theorem C72_rk4_order_four {n : ℕ} (A : Matrix (Fin n) (Fin n) ℝ) (y : ℝ → Fin n → ℝ) (hy : ∀ t, HasDerivAt y (A *ᵥ y t) t)
    (T : ℝ) (N : ℕ) (hN : 0 < N) :
    ‖(fun x => rk4 x (fun v => A *ᵥ v) (T / N))^[N] (y 0) - y T‖
      ≤ ‖T • A‖ ^ 5 * Real.exp ‖T • A‖ / (120 * N ^ 4) * ‖y 0‖ := by
  rcases Nat.eq_zero_or_pos n with rfl | hn
  · have : (fun x => rk4 x (fun v => A *ᵥ v) (T / N))^[N] (y 0) - y T = 0 := Subsingleton.elim _ _
    rw [this, norm_zero]
    positivity
  have : Nonempty (Fin n) := ⟨⟨0, hn⟩⟩
  have hit : ∀ k : ℕ, (fun x => rk4 x (fun v => A *ᵥ v) (T / N))^[k] (y 0) = (taylor4 ((T / N) • A)) ^ k *ᵥ y 0 := by
    intro k
    induction k with
    | zero => simp
    | succ k ih =>
      rw [Function.iterate_succ_apply', ih, C72_rk4_linear, Matrix.mulVec_mulVec, pow_succ']
      rfl
  obtain ⟨M, rfl⟩ : ∃ M, N = M + 1 := ⟨N - 1, by omega⟩
  have hNr : ((M + 1 : ℕ) : ℝ) ≠ 0 := by positivity
  have hz : ((M : ℝ) + 1) * ‖(T / (M + 1 : ℕ)) • A‖ = ‖T • A‖ := by
    rw [norm_smul, norm_smul, norm_div, Real.norm_natCast]
    push_cast
    field_simp
  have hex : NormedSpace.exp (T • A) = NormedSpace.exp ((T / (M + 1 : ℕ)) • A) ^ (M + 1) := by
    rw [← Matrix.exp_nsmul, ← Nat.cast_smul_eq_nsmul ℝ, smul_smul, mul_div_cancel₀ _ hNr]
  rw [hit, linear_solution A y hy T, hex, ← Matrix.sub_mulVec]
  refine le_trans (Matrix.linfty_opNorm_mulVec _ _) (mul_le_mul_of_nonneg_right ?_ (norm_nonneg _))
  refine le_trans (taylor4_power _ M) (le_of_eq ?_)
  rw [hz]
  have : ‖(T / (M + 1 : ℕ)) • A‖ = ‖T • A‖ / (M + 1) := by
    rw [eq_div_iff (by positivity), mul_comm]; exact hz
  rw [this]
  push_cast
  field_simp

/-! ## Convergence on every Lipschitz system -/

section Lipschitz
variable {n : ℕ} {f : (Fin n → ℝ) → Fin n → ℝ} {L : ℝ}

theorem classical_stable (hL : 0 ≤ L) (hf : ∀ u v, ‖f u - f v‖ ≤ L * ‖u - v‖) {h : ℝ} (hh : 0 ≤ h) (u v : Fin n → ℝ) :
    ‖classical f h u - classical f h v‖ ≤ Real.exp (h * L) * ‖u - v‖ := by
  set d := ‖u - v‖ with hd
  have stage : ∀ (c : ℝ) (a b : Fin n → ℝ) (B : ℝ), 0 ≤ c → ‖a - b‖ ≤ B →
      ‖f (u + c • a) - f (v + c • b)‖ ≤ L * (d + c * B) := by
    intro c a b B hc hab
    refine le_trans (hf _ _) (mul_le_mul_of_nonneg_left ?_ hL)
    have e : u + c • a - (v + c • b) = (u - v) + c • (a - b) := by rw [smul_sub]; abel
    rw [e]
    refine le_trans (norm_add_le _ _) ?_
    rw [norm_smul, Real.norm_eq_abs, abs_of_nonneg hc]
    have := mul_le_mul_of_nonneg_left hab hc
    linarith
  have h1 : ‖f u - f v‖ ≤ L * d := hf u v
  have h2 := stage (h / 2) _ _ _ (by positivity) h1
  have h3 := stage (h / 2) _ _ _ (by positivity) h2
  have h4 := stage h _ _ _ hh h3
  have hsum := Real.sum_le_exp_of_nonneg (mul_nonneg hh hL) 5
  have hd0 : 0 ≤ d := norm_nonneg _
  refine le_trans ?_ (mul_le_mul_of_nonneg_right hsum hd0)
  unfold classical
  simp only
  set k1 := f u
  set l1 := f v
  set k2 := f (u + (h / 2) • k1)
  set l2 := f (v + (h / 2) • l1)
  set k3 := f (u + (h / 2) • k2)
  set l3 := f (v + (h / 2) • l2)
  set k4 := f (u + h • k3)
  set l4 := f (v + h • l3)
  have e : u + (h / 6) • (k1 + (2 : ℝ) • k2 + (2 : ℝ) • k3 + k4) - (v + (h / 6) • (l1 + (2 : ℝ) • l2 + (2 : ℝ) • l3 + l4))
      = (u - v) + (h / 6) • ((k1 - l1) + (2 : ℝ) • (k2 - l2) + (2 : ℝ) • (k3 - l3) + (k4 - l4)) := by
    module
  rw [e]
  refine le_trans (norm_add_le _ _) ?_
  rw [norm_smul, Real.norm_eq_abs, abs_of_nonneg (by positivity : (0 : ℝ) ≤ h / 6)]
  have hs : ‖(k1 - l1) + (2 : ℝ) • (k2 - l2) + (2 : ℝ) • (k3 - l3) + (k4 - l4)‖
      ≤ ‖k1 - l1‖ + 2 * ‖k2 - l2‖ + 2 * ‖k3 - l3‖ + ‖k4 - l4‖ := by
    refine le_trans (norm_add_le _ _) (add_le_add ?_ le_rfl)
    refine le_trans (norm_add_le _ _) (add_le_add (le_trans (norm_add_le _ _) (add_le_add le_rfl ?_)) ?_)
    · rw [norm_smul]; simp
    · rw [norm_smul]; simp
  have hs2 := mul_le_mul_of_nonneg_left hs (by positivity : (0 : ℝ) ≤ h / 6)
  have hs3 := mul_le_mul_of_nonneg_left (add_le_add (add_le_add (add_le_add h1 (mul_le_mul_of_nonneg_left h2 zero_le_two))
    (mul_le_mul_of_nonneg_left h3 zero_le_two)) h4) (by positivity : (0 : ℝ) ≤ h / 6)
  refine le_trans (add_le_add le_rfl (le_trans hs2 hs3)) (le_of_eq ?_)
  rw [← hd]
  simp only [Finset.sum_range_succ, Finset.sum_range_zero, Nat.factorial]
  push_cast
  ring

theorem classical_local (hL : 0 ≤ L) (hf : ∀ u v, ‖f u - f v‖ ≤ L * ‖u - v‖) {h B : ℝ} (hh : 0 ≤ h) (x : Fin n → ℝ) (hB : ‖f x‖ ≤ B) :
    ‖classical f h x - (x + h • f x)‖ ≤ L * B * h ^ 2 * (1 + L * h) ^ 2 := by
  have hB0 : 0 ≤ B := le_trans (norm_nonneg _) hB
  have stage : ∀ (c : ℝ) (a : Fin n → ℝ) (C : ℝ), 0 ≤ c → ‖a‖ ≤ C → ‖f (x + c • a) - f x‖ ≤ L * c * C := by
    intro c a C hc ha
    refine le_trans (hf _ _) ?_
    rw [add_sub_cancel_left, norm_smul, Real.norm_eq_abs, abs_of_nonneg hc, mul_assoc]
    gcongr
  have grow : ∀ (a : Fin n → ℝ) (C : ℝ), ‖a - f x‖ ≤ C → ‖a‖ ≤ B + C := by
    intro a C ha
    have : a = f x + (a - f x) := by abel
    rw [this]
    exact le_trans (norm_add_le _ _) (add_le_add hB ha)
  unfold classical
  simp only
  have h2 := stage (h / 2) _ _ (by positivity) hB
  have h3 := stage (h / 2) _ _ (by positivity) (grow _ _ h2)
  have h4 := stage h _ _ hh (grow _ _ h3)
  set k1 := f x
  set k2 := f (x + (h / 2) • k1)
  set k3 := f (x + (h / 2) • k2)
  set k4 := f (x + h • k3)
  have e : x + (h / 6) • (k1 + (2 : ℝ) • k2 + (2 : ℝ) • k3 + k4) - (x + h • k1)
      = (h / 6) • ((2 : ℝ) • (k2 - k1) + (2 : ℝ) • (k3 - k1) + (k4 - k1)) := by
    module
  rw [e, norm_smul, Real.norm_eq_abs, abs_of_nonneg (by positivity : (0 : ℝ) ≤ h / 6)]
  have hs : ‖(2 : ℝ) • (k2 - k1) + (2 : ℝ) • (k3 - k1) + (k4 - k1)‖ ≤ 2 * ‖k2 - k1‖ + 2 * ‖k3 - k1‖ + ‖k4 - k1‖ := by
    refine le_trans (norm_add_le _ _) (add_le_add (le_trans (norm_add_le _ _) (add_le_add ?_ ?_)) le_rfl)
    · rw [norm_smul]; simp
    · rw [norm_smul]; simp
  have hs2 := mul_le_mul_of_nonneg_left hs (by positivity : (0 : ℝ) ≤ h / 6)
  have hs3 := mul_le_mul_of_nonneg_left (add_le_add (add_le_add (mul_le_mul_of_nonneg_left h2 zero_le_two)
    (mul_le_mul_of_nonneg_left h3 zero_le_two)) h4) (by positivity : (0 : ℝ) ≤ h / 6)
  refine le_trans (le_trans hs2 hs3) ?_
  have hLh : 0 ≤ L * h := mul_nonneg hL hh
  have e2 : L * B * h ^ 2 * (1 + L * h) ^ 2 - h / 6 * (2 * (L * (h / 2) * B) + 2 * (L * (h / 2) * (B + L * (h / 2) * B))
      + L * h * (B + L * (h / 2) * (B + L * (h / 2) * B))) = L * B * h ^ 2 * (1 / 2 + (11 / 6) * (L * h) + (11 / 12 + 1 / 24) * (L * h) ^ 2) + 0 := by
    ring
  have : 0 ≤ L * B * h ^ 2 * (1 / 2 + (11 / 6) * (L * h) + (11 / 12 + 1 / 24) * (L * h) ^ 2) := by positivity
  linarith

theorem solution_local (hL : 0 ≤ L) (hf : ∀ u v, ‖f u - f v‖ ≤ L * ‖u - v‖) {y : ℝ → Fin n → ℝ} {T B : ℝ}
    (hy : ∀ t ∈ Set.Icc 0 T, HasDerivWithinAt y (f (y t)) (Set.Icc 0 T) t) (hB : ∀ t ∈ Set.Icc 0 T, ‖f (y t)‖ ≤ B) {t h : ℝ} (ht : 0 ≤ t) (hh : 0 ≤ h)
    (htT : t + h ≤ T) : ‖y (t + h) - (y t + h • f (y t))‖ ≤ L * B * h ^ 2 := by
  have htm : t ∈ Set.Icc 0 T := ⟨ht, by linarith⟩
  have hB0 : 0 ≤ B := le_trans (norm_nonneg _) (hB t htm)
  have hsub : Set.Icc t (t + h) ⊆ Set.Icc 0 T := Set.Icc_subset_Icc ht htT
  have hin : t + h ∈ Set.Icc t (t + h) := ⟨by linarith, le_rfl⟩
  have htin : t ∈ Set.Icc t (t + h) := ⟨le_rfl, by linarith⟩
  have hmove : ∀ s ∈ Set.Icc t (t + h), ‖y s - y t‖ ≤ B * h := by
    intro s hs
    have := (convex_Icc t (t + h)).norm_image_sub_le_of_norm_hasDerivWithin_le (f := y) (f' := fun s => f (y s)) (C := B)
      (fun r hr => (hy r (hsub hr)).mono hsub) (fun r hr => hB r (hsub hr)) htin hs
    refine le_trans this (mul_le_mul_of_nonneg_left ?_ hB0)
    rw [Real.norm_eq_abs, abs_le]
    exact ⟨by linarith [hs.1], by linarith [hs.2]⟩
  have hd : ∀ s ∈ Set.Icc t (t + h), HasDerivWithinAt (fun s => y s - s • f (y t)) (f (y s) - f (y t)) (Set.Icc t (t + h)) s := by
    intro s hs
    have h1 := (hy s (hsub hs)).mono hsub
    have h2 : HasDerivWithinAt (fun s : ℝ => s • f (y t)) ((1 : ℝ) • f (y t)) (Set.Icc t (t + h)) s :=
      (hasDerivWithinAt_id s _).smul_const _
    rw [one_smul] at h2
    exact h1.sub h2
  have := (convex_Icc t (t + h)).norm_image_sub_le_of_norm_hasDerivWithin_le (C := L * (B * h)) hd
    (fun s hs => le_trans (hf _ _) (mul_le_mul_of_nonneg_left (hmove s hs) hL)) htin hin
  have e : y (t + h) - (t + h) • f (y t) - (y t - t • f (y t)) = y (t + h) - (y t + h • f (y t)) := by
    rw [add_smul]; abel
  rw [e, add_sub_cancel_left, Real.norm_eq_abs, abs_of_nonneg hh] at this
  calc _ ≤ _ := this
    _ = L * B * h ^ 2 := by ring

end Lipschitz

/-- C72. For every system `y' = f(y)` with a Lipschitz right-hand side, any dimension, and every solution on `[0, T]`: the Runge–Kutta
iterates with step `T/N` reach `y(T)` up to an error proportional to the step, so they converge as the step is refined. -/
theorem C72_rk4_converges {n : ℕ} (f : (Fin n → ℝ) → Fin n → ℝ) (L : ℝ) (hL : 0 ≤ L) (hf : ∀ u v, ‖f u - f v‖ ≤ L * ‖u - v‖)
    (y : ℝ → Fin n → ℝ) (T : ℝ) (hT : 0 ≤ T) (hy : ∀ t ∈ Set.Icc 0 T, HasDerivWithinAt y (f (y t)) (Set.Icc 0 T) t) :
    ∃ C : ℝ, ∀ N : ℕ, 0 < N → ‖(fun x => rk4 x f (T / N))^[N] (y 0) - y T‖ ≤ C * (T / N) := by
  have hcont : ContinuousOn (fun t => ‖f (y t)‖) (Set.Icc 0 T) := by
    have hyc : ContinuousOn y (Set.Icc 0 T) := fun t ht => (hy t ht).continuousWithinAt
    have hfc : Continuous f := (LipschitzWith.of_dist_le_mul (K := ⟨L, hL⟩) (fun u v => by
      rw [dist_eq_norm, dist_eq_norm]; exact hf u v)).continuous
    exact (hfc.comp_continuousOn hyc).norm
  obtain ⟨B, hB'⟩ := isCompact_Icc.bddAbove_image hcont
  have hB : ∀ t ∈ Set.Icc 0 T, ‖f (y t)‖ ≤ B := fun t ht => hB' ⟨t, ht, rfl⟩
  have hB0 : 0 ≤ B := le_trans (norm_nonneg _) (hB 0 ⟨le_rfl, hT⟩)
  set K := L * B * (1 + (1 + L * T) ^ 2) with hK
  have hK0 : 0 ≤ K := by positivity
  refine ⟨K * T * Real.exp (T * L), fun N hN => ?_⟩
  have hNr : (0 : ℝ) < N := by exact_mod_cast hN
  set h := T / N with hh
  have hh0 : 0 ≤ h := by positivity
  have hhT : h ≤ T := div_le_self hT (by exact_mod_cast hN)
  have hstep : ∀ t, 0 ≤ t → t + h ≤ T → ‖classical f h (y t) - y (t + h)‖ ≤ K * h ^ 2 := by
    intro t ht htT
    have hm : t ∈ Set.Icc 0 T := ⟨ht, by linarith⟩
    have h1 := classical_local hL hf hh0 (y t) (hB t hm)
    have h2 := solution_local hL hf hy hB ht hh0 htT
    have e : classical f h (y t) - y (t + h) = (classical f h (y t) - (y t + h • f (y t))) - (y (t + h) - (y t + h • f (y t))) := by abel
    rw [e]
    refine le_trans (norm_sub_le _ _) (le_trans (add_le_add h1 h2) ?_)
    have : (1 + L * h) ^ 2 ≤ (1 + L * T) ^ 2 := by gcongr
    have h3 := mul_le_mul_of_nonneg_left this (by positivity : 0 ≤ L * B * h ^ 2)
    rw [hK]
    nlinarith
  have key : ∀ k : ℕ, k ≤ N → ‖(fun x => rk4 x f h)^[k] (y 0) - y (k * h)‖ ≤ k * (K * h ^ 2) * Real.exp (k * (h * L)) := by
    intro k
    induction k with
    | zero => intro _; simp
    | succ k ih =>
      intro hk
      have ihk := ih (by omega)
      have hkh : (k : ℝ) * h + h ≤ T := by
        have h1 : ((k : ℝ) + 1) ≤ N := by exact_mod_cast hk
        have h2 : (N : ℝ) * h = T := by rw [hh]; field_simp
        nlinarith
      have hs := hstep (k * h) (by positivity) hkh
      rw [Function.iterate_succ_apply', C72_rk4_classical.1]
      set z := (fun x => rk4 x f h)^[k] (y 0)
      have e : classical f h z - y (((k + 1 : ℕ) : ℝ) * h) = (classical f h z - classical f h (y (k * h))) + (classical f h (y (k * h)) - y (k * h + h)) := by
        have : ((k + 1 : ℕ) : ℝ) * h = k * h + h := by push_cast; ring
        rw [this]; abel
      rw [e]
      have hst := classical_stable hL hf hh0 z (y (k * h))
      have hx : Real.exp (((k + 1 : ℕ) : ℝ) * (h * L)) = Real.exp (h * L) * Real.exp (k * (h * L)) := by
        rw [← Real.exp_add]; congr 1; push_cast; ring
      have hone : (1 : ℝ) ≤ Real.exp (((k + 1 : ℕ) : ℝ) * (h * L)) := Real.one_le_exp (by positivity)
      calc _ ≤ Real.exp (h * L) * (k * (K * h ^ 2) * Real.exp (k * (h * L))) + K * h ^ 2 :=
            le_trans (norm_add_le _ _) (add_le_add (le_trans hst (mul_le_mul_of_nonneg_left ihk (Real.exp_pos _).le)) hs)
        _ = k * (K * h ^ 2) * Real.exp (((k + 1 : ℕ) : ℝ) * (h * L)) + K * h ^ 2 * 1 := by rw [hx]; ring
        _ ≤ k * (K * h ^ 2) * Real.exp (((k + 1 : ℕ) : ℝ) * (h * L)) + K * h ^ 2 * Real.exp (((k + 1 : ℕ) : ℝ) * (h * L)) := by gcongr
        _ = ((k + 1 : ℕ) : ℝ) * (K * h ^ 2) * Real.exp (((k + 1 : ℕ) : ℝ) * (h * L)) := by push_cast; ring
  have := key N le_rfl
  have hNh : (N : ℝ) * h = T := by rw [hh]; field_simp
  rw [hNh] at this
  refine le_trans this (le_of_eq ?_)
  rw [← mul_assoc (N : ℝ) h L, hNh]
  calc (N : ℝ) * (K * h ^ 2) * Real.exp (T * L) = K * ((N : ℝ) * h) * h * Real.exp (T * L) := by ring
    _ = _ := by rw [hNh]; ring

/-- The hypotheses hold for `y' = -y` with solution `exp(-t)`, on every interval. -/
example (T : ℝ) : (∀ u v : Fin 1 → ℝ, ‖(fun x : Fin 1 → ℝ => -x) u - (fun x => -x) v‖ ≤ 1 * ‖u - v‖) ∧
    (∀ t ∈ Set.Icc 0 T, HasDerivWithinAt (fun s : ℝ => fun _ : Fin 1 => Real.exp (-s)) (-(fun _ : Fin 1 => Real.exp (-t))) (Set.Icc 0 T) t) := by
  refine ⟨fun u v => ?_, fun t _ => ?_⟩
  · simp only
    rw [one_mul, neg_sub_neg, norm_sub_rev]
  · rw [hasDerivWithinAt_pi]
    intro i
    have := ((hasDerivAt_id t).neg.exp).hasDerivWithinAt (s := Set.Icc 0 T)
    simpa using this

/-- `y' = A y` with the quarter-turn generator has the solution `(cos t, -sin t)`. -/
example (t : ℝ) : HasDerivAt (fun s : ℝ => ![Real.cos s, -Real.sin s]) ((!![0, 1; -1, 0] : Matrix (Fin 2) (Fin 2) ℝ) *ᵥ ![Real.cos t, -Real.sin t]) t := by
  rw [hasDerivAt_pi]
  intro i
  fin_cases i
  · simpa using Real.hasDerivAt_cos t
  · simpa using (Real.hasDerivAt_sin t).fun_neg

/-! ## Euler and trapezoidal increments -/

/-- C72. The Euler increment is the exact change when the derivative is constant over the step, and otherwise misses it by at most the
Lipschitz constant of the derivative times the square of the step. -/
theorem C72_euler {n : ℕ} (y v : ℝ → Fin n → ℝ) (t h : ℝ) (hh : 0 ≤ h) (hy : ∀ s ∈ Set.Icc t (t + h), HasDerivWithinAt y (v s) (Set.Icc t (t + h)) s) :
    ((∀ s ∈ Set.Icc t (t + h), v s = v t) → y (t + h) = y t + euler (v t) h) ∧
    (∀ L : ℝ, (∀ s ∈ Set.Icc t (t + h), ‖v s - v t‖ ≤ L * (s - t)) → ‖y (t + h) - (y t + euler (v t) h)‖ ≤ L * h ^ 2) := by
  have hin : t + h ∈ Set.Icc t (t + h) := ⟨by linarith, le_rfl⟩
  have htin : t ∈ Set.Icc t (t + h) := ⟨le_rfl, by linarith⟩
  have hd : ∀ s ∈ Set.Icc t (t + h), HasDerivWithinAt (fun s => y s - s • v t) (v s - v t) (Set.Icc t (t + h)) s := by
    intro s hs
    have h2 : HasDerivWithinAt (fun s : ℝ => s • v t) ((1 : ℝ) • v t) (Set.Icc t (t + h)) s :=
      (hasDerivWithinAt_id s _).smul_const _
    rw [one_smul] at h2
    exact (hy s hs).sub h2
  have second : ∀ L : ℝ, (∀ s ∈ Set.Icc t (t + h), ‖v s - v t‖ ≤ L * (s - t)) → ‖y (t + h) - (y t + euler (v t) h)‖ ≤ L * h ^ 2 := by
    intro L hL
    have hLh : 0 ≤ L * h := by
      have := le_trans (norm_nonneg _) (hL _ hin)
      rwa [add_sub_cancel_left] at this
    have hbound : ∀ s ∈ Set.Icc t (t + h), ‖v s - v t‖ ≤ L * h := by
      intro s hs
      refine le_trans (hL s hs) ?_
      rcases le_or_gt 0 L with h0 | h0
      · exact mul_le_mul_of_nonneg_left (by linarith [hs.2]) h0
      · have : h = 0 := by
          rcases eq_or_lt_of_le hh with e | e
          · exact e.symm
          · exact absurd hLh (not_le.mpr (mul_neg_of_neg_of_pos h0 e))
        subst this
        have : s = t := le_antisymm (by linarith [hs.2]) hs.1
        rw [this, sub_self]
    have := (convex_Icc t (t + h)).norm_image_sub_le_of_norm_hasDerivWithin_le (C := L * h) hd hbound htin hin
    have e : y (t + h) - (t + h) • v t - (y t - t • v t) = y (t + h) - (y t + euler (v t) h) := by
      rw [euler, vscale_eq, add_smul]; abel
    rw [e, add_sub_cancel_left, Real.norm_eq_abs, abs_of_nonneg hh] at this
    calc _ ≤ _ := this
      _ = L * h ^ 2 := by ring
  refine ⟨fun hc => ?_, second⟩
  have := second 0 (fun s hs => by rw [hc s hs]; simp)
  rw [zero_mul] at this
  exact sub_eq_zero.mp (norm_le_zero_iff.mp this)

/-- C72. The trapezoidal increment is the exact integral when the integrand is affine over the step; for a twice continuously differentiable
integrand it misses it by at most `ζ |h|³ / 12`, `ζ` bounding the second derivative. -/
theorem C72_trapezoidal {n : ℕ} (v : ℝ → Fin n → ℝ) (t h : ℝ) (i : Fin n) :
    ((∃ a b : Fin n → ℝ, ∀ s, v s = a + s • b) → trapezoidal (v (t + h)) (v t) h i = ∫ s in t..(t + h), v s i) ∧
    (∀ ζ : ℝ, ContDiffOn ℝ 2 (fun s => v s i) (Set.uIcc t (t + h)) →
      (∀ s, |iteratedDerivWithin 2 (fun s => v s i) (Set.uIcc t (t + h)) s| ≤ ζ) →
      |trapezoidal (v (t + h)) (v t) h i - ∫ s in t..(t + h), v s i| ≤ ζ * |h| ^ 3 / 12) := by
  constructor
  · rintro ⟨a, b, hv⟩
    simp only [hv, Pi.add_apply, Pi.smul_apply, smul_eq_mul]
    rw [intervalIntegral.integral_add (by apply Continuous.intervalIntegrable; fun_prop) (by apply Continuous.intervalIntegrable; fun_prop),
      intervalIntegral.integral_const, intervalIntegral.integral_mul_const, integral_id]
    simp [trapezoidal, vscale]
    ring
  · intro ζ hc hb
    have := trapezoidal_error_le_of_c2 hc hb (N := 1) one_pos
    rw [trapezoidal_error, trapezoidal_integral_one, add_sub_cancel_left] at this
    have e : trapezoidal (v (t + h)) (v t) h i = h / 2 * (v t i + v (t + h) i) := by
      simp [trapezoidal, vscale]; ring
    rw [e]
    refine le_trans (by simpa using this) (le_of_eq ?_)
    simp
    ring

/-- A polynomial of degree three, a constant derivative and an affine integrand exist. -/
example : (Polynomial.X ^ 3 : Polynomial ℝ).natDegree ≤ 3 ∧
    (∃ a b : Fin 2 → ℝ, ∀ s : ℝ, (fun s : ℝ => ![1 + s, 2 * s]) s = a + s • b) := by
  refine ⟨by simp, ![1, 0], ![1, 2], fun s => ?_⟩
  funext i
  fin_cases i <;> simp [mul_comm]

end Verif.Ode
