import Verif.Ode.PropsStep
import Verif.Ode.PropsNewton

/-!
# C213: the integrators and Newton's method do not depend on coordinates and units; C214: long runs

A change of coordinates is `y = T x + b` with any matrix `T`, not necessarily square or invertible, so the same statement covers quantities
that are linear in the state; a change of the unit of time multiplies the step by `c` and divides the rates by `c`.
-/

namespace Verif.Ode

open Matrix

/-- The classical scheme under an affine map of the state and a change of the unit of time. -/
theorem classical_affine {m n : ℕ} (T : Matrix (Fin m) (Fin n) ℝ) (b : Fin m → ℝ) (c : ℝ) (hc : c ≠ 0) (f : (Fin n → ℝ) → Fin n → ℝ)
    (g : (Fin m → ℝ) → Fin m → ℝ) (hg : ∀ y, c • g (T *ᵥ y + b) = T *ᵥ f y) (x : Fin n → ℝ) (dt : ℝ) :
    classical g (c * dt) (T *ᵥ x + b) = T *ᵥ classical f dt x + b := by
  have hg' : ∀ y, g (T *ᵥ y + b) = c⁻¹ • (T *ᵥ f y) := fun y => by rw [← hg y, smul_smul, inv_mul_cancel₀ hc, one_smul]
  have stage : ∀ (s : ℝ) (k : Fin n → ℝ), T *ᵥ x + b + (c * s) • (c⁻¹ • (T *ᵥ k)) = T *ᵥ (x + s • k) + b := by
    intro s k
    rw [smul_smul, mul_right_comm, mul_inv_cancel₀ hc, one_mul, Matrix.mulVec_add, Matrix.mulVec_smul]
    abel
  unfold classical
  simp only [mul_div_assoc]
  rw [hg' x, stage, hg', stage, hg', stage, hg']
  simp only [Matrix.mulVec_add, Matrix.mulVec_smul, smul_add, smul_smul]
  have e : ∀ r : ℝ, c * (dt / 6) * (r * c⁻¹) = dt / 6 * r := fun r => by field_simp
  have e1 : c * (dt / 6) * c⁻¹ = dt / 6 := by field_simp
  simp only [e, e1]
  abel

/-- **C213.** One Runge-Kutta step commutes with every affine change of the state and every change of the unit of time, in all three forms
of the method. -/
theorem C213_rk4 {m n : ℕ} (T : Matrix (Fin m) (Fin n) ℝ) (b : Fin m → ℝ) (c : ℝ) (hc : c ≠ 0) (f : (Fin n → ℝ) → Fin n → ℝ)
    (g : (Fin m → ℝ) → Fin m → ℝ) (hg : ∀ y, c • g (T *ᵥ y + b) = T *ᵥ f y) (dt : ℝ) (x : Fin n → ℝ) (N : ℕ) :
    (fun y => rk4 y g (c * dt))^[N] (T *ᵥ x + b) = T *ᵥ (fun y => rk4 y f dt)^[N] x + b := by
  induction N with
  | zero => rfl
  | succ N ih =>
    rw [Function.iterate_succ_apply', ih, Function.iterate_succ_apply', C72_rk4_classical.1, C72_rk4_classical.1]
    exact classical_affine T b c hc f g hg _ dt

/-- A falling body in metres and seconds, and in kilometres and minutes. -/
example (x : Fin 2 → ℝ) (dt : ℝ) (N : ℕ) :
    (fun y => rk4 y (fun s => ![s 1, -9.81 * 3.6]) (1 / 60 * dt))^[N] (!![1 / 1000, 0; 0, 60 / 1000] *ᵥ x + 0) =
      !![1 / 1000, 0; 0, 60 / 1000] *ᵥ (fun y => rk4 y (fun s => ![s 1, -9.81]) dt)^[N] x + 0 :=
  C213_rk4 _ 0 (1 / 60) (by norm_num) _ _ (fun y => by
    ext i; fin_cases i <;> simp [Matrix.mulVec, dotProduct, Fin.sum_univ_two] <;> ring) dt x N

/-- **C213.** The same for positions and for attitude angles. -/
theorem C213_rk4_three (T : Matrix (Fin 3) (Fin 3) ℝ) (b : Fin 3 → ℝ) (c : ℝ) (hc : c ≠ 0) (f g : (Fin 3 → ℝ) → Fin 3 → ℝ)
    (hg : ∀ y, c • g (T *ᵥ y + b) = T *ᵥ f y) (dt : ℝ) (x : Fin 3 → ℝ) (N : ℕ) :
    (fun y => rk4Cartesian y g (c * dt))^[N] (T *ᵥ x + b) = T *ᵥ (fun y => rk4Cartesian y f dt)^[N] x + b ∧
    (fun y => rk4Euler y g (c * dt))^[N] (T *ᵥ x + b) = T *ᵥ (fun y => rk4Euler y f dt)^[N] x + b := by
  have e : ∀ (f : (Fin 3 → ℝ) → Fin 3 → ℝ) (h : ℝ), (fun y => rk4Cartesian y f h) = (fun y => rk4 y f h) ∧
      (fun y => rk4Euler y f h) = (fun y => rk4 y f h) := fun f h =>
    ⟨funext fun y => by rw [(C72_rk4_classical.2 f h y).1, C72_rk4_classical.1],
      funext fun y => by rw [(C72_rk4_classical.2 f h y).2, C72_rk4_classical.1]⟩
  rw [(e g (c * dt)).1, (e f dt).1, (e g (c * dt)).2, (e f dt).2]
  exact ⟨C213_rk4 T b c hc f g hg dt x N, C213_rk4 T b c hc f g hg dt x N⟩

/-- **C213.** A quantity linear in the state that the system conserves (total mass, total momentum) is conserved exactly by any number of
Runge-Kutta steps of any sizes. -/
theorem C213_invariant {n : ℕ} (w : Fin n → ℝ) (f : (Fin n → ℝ) → Fin n → ℝ) (hw : ∀ y, w ⬝ᵥ f y = 0) (dts : List ℝ) (x : Fin n → ℝ) :
    w ⬝ᵥ dts.foldl (fun y dt => rk4 y f dt) x = w ⬝ᵥ x := by
  induction dts generalizing x with
  | nil => rfl
  | cons dt dts ih =>
    rw [List.foldl_cons, ih]
    have h := C213_rk4 (Matrix.of fun _ : Fin 1 => w) 0 1 one_ne_zero f (fun _ => 0) (fun y => by
      ext i; simp [Matrix.mulVec, hw]) dt x 1
    have h0 := congrFun h 0
    simp only [Function.iterate_one] at h0
    rw [C72_rk4_classical.1] at h0
    simpa [classical, Matrix.mulVec] using h0.symm

/-- Fuel pumped from one tank to another: the total is conserved. -/
example (k : ℝ) (y : Fin 2 → ℝ) : ![1, 1] ⬝ᵥ (![-k * y 0 * y 1, k * y 0 * y 1] : Fin 2 → ℝ) = 0 := by
  simp [dotProduct, Fin.sum_univ_two]

/-- **C213.** The Euler and trapezoidal increments. -/
theorem C213_increments {m n : ℕ} (T : Matrix (Fin m) (Fin n) ℝ) (c : ℝ) (hc : c ≠ 0) (v w : Fin n → ℝ) (dt : ℝ) :
    euler (c⁻¹ • (T *ᵥ v)) (c * dt) = T *ᵥ euler v dt ∧
    trapezoidal (c⁻¹ • (T *ᵥ v)) (c⁻¹ • (T *ᵥ w)) (c * dt) = T *ᵥ trapezoidal v w dt := by
  constructor
  · simp only [euler, vscale_eq, Matrix.mulVec_smul, smul_smul]
    congr 1; field_simp
  · simp only [trapezoidal, vscale_eq, Matrix.mulVec_smul, ← smul_add, ← Matrix.mulVec_add, smul_smul]
    congr 1; field_simp

/-- **C213.** Newton's method: measure the unknown from another origin and in another unit, and the function in another unit; scale the
tolerance with the unit of the unknown. The points visited, the outcome and the answer are the same ones, in the new unit. -/
theorem C213_newton (a b c : ℝ) (ha : a ≠ 0) (hc : c ≠ 0) (f df g dg : ℝ → ℝ) (hg : ∀ x, g (a * x + b) = c * f x)
    (hdg : ∀ x, dg (a * x + b) = c / a * df x) (tol : ℝ) (n : ℕ) (x : ℝ) :
    newton (fun t => |t|) (fun s t => decide (s < t)) (|a| * tol) g dg n (a * x + b) =
      (((newton (fun t => |t|) (fun s t => decide (s < t)) tol f df n x).1).map (fun t => a * t + b),
        (newton (fun t => |t|) (fun s t => decide (s < t)) tol f df n x).2.map (fun t => a * t + b)) := by
  induction n generalizing x with
  | zero => rfl
  | succ n ih =>
    simp only [newton, hg, hdg]
    have h0 : c / a * df x = 0 ↔ df x = 0 := by simp [hc, ha]
    by_cases hd : df x = 0
    · simp [hd, Except.map]
    · have hd' : ¬ c / a * df x = 0 := fun h => hd (h0.1 h)
      have en : a * x + b - c * f x / (c / a * df x) = a * (x - f x / df x) + b := by field_simp; ring
      have et : (|a * (x - f x / df x) + b - (a * x + b)| < |a| * tol) ↔ |x - f x / df x - x| < tol := by
        rw [show a * (x - f x / df x) + b - (a * x + b) = a * (x - f x / df x - x) by ring, abs_mul]
        exact mul_lt_mul_iff_right₀ (abs_pos.2 ha)
      simp only [hd, hd', if_false, en]
      by_cases ht : |x - f x / df x - x| < tol
      · simp only [decide_eq_true (et.2 ht), decide_eq_true ht, if_true]
        rfl
      · simp only [decide_eq_false (fun h => ht (et.1 h)), decide_eq_false ht, Bool.false_eq_true, if_false, ih, List.map_cons]

/-- The square root of two found in metres and in millimetres. -/
example (tol : ℝ) (n : ℕ) (x : ℝ) :
    (newton (fun t => |t|) (fun s t => decide (s < t)) (|1000| * tol) (fun y => y ^ 2 - 2000000) (fun y => 2 * y) n (1000 * x + 0)).2 =
      (newton (fun t => |t|) (fun s t => decide (s < t)) tol (fun y => y ^ 2 - 2) (fun y => 2 * y) n x).2.map (fun t => 1000 * t + 0) := by
  rw [C213_newton 1000 0 1000000 (by norm_num) (by norm_num) (fun y => y ^ 2 - 2) (fun y => 2 * y) _ _ (fun x => by ring) (fun x => by ring)]

/-! ## C214: long runs on an oscillator and on a decaying quantity -/

/-- The harmonic oscillator with angular frequency `ω`: position and velocity. -/
def oscillator (ω : ℝ) (s : Fin 2 → ℝ) : Fin 2 → ℝ := ![s 1, -ω ^ 2 * s 0]

/-- Twice its energy. -/
def energy (ω : ℝ) (s : Fin 2 → ℝ) : ℝ := ω ^ 2 * s 0 ^ 2 + s 1 ^ 2

theorem energy_step (ω h : ℝ) (x : Fin 2 → ℝ) :
    energy ω (rk4 x (oscillator ω) h) = (1 - (ω * h) ^ 6 / 72 * (1 - (ω * h) ^ 2 / 8)) * energy ω x := by
  rw [C72_rk4_classical.1]
  simp only [classical, oscillator, energy, Pi.add_apply, Pi.smul_apply, smul_eq_mul, Matrix.cons_val_zero, Matrix.cons_val_one]
  ring

/-- **C214.** The energy of an oscillator simulated with Runge-Kutta steps of a fixed size, after any number of steps: it never grows when
`ω h` is at most `√8`, dies out when it is less, stays exactly constant at `√8` and grows without bound beyond. -/
theorem C214_oscillator (ω h : ℝ) (x : Fin 2 → ℝ) (hx : 0 < energy ω x) :
    (∀ N, energy ω ((fun y => rk4 y (oscillator ω) h)^[N] x) = (1 - (ω * h) ^ 6 / 72 * (1 - (ω * h) ^ 2 / 8)) ^ N * energy ω x) ∧
    ((ω * h) ^ 2 ≤ 8 ↔ ∀ N, energy ω ((fun y => rk4 y (oscillator ω) h)^[N + 1] x) ≤ energy ω ((fun y => rk4 y (oscillator ω) h)^[N] x)) ∧
    ((ω * h) ^ 2 = 8 → ∀ N, energy ω ((fun y => rk4 y (oscillator ω) h)^[N] x) = energy ω x) ∧
    (ω * h ≠ 0 → (ω * h) ^ 2 < 8 →
      Filter.Tendsto (fun N => energy ω ((fun y => rk4 y (oscillator ω) h)^[N] x)) Filter.atTop (nhds 0)) ∧
    (8 < (ω * h) ^ 2 → Filter.Tendsto (fun N => energy ω ((fun y => rk4 y (oscillator ω) h)^[N] x)) Filter.atTop Filter.atTop) := by
  set q := (ω * h) ^ 2 with hq
  have hq0 : 0 ≤ q := sq_nonneg _
  have h6 : (ω * h) ^ 6 = q ^ 3 := by rw [hq]; ring
  rw [h6]
  have run : ∀ N, energy ω ((fun y => rk4 y (oscillator ω) h)^[N] x) = (1 - q ^ 3 / 72 * (1 - q / 8)) ^ N * energy ω x := by
    intro N
    induction N with
    | zero => simp
    | succ N ih => rw [Function.iterate_succ_apply', energy_step, ih, h6, ← hq, pow_succ]; ring
  have h0 : 0 ≤ 1 - q ^ 3 / 72 * (1 - q / 8) := by nlinarith [mul_nonneg hq0 hq0, sq_nonneg (q ^ 2 - 6 * q), sq_nonneg (q - 6), sq_nonneg (q ^ 2 - 36)]
  refine ⟨run, ⟨fun h8 N => ?_, fun H => ?_⟩, fun h8 N => ?_, fun hne h8 => ?_, fun h8 => ?_⟩
  · rw [run, run, pow_succ, mul_assoc]
    have h1 : 1 - q ^ 3 / 72 * (1 - q / 8) ≤ 1 := by
      have : 0 ≤ q ^ 3 / 72 * (1 - q / 8) := mul_nonneg (by positivity) (by linarith)
      linarith
    apply mul_le_mul_of_nonneg_left _ (pow_nonneg h0 N)
    nlinarith
  · by_contra h8
    have h8 := not_le.1 h8
    have := H 0
    rw [run, run, pow_zero, one_mul, zero_add, pow_one] at this
    have : 0 < q ^ 3 / 72 * (q / 8 - 1) := mul_pos (by positivity) (by linarith)
    nlinarith
  · rw [run, h8]; norm_num
  · simp only [run]
    have hqp : 0 < q := by rw [hq]; positivity
    have h1 : 1 - q ^ 3 / 72 * (1 - q / 8) < 1 := by
      have : 0 < q ^ 3 / 72 * (1 - q / 8) := mul_pos (by positivity) (by linarith)
      linarith
    simpa using (tendsto_pow_atTop_nhds_zero_of_lt_one h0 h1).mul_const (energy ω x)
  · simp only [run]
    have h1 : 1 < 1 - q ^ 3 / 72 * (1 - q / 8) := by
      have : 0 < q ^ 3 / 72 * (q / 8 - 1) := mul_pos (by positivity) (by linarith)
      linarith
    exact (tendsto_pow_atTop_atTop_of_one_lt h1).atTop_mul_const hx

/-- The hypothesis: a pendulum displaced by one metre. -/
example : 0 < energy 3 ![1, 0] := by norm_num [energy]

/-- **C214.** With Euler steps the energy of an oscillator grows without bound, whatever the step. -/
theorem C214_euler (ω h : ℝ) (hωh : ω * h ≠ 0) (x : Fin 2 → ℝ) (hx : 0 < energy ω x) :
    Filter.Tendsto (fun N => energy ω ((fun y => y + euler (oscillator ω y) h)^[N] x)) Filter.atTop Filter.atTop := by
  have run : ∀ N, energy ω ((fun y => y + euler (oscillator ω y) h)^[N] x) = (1 + (ω * h) ^ 2) ^ N * energy ω x := by
    intro N
    induction N with
    | zero => simp
    | succ N ih =>
      rw [Function.iterate_succ_apply', pow_succ, mul_right_comm, ← ih]
      simp only [euler, vscale_eq, oscillator, energy, Pi.add_apply, Pi.smul_apply, smul_eq_mul, Matrix.cons_val_zero, Matrix.cons_val_one]
      ring
  simp only [run]
  have : 0 < (ω * h) ^ 2 := by positivity
  exact (tendsto_pow_atTop_atTop_of_one_lt (by linarith)).atTop_mul_const hx

/-- **C214.** A decaying quantity `x' = - l x` simulated with Runge-Kutta steps `h > 0`: no component ever changes sign; the run dies out when
`l h` is at most `2.785` and grows without bound when it is at least `2.786`. -/
theorem C214_decay {n : ℕ} (l h : ℝ) (hl : 0 < l * h) (x : Fin n → ℝ) (i : Fin n) (hx : 0 < x i) :
    (∀ N, 0 < (fun y => rk4 y (fun v => -l • v) h)^[N] x i) ∧
    (l * h ≤ 2.785 → Filter.Tendsto (fun N => (fun y => rk4 y (fun v => -l • v) h)^[N] x i) Filter.atTop (nhds 0)) ∧
    (2.786 ≤ l * h → Filter.Tendsto (fun N => (fun y => rk4 y (fun v => -l • v) h)^[N] x i) Filter.atTop Filter.atTop) := by
  set z := l * h with hz
  have run : ∀ N, (fun y => rk4 y (fun v => -l • v) h)^[N] x i = (1 - z * (1 - z / 2 + z ^ 2 / 6 - z ^ 3 / 24)) ^ N * x i := by
    intro N
    induction N with
    | zero => simp
    | succ N ih =>
      rw [Function.iterate_succ_apply', pow_succ, mul_right_comm, ← ih, C72_rk4_classical.1, hz]
      simp only [classical, Pi.add_apply, Pi.smul_apply, smul_eq_mul]
      ring
  have h0 : 0 < 1 - z * (1 - z / 2 + z ^ 2 / 6 - z ^ 3 / 24) := by
    nlinarith [sq_nonneg (z ^ 2 - 2 * z), sq_nonneg (z - 2), sq_nonneg (z - 1), sq_nonneg (z ^ 2 - 2 * z - 1)]
  refine ⟨fun N => ?_, fun h1 => ?_, fun h1 => ?_⟩
  · rw [run]; positivity
  · simp only [run]
    have hp : 0 < 1 - z / 2 + z ^ 2 / 6 - z ^ 3 / 24 := by
      nlinarith [mul_nonneg (sub_nonneg.2 h1) (sq_nonneg (z - 1.2)), mul_nonneg (sub_nonneg.2 h1) hl.le]
    have := mul_pos hl hp
    simpa using (tendsto_pow_atTop_nhds_zero_of_lt_one h0.le (by linarith)).mul_const (x i)
  · simp only [run]
    have hp : 1 - z / 2 + z ^ 2 / 6 - z ^ 3 / 24 < 0 := by
      nlinarith [mul_nonneg (sub_nonneg.2 h1) (sq_nonneg (z - 1.2)), mul_nonneg (sub_nonneg.2 h1) hl.le]
    have := mul_pos hl (neg_pos.2 hp)
    exact (tendsto_pow_atTop_atTop_of_one_lt (by linarith)).atTop_mul_const hx

end Verif.Ode
