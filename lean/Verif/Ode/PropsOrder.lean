import Verif.Ode.OrderGlobal
import Verif.Ode.PropsRound
import Mathlib.Analysis.SpecialFunctions.Sqrt
import Mathlib.Analysis.SpecialFunctions.Trigonometric.Deriv
import Mathlib.Analysis.Calculus.Deriv.Inv

/-!
# C131: the Runge–Kutta method has order four

A system `x' = f(x)`, four times continuously differentiable on an open set, any dimension, and a solution `y` of it on `[0, T]` that
stays in the set. Norms of vectors are the largest absolute value of an entry.
-/

namespace Verif.Ode

open Set

variable {n : ℕ}

/-- **C131**: for every small enough step `h` and every number of steps `k` with `k h ≤ T`, the computed state differs from the
solution at time `k h` by at most a constant times `h⁴`. -/
theorem C131_rk4 (f : (Fin n → ℝ) → Fin n → ℝ) (U : Set (Fin n → ℝ)) (hU : IsOpen U) (hf : ContDiffOn ℝ 4 f U)
    (y : ℝ → Fin n → ℝ) (T : ℝ) (hT : 0 < T) (hyU : ∀ t ∈ Icc 0 T, y t ∈ U)
    (hy : ∀ t ∈ Icc 0 T, HasDerivWithinAt y (f (y t)) (Icc 0 T) t) :
    ∃ C δ : ℝ, 0 < δ ∧ ∀ h, 0 ≤ h → h ≤ δ → ∀ k : ℕ, k * h ≤ T →
      ‖(fun x => rk4 x f h)^[k] (y 0) - y (k * h)‖ ≤ C * h ^ 4 ∧ (fun x => rk4 x f h)^[k] (y 0) ∈ U := by
  obtain ⟨C, δ, hδ, H⟩ := smooth_open hU hf hT hyU hy
  refine ⟨C, δ, hδ, fun h h0 h1 k hk => ?_⟩
  have e : (fun x => rk4 x f h) = classical f h := funext fun x => C72_rk4_classical.1 n f h x
  rw [e]
  exact H h h0 h1 k hk

/-- **C131**: the same for the variant on Cartesian vectors. -/
theorem C131_rk4_cartesian (f : (Fin 3 → ℝ) → Fin 3 → ℝ) (U : Set (Fin 3 → ℝ)) (hU : IsOpen U) (hf : ContDiffOn ℝ 4 f U)
    (y : ℝ → Fin 3 → ℝ) (T : ℝ) (hT : 0 < T) (hyU : ∀ t ∈ Icc 0 T, y t ∈ U)
    (hy : ∀ t ∈ Icc 0 T, HasDerivWithinAt y (f (y t)) (Icc 0 T) t) :
    ∃ C δ : ℝ, 0 < δ ∧ ∀ h, 0 ≤ h → h ≤ δ → ∀ k : ℕ, k * h ≤ T →
      ‖(fun x => rk4Cartesian x f h)^[k] (y 0) - y (k * h)‖ ≤ C * h ^ 4 ∧ (fun x => rk4Cartesian x f h)^[k] (y 0) ∈ U := by
  obtain ⟨C, δ, hδ, H⟩ := smooth_open hU hf hT hyU hy
  refine ⟨C, δ, hδ, fun h h0 h1 k hk => ?_⟩
  have e : (fun x => rk4Cartesian x f h) = classical f h := funext fun x => (C72_rk4_classical.2 f h x).1
  rw [e]
  exact H h h0 h1 k hk

/-- **C131**: the same for the variant on Euler angles. -/
theorem C131_rk4_euler (f : (Fin 3 → ℝ) → Fin 3 → ℝ) (U : Set (Fin 3 → ℝ)) (hU : IsOpen U) (hf : ContDiffOn ℝ 4 f U)
    (y : ℝ → Fin 3 → ℝ) (T : ℝ) (hT : 0 < T) (hyU : ∀ t ∈ Icc 0 T, y t ∈ U)
    (hy : ∀ t ∈ Icc 0 T, HasDerivWithinAt y (f (y t)) (Icc 0 T) t) :
    ∃ C δ : ℝ, 0 < δ ∧ ∀ h, 0 ≤ h → h ≤ δ → ∀ k : ℕ, k * h ≤ T →
      ‖(fun x => rk4Euler x f h)^[k] (y 0) - y (k * h)‖ ≤ C * h ^ 4 ∧ (fun x => rk4Euler x f h)^[k] (y 0) ∈ U := by
  obtain ⟨C, δ, hδ, H⟩ := smooth_open hU hf hT hyU hy
  refine ⟨C, δ, hδ, fun h h0 h1 k hk => ?_⟩
  have e : (fun x => rk4Euler x f h) = classical f h := funext fun x => (C72_rk4_classical.2 f h x).2
  rw [e]
  exact H h h0 h1 k hk

/-- The hypotheses hold for `x' = x²` with the solution `1 / (2 - t)` on `[0, 1]`, which blows up later and has no Lipschitz
constant. -/
example : let f : (Fin 1 → ℝ) → Fin 1 → ℝ := fun x _ => x 0 ^ 2
    let y : ℝ → Fin 1 → ℝ := fun t _ => (2 - t)⁻¹
    ContDiffOn ℝ 4 f univ ∧ ∀ t ∈ Icc (0 : ℝ) 1, HasDerivWithinAt y (f (y t)) (Icc 0 1) t := by
  intro f y
  refine ⟨?_, fun t ht => ?_⟩
  · refine ContDiff.contDiffOn ?_
    rw [contDiff_pi]
    intro i
    exact (contDiff_apply ℝ ℝ (0 : Fin 1)).pow 2
  · rw [hasDerivWithinAt_pi]
    intro i
    have h2 : (2 : ℝ) - t ≠ 0 := by linarith [ht.2]
    have := (((hasDerivAt_id t).const_sub 2).fun_inv h2).hasDerivWithinAt (s := Icc 0 1)
    have e : f (y t) i = - -1 / (2 - t) ^ 2 := by
      show ((2 - t)⁻¹) ^ 2 = _
      rw [inv_pow, neg_neg, one_div]
    rw [e]
    exact this

/-- The hypotheses hold for the motion of a satellite in the plane under a central force, on the circular orbit. The state is position
and velocity, and the right-hand side is singular at the centre. -/
example (T : ℝ) :
    let f : (Fin 4 → ℝ) → Fin 4 → ℝ := fun x =>
      ![x 2, x 3, -x 0 / √(x 0 ^ 2 + x 1 ^ 2) ^ 3, -x 1 / √(x 0 ^ 2 + x 1 ^ 2) ^ 3]
    let y : ℝ → Fin 4 → ℝ := fun t => ![Real.cos t, Real.sin t, -Real.sin t, Real.cos t]
    let U : Set (Fin 4 → ℝ) := {x | x 0 ^ 2 + x 1 ^ 2 ≠ 0}
    IsOpen U ∧ ContDiffOn ℝ 4 f U ∧ (∀ t, y t ∈ U) ∧ ∀ t ∈ Icc 0 T, HasDerivWithinAt y (f (y t)) (Icc 0 T) t := by
  intro f y U
  have one : ∀ t, Real.cos t ^ 2 + Real.sin t ^ 2 = 1 := Real.cos_sq_add_sin_sq
  have c : ∀ i : Fin 4, ContDiff ℝ 4 fun x : Fin 4 → ℝ => x i := fun i => contDiff_apply ℝ ℝ i
  have q : ContDiff ℝ 4 fun x : Fin 4 → ℝ => x 0 ^ 2 + x 1 ^ 2 := ((c 0).pow 2).add ((c 1).pow 2)
  have s : ContDiffOn ℝ 4 (fun x : Fin 4 → ℝ => √(x 0 ^ 2 + x 1 ^ 2) ^ 3) U := (q.contDiffOn.sqrt fun x hx => hx).pow 3
  have s0 : ∀ x ∈ U, √(x 0 ^ 2 + x 1 ^ 2) ^ 3 ≠ 0 := by
    intro x hx
    have : 0 < x 0 ^ 2 + x 1 ^ 2 := lt_of_le_of_ne (by positivity) (Ne.symm hx)
    positivity
  refine ⟨isOpen_ne_fun q.continuous continuous_const, ?_, fun t => ?_, fun t _ => ?_⟩
  · rw [contDiffOn_pi]
    intro i
    fin_cases i
    · exact (c 2).contDiffOn
    · exact (c 3).contDiffOn
    · exact (c 0).neg.contDiffOn.div s s0
    · exact (c 1).neg.contDiffOn.div s s0
  · show Real.cos t ^ 2 + Real.sin t ^ 2 ≠ 0
    rw [one]
    norm_num
  · rw [hasDerivWithinAt_pi]
    intro i
    have r : √(Real.cos t ^ 2 + Real.sin t ^ 2) ^ 3 = 1 := by rw [one]; simp
    fin_cases i
    · exact (Real.hasDerivAt_cos t).hasDerivWithinAt
    · exact (Real.hasDerivAt_sin t).hasDerivWithinAt
    · have : f (y t) 2 = -Real.cos t := by
        show -Real.cos t / √(Real.cos t ^ 2 + Real.sin t ^ 2) ^ 3 = _
        rw [r, div_one]
      show HasDerivWithinAt (fun t => -Real.sin t) (f (y t) 2) _ t
      rw [this]
      exact (Real.hasDerivAt_sin t).neg.hasDerivWithinAt
    · have : f (y t) 3 = -Real.sin t := by
        show -Real.sin t / √(Real.cos t ^ 2 + Real.sin t ^ 2) ^ 3 = _
        rw [r, div_one]
      show HasDerivWithinAt (fun t => Real.cos t) (f (y t) 3) _ t
      rw [this]
      exact (Real.hasDerivAt_cos t).hasDerivWithinAt

open Verif.Simd (Fl Accurate)
open Verif.Round

variable {fl : ℝ → ℝ} {u : ℝ}

/-- **C131**: the total error of a run in rounded arithmetic, from a rounded start and with a computed derivative `G` within `ε` of the
exact one: the error of the method, the propagated error of the start, and the rounding errors of C130. The constant `C` depends
neither on the arithmetic nor on the step. -/
theorem C131_total (F : (Fin n → ℝ) → Fin n → ℝ) (hF : ContDiff ℝ 4 F) (L : ℝ) (hL : 0 ≤ L)
    (hLip : ∀ v w, ‖F v - F w‖ ≤ L * ‖v - w‖) (y : ℝ → Fin n → ℝ) (T : ℝ) (hT : 0 < T)
    (hy : ∀ t ∈ Icc 0 T, HasDerivWithinAt y (F (y t)) (Icc 0 T) t) :
    ∃ C : ℝ, ∀ (fl : ℝ → ℝ) (u : ℝ), Accurate fl u → u < 1 → ∀ (G : (Fin n → Fl fl) → Fin n → Fl fl) (dt : Fl fl),
      0 ≤ dt.val → ∀ (x : Fin n → Fl fl) (N : ℕ), N * dt.val ≤ T → ∀ R M B ε : ℝ, 0 ≤ M →
      (∀ k < N, ‖valV ((fun x => rk4 x G dt)^[k] x)‖ ≤ R) → (1 + growth u 8) * (R + dt.val * M) ≤ B →
      (∀ v, ‖valV v‖ ≤ B → ‖valV (G v)‖ ≤ M ∧ ‖valV (G v) - F (valV v)‖ ≤ ε) →
      ‖valV ((fun x => rk4 x G dt)^[N] x) - y (N * dt.val)‖ ≤
        C * dt.val ^ 4 + Real.exp (T * L) * (‖valV x - y 0‖ + N * (growth u 8 * (R + dt.val * M) +
          dt.val * Real.exp (dt.val * L) * (ε + L * (growth u 8 * (R + dt.val * M))))) := by
  obtain ⟨C, -, hC⟩ := smooth_global hF hL hLip hT hy
  refine ⟨C, fun fl u hf hu G dt hdt x N hN R M B ε hM hR hB hG => ?_⟩
  have e : (fun x => rk4 x F dt.val) = classical F dt.val := funext fun x => C72_rk4_classical.1 n F dt.val x
  have h1 := C130_rk4 hf hu F L hL hLip G dt hdt x N R M B ε hM hR hB hG
  have h2 := hC dt.val hdt N hN
  have h3 : ∀ k : ℕ, ‖(classical F dt.val)^[k] (valV x) - (classical F dt.val)^[k] (y 0)‖ ≤
      Real.exp (k * (dt.val * L)) * ‖valV x - y 0‖ := by
    intro k
    induction k with
    | zero => simp
    | succ k ih =>
      rw [Function.iterate_succ_apply', Function.iterate_succ_apply']
      have hx : Real.exp (((k + 1 : ℕ) : ℝ) * (dt.val * L)) = Real.exp (dt.val * L) * Real.exp (k * (dt.val * L)) := by
        rw [← Real.exp_add]; congr 1; push_cast; ring
      rw [hx, mul_assoc]
      exact (classical_stable hL hLip hdt _ _).trans (mul_le_mul_of_nonneg_left ih (Real.exp_pos _).le)
  have h3N := h3 N
  rw [e] at h1
  have hexp : Real.exp (N * (dt.val * L)) ≤ Real.exp (T * L) := by
    rw [← mul_assoc]
    gcongr
  have hpos : 0 ≤ N * (growth u 8 * (R + dt.val * M) +
      dt.val * Real.exp (dt.val * L) * (ε + L * (growth u 8 * (R + dt.val * M)))) := by
    have := (norm_nonneg _).trans h1
    exact (mul_nonneg_iff_of_pos_left (Real.exp_pos _)).1 this
  have h1' := h1.trans (mul_le_mul_of_nonneg_right hexp hpos)
  have h3' := h3N.trans (mul_le_mul_of_nonneg_right hexp (norm_nonneg _))
  set a := valV ((fun x => rk4 x G dt)^[N] x)
  set b := (classical F dt.val)^[N] (valV x)
  set c := (classical F dt.val)^[N] (y 0)
  calc ‖a - y (N * dt.val)‖ = ‖(a - b) + (b - c) + (c - y (N * dt.val))‖ := by congr 1; abel
    _ ≤ ‖a - b‖ + ‖b - c‖ + ‖c - y (N * dt.val)‖ := norm_add₃_le
    _ ≤ _ := by rw [mul_add]; linarith

/-- The hypotheses on the system hold for `x' = -x` with solution `exp(-t)`, on every interval; those on the computation hold for every
run of it with the exact negation and a short enough step. -/
example (T : ℝ) (fl : ℝ → ℝ) (u : ℝ) (dt : Fl fl) (hdt : (1 + growth u 8) * dt.val ≤ 1 / 2)
    (hγ : 0 ≤ growth u 8) (x : Fin 1 → Fl fl) (N : ℕ) :
    let F : (Fin 1 → ℝ) → Fin 1 → ℝ := fun v => -v
    let G : (Fin 1 → Fl fl) → Fin 1 → Fl fl := fun v i => ⟨-(v i).val⟩
    (ContDiff ℝ 4 F ∧ (∀ v w, ‖F v - F w‖ ≤ 1 * ‖v - w‖) ∧
      ∀ t ∈ Icc 0 T, HasDerivWithinAt (fun s : ℝ => fun _ : Fin 1 => Real.exp (-s)) (F fun _ => Real.exp (-t)) (Icc 0 T) t) ∧
    ∃ R M B : ℝ, 0 ≤ M ∧ (∀ k < N, ‖valV ((fun x => rk4 x G dt)^[k] x)‖ ≤ R) ∧ (1 + growth u 8) * (R + dt.val * M) ≤ B ∧
      ∀ v, ‖valV v‖ ≤ B → ‖valV (G v)‖ ≤ M ∧ ‖valV (G v) - F (valV v)‖ ≤ 0 := by
  intro F G
  refine ⟨⟨contDiff_neg, fun v w => ?_, fun t _ => ?_⟩, ?_⟩
  · show ‖-v - -w‖ ≤ _
    rw [one_mul, neg_sub_neg, norm_sub_rev]
  · rw [hasDerivWithinAt_pi]
    intro i
    have := ((hasDerivAt_id t).neg.exp).hasDerivWithinAt (s := Icc 0 T)
    simpa [F] using this
  · set R := ∑ k ∈ Finset.range N, ‖valV ((fun x => rk4 x G dt)^[k] x)‖
    have hR0 : 0 ≤ R := Finset.sum_nonneg fun _ _ => norm_nonneg _
    refine ⟨R, 2 * (1 + growth u 8) * R, 2 * (1 + growth u 8) * R, by positivity, fun k hk => ?_, ?_, fun v hv => ?_⟩
    · exact Finset.single_le_sum (f := fun k => ‖valV ((fun x => rk4 x G dt)^[k] x)‖) (fun _ _ => norm_nonneg _)
        (Finset.mem_range.2 hk)
    · have := mul_le_mul_of_nonneg_right hdt (by positivity : 0 ≤ (1 + growth u 8) * R)
      linarith
    · have e : valV (G v) = -valV v := rfl
      refine ⟨by rw [e, norm_neg]; exact hv, ?_⟩
      show ‖-valV v - -valV v‖ ≤ 0
      simp

end Verif.Ode
