import Verif.Ode.Round
import Verif.Ode.PropsStep

/-!
# C130: the integrators in rounded arithmetic

`Fl fl` is the reals with every operation rounded by `fl`, and `growth u k` the relative effect of `k` roundings
(`Verif/Round/Spec.lean`). Norms of vectors are the largest absolute value of an entry.
-/

namespace Verif.Ode

open Verif.Simd (Fl Accurate)
open Verif.Round
open Verif.Geom

variable {fl : ℝ → ℝ} {u : ℝ} {n : ℕ}

/-- What all three variants compute: stage points and a result within eight roundings. -/
def Computed (u : ℝ) (x : Fin n → Fl fl) (G : (Fin n → Fl fl) → Fin n → Fl fl) (h : ℝ) (r : Fin n → Fl fl) : Prop :=
  ∃ P2 P3 P4 : Fin n → Fl fl,
    (∀ i, Near u 8 (|(x i).val| + |(G x i).val| * |h / 2|) (P2 i).val ((x i).val + (G x i).val * (h / 2))) ∧
    (∀ i, Near u 8 (|(x i).val| + |(G P2 i).val| * |h / 2|) (P3 i).val ((x i).val + (G P2 i).val * (h / 2))) ∧
    (∀ i, Near u 8 (|(x i).val| + |(G P3 i).val| * |h|) (P4 i).val ((x i).val + (G P3 i).val * h)) ∧
    ∀ i, Near u 8 (|(x i).val| + (|(G x i).val| + 2 * |(G P2 i).val| + 2 * |(G P3 i).val| + |(G P4 i).val|) * |h / 6|)
      (r i).val ((x i).val + ((G x i).val + 2 * (G P2 i).val + 2 * (G P3 i).val + (G P4 i).val) * (h / 6))

theorem rnd_stage_half (hf : Accurate fl u) (hu : u < 1) (x k : Fin n → Fl fl) (dt : Fl fl) (i : Fin n) :
    Near u 8 (|(x i).val| + |(k i).val| * |dt.val / 2|) ((x + vscale k (dt / 2)) i).val
      ((x i).val + (k i).val * (dt.val / 2)) := by
  have s : Near u 1 |dt.val / 2| (fl (dt.val / 2)) (dt.val / 2) := (Near.refl _).round hf hu
  have m := (Near.refl (u := u) (k i).val).rmul hf hu s
  have a := ((Near.refl (u := u) (x i).val).mono hf hu (Nat.zero_le 2) le_rfl).radd hf hu m le_rfl
  exact a.mono hf hu (by norm_num) le_rfl

theorem rnd_stage_full (hf : Accurate fl u) (hu : u < 1) (x k : Fin n → Fl fl) (dt : Fl fl) (i : Fin n) :
    Near u 8 (|(x i).val| + |(k i).val| * |dt.val|) ((x + vscale k dt) i).val
      ((x i).val + (k i).val * dt.val) := by
  have m := (Near.refl (u := u) (k i).val).rmul hf hu (Near.refl dt.val)
  have a := ((Near.refl (u := u) (x i).val).mono hf hu (Nat.zero_le 1) le_rfl).radd hf hu m le_rfl
  exact a.mono hf hu (by norm_num) le_rfl

theorem rnd_sum_six (hf : Accurate fl u) (hu : u < 1) (x a b c d : ℝ) (dt : ℝ) :
    Near u 8 (|x| + (|a| + 2 * |b| + 2 * |c| + |d|) * |dt / 6|)
      (fl (x + fl (fl (fl (fl (fl (fl (a + b) + b) + c) + c) + d) * fl (dt / 6)))) (x + (a + 2 * b + 2 * c + d) * (dt / 6)) := by
  have z : ∀ y : ℝ, Near u 0 |y| y y := fun y => Near.refl y
  have h1 := (z a).radd hf hu (z b) le_rfl
  have h2 := h1.radd hf hu (z b) (Nat.zero_le _)
  have h3 := h2.radd hf hu (z c) (Nat.zero_le _)
  have h4 := h3.radd hf hu (z c) (Nat.zero_le _)
  have h5 := h4.radd hf hu (z d) (Nat.zero_le _)
  have s : Near u 1 |dt / 6| (fl (dt / 6)) (dt / 6) := (z _).round hf hu
  have h6 := h5.rmul hf hu s
  have h7 := ((z x).mono hf hu (Nat.zero_le 7) le_rfl).radd hf hu h6 le_rfl
  have e1 : |a| + |b| + |b| + |c| + |c| + |d| = |a| + 2 * |b| + 2 * |c| + |d| := by ring
  have e2 : a + b + b + c + c + d = a + 2 * b + 2 * c + d := by ring
  rw [e1, e2] at h7
  exact h7

theorem rnd_sum_four (hf : Accurate fl u) (hu : u < 1) (x a b c d : ℝ) (dt : ℝ) :
    Near u 8 (|x| + (|a| + 2 * |b| + 2 * |c| + |d|) * |dt / 6|)
      (fl (x + fl (fl (fl (fl (a + fl (b * 2)) + fl (c * 2)) + d) * fl (dt / 6)))) (x + (a + 2 * b + 2 * c + d) * (dt / 6)) := by
  have z : ∀ y : ℝ, Near u 0 |y| y y := fun y => Near.refl y
  have hb := (z b).rmul hf hu (z 2)
  have hc := (z c).rmul hf hu (z 2)
  have h1 := ((z a).mono hf hu (Nat.zero_le 1) le_rfl).radd hf hu hb le_rfl
  have h2 := h1.radd hf hu hc (by norm_num)
  have h3 := h2.radd hf hu (z d) (Nat.zero_le _)
  have s : Near u 1 |dt / 6| (fl (dt / 6)) (dt / 6) := (z _).round hf hu
  have h6 := h3.rmul hf hu s
  have h7 := ((z x).mono hf hu (Nat.zero_le 6) le_rfl).radd hf hu h6 le_rfl
  have e0 : |(2 : ℝ)| = 2 := abs_of_pos (by norm_num)
  have e1 : |a| + |b| * 2 + |c| * 2 + |d| = |a| + 2 * |b| + 2 * |c| + |d| := by ring
  have e2 : a + b * 2 + c * 2 + d = a + 2 * b + 2 * c + d := by ring
  rw [e0, e1, e2] at h7
  exact h7.mono hf hu (by norm_num) le_rfl

theorem rnd_computed_vector (hf : Accurate fl u) (hu : u < 1) (x : Fin n → Fl fl) (G : (Fin n → Fl fl) → Fin n → Fl fl)
    (dt : Fl fl) : Computed u x G dt.val (rk4 x G dt) :=
  ⟨_, _, _, rnd_stage_half hf hu x _ dt, rnd_stage_half hf hu x _ dt, rnd_stage_full hf hu x _ dt, fun i =>
    rnd_sum_six hf hu (x i).val _ _ _ _ dt.val⟩

theorem rnd_computed_cartesian (hf : Accurate fl u) (hu : u < 1) (x : Fin 3 → Fl fl)
    (G : (Fin 3 → Fl fl) → Fin 3 → Fl fl) (dt : Fl fl) : Computed u x G dt.val (rk4Cartesian x G dt) :=
  ⟨_, _, _, rnd_stage_half hf hu x _ dt, rnd_stage_half hf hu x _ dt, rnd_stage_full hf hu x _ dt, fun i =>
    rnd_sum_four hf hu (x i).val _ _ _ _ dt.val⟩

theorem rnd_computed_euler (hf : Accurate fl u) (hu : u < 1) (x : Fin 3 → Fl fl)
    (G : (Fin 3 → Fl fl) → Fin 3 → Fl fl) (dt : Fl fl) : Computed u x G dt.val (rk4Euler x G dt) :=
  ⟨_, _, _, rnd_stage_half hf hu x _ dt, rnd_stage_half hf hu x _ dt, rnd_stage_full hf hu x _ dt, fun i =>
    rnd_sum_six hf hu (x i).val _ _ _ _ dt.val⟩

theorem rnd_step_error (hf : Accurate fl u) (hu : u < 1) {F : (Fin n → ℝ) → Fin n → ℝ} {L : ℝ} (hL : 0 ≤ L)
    (hF : ∀ v w, ‖F v - F w‖ ≤ L * ‖v - w‖) {G : (Fin n → Fl fl) → Fin n → Fl fl} {x r : Fin n → Fl fl} {h R M B ε : ℝ}
    (hh : 0 ≤ h) (hM : 0 ≤ M) (hR : ‖valV x‖ ≤ R) (hB : (1 + growth u 8) * (R + h * M) ≤ B)
    (hG : ∀ v, ‖valV v‖ ≤ B → ‖valV (G v)‖ ≤ M ∧ ‖valV (G v) - F (valV v)‖ ≤ ε) (hc : Computed u x G h r) :
    ‖valV r - classical F h (valV x)‖ ≤
      growth u 8 * (R + h * M) + h * Real.exp (h * L) * (ε + L * (growth u 8 * (R + h * M))) := by
  obtain ⟨P2, P3, P4, c2, c3, c4, cr⟩ := hc
  have hγ := growth_nonneg hf hu 8
  have hR0 : 0 ≤ R := (norm_nonneg _).trans hR
  have hhM : 0 ≤ h * M := by positivity
  have xi : ∀ i, |(x i).val| ≤ R := fun i => (abs_le_norm (valV x) i).trans hR
  have hxB : ‖valV x‖ ≤ B := by nlinarith
  have point : ∀ {k p : Fin n → Fl fl} {c : ℝ}, 0 ≤ c → c ≤ h → ‖valV k‖ ≤ M →
      (∀ i, Near u 8 (|(x i).val| + |(k i).val| * |c|) (p i).val ((x i).val + (k i).val * c)) →
      ‖valV p - (valV x + c • valV k)‖ ≤ growth u 8 * (R + h * M) ∧ ‖valV p‖ ≤ B := by
    intro k p c hc hch hk hn
    have size : ∀ i, |(x i).val| + |(k i).val| * |c| ≤ R + h * M := by
      intro i
      have ki : |(k i).val| ≤ M := (abs_le_norm (valV k) i).trans hk
      rw [abs_of_nonneg hc]
      have := mul_le_mul ki hch hc hM
      linarith [xi i]
    constructor
    · refine norm_le_of (by positivity) fun i => ?_
      have := (hn i).2.trans (mul_le_mul_of_nonneg_left (size i) hγ)
      show |(p i).val - ((x i).val + c * (k i).val)| ≤ _
      rw [mul_comm c]
      exact this
    · refine le_trans ?_ hB
      refine (pi_norm_le_iff_of_nonneg (by positivity)).2 fun i => ?_
      rw [Real.norm_eq_abs]
      exact (hn i).abs_le.trans (mul_le_mul_of_nonneg_left (size i) (by linarith))
  obtain ⟨m1, e1⟩ := hG x hxB
  obtain ⟨s2, b2⟩ := point (by positivity) (by linarith) m1 c2
  obtain ⟨m2, e2⟩ := hG P2 b2
  obtain ⟨s3, b3⟩ := point (by positivity) (by linarith) m2 c3
  obtain ⟨m3, e3⟩ := hG P3 b3
  obtain ⟨s4, b4⟩ := point hh le_rfl m3 c4
  obtain ⟨m4, e4⟩ := hG P4 b4
  refine perturbed hL hF hh e1 e2 e3 e4 s2 s3 s4 ?_
  refine norm_le_of (by positivity) fun i => ?_
  have k1 : |(G x i).val| ≤ M := (abs_le_norm (valV (G x)) i).trans m1
  have k2 : |(G P2 i).val| ≤ M := (abs_le_norm (valV (G P2)) i).trans m2
  have k3 : |(G P3 i).val| ≤ M := (abs_le_norm (valV (G P3)) i).trans m3
  have k4 : |(G P4 i).val| ≤ M := (abs_le_norm (valV (G P4)) i).trans m4
  have := (cr i).2
  have size : |(x i).val| + (|(G x i).val| + 2 * |(G P2 i).val| + 2 * |(G P3 i).val| + |(G P4 i).val|) * |h / 6| ≤
      R + h * M := by
    rw [abs_of_nonneg (by positivity : 0 ≤ h / 6)]
    have : (|(G x i).val| + 2 * |(G P2 i).val| + 2 * |(G P3 i).val| + |(G P4 i).val|) * (h / 6) ≤ (6 * M) * (h / 6) := by
      gcongr
      linarith
    linarith [xi i]
  have := this.trans (mul_le_mul_of_nonneg_left size hγ)
  show |(r i).val - ((x i).val + h / 6 * ((G x i).val + 2 * (G P2 i).val + 2 * (G P3 i).val + (G P4 i).val))| ≤ _
  rw [mul_comm (h / 6)]
  exact this

theorem rnd_run_error (hf : Accurate fl u) (hu : u < 1) {F : (Fin n → ℝ) → Fin n → ℝ} {L : ℝ} (hL : 0 ≤ L)
    (hF : ∀ v w, ‖F v - F w‖ ≤ L * ‖v - w‖) {G : (Fin n → Fl fl) → Fin n → Fl fl} {h R M B ε : ℝ} (hh : 0 ≤ h)
    (hM : 0 ≤ M) (hB : (1 + growth u 8) * (R + h * M) ≤ B)
    (hG : ∀ v, ‖valV v‖ ≤ B → ‖valV (G v)‖ ≤ M ∧ ‖valV (G v) - F (valV v)‖ ≤ ε)
    {step : (Fin n → Fl fl) → Fin n → Fl fl} {exact' : (Fin n → ℝ) → Fin n → ℝ} (he : ∀ v, exact' v = classical F h v)
    (hs : ∀ x, Computed u x G h (step x)) (x : Fin n → Fl fl) (N : ℕ) (hR : ∀ k < N, ‖valV (step^[k] x)‖ ≤ R) :
    ‖valV (step^[N] x) - exact'^[N] (valV x)‖ ≤ Real.exp (N * (h * L)) *
      (N * (growth u 8 * (R + h * M) + h * Real.exp (h * L) * (ε + L * (growth u 8 * (R + h * M))))) := by
  rcases Nat.eq_zero_or_pos N with rfl | hN
  · simp
  have hR0 : 0 ≤ R := (norm_nonneg _).trans (hR 0 hN)
  have hγ := growth_nonneg hf hu 8
  have hx0 : ‖valV x‖ ≤ B := (hR 0 hN).trans (by nlinarith [mul_nonneg hh hM])
  have hε : 0 ≤ ε := (norm_nonneg _).trans (hG x hx0).2
  refine accumulate (d := fun k => ‖valV (step^[k] x) - exact'^[k] (valV x)‖) (by positivity) (by positivity) (by simp) (N := N)
    (fun k hk => ?_) N le_rfl
  rw [Function.iterate_succ_apply', Function.iterate_succ_apply', he]
  have h1 := rnd_step_error hf hu hL hF hh hM (hR k hk) hB hG (hs _)
  have h2 := classical_stable hL hF hh (valV (step^[k] x)) (exact'^[k] (valV x))
  have e : valV (step (step^[k] x)) - classical F h (exact'^[k] (valV x)) =
      (classical F h (valV (step^[k] x)) - classical F h (exact'^[k] (valV x))) +
        (valV (step (step^[k] x)) - classical F h (valV (step^[k] x))) := by abel
  rw [e]
  exact (norm_add_le _ _).trans (add_le_add h2 h1)

/-- **C130**: `N` Runge–Kutta steps in rounded arithmetic, with a computed derivative `G` that is within `ε` of the exact
derivative `F`, against `N` steps in exact arithmetic. `R` bounds the computed states, `M` the computed derivatives; `G` only needs
to be accurate where the stages take it. -/
theorem C130_rk4 (hf : Accurate fl u) (hu : u < 1) (F : (Fin n → ℝ) → Fin n → ℝ) (L : ℝ) (hL : 0 ≤ L)
    (hF : ∀ v w, ‖F v - F w‖ ≤ L * ‖v - w‖) (G : (Fin n → Fl fl) → Fin n → Fl fl) (dt : Fl fl) (hdt : 0 ≤ dt.val)
    (x : Fin n → Fl fl) (N : ℕ) (R M B ε : ℝ) (hM : 0 ≤ M) (hR : ∀ k < N, ‖valV ((fun x => rk4 x G dt)^[k] x)‖ ≤ R)
    (hB : (1 + growth u 8) * (R + dt.val * M) ≤ B)
    (hG : ∀ v, ‖valV v‖ ≤ B → ‖valV (G v)‖ ≤ M ∧ ‖valV (G v) - F (valV v)‖ ≤ ε) :
    ‖valV ((fun x => rk4 x G dt)^[N] x) - (fun x => rk4 x F dt.val)^[N] (valV x)‖ ≤ Real.exp (N * (dt.val * L)) *
      (N * (growth u 8 * (R + dt.val * M) +
        dt.val * Real.exp (dt.val * L) * (ε + L * (growth u 8 * (R + dt.val * M))))) :=
  rnd_run_error hf hu hL hF hdt hM hB hG (step := fun x => rk4 x G dt) (exact' := fun x => rk4 x F dt.val)
    (fun v => C72_rk4_classical.1 n F dt.val v) (fun x => rnd_computed_vector hf hu x G dt) x N hR

/-- **C130**: the same for Cartesian coordinates. -/
theorem C130_rk4_cartesian (hf : Accurate fl u) (hu : u < 1) (F : (Fin 3 → ℝ) → Fin 3 → ℝ) (L : ℝ) (hL : 0 ≤ L)
    (hF : ∀ v w, ‖F v - F w‖ ≤ L * ‖v - w‖) (G : (Fin 3 → Fl fl) → Fin 3 → Fl fl) (dt : Fl fl) (hdt : 0 ≤ dt.val)
    (x : Fin 3 → Fl fl) (N : ℕ) (R M B ε : ℝ) (hM : 0 ≤ M)
    (hR : ∀ k < N, ‖valV ((fun x => rk4Cartesian x G dt)^[k] x)‖ ≤ R) (hB : (1 + growth u 8) * (R + dt.val * M) ≤ B)
    (hG : ∀ v, ‖valV v‖ ≤ B → ‖valV (G v)‖ ≤ M ∧ ‖valV (G v) - F (valV v)‖ ≤ ε) :
    ‖valV ((fun x => rk4Cartesian x G dt)^[N] x) - (fun x => rk4Cartesian x F dt.val)^[N] (valV x)‖ ≤
      Real.exp (N * (dt.val * L)) * (N * (growth u 8 * (R + dt.val * M) +
        dt.val * Real.exp (dt.val * L) * (ε + L * (growth u 8 * (R + dt.val * M))))) :=
  rnd_run_error hf hu hL hF hdt hM hB hG (step := fun x => rk4Cartesian x G dt) (exact' := fun x => rk4Cartesian x F dt.val)
    (fun v => (C72_rk4_classical.2 F dt.val v).1) (fun x => rnd_computed_cartesian hf hu x G dt) x N hR

/-- **C130**: the same for Euler angles. -/
theorem C130_rk4_euler (hf : Accurate fl u) (hu : u < 1) (F : (Fin 3 → ℝ) → Fin 3 → ℝ) (L : ℝ) (hL : 0 ≤ L)
    (hF : ∀ v w, ‖F v - F w‖ ≤ L * ‖v - w‖) (G : (Fin 3 → Fl fl) → Fin 3 → Fl fl) (dt : Fl fl) (hdt : 0 ≤ dt.val)
    (x : Fin 3 → Fl fl) (N : ℕ) (R M B ε : ℝ) (hM : 0 ≤ M)
    (hR : ∀ k < N, ‖valV ((fun x => rk4Euler x G dt)^[k] x)‖ ≤ R) (hB : (1 + growth u 8) * (R + dt.val * M) ≤ B)
    (hG : ∀ v, ‖valV v‖ ≤ B → ‖valV (G v)‖ ≤ M ∧ ‖valV (G v) - F (valV v)‖ ≤ ε) :
    ‖valV ((fun x => rk4Euler x G dt)^[N] x) - (fun x => rk4Euler x F dt.val)^[N] (valV x)‖ ≤
      Real.exp (N * (dt.val * L)) * (N * (growth u 8 * (R + dt.val * M) +
        dt.val * Real.exp (dt.val * L) * (ε + L * (growth u 8 * (R + dt.val * M))))) :=
  rnd_run_error hf hu hL hF hdt hM hB hG (step := fun x => rk4Euler x G dt) (exact' := fun x => rk4Euler x F dt.val)
    (fun v => (C72_rk4_classical.2 F dt.val v).2) (fun x => rnd_computed_euler hf hu x G dt) x N hR

/-- The hypotheses hold for `x' = cos x` in each coordinate, evaluated by an exact library, for every start, step and number of
steps. -/
example (x : Fin n → Fl fl) (dt : Fl fl) (N : ℕ) :
    let G : (Fin n → Fl fl) → Fin n → Fl fl := fun v i => ⟨Real.cos (v i).val⟩
    let F : (Fin n → ℝ) → Fin n → ℝ := fun v i => Real.cos (v i)
    (∀ v w, ‖F v - F w‖ ≤ 1 * ‖v - w‖) ∧ ∃ R B, (∀ k < N, ‖valV ((fun x => rk4 x G dt)^[k] x)‖ ≤ R) ∧
      (1 + growth u 8) * (R + dt.val * 1) ≤ B ∧ ∀ v, ‖valV v‖ ≤ B → ‖valV (G v)‖ ≤ 1 ∧ ‖valV (G v) - F (valV v)‖ ≤ 0 := by
  intro G F
  refine ⟨fun v w => ?_, ∑ k ∈ Finset.range N, ‖valV ((fun x => rk4 x G dt)^[k] x)‖, _, fun k hk => ?_, le_rfl, fun v _ => ⟨?_, ?_⟩⟩
  · rw [one_mul]
    refine norm_le_of (norm_nonneg _) fun i => ?_
    refine le_trans ?_ (abs_le_norm (v - w) i)
    have := Real.abs_cos_sub_cos_le (v i) (w i)
    exact this
  · exact Finset.single_le_sum (f := fun k => ‖valV ((fun x => rk4 x G dt)^[k] x)‖) (fun _ _ => norm_nonneg _)
      (Finset.mem_range.2 hk)
  · refine (pi_norm_le_iff_of_nonneg zero_le_one).2 fun i => ?_
    exact Real.abs_cos_le_one _
  · have : valV (G v) - F (valV v) = 0 := by
      funext i
      exact sub_self _
    rw [this, norm_zero]

end Verif.Ode
