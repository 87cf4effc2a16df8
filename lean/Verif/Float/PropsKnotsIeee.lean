import Verif.Float.PropsSplineIeee

/-!
# The knots of cubic splines in machine arithmetic (C246)
-/

namespace Verif.Float.Pie

open Verif.Ieee Verif.Stats.Ie Verif.Float.Ie Classical

variable {fl : ℝ → ℝ}

/-- A number of size at most `c`. -/
def Bd (v : IE binary64 fl) (c : ℝ) : Prop := ∃ r, v = IE.num r ∧ |r| ≤ c

theorem Bd.add (h : Rounds binary64 fl) {v w : IE binary64 fl} {a b c : ℝ} (hv : Bd v a) (hw : Bd w b) (hc : Finite binary64 c) (hs : a + b ≤ c) : Bd (v + w) c := by
  obtain ⟨x, rfl, hx⟩ := hv
  obtain ⟨y, rfl, hy⟩ := hw
  obtain ⟨e, -, l⟩ := lerp_step h hc (x := x + y) ((abs_add_le x y).trans (by linarith))
  exact ⟨_, e, l⟩

theorem Bd.sub (h : Rounds binary64 fl) {v w : IE binary64 fl} {a b c : ℝ} (hv : Bd v a) (hw : Bd w b) (hc : Finite binary64 c) (hs : a + b ≤ c) : Bd (v - w) c := by
  obtain ⟨y, rfl, hy⟩ := hw
  exact Bd.add h hv ⟨-y, rfl, by rwa [abs_neg]⟩ hc hs

theorem Bd.mul (h : Rounds binary64 fl) {v w : IE binary64 fl} {a b c : ℝ} (hv : Bd v a) (hw : Bd w b) (hc : Finite binary64 c) (hs : a * b ≤ c) : Bd (v * w) c := by
  obtain ⟨x, rfl, hx⟩ := hv
  obtain ⟨y, rfl, hy⟩ := hw
  obtain ⟨e, -, l⟩ := lerp_step h hc (x := x * y) (by
    rw [abs_mul]
    exact (mul_le_mul hx hy (abs_nonneg _) ((abs_nonneg _).trans hx)).trans hs)
  exact ⟨_, e, l⟩

theorem Bd.div (h : Rounds binary64 fl) {v : IE binary64 fl} {a c m y : ℝ} (hv : Bd v a) (hm : 0 < m) (hy : m ≤ y) (hc : Finite binary64 c) (hs : a ≤ c * m) : Bd (v / IE.num y) c := by
  obtain ⟨x, rfl, hx⟩ := hv
  have hy0 : 0 < y := hm.trans_le hy
  have hc0 : 0 ≤ c := by
    by_contra hn
    have := (abs_nonneg x).trans hx
    nlinarith
  obtain ⟨e, -, l⟩ := lerp_step h hc (x := x / y) (by
    rw [abs_div, abs_of_pos hy0, div_le_iff₀ hy0]
    nlinarith)
  exact ⟨_, by rw [div_num _ hy0.ne', e], l⟩

theorem fin_scaled {m : ℤ} {k : ℕ} (hm : |m| ≤ 2 ^ 20) (hk : k ≤ 4) : Finite binary64 (m * ((2 : ℝ) ^ (200 : ℤ)) ^ k) := by
  have e : ((2 : ℝ) ^ (200 : ℤ)) ^ k = 2 ^ (200 * (k : ℤ)) := by rw [← zpow_natCast, ← zpow_mul]
  rw [e]
  refine ⟨onGrid_of_le (by decide) (hm.trans (by decide)) (by have : binary64.emin = -1074 := rfl; omega), ?_⟩
  rw [abs_mul, abs_of_pos (show (0 : ℝ) < 2 ^ (200 * (k : ℤ)) by positivity)]
  have hm' : |(m : ℝ)| ≤ 2 ^ (20 : ℤ) := by exact_mod_cast hm
  calc |(m : ℝ)| * 2 ^ (200 * (k : ℤ)) ≤ 2 ^ (20 : ℤ) * 2 ^ (200 * (k : ℤ)) := mul_le_mul_of_nonneg_right hm' (by positivity)
    _ = 2 ^ (20 + 200 * (k : ℤ)) := by rw [← zpow_add₀ (by norm_num)]
    _ < 2 ^ binary64.emax := zpow_lt_zpow_right₀ (by norm_num) (by have : binary64.emax = 1024 := rfl; omega)

theorem fin_small {m : ℤ} (hm : |m| ≤ 2 ^ 20) : Finite binary64 (m * 2 ^ (-2 : ℤ)) :=
  draw_fin holds64 (hm.trans (by norm_num)) (by norm_num) (by norm_num)

/-- Entries of the forward pass. -/
def Fwd (v : IE binary64 fl) : Prop := ∃ r, v = IE.num r ∧ OnGrid binary64 r ∧ -(3 / 4) ≤ r ∧ r ≤ 0

/-- The entries of the forward pass stay bounded. -/
theorem fwd_ratio {v e σ s t p q : ℝ} (hv1 : v ≤ 1 / 100) (he : e ≤ 1 / 100) (l4 : 0 ≤ σ) (u4 : σ ≤ 1) (s0 : -(3 / 4) ≤ s) (s1 : s ≤ 0) (l5 : -(3 / 4) ≤ t) (u5 : t ≤ 0)
    (hp : 0 < p) (i5 : |t - σ * s| ≤ v * |σ * s| + e) (i6 : |p - (t + 2)| ≤ v * |t + 2|) (i7 : |q - (σ + -1)| ≤ v * |σ + -1|) : -(3 / 4) ≤ q / p := by
  have k1 : -q ≤ 101 / 100 * (1 - σ) := by
    rw [abs_of_nonpos (show σ + -1 ≤ 0 by linarith)] at i7
    have a := (abs_le.1 i7).1
    have b := mul_le_mul_of_nonneg_right hv1 (show 0 ≤ 1 - σ by linarith)
    linarith
  have ns : -(3 / 4) * σ ≤ σ * s := by
    have := mul_le_mul_of_nonneg_left s0 l4
    linarith
  have ns' : σ * s ≤ 0 := mul_nonpos_of_nonneg_of_nonpos l4 s1
  have a5 := (abs_le.1 i5).1
  have a6 := (abs_le.1 i6).1
  have n5 : |σ * s| ≤ 1 := by rw [abs_of_nonpos ns']; linarith
  have n6 : |t + 2| ≤ 2 := by rw [abs_of_nonneg (by linarith)]; linarith
  have m5 : v * |σ * s| ≤ 1 / 100 * 1 := mul_le_mul hv1 n5 (abs_nonneg _) (by norm_num)
  have m6 : v * |t + 2| ≤ 1 / 100 * 2 := mul_le_mul hv1 n6 (abs_nonneg _) (by norm_num)
  rw [le_div_iff₀ hp]
  linarith

/-- One pass of the forward loop. -/
theorem fwd_step (h : Rounds binary64 fl) {E x0 x1 x2 y0 y1 y2 s : ℝ} {u : IE binary64 fl} (hE : E = 2 ^ (200 : ℤ)) (b0 : |x0| ≤ E) (b1 : |x1| ≤ E) (b2 : |x2| ≤ E)
    (d1 : E⁻¹ ≤ x1 - x0) (d2 : E⁻¹ ≤ x2 - x1) (c0 : |y0| ≤ E) (c1 : |y1| ≤ E) (c2 : |y2| ≤ E) (s0 : -(3 / 4) ≤ s) (s1 : s ≤ 0) (hu : Bd u (256 * E ^ 3)) :
    let sig : IE binary64 fl := (IE.num x1 - IE.num x0) / (IE.num x2 - IE.num x0)
    let p : IE binary64 fl := sig * IE.num s + IE.num 2
    Fwd ((sig - IE.num 1) / p) ∧
    Bd ((IE.num 6 * ((IE.num y2 - IE.num y1) / (IE.num x2 - IE.num x1) - (IE.num y1 - IE.num y0) / (IE.num x1 - IE.num x0)) / (IE.num x2 - IE.num x0) - sig * u) / p) (256 * E ^ 3) := by
  have f2 : Finite binary64 (2 * E) := by rw [hE]; simpa using fin_scaled (m := 2) (k := 1) (by norm_num) (by norm_num)
  have f3 : Finite binary64 (2 * E ^ 2) := by rw [hE]; simpa using fin_scaled (m := 2) (k := 2) (by norm_num) (by norm_num)
  have f4 : Finite binary64 (4 * E ^ 2) := by rw [hE]; simpa using fin_scaled (m := 4) (k := 2) (by norm_num) (by norm_num)
  have f5 : Finite binary64 (32 * E ^ 2) := by rw [hE]; simpa using fin_scaled (m := 32) (k := 2) (by norm_num) (by norm_num)
  have f6 : Finite binary64 (32 * E ^ 3) := by rw [hE]; simpa using fin_scaled (m := 32) (k := 3) (by norm_num) (by norm_num)
  have f7 : Finite binary64 (256 * E ^ 3) := by rw [hE]; simpa using fin_scaled (m := 256) (k := 3) (by norm_num) (by norm_num)
  have f8 : Finite binary64 (288 * E ^ 3) := by rw [hE]; simpa using fin_scaled (m := 288) (k := 3) (by norm_num) (by norm_num)
  have fi : Finite binary64 E⁻¹ := by
    rw [hE, ← zpow_neg]
    exact pow_finite (by norm_num) (by norm_num)
  have g1 : Finite binary64 1 := draw_one holds64
  have g2 : Finite binary64 2 := by simpa using pow_finite (e := 1) (by norm_num) (by norm_num)
  have gm : Finite binary64 (-1) := fin_neg g1
  have g34 : Finite binary64 (-(3 / 4)) := by
    have := fin_small (m := -3) (by norm_num)
    norm_num at this ⊢
    exact this
  have g54 : Finite binary64 (5 / 4) := by
    have := fin_small (m := 5) (by norm_num)
    norm_num at this ⊢
    exact this
  have hE1 : 1 ≤ E := by rw [hE]; exact one_le_zpow₀ (by norm_num) (by norm_num)
  have hu' : unit binary64 ≤ 1 / 100 := by
    rw [show unit binary64 = 2 ^ (-53 : ℤ) from rfl]
    norm_num
  have hu0 := unit_pos (F := binary64)
  have ht' : tiny binary64 ≤ 1 / 100 := by
    have : tiny binary64 ≤ 2 ^ (-10 : ℤ) := zpow_le_zpow_right₀ (by norm_num) (by decide)
    exact this.trans (by norm_num)
  clear hE
  have hE0 : 0 < E := by linarith
  have hi0 : 0 < E⁻¹ := by positivity
  rw [abs_le] at b0 b1 b2
  obtain ⟨q1, -, l1, u1⟩ := draw_range h fi f2 (x := x1 + -x0) (by linarith) (by linarith)
  obtain ⟨q2, -, l2, u2⟩ := draw_range h fi f2 (x := x2 + -x1) (by linarith) (by linarith)
  obtain ⟨q3, -, l3, u3⟩ := draw_range h fi f2 (x := x2 + -x0) (by linarith) (by linarith)
  have hle : fl (x1 + -x0) ≤ fl (x2 + -x0) := h.mono (by linarith)
  simp only [sub_num, q1, q2, q3]
  rw [div_num _ (hi0.trans_le l3).ne', ← sub_num y1 y0, ← sub_num y2 y1]
  generalize fl (x1 + -x0) = h1 at *
  generalize fl (x2 + -x1) = h2 at *
  generalize fl (x2 + -x0) = D at *
  have hD : 0 < D := hi0.trans_le l3
  obtain ⟨q4, g4, l4, u4⟩ := draw_range h draw_zero g1 (x := h1 / D) (div_nonneg (hi0.le.trans l1) hD.le) ((div_le_one hD).2 hle)
  rw [q4]
  generalize fl (h1 / D) = σ at *
  obtain ⟨q5, g5, l5, u5⟩ := draw_range h g34 draw_zero (x := σ * s) (by nlinarith) (by nlinarith)
  have i5 := h.err (by decide) (σ * s)
  rw [mul_num, q5]
  generalize fl (σ * s) = t at *
  obtain ⟨q6, -, l6, u6⟩ := draw_range h g54 g2 (x := t + 2) (by linarith) (by linarith)
  have i6 := h.add (by decide) g5.1 g2.1
  rw [add_num, q6]
  generalize fl (t + 2) = p at *
  obtain ⟨q7, -, l7, u7⟩ := draw_range h gm draw_zero (x := σ + -1) (by linarith) (by linarith)
  have i7 := h.add (by decide) g4.1 gm.1
  constructor
  · rw [sub_num, q7]
    generalize fl (σ + -1) = q at *
    have hp : 0 < p := by linarith
    have k3 : -(3 / 4) ≤ q / p := fwd_ratio hu' ht' l4 u4 s0 s1 l5 u5 hp i5 i6 i7
    obtain ⟨q8, g8, l8, u8⟩ := draw_range h g34 draw_zero k3 (div_nonpos_of_nonpos_of_nonneg u7 hp.le)
    exact ⟨_, by rw [div_num _ hp.ne', q8], g8.1, l8, u8⟩
  · have e1 : Bd (IE.num y2 - IE.num y1 : IE binary64 fl) (2 * E) := Bd.sub h ⟨_, rfl, c2⟩ ⟨_, rfl, c1⟩ f2 (by linarith)
    have e2 : Bd (IE.num y1 - IE.num y0 : IE binary64 fl) (2 * E) := Bd.sub h ⟨_, rfl, c1⟩ ⟨_, rfl, c0⟩ f2 (by linarith)
    have inv : E * E⁻¹ = 1 := mul_inv_cancel₀ hE0.ne'
    have w1 : 2 * E ≤ 2 * E ^ 2 * E⁻¹ := by rw [show 2 * E ^ 2 * E⁻¹ = 2 * E * (E * E⁻¹) by ring, inv, mul_one]
    have w2 : 32 * E ^ 2 ≤ 32 * E ^ 3 * E⁻¹ := by rw [show 32 * E ^ 3 * E⁻¹ = 32 * E ^ 2 * (E * E⁻¹) by ring, inv, mul_one]
    have e3 := Bd.div h e1 hi0 l2 f3 w1
    have e4 := Bd.div h e2 hi0 l1 f3 w1
    have e5 := Bd.sub h e3 e4 f4 (by linarith)
    have hE2 : 0 ≤ E ^ 2 := by positivity
    have hE3 : 0 ≤ E ^ 3 := by positivity
    have e6 := Bd.mul h (v := IE.num 6) (a := 6) ⟨6, rfl, by norm_num⟩ e5 f5 (by linarith)
    have e7 := Bd.div h e6 hi0 l3 f6 w2
    have e8 : Bd (IE.num σ * u) (256 * E ^ 3) := Bd.mul h (a := 1) ⟨σ, rfl, by rw [abs_of_nonneg l4]; exact u4⟩ hu f7 (by linarith)
    have e9 := Bd.sub h e7 e8 f8 (by linarith)
    exact Bd.div h e9 (by norm_num) l6 f7 (by linarith)

variable [LibIe fl]

omit [LibIe fl] in
theorem zero_fwd : Fwd (0 : IE binary64 fl) := ⟨0, rfl, onGrid_zero, by norm_num, le_rfl⟩

omit [LibIe fl] in
theorem zero_bd {c : ℝ} (hc : 0 ≤ c) : Bd (0 : IE binary64 fl) c := ⟨0, rfl, by rwa [abs_zero]⟩

/-- What is supposed of the samples: of size at most `2 ^ 200`, nodes at least `2 ^ -200` apart. -/
structure Moderate (n : ℕ) (xs ys : ℕ → ℝ) : Prop where
  node : ∀ i < n, |xs i| ≤ 2 ^ (200 : ℤ)
  sample : ∀ i < n, |ys i| ≤ 2 ^ (200 : ℤ)
  apart : ∀ i, i + 1 < n → 2 ^ (-200 : ℤ) ≤ xs (i + 1) - xs i

theorem fwd_loop (h : Rounds binary64 fl) {n : ℕ} {xs ys : ℕ → ℝ} (hm : Moderate n xs ys) {E : ℝ} (hE : E = 2 ^ (200 : ℤ)) : ∀ (l : List ℕ), (∀ i ∈ l, 1 ≤ i ∧ i + 1 < n) →
    ∀ s : (ℕ → IE binary64 fl) × (ℕ → IE binary64 fl), (∀ j, Fwd (s.1 j)) → (∀ j, Bd (s.2 j) (256 * E ^ 3)) →
    (∀ j, Fwd ((l.foldl (forwardStep (fun i => IE.num (xs i)) (fun i => IE.num (ys i))) s).1 j)) ∧
    ∀ j, Bd ((l.foldl (forwardStep (fun i => IE.num (xs i)) (fun i => IE.num (ys i))) s).2 j) (256 * E ^ 3)
  | [], _, s, h1, h2 => ⟨h1, h2⟩
  | i :: l, hl, s, h1, h2 => by
    obtain ⟨i1, i2⟩ := hl i (by simp)
    obtain ⟨i, rfl⟩ : ∃ k, i = k + 1 := ⟨i - 1, by omega⟩
    have hi : E⁻¹ = 2 ^ (-200 : ℤ) := by rw [hE, ← zpow_neg]
    have n1 := hm.node i (by omega)
    have n2 := hm.node (i + 1) (by omega)
    have n3 := hm.node (i + 1 + 1) (by omega)
    have m1 := hm.sample i (by omega)
    have m2 := hm.sample (i + 1) (by omega)
    have m3 := hm.sample (i + 1 + 1) (by omega)
    have a1 := hm.apart i (by omega)
    have a2 := hm.apart (i + 1) (by omega)
    rw [← hE] at n1 n2 n3 m1 m2 m3
    rw [← hi] at a1 a2
    obtain ⟨r, er, -, r0, r1⟩ := h1 i
    obtain ⟨k1, k2⟩ := fwd_step h hE n1 n2 n3 a1 a2 m1 m2 m3 r0 r1 (h2 i)
    have l1 : (Lit.lit 1 : IE binary64 fl) = IE.num 1 := finite_ofReal h (draw_one holds64)
    have l2 : (Lit.lit 2 : IE binary64 fl) = IE.num 2 := finite_ofReal h (by simpa using pow_finite (e := 1) (by norm_num) (by norm_num))
    have l6 : (Lit.lit 6 : IE binary64 fl) = IE.num 6 := finite_ofReal h (by
      have := draw_fin holds64 (m := 6) (e := 0) (by norm_num) (by norm_num) (by norm_num)
      simpa using this)
    rw [List.foldl_cons]
    refine fwd_loop h hm hE l (fun k hk => hl k (by simp [hk])) _ (fun j => ?_) (fun j => ?_)
    · unfold forwardStep
      dsimp only
      by_cases hj : j = i + 1
      · subst hj
        rw [Function.update_self, l1, l2, Nat.add_sub_cancel, er]
        exact k1
      · rw [Function.update_of_ne hj]
        exact h1 j
    · unfold forwardStep
      dsimp only
      by_cases hj : j = i + 1
      · subst hj
        rw [Function.update_self, l2, l6, Nat.add_sub_cancel, er]
        exact k2
      · rw [Function.update_of_ne hj]
        exact h2 j

theorem back_loop (h : Rounds binary64 fl) {E : ℝ} (hE : E = 2 ^ (200 : ℤ)) (u : ℕ → IE binary64 fl) (hu : ∀ j, Bd (u j) (256 * E ^ 3)) : ∀ (m : ℕ) (sd : ℕ → IE binary64 fl),
    (∀ j < m, Fwd (sd j)) → (∀ j, Bd (sd j) (1024 * E ^ 3)) → ∀ j, Bd ((List.range m).reverse.foldl (backwardStep u) sd j) (1024 * E ^ 3)
  | 0, sd, _, h2, j => h2 j
  | m + 1, sd, h1, h2, j => by
    have f1 : Finite binary64 (768 * E ^ 3) := by rw [hE]; simpa using fin_scaled (m := 768) (k := 3) (by norm_num) (by norm_num)
    have f2 : Finite binary64 (1024 * E ^ 3) := by rw [hE]; simpa using fin_scaled (m := 1024) (k := 3) (by norm_num) (by norm_num)
    have hE3 : 0 ≤ E ^ 3 := by rw [hE]; positivity
    rw [List.range_succ, List.reverse_append, List.reverse_singleton, List.singleton_append, List.foldl_cons]
    refine back_loop h hE u hu m _ (fun i hi => ?_) (fun i => ?_) j
    · unfold backwardStep
      rw [Function.update_of_ne (by omega)]
      exact h1 i (by omega)
    · unfold backwardStep
      by_cases hi : i = m
      · subst hi
        rw [Function.update_self]
        obtain ⟨r, er, -, r0, r1⟩ := h1 i (by omega)
        have b1 : Bd (sd i) (3 / 4) := ⟨r, er, by rw [abs_of_nonpos r1]; linarith⟩
        have b2 : Bd (sd i * sd (i + 1)) (768 * E ^ 3) := Bd.mul h b1 (h2 (i + 1)) f1 (by linarith)
        exact Bd.add h b2 (hu i) f2 (by linarith)
      · rw [Function.update_of_ne hi]
        exact h2 i

/-- All second derivatives are finite numbers. -/
theorem sd_num (h : Rounds binary64 fl) {n : ℕ} {xs ys : ℕ → ℝ} (hm : Moderate n xs ys) {s : Spline (IE binary64 fl)}
    (hs : Spline.new n (fun i => IE.num (xs i)) (fun i => IE.num (ys i)) = some s) :
    s.xs = (fun i => IE.num (xs i)) ∧ s.ys = (fun i => IE.num (ys i)) ∧ ∀ j, ∃ r, s.sd j = IE.num r := by
  unfold Spline.new at hs
  split_ifs at hs with h1 h2
  have e := (Option.some.inj hs).symm
  subst e
  refine ⟨rfl, rfl, fun j => ?_⟩
  have hE3 : (0 : ℝ) ≤ (2 ^ (200 : ℤ)) ^ 3 := by positivity
  obtain ⟨k1, k2⟩ := fwd_loop h hm rfl (List.range' 1 (n - 2)) (fun i hi => by
    have := List.mem_range'_1.1 hi
    omega) (fun _ => 0, fun _ => 0) (fun _ => zero_fwd) (fun _ => zero_bd (by linarith))
  obtain ⟨r, er, -⟩ := back_loop h rfl _ k2 (n - 1) _ (fun j _ => k1 j) (fun j => by
    obtain ⟨r, er, -, r0, r1⟩ := k1 j
    refine ⟨r, er, ?_⟩
    have : (1 : ℝ) ≤ (2 ^ (200 : ℤ)) ^ 3 := one_le_pow₀ (one_le_zpow₀ (by norm_num) (by norm_num))
    rw [abs_of_nonpos r1]
    generalize ((2 : ℝ) ^ (200 : ℤ)) ^ 3 = B at *
    linarith) j
  exact ⟨r, er⟩

/-- The search finds a node. -/
theorem search_at {n : ℕ} {xs : ℕ → ℝ} (hx : ∀ i j, i < n → j < n → (xs i ≤ xs j ↔ i ≤ j)) {i : ℕ} (lo hi : ℕ) (h1 : lo ≤ i) (h2 : i < hi) (h3 : hi < n) :
    searchLoop n (fun i => (IE.num (xs i) : IE binary64 fl)) (IE.num (xs i)) lo hi = some i := by
  induction hd : hi - lo using Nat.strong_induction_on generalizing lo hi with
  | _ d ih =>
    unfold searchLoop
    split_ifs with hc
    · rw [rd_some _ (show (lo + hi) / 2 < n by omega)]
      simp only [Option.bind_eq_bind, Option.bind_some]
      have e : Scalar.le (IE.num (xs ((lo + hi) / 2)) : IE binary64 fl) (IE.num (xs i)) ↔ (lo + hi) / 2 ≤ i := hx _ _ (by omega) (by omega)
      by_cases hq : (lo + hi) / 2 ≤ i
      · rw [if_pos (e.2 hq)]
        exact ih (hi - (lo + hi) / 2) (by omega) _ _ hq h2 h3 rfl
      · rw [if_neg (fun hh => hq (e.1 hh))]
        exact ih ((lo + hi) / 2 - lo) (by omega) _ _ h1 (by omega) (by omega) rfl
    · rw [show lo = i by omega]

/-- The cubic of a segment at its two ends. -/
theorem piece_ends (h : Rounds binary64 fl) {s : Spline (IE binary64 fl)} {k : ℕ} {x0 x1 y0 y1 m0 m1 : ℝ} (e0 : s.xs k = IE.num x0) (e1 : s.xs (k + 1) = IE.num x1)
    (g0 : s.ys k = IE.num y0) (g1 : s.ys (k + 1) = IE.num y1) (d0 : s.sd k = IE.num m0) (d1 : s.sd (k + 1) = IE.num m1) (fx0 : Finite binary64 x0) (fx1 : Finite binary64 x1)
    (fy0 : Finite binary64 y0) (fy1 : Finite binary64 y1) (lt : x0 < x1) (hd : |x1 - x0| ≤ 2 ^ (511 : ℤ)) :
    s.piece k (IE.num x0) = IE.num y0 ∧ s.piece k (IE.num x1) = IE.num y1 := by
  have z : (IE.ofReal 0 : IE binary64 fl) = IE.num 0 := finite_ofReal h draw_zero
  have o : (IE.ofReal 1 : IE binary64 fl) = IE.num 1 := finite_ofReal h (draw_one holds64)
  have f511 : Finite binary64 (2 ^ (511 : ℤ)) := pow_finite (by norm_num) (by norm_num)
  have f1022 : Finite binary64 (2 ^ (1022 : ℤ)) := pow_finite (by norm_num) (by norm_num)
  have f6 : Finite binary64 6 := by
    have := draw_fin holds64 (m := 6) (e := 0) (by norm_num) (by norm_num) (by norm_num)
    simpa using this
  have six : (Lit.lit 6 : IE binary64 fl) = IE.num 6 := finite_ofReal h f6
  obtain ⟨q1, -, r1⟩ := lerp_step h f511 (x := x1 + -x0) (by rwa [← sub_eq_add_neg])
  have hne : fl (x1 + -x0) ≠ 0 := by
    intro h0
    have := (C140_difference (by decide) h fx1 fx0).1 (by rw [sub_num, q1, h0, ie_zero])
    exact lt.ne' this
  have e22 : (2 : ℝ) ^ (1022 : ℤ) = 2 ^ (511 : ℤ) * 2 ^ (511 : ℤ) := by rw [← zpow_add₀ (by norm_num)]; norm_num
  obtain ⟨q2, -, r2⟩ := lerp_step h f1022 (x := fl (x1 + -x0) * fl (x1 + -x0)) (by
    rw [abs_mul, e22]
    exact mul_le_mul r1 r1 (abs_nonneg _) (by positivity))
  obtain ⟨q3, -, -⟩ := lerp_step h f1022 (x := fl (fl (x1 + -x0) * fl (x1 + -x0)) / 6) (by
    rw [abs_div, abs_of_pos (show (0 : ℝ) < 6 by norm_num)]
    exact (div_le_self (abs_nonneg _) (by norm_num)).trans r2)
  have w0 := finite_ofReal h fy0
  have w1 := finite_ofReal h fy1
  unfold Spline.piece
  constructor
  · simp only [e0, e1, g0, g1, d0, d1, six, sub_num, q1, add_neg_cancel, z, div_num _ hne, div_num _ (show (6 : ℝ) ≠ 0 by norm_num), div_self hne, o, zero_div, mul_num, add_num, one_mul,
      zero_mul, w0, q2, q3, add_zero, mul_zero]
  · simp only [e0, e1, g0, g1, d0, d1, six, sub_num, q1, add_neg_cancel, z, div_num _ hne, div_num _ (show (6 : ℝ) ≠ 0 by norm_num), div_self hne, o, zero_div, mul_num, add_num, one_mul,
      zero_mul, w1, q2, q3, add_zero, zero_add, mul_zero]

/-! ## Property -/

/-- **C246, knots**, the proved part for any number of points: finite samples of size at most `2 ^ 200` whose nodes are at least `2 ^ -200` apart. The spline is built, and its value at every
node is exactly the sample given for it. Missing: other finite samples, for which it can fail (`C246_fails`). -/
theorem C246_knots_partial (h : Rounds binary64 fl) {n : ℕ} (hn : 2 ≤ n) {xs ys : ℕ → ℝ} (fx : ∀ i < n, Finite binary64 (xs i)) (fy : ∀ i < n, Finite binary64 (ys i))
    (hm : Moderate n xs ys) :
    ∃ s, Spline.new n (fun i => (IE.num (xs i) : IE binary64 fl)) (fun i => IE.num (ys i)) = some s ∧ ∀ i < n, s.evaluate n (IE.num (xs i)) = some (IE.num (ys i)) := by
  have hp : (0 : ℝ) < 2 ^ (-200 : ℤ) := by positivity
  have step : ∀ i, i + 1 < n → xs i < xs (i + 1) := fun i hi => by
    have := hm.apart i hi
    generalize (2 : ℝ) ^ (-200 : ℤ) = B at *
    linarith
  obtain ⟨s, hs⟩ := (C246_built_partial n xs (fun i => (IE.num (ys i) : IE binary64 fl))).2 ⟨hn, step⟩
  refine ⟨s, hs, fun i hi => ?_⟩
  obtain ⟨e1, e2, e3⟩ := sd_num h hm hs
  have lt : ∀ i j, i < j → j < n → xs i < xs j := by
    intro i j hij
    induction j with
    | zero => omega
    | succ j ih =>
      intro hj
      rcases Nat.lt_succ_iff_lt_or_eq.1 hij with hlt | rfl
      · exact (ih hlt (by omega)).trans (step j hj)
      · exact step i hj
  have hx : ∀ i j, i < n → j < n → (xs i ≤ xs j ↔ i ≤ j) := fun i j hi hj =>
    ⟨fun hh => by
      by_contra hc
      exact absurd hh (not_le.2 (lt j i (by omega) hi)), fun hh => by
      rcases hh.lt_or_eq with q | rfl
      · exact (lt i j q hj).le
      · exact le_rfl⟩
  have ends : ∀ k, k + 1 < n → s.piece k (IE.num (xs k)) = IE.num (ys k) ∧ s.piece k (IE.num (xs (k + 1))) = IE.num (ys (k + 1)) := by
    intro k hk
    obtain ⟨m0, d0⟩ := e3 k
    obtain ⟨m1, d1⟩ := e3 (k + 1)
    refine piece_ends h (by rw [e1]) (by rw [e1]) (by rw [e2]) (by rw [e2]) d0 d1 (fx k (by omega)) (fx _ hk) (fy k (by omega)) (fy _ hk) (step k hk) ?_
    have t1 := hm.node k (by omega)
    have t2 := hm.node (k + 1) hk
    have t3 : (2 : ℝ) * 2 ^ (200 : ℤ) ≤ 2 ^ (511 : ℤ) := by
      rw [← zpow_one_add₀ (by norm_num)]
      exact zpow_le_zpow_right₀ (by norm_num) (by norm_num)
    have t4 := abs_sub (xs (k + 1)) (xs k)
    generalize (2 : ℝ) ^ (200 : ℤ) = B at *
    generalize (2 : ℝ) ^ (511 : ℤ) = C at *
    linarith
  have fin : ∀ k, k + 1 < n → segmentIndex n s.xs (IE.num (xs i)) = some k → s.evaluate n (IE.num (xs i)) = some (s.piece k (IE.num (xs i))) := by
    intro k hk e
    unfold Spline.evaluate
    rw [e]
    simp only [Option.bind_eq_bind, Option.bind_some, rd_some s.xs (show k < n by omega), rd_some s.xs hk, Option.pure_def]
  have seg : segmentIndex n s.xs (IE.num (xs i)) = some (if i + 1 < n then i else n - 2) := by
    rw [e1]
    unfold segmentIndex
    rw [rd_some _ (show 0 < n by omega), rd_some _ (show n - 1 < n by omega)]
    simp only [Option.bind_eq_bind, Option.bind_some, Option.pure_def]
    have a1 : Scalar.le (IE.num (xs i) : IE binary64 fl) (IE.num (xs 0)) ↔ i ≤ 0 := hx i 0 hi (by omega)
    have a2 : Scalar.le (IE.num (xs (n - 1)) : IE binary64 fl) (IE.num (xs i)) ↔ n - 1 ≤ i := hx (n - 1) i (by omega) hi
    by_cases c1 : i ≤ 0
    · rw [if_pos (a1.2 c1), if_pos (by omega), show i = 0 by omega]
    · rw [if_neg (fun hh => c1 (a1.1 hh))]
      by_cases c2 : n - 1 ≤ i
      · rw [if_pos (a2.2 c2), if_neg (by omega)]
      · rw [if_neg (fun hh => c2 (a2.1 hh)), if_pos (by omega)]
        exact search_at hx 0 (n - 1) (by omega) (by omega) (by omega)
  by_cases c : i + 1 < n
  · rw [if_pos c] at seg
    rw [fin i c seg, (ends i c).1]
  · rw [if_neg c] at seg
    rw [fin (n - 2) (by omega) seg]
    have := (ends (n - 2) (by omega)).2
    rw [show n - 2 + 1 = i by omega] at this
    rw [this]

/-- Samples of the square of the nodes 0, 1, 2 and 3. -/
example : Moderate 4 (fun i => (i : ℝ)) (fun i => (i : ℝ) ^ 2) := by
  have h1 : (2 : ℝ) ^ (4 : ℤ) ≤ 2 ^ (200 : ℤ) := zpow_le_zpow_right₀ (by norm_num) (by norm_num)
  have h2 : (2 : ℝ) ^ (-200 : ℤ) ≤ 1 := zpow_le_one_of_nonpos₀ (by norm_num) (by norm_num)
  generalize (2 : ℝ) ^ (200 : ℤ) = B at *
  refine ⟨fun i hi => ?_, fun i hi => ?_, fun i hi => by push_cast; linarith⟩
  · have h3 : (i : ℝ) ≤ 4 := by exact_mod_cast hi.le
    rw [abs_of_nonneg (by positivity)]
    norm_num at h1
    linarith
  · have h3 : (i : ℝ) ≤ 4 := by exact_mod_cast hi.le
    have h4 : (0 : ℝ) ≤ i := by positivity
    rw [abs_of_nonneg (by positivity)]
    norm_num at h1
    nlinarith

end Verif.Float.Pie
