import Verif.Ode.Order
import Verif.Ode.Round
import Mathlib.Analysis.Calculus.ContDiff.RCLike
import Mathlib.Analysis.Calculus.ContDiff.Deriv
import Mathlib.Geometry.Manifold.PartitionOfUnity

/-!
# Lemmas: the global error of the classical Runge–Kutta method on smooth systems
-/

namespace Verif.Ode

open Set Metric

variable {n : ℕ}

local notation "E" => Fin n → ℝ

/-- A solution is once more differentiable than the right-hand side. -/
theorem solution_smooth {f : E → E} (hf : ContDiff ℝ 4 f) {y : ℝ → E} {T : ℝ} (hT : 0 < T)
    (hy : ∀ t ∈ Icc 0 T, HasDerivWithinAt y (f (y t)) (Icc 0 T) t) : ContDiffOn ℝ 5 y (Icc 0 T) := by
  have hu : UniqueDiffOn ℝ (Icc 0 T) := uniqueDiffOn_Icc hT
  have hd : DifferentiableOn ℝ y (Icc 0 T) := fun t ht => (hy t ht).differentiableWithinAt
  have up : ∀ k : ℕ, k ≤ 4 → ContDiffOn ℝ k y (Icc 0 T) → ContDiffOn ℝ (k + 1 : ℕ) y (Icc 0 T) := by
    intro k hk hk'
    have := (contDiffOn_succ_iff_derivWithin (𝕜 := ℝ) (n := (k : WithTop ℕ∞)) (f := y) hu).2 ⟨hd, fun h => by simp at h, ?_⟩
    · exact_mod_cast this
    · have h1 : ContDiffOn ℝ k (fun t => f (y t)) (Icc 0 T) := by
        have : ContDiff ℝ k f := hf.of_le (by exact_mod_cast hk)
        exact this.comp_contDiffOn hk'
      exact h1.congr fun t ht => (hy t ht).derivWithin (hu t ht)
  have h0 : ContDiffOn ℝ (0 : ℕ) y (Icc 0 T) := by
    have : ContinuousOn y (Icc 0 T) := fun t ht => (hy t ht).continuousWithinAt
    exact_mod_cast contDiffOn_zero.2 this
  have h1 := up 0 (by norm_num) h0
  have h2 := up 1 (by norm_num) h1
  have h3 := up 2 (by norm_num) h2
  have h4 := up 3 (by norm_num) h3
  have h5 := up 4 (by norm_num) h4
  exact_mod_cast h5

/-- The local error of one step is of fifth order, uniformly along the solution. -/
theorem smooth_local {f : E → E} (hf : ContDiff ℝ 4 f) {L : ℝ} (hL : 0 ≤ L) (hLip : ∀ v w, ‖f v - f w‖ ≤ L * ‖v - w‖)
    {y : ℝ → E} {T : ℝ} (hT : 0 < T) (hy : ∀ t ∈ Icc 0 T, HasDerivWithinAt y (f (y t)) (Icc 0 T) t) :
    Ord T 5 fun t h => classical f h (y t) - y (t + h) := by
  have hu : UniqueDiffOn ℝ (Icc 0 T) := uniqueDiffOn_Icc hT
  have hs := solution_smooth hf hT hy
  set G : ℕ → ℝ → E := fun i => iteratedDerivWithin i y (Icc 0 T) with hGdef
  have hG : ∀ i < 5, ∀ t ∈ Icc 0 T, HasDerivWithinAt (G i) (G (i + 1) t) (Icc 0 T) t := by
    intro i hi t ht
    have := (hs.differentiableOn_iteratedDerivWithin (m := i) (by exact_mod_cast hi) hu) t ht
    have h2 := this.hasDerivWithinAt
    simp only [hGdef, iteratedDerivWithin_succ]
    exact h2
  have hbound : ∃ D, 0 ≤ D ∧ ∀ i ≤ 5, ∀ t ∈ Icc 0 T, ‖G i t‖ ≤ D := by
    have each : ∀ i, ∃ D, i ≤ 5 → ∀ t ∈ Icc 0 T, ‖G i t‖ ≤ D := by
      intro i
      by_cases hi : i ≤ 5
      · have hc := hs.continuousOn_iteratedDerivWithin (m := i) (by exact_mod_cast hi) hu
        obtain ⟨D, hD⟩ := isCompact_Icc.exists_bound_of_continuousOn hc
        exact ⟨D, fun _ => hD⟩
      · exact ⟨0, fun h => absurd h hi⟩
    choose D hD using each
    refine ⟨∑ i ∈ Finset.range 6, |D i|, Finset.sum_nonneg fun _ _ => abs_nonneg _, fun i hi t ht => ?_⟩
    exact (hD i hi t ht).trans ((le_abs_self _).trans
      (Finset.single_le_sum (f := fun i => |D i|) (fun _ _ => abs_nonneg _) (Finset.mem_range.2 (by omega))))
  obtain ⟨D, hD0, hD⟩ := hbound
  have g0 : G 0 = y := by
    funext t
    simp [hGdef]
  have hsol : ∀ t ∈ Icc 0 T, G 1 t = f (G 0 t) := by
    intro t ht
    rw [g0]
    have := (hy t ht).derivWithin (hu t ht)
    simp only [hGdef, iteratedDerivWithin_one]
    exact this
  -- a ball containing all points involved
  have hfb : ∀ p, ‖f p‖ ≤ ‖f 0‖ + L * ‖p‖ := by
    intro p
    have := hLip p 0
    rw [sub_zero] at this
    calc ‖f p‖ = ‖(f p - f 0) + f 0‖ := by rw [sub_add_cancel]
      _ ≤ ‖f p - f 0‖ + ‖f 0‖ := norm_add_le _ _
      _ ≤ _ := by linarith
  set R2 := D + T * (‖f 0‖ + L * D)
  set R3 := D + T * (‖f 0‖ + L * R2)
  set R4 := D + T * (‖f 0‖ + L * R3)
  have r2 : 0 ≤ R2 := by positivity
  have r3 : 0 ≤ R3 := by positivity
  have r4 : 0 ≤ R4 := by positivity
  set R := D + R2 + R3 + R4
  have pt : ∀ {x k : E} {c M : ℝ}, ‖x‖ ≤ D → 0 ≤ c → c ≤ T → ‖k‖ ≤ M → ‖x + c • k‖ ≤ D + T * M := by
    intro x k c M hx hc hcT hk
    have := norm_add_le x (c • k)
    rw [norm_smul, Real.norm_eq_abs, abs_of_nonneg hc] at this
    have h2 := mul_le_mul hcT hk (norm_nonneg _) hT.le
    linarith
  -- bounds on the derivative of the right-hand side
  have hJ : ContDiff ℝ 1 (fderiv ℝ f) := hf.fderiv_right (by norm_num)
  obtain ⟨A, hA⟩ := (isCompact_closedBall (0 : E) R).exists_bound_of_continuousOn hJ.continuous.continuousOn
  obtain ⟨K, hK⟩ := (isCompact_closedBall (0 : E) R).exists_bound_of_continuousOn
    (hJ.continuous_fderiv (by norm_num)).continuousOn
  have hKlip : ∀ p ∈ closedBall (0 : E) R, ∀ q ∈ closedBall (0 : E) R, ‖fderiv ℝ f p - fderiv ℝ f q‖ ≤ K * ‖p - q‖ :=
    fun p hp q hq => (convex_closedBall (0 : E) R).norm_image_sub_le_of_norm_fderiv_le
      (fun x _ => (hJ.differentiable (by norm_num)).differentiableAt) hK hq hp
  have hquad : ∀ p ∈ closedBall (0 : E) R, ∀ q ∈ closedBall (0 : E) R,
      ‖f p - f q - fderiv ℝ f q (p - q)‖ ≤ K * ‖p - q‖ ^ 2 := by
    intro p hp q hq
    have hK0 : 0 ≤ K := (norm_nonneg _).trans (hK p hp)
    have sub : segment ℝ q p ⊆ closedBall (0 : E) R := (convex_closedBall (0 : E) R).segment_subset hq hp
    have := (convex_segment q p).norm_image_sub_le_of_norm_fderiv_le' (𝕜 := ℝ) (f := f) (φ := fderiv ℝ f q) (C := K * ‖p - q‖)
      (fun x _ => (hf.differentiable (by norm_num)).differentiableAt) (fun x hx => by
        refine (hKlip x (sub hx) q hq).trans ?_
        have : ‖x - q‖ ≤ ‖p - q‖ := by
          have hp' : p ∈ closedBall q ‖p - q‖ := by rw [mem_closedBall, dist_eq_norm]
          have := (convex_closedBall q ‖p - q‖).segment_subset (mem_closedBall_self (norm_nonneg _)) hp' hx
          rwa [mem_closedBall, dist_eq_norm] at this
        gcongr) (left_mem_segment ℝ q p) (right_mem_segment ℝ q p)
    rw [pow_two, ← mul_assoc]
    exact this
  have := local_order (f := f) (J := fderiv ℝ f) (G := G) hD0 hG hD hsol (closedBall (0 : E) R)
    (fun t ht => by
      rw [mem_closedBall_zero_iff]
      have := hD 0 (by norm_num) t ht
      linarith) hA hKlip hquad
    (fun t h h1 h2 h3 => by
      have ht : t ∈ Icc 0 T := ⟨h1, by linarith⟩
      have b0 := hD 0 (by norm_num) t ht
      have k1 : ‖f (G 0 t)‖ ≤ ‖f 0‖ + L * D := (hfb _).trans (by gcongr)
      have b2 := pt b0 (by linarith : 0 ≤ h / 2) (by linarith) k1
      have k2 : ‖f (G 0 t + (h / 2) • f (G 0 t))‖ ≤ ‖f 0‖ + L * R2 := (hfb _).trans (by gcongr)
      have b3 := pt b0 (by linarith : 0 ≤ h / 2) (by linarith) k2
      have k3 : ‖f (G 0 t + (h / 2) • f (G 0 t + (h / 2) • f (G 0 t)))‖ ≤ ‖f 0‖ + L * R3 := (hfb _).trans (by gcongr)
      have b4 := pt b0 h2 (by linarith) k3
      simp only [mem_closedBall_zero_iff]
      exact ⟨by linarith, by linarith, by linarith⟩)
  rw [g0] at this
  exact this

/-- The global error is of fourth order at every step of a run within `[0, T]`, for globally Lipschitz systems. -/
theorem smooth_global {f : E → E} (hf : ContDiff ℝ 4 f) {L : ℝ} (hL : 0 ≤ L) (hLip : ∀ v w, ‖f v - f w‖ ≤ L * ‖v - w‖)
    {y : ℝ → E} {T : ℝ} (hT : 0 < T) (hy : ∀ t ∈ Icc 0 T, HasDerivWithinAt y (f (y t)) (Icc 0 T) t) :
    ∃ C, 0 ≤ C ∧ ∀ h, 0 ≤ h → ∀ k : ℕ, k * h ≤ T → ‖(classical f h)^[k] (y 0) - y (k * h)‖ ≤ C * h ^ 4 := by
  obtain ⟨C, hC0, hC⟩ := smooth_local hf hL hLip hT hy
  refine ⟨Real.exp (T * L) * (T * C), by positivity, fun h hh k hk => ?_⟩
  have acc := accumulate (d := fun k => ‖(classical f h)^[k] (y 0) - y (k * h)‖) (a := h * L) (δ := C * h ^ 5)
    (by positivity) (by positivity) (by simp) (N := k) (fun j hj => ?_) k le_rfl
  · refine acc.trans ?_
    have e1 : Real.exp (k * (h * L)) ≤ Real.exp (T * L) := by
      rw [← mul_assoc]
      gcongr
    calc Real.exp (k * (h * L)) * (k * (C * h ^ 5)) = Real.exp (k * (h * L)) * ((k * h) * C * h ^ 4) := by ring
      _ ≤ Real.exp (T * L) * (T * C * h ^ 4) := by gcongr
      _ = _ := by ring
  · have hj1 : (j : ℝ) * h + h ≤ T := by
      have : ((j : ℝ) + 1) ≤ k := by exact_mod_cast hj
      nlinarith
    have e : ((j + 1 : ℕ) : ℝ) * h = j * h + h := by push_cast; ring
    rw [Function.iterate_succ_apply', e]
    have h1 := hC (j * h) h (by positivity) hh hj1
    have h2 := classical_stable hL hLip hh ((classical f h)^[j] (y 0)) (y (j * h))
    refine le_trans ?_ (add_le_add h2 h1)
    refine le_trans (le_of_eq ?_) (norm_add_le _ _)
    congr 1
    simp only [sub_add_sub_cancel]

/-- A smooth function on an open set agrees near a compact subset with a globally Lipschitz smooth function. -/
theorem cutoff {f : E → E} {U K : Set E} (hU : IsOpen U) (hf : ContDiffOn ℝ 4 f U) (hK : IsCompact K) (hKU : K ⊆ U) :
    ∃ g : E → E, ContDiff ℝ 4 g ∧ (∃ L, 0 ≤ L ∧ ∀ v w, ‖g v - g w‖ ≤ L * ‖v - w‖) ∧ (∃ M, 0 ≤ M ∧ ∀ v, ‖g v‖ ≤ M) ∧
      ∃ r, 0 < r ∧ ∀ p ∈ K, ∀ v, ‖v - p‖ ≤ r → g v = f v ∧ v ∈ U := by
  obtain ⟨r, hr, hrU⟩ := hK.exists_cthickening_subset_open hU hKU
  have d1 : IsClosed (thickening r K)ᶜ := isOpen_thickening.isClosed_compl
  have d2 : IsClosed (cthickening (r / 2) K) := isClosed_cthickening
  have d3 : Disjoint (thickening r K)ᶜ (cthickening (r / 2) K) := by
    rw [disjoint_compl_left_iff_subset]
    exact cthickening_subset_thickening' hr (by linarith) K
  obtain ⟨χ, h0, h1, -⟩ := exists_contMDiffMap_zero_one_of_isClosed (n := 4) (modelWithCornersSelf ℝ E) d1 d2 d3
  have hχ : ContDiff ℝ 4 (χ : E → ℝ) := by
    have := χ.contMDiff
    exact_mod_cast this.contDiff
  have zero : ∀ v, v ∉ thickening r K → χ v • f v = 0 := by
    intro v hv
    rw [h0 hv]
    simp
  have supp : HasCompactSupport fun v => χ v • f v := by
    refine HasCompactSupport.intro (K := cthickening r K) hK.cthickening fun v hv => zero v fun hv' => hv ?_
    exact thickening_subset_cthickening r K hv'
  have smooth : ContDiff ℝ 4 fun v => χ v • f v := by
    rw [contDiff_iff_contDiffAt]
    intro v
    by_cases hv : v ∈ U
    · exact hχ.contDiffAt.smul (hf.contDiffAt (hU.mem_nhds hv))
    · have hv' : v ∈ (cthickening r K)ᶜ := fun h => hv (hrU h)
      have hn := (isClosed_cthickening : IsClosed (cthickening r K)).isOpen_compl.mem_nhds hv'
      refine (contDiffAt_const (c := (0 : E))).congr_of_eventuallyEq (Filter.eventually_of_mem hn fun w hw => zero w fun h => hw ?_)
      exact thickening_subset_cthickening r K h
  refine ⟨fun v => χ v • f v, smooth, ?_, ?_, r / 2, by linarith, fun p hp v hv => ?_⟩
  · obtain ⟨L, hL⟩ := ContDiff.lipschitzWith_of_hasCompactSupport (𝕂 := ℝ) supp smooth (by norm_num)
    refine ⟨L, L.2, fun v w => ?_⟩
    have := hL.dist_le_mul v w
    rwa [dist_eq_norm, dist_eq_norm] at this
  · obtain ⟨M, hM⟩ := supp.exists_bound_of_continuous smooth.continuous
    exact ⟨|M|, abs_nonneg M, fun v => (hM v).trans (le_abs_self M)⟩
  · have hm : v ∈ cthickening (r / 2) K := mem_cthickening_of_dist_le v p _ K hp (by rwa [dist_eq_norm])
    refine ⟨?_, hrU (cthickening_mono (by linarith) K hm)⟩
    show χ v • f v = f v
    rw [h1 hm]
    simp

/-- The Runge–Kutta method on a system that is smooth on an open set, along a solution inside it: for small enough steps the global
error is of fourth order at every step of a run within `[0, T]`. -/
theorem smooth_open {f : E → E} {U : Set E} (hU : IsOpen U) (hf : ContDiffOn ℝ 4 f U) {y : ℝ → E} {T : ℝ} (hT : 0 < T)
    (hyU : ∀ t ∈ Icc 0 T, y t ∈ U) (hy : ∀ t ∈ Icc 0 T, HasDerivWithinAt y (f (y t)) (Icc 0 T) t) :
    ∃ C δ, 0 < δ ∧ ∀ h, 0 ≤ h → h ≤ δ → ∀ k : ℕ, k * h ≤ T →
      ‖(classical f h)^[k] (y 0) - y (k * h)‖ ≤ C * h ^ 4 ∧ (classical f h)^[k] (y 0) ∈ U := by
  have hyc : ContinuousOn y (Icc 0 T) := fun t ht => (hy t ht).continuousWithinAt
  obtain ⟨g, hg, ⟨L, hL, hLip⟩, ⟨M, hM0, hM⟩, r, hr, hgf⟩ := cutoff hU hf (isCompact_Icc.image_of_continuousOn hyc)
    (image_subset_iff.2 hyU)
  have hgy : ∀ t ∈ Icc 0 T, HasDerivWithinAt y (g (y t)) (Icc 0 T) t := by
    intro t ht
    rw [(hgf (y t) ⟨t, ht, rfl⟩ (y t) (by simpa using hr.le)).1]
    exact hy t ht
  obtain ⟨C, hC0, hC⟩ := smooth_global hg hL hLip hT hgy
  refine ⟨C, min 1 (r / (C + M + 1)), by positivity, fun h hh hδ => ?_⟩
  have h1 : h ≤ 1 := hδ.trans (min_le_left _ _)
  have hsmall : C * h ^ 4 + h * M ≤ r := by
    have h2 : h * (C + M + 1) ≤ r := by
      have := hδ.trans (min_le_right _ _)
      rwa [le_div_iff₀ (by positivity)] at this
    have h3 : h ^ 4 ≤ h := by
      calc h ^ 4 = h * h ^ 3 := by ring
        _ ≤ h * 1 := by gcongr; exact pow_le_one₀ hh h1
        _ = h := mul_one h
    nlinarith
  have same : ∀ k : ℕ, k * h ≤ T → (classical f h)^[k] (y 0) = (classical g h)^[k] (y 0) := by
    intro k
    induction k with
    | zero => intro _; rfl
    | succ k ih =>
      intro hk
      have hkT : (k : ℝ) * h + h ≤ T := by push_cast at hk; linarith
      have hk1 : (k : ℝ) * h ≤ T := by linarith
      rw [Function.iterate_succ_apply', Function.iterate_succ_apply', ih hk1]
      set z := (classical g h)^[k] (y 0)
      have hz : ‖z - y (k * h)‖ ≤ C * h ^ 4 := hC h hh k hk1
      have near : ∀ c v, 0 ≤ c → c ≤ h → g (z + c • g v) = f (z + c • g v) := by
        intro c v hc hch
        refine (hgf (y (k * h)) ⟨k * h, ⟨by positivity, hk1⟩, rfl⟩ _ ?_).1
        have : ‖c • g v‖ ≤ h * M := by
          rw [norm_smul, Real.norm_eq_abs, abs_of_nonneg hc]
          exact mul_le_mul hch (hM v) (norm_nonneg _) hh
        calc ‖z + c • g v - y (k * h)‖ = ‖(z - y (k * h)) + c • g v‖ := by congr 1; abel
          _ ≤ _ := norm_add_le _ _
          _ ≤ r := by linarith
      have n0 : f z = g z := by
        have := near 0 z le_rfl hh
        rw [zero_smul, add_zero] at this
        exact this.symm
      have hh2 : 0 ≤ h / 2 := by linarith
      have hh3 : h / 2 ≤ h := by linarith
      simp only [classical]
      rw [n0, ← near _ _ hh2 hh3, ← near _ _ hh2 hh3, ← near _ _ hh le_rfl]
  intro k hk
  rw [same k hk]
  have := hC h hh k hk
  refine ⟨this, (hgf (y (k * h)) ⟨k * h, ⟨by positivity, hk⟩, rfl⟩ _ (this.trans ?_)).2⟩
  linarith [mul_nonneg hh hM0]

end Verif.Ode
