import Verif.Shapes.Body
import Mathlib.MeasureTheory.Constructions.HaarToSphere
import Mathlib.MeasureTheory.Measure.Lebesgue.VolumeOfBalls
import Mathlib.MeasureTheory.Integral.Pi
import Mathlib.MeasureTheory.Integral.Prod
import Mathlib.MeasureTheory.Measure.Haar.InnerProductSpace
import Mathlib.Analysis.SpecialFunctions.Integrals.Basic

/-!
# Uniform solids: lemmas
-/

namespace Verif.Shapes

open MeasureTheory

/-- A solid of uniform density `ρ` filling the region `S`. -/
noncomputable def uniform (ρ : ℝ) (S : Set (Fin 3 → ℝ)) : Measure (Fin 3 → ℝ) := ENNReal.ofReal ρ • volume.restrict S

/-- Turning the sign of one coordinate. -/
noncomputable def reflect {n : ℕ} (i : Fin n) : (Fin n → ℝ) ≃ᵐ (Fin n → ℝ) :=
  MeasurableEquiv.piCongrRight fun k => if k = i then MeasurableEquiv.neg ℝ else MeasurableEquiv.refl ℝ

theorem reflect_apply {n : ℕ} (i k : Fin n) (x : Fin n → ℝ) : reflect i x k = if k = i then -x k else x k := by
  show (if k = i then MeasurableEquiv.neg ℝ else MeasurableEquiv.refl ℝ) (x k) = _
  split_ifs <;> rfl

theorem reflect_preserving {n : ℕ} (i : Fin n) : MeasurePreserving (reflect i) := by
  have := volume_preserving_pi (α' := fun _ : Fin n => ℝ) (β' := fun _ : Fin n => ℝ)
    (f := fun k => ((if k = i then MeasurableEquiv.neg ℝ else MeasurableEquiv.refl ℝ : ℝ ≃ᵐ ℝ) : ℝ → ℝ)) fun k => by
      split_ifs
      · exact Measure.measurePreserving_neg volume
      · exact MeasurePreserving.id volume
  exact this

/-- An integrand that is odd in one coordinate integrates to zero over a symmetric region. -/
theorem odd_zero {n : ℕ} {S : Set (Fin n → ℝ)} (i : Fin n) (hS : ∀ x, reflect i x ∈ S ↔ x ∈ S) (g : (Fin n → ℝ) → ℝ)
    (hg : ∀ x, g (reflect i x) = -g x) : ∫ x in S, g x = 0 := by
  have h := (reflect_preserving i).setIntegral_preimage_emb (reflect i).measurableEmbedding g S
  have e : reflect i ⁻¹' S = S := Set.ext hS
  rw [e] at h
  simp only [hg, integral_neg] at h
  linarith

theorem uniform_body {S : Set (Fin 3 → ℝ)} (hm : MeasurableSet S) (c : ℝ) (hb : ∀ x ∈ S, ∀ i, |x i| ≤ c)
    (hf : volume S ≠ ⊤) (hS : ∀ i x, reflect i x ∈ S ↔ x ∈ S) {ρ : ℝ} (hρ : 0 ≤ ρ) :
    Body (uniform ρ S) (ρ * volume.real S) 0
      (Matrix.diagonal fun i => ρ * ((∑ k, ∫ x in S, x k ^ 2) - ∫ x in S, x i ^ 2)) := by
  have hfin : IsFiniteMeasure (volume.restrict S) := isFiniteMeasure_restrict.mpr hf
  have h2 : Fin2 (uniform ρ S) := by
    refine ⟨⟨?_⟩, fun i => ?_⟩
    · rw [uniform, Measure.smul_apply, smul_eq_mul]
      exact ENNReal.mul_lt_top ENNReal.ofReal_lt_top (measure_lt_top _ _)
    · refine Integrable.smul_measure ?_ ENNReal.ofReal_ne_top
      refine (integrable_const (c ^ 2)).mono' ((measurable_pi_apply i).pow_const 2).aestronglyMeasurable ?_
      refine (ae_restrict_iff' hm).mpr (Filter.Eventually.of_forall fun x hx => ?_)
      rw [Real.norm_eq_abs, abs_pow]
      exact pow_le_pow_left₀ (abs_nonneg _) (hb x hx i) 2
  have hint : ∀ g : (Fin 3 → ℝ) → ℝ, ∫ x, g x ∂(uniform ρ S) = ρ * ∫ x in S, g x := by
    intro g
    rw [uniform, integral_smul_measure, ENNReal.toReal_ofReal hρ, smul_eq_mul]
  have z1 : ∀ i, ∫ x in S, x i = 0 := fun i =>
    odd_zero i (hS i) (fun x => x i) fun x => by rw [reflect_apply, if_pos rfl]
  have z2 : ∀ i j, i ≠ j → ∫ x in S, x i * x j = 0 := fun i j hij =>
    odd_zero i (hS i) (fun x => x i * x j) fun x => by
      rw [reflect_apply, if_pos rfl, reflect_apply, if_neg (Ne.symm hij), neg_mul]
  refine body_of_moments h2 ?_ ?_ ?_
  · rw [uniform, measureReal_ennreal_smul_apply, ENNReal.toReal_ofReal hρ, measureReal_restrict_apply MeasurableSet.univ,
      Set.univ_inter]
  · intro i
    rw [hint, z1]
    simp
  · intro i j
    simp only [hint, Pi.zero_apply, mul_zero, Finset.sum_const_zero, zero_mul, sub_self, add_zero, ← Finset.mul_sum]
    by_cases hij : i = j
    · subst hij
      simp only [Matrix.diagonal_apply_eq, if_true, mul_one, sq]
      ring
    · rw [Matrix.diagonal_apply_ne _ hij, if_neg hij, z2 i j hij]
      ring

/-! ## Balls -/

/-- The ball of radius `r` about the origin. -/
def ball (n : ℕ) (r : ℝ) : Set (Fin n → ℝ) := {x | ∑ k, x k ^ 2 ≤ r ^ 2}

theorem ball_meas (n : ℕ) (r : ℝ) : MeasurableSet (ball n r) :=
  measurableSet_le (by fun_prop) (by fun_prop)

theorem ball_preimage {n : ℕ} {r : ℝ} (hr : 0 ≤ r) :
    ball n r = (WithLp.toLp 2) ⁻¹' (Metric.closedBall (0 : EuclideanSpace ℝ (Fin n)) r) := by
  ext x
  rw [Set.mem_preimage, mem_closedBall_zero_iff, EuclideanSpace.norm_eq, Real.sqrt_le_left hr]
  simp [ball]

theorem ball_reflect {n : ℕ} (r : ℝ) (i : Fin n) (x) : reflect i x ∈ ball n r ↔ x ∈ ball n r := by
  have : ∀ k, reflect i x k ^ 2 = x k ^ 2 := by
    intro k; rw [reflect_apply]; split_ifs <;> ring
  simp [ball, this]

theorem ball_bound {n : ℕ} {r : ℝ} (hr : 0 ≤ r) {x} (hx : x ∈ ball n r) (i : Fin n) : |x i| ≤ r := by
  refine abs_le_of_sq_le_sq ?_ hr
  exact le_trans (Finset.single_le_sum (f := fun k => x k ^ 2) (fun k _ => sq_nonneg (x k)) (Finset.mem_univ i)) hx

theorem ball_volume {n : ℕ} {r : ℝ} (hr : 0 ≤ r) :
    volume (ball n r) = volume (Metric.closedBall (0 : EuclideanSpace ℝ (Fin n)) r) := by
  rw [ball_preimage hr]
  exact (PiLp.volume_preserving_toLp (Fin n)).measure_preimage Metric.isClosed_closedBall.measurableSet.nullMeasurableSet

theorem ball_finite {n : ℕ} {r : ℝ} (hr : 0 ≤ r) : volume (ball n r) ≠ ⊤ := by
  rw [ball_volume hr]
  exact measure_closedBall_lt_top.ne

/-- The integral of the squared distance over a ball. -/
theorem ball_sq_sum {n : ℕ} (hn : 0 < n) {r : ℝ} (hr : 0 ≤ r) :
    ∫ x in ball n r, ∑ k, x k ^ 2
      = n * volume.real (Metric.ball (0 : EuclideanSpace ℝ (Fin n)) 1) * (r ^ (n + 2) / (n + 2)) := by
  have : Nontrivial (EuclideanSpace ℝ (Fin n)) := by
    have : Nonempty (Fin n) := ⟨⟨0, hn⟩⟩
    infer_instance
  set G : ℝ → ℝ := fun t => if t ≤ r then t ^ 2 else 0 with hG
  have h1 : ∫ x in ball n r, ∑ k, x k ^ 2 = ∫ x : Fin n → ℝ, G ‖(WithLp.toLp 2 x : EuclideanSpace ℝ (Fin n))‖ := by
    rw [← integral_indicator (ball_meas n r)]
    congr 1
    funext x
    simp only [Set.indicator, hG]
    have e : ‖(WithLp.toLp 2 x : EuclideanSpace ℝ (Fin n))‖ ^ 2 = ∑ k, x k ^ 2 := by
      rw [EuclideanSpace.norm_sq_eq]
      simp
    rw [e]
    have : x ∈ ball n r ↔ ‖(WithLp.toLp 2 x : EuclideanSpace ℝ (Fin n))‖ ≤ r := by
      rw [ball_preimage hr, Set.mem_preimage, mem_closedBall_zero_iff]
    simp only [this]
  rw [h1, (PiLp.volume_preserving_toLp (Fin n)).integral_comp (MeasurableEquiv.toLp 2 (Fin n → ℝ)).measurableEmbedding
    (fun y : EuclideanSpace ℝ (Fin n) => G ‖y‖), integral_fun_norm_addHaar volume G, finrank_euclideanSpace_fin]
  have h2 : ∫ y in Set.Ioi (0 : ℝ), y ^ (n - 1) • G y = r ^ (n + 2) / (n + 2) := by
    have e : ∀ y : ℝ, y ^ (n - 1) • G y = Set.indicator (Set.Iic r) (fun y => y ^ (n + 1)) y := by
      intro y
      simp only [Set.indicator, hG, Set.mem_Iic, smul_eq_mul]
      split_ifs
      · rw [← pow_add]; congr 1; omega
      · simp
    simp only [e]
    rw [setIntegral_indicator measurableSet_Iic, Set.Ioi_inter_Iic, ← intervalIntegral.integral_of_le hr, integral_pow]
    push_cast
    rw [zero_pow (by omega)]
    ring
  rw [h2, nsmul_eq_mul, smul_eq_mul]
  ring

theorem swap_preserving {n : ℕ} (i j : Fin n) :
    MeasurePreserving (MeasurableEquiv.piCongrLeft (fun _ : Fin n => ℝ) (Equiv.swap i j)) :=
  volume_measurePreserving_piCongrLeft (fun _ : Fin n => ℝ) (Equiv.swap i j)

theorem swap_apply {n : ℕ} (i j k : Fin n) (x : Fin n → ℝ) :
    MeasurableEquiv.piCongrLeft (fun _ : Fin n => ℝ) (Equiv.swap i j) x k = x (Equiv.swap i j k) := by
  have := MeasurableEquiv.piCongrLeft_apply_apply (β := fun _ : Fin n => ℝ) (Equiv.swap i j) x (Equiv.swap i j k)
  simpa using this

theorem ball_sq_eq {n : ℕ} (r : ℝ) (i j : Fin n) : ∫ x in ball n r, x i ^ 2 = ∫ x in ball n r, x j ^ 2 := by
  have h := (swap_preserving i j).setIntegral_preimage_emb
    (MeasurableEquiv.piCongrLeft (fun _ : Fin n => ℝ) (Equiv.swap i j)).measurableEmbedding (fun x => x j ^ 2) (ball n r)
  have e : MeasurableEquiv.piCongrLeft (fun _ : Fin n => ℝ) (Equiv.swap i j) ⁻¹' ball n r = ball n r := by
    ext x
    simp only [Set.mem_preimage, ball, Set.mem_ofPred_eq, swap_apply]
    rw [Equiv.sum_comp (Equiv.swap i j) fun k => x k ^ 2]
  rw [e] at h
  simp only [swap_apply, Equiv.swap_apply_right] at h
  exact h

theorem sq_integrable {n : ℕ} {S : Set (Fin n → ℝ)} (hm : MeasurableSet S) (c : ℝ) (hb : ∀ x ∈ S, ∀ i, |x i| ≤ c)
    (hf : volume S ≠ ⊤) (i : Fin n) : Integrable (fun x : Fin n → ℝ => x i ^ 2) (volume.restrict S) := by
  have hfin : IsFiniteMeasure (volume.restrict S) := isFiniteMeasure_restrict.mpr hf
  refine (integrable_const (c ^ 2)).mono' ((measurable_pi_apply i).pow_const 2).aestronglyMeasurable ?_
  refine (ae_restrict_iff' hm).mpr (Filter.Eventually.of_forall fun x hx => ?_)
  rw [Real.norm_eq_abs, abs_pow]
  exact pow_le_pow_left₀ (abs_nonneg _) (hb x hx i) 2

/-- The integral of one squared coordinate over a ball. -/
theorem ball_sq {n : ℕ} {r : ℝ} (hr : 0 ≤ r) (i : Fin n) :
    ∫ x in ball n r, x i ^ 2 = volume.real (Metric.ball (0 : EuclideanSpace ℝ (Fin n)) 1) * (r ^ (n + 2) / (n + 2)) := by
  have hn : 0 < n := Nat.lt_of_le_of_lt (Nat.zero_le _) i.2
  have h := ball_sq_sum hn hr
  rw [integral_finsetSum _ fun k _ =>
    sq_integrable (ball_meas n r) r (fun x hx i => ball_bound hr hx i) (ball_finite hr) k] at h
  simp only [fun k => ball_sq_eq r k i] at h
  rw [Finset.sum_const, Finset.card_univ, Fintype.card_fin, nsmul_eq_mul, mul_assoc] at h
  exact mul_left_cancel₀ (by exact_mod_cast hn.ne') h

theorem unit_two : volume.real (Metric.ball (0 : EuclideanSpace ℝ (Fin 2)) 1) = Real.pi := by
  rw [Measure.real, EuclideanSpace.volume_ball_fin_two]
  simp [Real.pi_pos.le]

theorem unit_three : volume.real (Metric.ball (0 : EuclideanSpace ℝ (Fin 3)) 1) = 4 / 3 * Real.pi := by
  rw [Measure.real, EuclideanSpace.volume_ball_fin_three]
  have : 0 ≤ Real.pi * 4 / 3 := by positivity
  simp [ENNReal.toReal_ofReal this]
  ring

theorem ball_two {r : ℝ} (hr : 0 ≤ r) : volume.real (ball 2 r) = Real.pi * r ^ 2 := by
  rw [Measure.real, ball_volume hr, EuclideanSpace.volume_closedBall_fin_two]
  simp [Real.pi_pos.le, hr]
  ring

theorem ball_three {r : ℝ} (hr : 0 ≤ r) : volume.real (ball 3 r) = 4 / 3 * Real.pi * r ^ 3 := by
  rw [Measure.real, ball_volume hr, EuclideanSpace.volume_closedBall_fin_three]
  have : 0 ≤ Real.pi * 4 / 3 := by positivity
  simp [ENNReal.toReal_ofReal this, hr]
  ring

end Verif.Shapes
