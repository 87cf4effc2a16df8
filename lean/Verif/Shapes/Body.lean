import Mathlib.MeasureTheory.Integral.Bochner.Basic
import Mathlib.MeasureTheory.Function.L1Space.Integrable
import Mathlib.MeasureTheory.Measure.Lebesgue.Basic
import Mathlib.LinearAlgebra.Matrix.Notation
import Mathlib.Data.Matrix.Mul

/-!
# Specification for mass properties: bodies

A body is a distribution of mass in space: a measure `μ` on `ℝ³` (coordinates `Fin 3 → ℝ`). Its mass, centre of mass and
inertia tensor about a point are the usual integrals.
-/

namespace Verif.Shapes

open MeasureTheory

/-- The inertia tensor of `μ` about the point `c`. -/
noncomputable def inertiaAbout (μ : Measure (Fin 3 → ℝ)) (c : Fin 3 → ℝ) (i j : Fin 3) : ℝ :=
  ∫ x, ((∑ k, (x k - c k) ^ 2) * (if i = j then 1 else 0) - (x i - c i) * (x j - c j)) ∂μ

/-- `μ` is a finite distribution of mass with finite second moments, total mass `m`, centre of mass `r`, and inertia tensor `I`
about its centre of mass. -/
structure Body (μ : Measure (Fin 3 → ℝ)) (m : ℝ) (r : Fin 3 → ℝ) (I : Fin 3 → Fin 3 → ℝ) : Prop where
  fin : IsFiniteMeasure μ
  int : ∀ i, Integrable (fun x => x i ^ 2) μ
  mass : μ.real Set.univ = m
  com : ∀ i, m * r i = ∫ x, x i ∂μ
  inertia : ∀ i j, I i j = inertiaAbout μ r i j

/-! ## Moments -/

/-- Finite second moments. -/
structure Fin2 (μ : Measure (Fin 3 → ℝ)) : Prop where
  fin : IsFiniteMeasure μ
  int : ∀ i, Integrable (fun x => x i ^ 2) μ

theorem Body.fin2 {μ m r I} (h : Body μ m r I) : Fin2 μ := ⟨h.fin, h.int⟩

theorem Fin2.lin {μ} (h : Fin2 μ) (i : Fin 3) : Integrable (fun x : Fin 3 → ℝ => x i) μ := by
  have := h.fin
  refine ((h.int i).add (integrable_const 1)).mono' (measurable_pi_apply i).aestronglyMeasurable (Filter.Eventually.of_forall fun x => ?_)
  simp only [Real.norm_eq_abs, Pi.add_apply]
  rcases abs_cases (x i) with ⟨e, _⟩ | ⟨e, _⟩ <;> rw [e] <;> nlinarith [sq_nonneg (x i - 1), sq_nonneg (x i + 1)]

theorem Fin2.quad {μ} (h : Fin2 μ) (i j : Fin 3) : Integrable (fun x : Fin 3 → ℝ => x i * x j) μ := by
  refine ((h.int i).add (h.int j)).mono' (by fun_prop) (Filter.Eventually.of_forall fun x => ?_)
  simp only [Real.norm_eq_abs, Pi.add_apply, abs_mul]
  nlinarith [sq_nonneg (|x i| - |x j|), sq_abs (x i), sq_abs (x j), abs_nonneg (x i), abs_nonneg (x j),
    mul_nonneg (abs_nonneg (x i)) (abs_nonneg (x j))]

theorem Fin2.add {μ ν} (h : Fin2 μ) (h' : Fin2 ν) : Fin2 (μ + ν) := by
  have := h.fin
  have := h'.fin
  exact ⟨inferInstance, fun i => (h.int i).add_measure (h'.int i)⟩

theorem Fin2.right {μ ν} (h : Fin2 (μ + ν)) : Fin2 ν := by
  have hf := h.fin
  refine ⟨⟨?_⟩, fun i => (h.int i).right_of_add_measure⟩
  have := measure_lt_top (μ + ν) Set.univ
  exact lt_of_le_of_lt (by simp) this

theorem quad_shift {μ} (h : Fin2 μ) (c : Fin 3 → ℝ) (i j : Fin 3) :
    Integrable (fun x : Fin 3 → ℝ => (x i - c i) * (x j - c j)) μ ∧
    ∫ x, (x i - c i) * (x j - c j) ∂μ
      = ∫ x, x i * x j ∂μ - c j * ∫ x, x i ∂μ - c i * ∫ x, x j ∂μ + c i * c j * μ.real Set.univ := by
  have := h.fin
  have e : (fun x : Fin 3 → ℝ => (x i - c i) * (x j - c j))
      = fun x => x i * x j - c j * x i - c i * x j + c i * c j := by
    funext x; ring
  have i1 := (h.lin i).const_mul (c j)
  have i2 := (h.lin j).const_mul (c i)
  have i3 : Integrable (fun _ : Fin 3 → ℝ => c i * c j) μ := integrable_const _
  have ia : Integrable (fun x : Fin 3 → ℝ => x i * x j - c j * x i) μ := (h.quad i j).sub i1
  have ib : Integrable (fun x : Fin 3 → ℝ => x i * x j - c j * x i - c i * x j) μ := ia.sub i2
  rw [e]
  refine ⟨ib.add i3, ?_⟩
  rw [integral_add ib i3, integral_sub ia i2, integral_sub (h.quad i j) i1, integral_const_mul, integral_const_mul,
    integral_const, smul_eq_mul]
  ring

/-- The inertia tensor in terms of moments. -/
theorem inertia_moments {μ} (h : Fin2 μ) (c : Fin 3 → ℝ) (i j : Fin 3) :
    inertiaAbout μ c i j = (∑ k, (∫ x, x k * x k ∂μ - 2 * c k * ∫ x, x k ∂μ + c k * c k * μ.real Set.univ))
        * (if i = j then 1 else 0)
      - (∫ x, x i * x j ∂μ - c j * ∫ x, x i ∂μ - c i * ∫ x, x j ∂μ + c i * c j * μ.real Set.univ) := by
  unfold inertiaAbout
  have hk : ∀ k, Integrable (fun x : Fin 3 → ℝ => (x k - c k) ^ 2) μ := by
    intro k
    simp only [sq]
    exact (quad_shift h c k k).1
  have hs : Integrable (fun x : Fin 3 → ℝ => ∑ k, (x k - c k) ^ 2) μ := integrable_finsetSum _ fun k _ => hk k
  rw [integral_sub (hs.mul_const _) (quad_shift h c i j).1, (quad_shift h c i j).2, integral_mul_const,
    integral_finsetSum _ fun k _ => hk k]
  congr 2
  refine Finset.sum_congr rfl fun k _ => ?_
  simp only [sq]
  rw [(quad_shift h c k k).2]
  ring

/-- Steiner's theorem. -/
theorem steiner {μ m r I} (h : Body μ m r I) (i j : Fin 3) :
    I i j + m * ((∑ k, r k * r k) * (if i = j then 1 else 0) - r i * r j)
      = (∑ k, ∫ x, x k * x k ∂μ) * (if i = j then 1 else 0) - ∫ x, x i * x j ∂μ := by
  rw [h.inertia, inertia_moments h.fin2, h.mass]
  simp only [← h.com, Fin.sum_univ_three]
  split_ifs <;> ring

theorem body_of_moments {μ m r I} (h : Fin2 μ) (hm : μ.real Set.univ = m) (hc : ∀ i, m * r i = ∫ x, x i ∂μ)
    (hI : ∀ i j, I i j + m * ((∑ k, r k * r k) * (if i = j then 1 else 0) - r i * r j)
      = (∑ k, ∫ x, x k * x k ∂μ) * (if i = j then 1 else 0) - ∫ x, x i * x j ∂μ) : Body μ m r I := by
  refine ⟨h.fin, h.int, hm, hc, fun i j => ?_⟩
  rw [inertia_moments h, hm]
  have := hI i j
  simp only [← hc, Fin.sum_univ_three] at this ⊢
  split_ifs at this ⊢ <;> linarith

theorem integral_split {μ ν : Measure (Fin 3 → ℝ)} (h : Fin2 μ) (h' : Fin2 ν) (i j : Fin 3) :
    (μ + ν).real Set.univ = μ.real Set.univ + ν.real Set.univ ∧
    (∫ x, x i ∂(μ + ν) = ∫ x, x i ∂μ + ∫ x, x i ∂ν) ∧
    ∫ x, x i * x j ∂(μ + ν) = ∫ x, x i * x j ∂μ + ∫ x, x i * x j ∂ν := by
  have := h.fin
  have := h'.fin
  refine ⟨?_, integral_add_measure (h.lin i) (h'.lin i), integral_add_measure (h.quad i j) (h'.quad i j)⟩
  simp [Measure.real, ENNReal.toReal_add (measure_ne_top μ _) (measure_ne_top ν _)]

end Verif.Shapes
