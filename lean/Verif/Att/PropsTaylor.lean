import Verif.Att.Lemmas
import Mathlib.Analysis.Calculus.Deriv.Add
import Mathlib.Analysis.Calculus.Deriv.Pow
import Mathlib.Analysis.Calculus.Deriv.Mul
import Mathlib.Analysis.Calculus.Deriv.Inv
import Mathlib.Analysis.SpecialFunctions.Sqrt

/-!
# C120: the Taylor update of an attitude
-/

namespace Verif.Att

open Verif.Mat

/-- Normalising a quaternion that moves through a unit quaternion takes the radial part off its rate. -/
theorem normalized_deriv {f : ℝ → Quat ℝ} {q d : Quat ℝ} (hq : q.norm2 = 1) (h0 : f 0 = q)
    (hw : HasDerivAt (fun t => (f t).w) d.w 0) (hi : HasDerivAt (fun t => (f t).i) d.i 0)
    (hj : HasDerivAt (fun t => (f t).j) d.j 0) (hk : HasDerivAt (fun t => (f t).k) d.k 0) :
    let s := q.w * d.w + q.i * d.i + q.j * d.j + q.k * d.k
    HasDerivAt (fun t => (f t).normalized.w) (d.w - q.w * s) 0 ∧
    HasDerivAt (fun t => (f t).normalized.i) (d.i - q.i * s) 0 ∧
    HasDerivAt (fun t => (f t).normalized.j) (d.j - q.j * s) 0 ∧
    HasDerivAt (fun t => (f t).normalized.k) (d.k - q.k * s) 0 := by
  intro s
  have hn : HasDerivAt (fun t => (f t).norm) s 0 := by
    have h2 : HasDerivAt (fun t => (f t).norm2) (2 * s) 0 := by
      have : (fun t => (f t).norm2) = fun t => (f t).w ^ 2 + (f t).i ^ 2 + (f t).j ^ 2 + (f t).k ^ 2 := by
        funext t; rw [norm2_eq]
      rw [this]
      refine ((((hw.pow 2).add (hi.pow 2)).add (hj.pow 2)).add (hk.pow 2)).congr_deriv ?_
      simp only [h0, s]
      push_cast
      ring
    have hne : (f 0).norm2 ≠ 0 := by rw [h0, hq]; norm_num
    refine (h2.sqrt hne).congr_deriv ?_
    rw [h0, hq, Real.sqrt_one]
    ring
  have n0 : (f 0).norm = 1 := by rw [h0, Quat.norm, hq, Real.sqrt_one]
  have hne : (f 0).norm ≠ 0 := by rw [n0]; norm_num
  refine ⟨(hw.div hn hne).congr_deriv ?_, (hi.div hn hne).congr_deriv ?_, (hj.div hn hne).congr_deriv ?_,
    (hk.div hn hne).congr_deriv ?_⟩ <;> rw [n0, h0] <;> ring

/-- The derivative at zero of a cubic written the way the code sums it. -/
theorem cubic_deriv (a b c d : ℝ) :
    HasDerivAt (fun t : ℝ => a + b * t + c * (1 / 4 * (t * t)) + d * (1 / 9 * (t * t * t))) b 0 := by
  have h := hasDerivAt_id (0 : ℝ)
  have h2 := h.mul h
  have h3 := h2.mul h
  have := (((h.const_mul b).const_add a).add ((h2.const_mul (1 / 4)).const_mul c)).add
    ((h3.const_mul (1 / 9)).const_mul d)
  refine this.congr_deriv ?_
  simp

/-- **C120**: the update follows the rate equation. For a unit quaternion `q`, angular velocity `ω` and any angular
acceleration the derivative of the updated quaternion at step zero is `½ q ω`. -/
theorem C120_rate {q : Quat ℝ} (hq : q.norm2 = 1) (vel acc : Fin 3 → ℝ) :
    let r := (q.mul ⟨0, vel 0, vel 1, vel 2⟩).scale (1 / 2)
    HasDerivAt (fun t => (q.integrate vel acc t).w) r.w 0 ∧
    HasDerivAt (fun t => (q.integrate vel acc t).i) r.i 0 ∧
    HasDerivAt (fun t => (q.integrate vel acc t).j) r.j 0 ∧
    HasDerivAt (fun t => (q.integrate vel acc t).k) r.k 0 := by
  intro r
  have hn := normalized_of_unit hq
  have hs := norm2_eq q
  rw [hq] at hs
  unfold Quat.integrate
  simp only [hn]
  set d := (q.mul ⟨1, vel 0, vel 1, vel 2⟩).scale (1 / 2) with hd
  set d2 := (((q.mul ⟨1, vel 0, vel 1, vel 2⟩).mul ⟨1, vel 0, vel 1, vel 2⟩).scale (1 / 4)).add
    ((q.mul ⟨1, acc 0, acc 1, acc 2⟩).scale (1 / 2)) with hd2
  generalize (((((q.mul ⟨1, vel 0, vel 1, vel 2⟩).mul ⟨1, vel 0, vel 1, vel 2⟩).mul ⟨1, vel 0, vel 1, vel 2⟩).scale
    (1 / (3 + 3))).add (((q.mul ⟨1, acc 0, acc 1, acc 2⟩).mul ⟨1, vel 0, vel 1, vel 2⟩).scale (1 / 4))).add
    (((q.mul ⟨1, vel 0, vel 1, vel 2⟩).mul ⟨1, acc 0, acc 1, acc 2⟩).scale (1 / 2)) = d3
  have key := normalized_deriv (f := fun t => ((q.add (d.scale t)).add (d2.scale (1 / 4 * (t * t)))).add
    (d3.scale (1 / 9 * (t * t * t)))) (d := d) hq (by simp [Quat.add, Quat.scale])
    (cubic_deriv q.w d.w d2.w d3.w) (cubic_deriv q.i d.i d2.i d3.i) (cubic_deriv q.j d.j d2.j d3.j)
    (cubic_deriv q.k d.k d2.k d3.k)
  have e : q.w * d.w + q.i * d.i + q.j * d.j + q.k * d.k = 1 / 2 := by
    simp only [hd, Quat.scale, Quat.mul]
    linear_combination (-1 / 2) * hs
  simp only [e] at key
  obtain ⟨k1, k2, k3, k4⟩ := key
  refine ⟨k1.congr_deriv ?_, k2.congr_deriv ?_, k3.congr_deriv ?_, k4.congr_deriv ?_⟩ <;>
    simp only [hd, r, Quat.scale, Quat.mul] <;> ring

/-- **C120**: the updated quaternion has unit length, unless the sum to be normalised vanishes. -/
theorem C120_unit (q : Quat ℝ) (vel acc : Fin 3 → ℝ) (t : ℝ) :
    (q.integrate vel acc t).norm2 = 1 ∨ q.integrate vel acc t = ⟨0, 0, 0, 0⟩ := by
  unfold Quat.integrate
  have key : ∀ n : Quat ℝ, n.normalized.norm2 = 1 ∨ n.normalized = ⟨0, 0, 0, 0⟩ := by
    intro n
    by_cases hn : n = ⟨0, 0, 0, 0⟩
    · right
      rw [hn]
      simp [Quat.normalized]
    · exact Or.inl (normalized_unit hn)
  exact key _

/-- A unit quaternion that is not the identity meets the hypothesis of `C120_rate`. -/
example : (⟨3 / 5, 0, 4 / 5, 0⟩ : Quat ℝ).norm2 = 1 := by
  rw [norm2_eq]
  norm_num

end Verif.Att
