import Verif.Shapes.Body
import Verif.Shapes.Model
import Verif.Mat.PropsAlg
import Mathlib.MeasureTheory.Measure.Dirac
import Mathlib.LinearAlgebra.Matrix.Notation

/-!
# Properties of mass models and propellant tanks (C53, C55)
-/

namespace Verif.Shapes

open MeasureTheory Verif.Mat

/-- The inertia tensor of a part about its own centre of mass, in the axes of the assembly. -/
def Model.tensor (p : Model ℝ) : Matrix (Fin 3) (Fin 3) ℝ :=
  Matrix.of p.rot * Matrix.diagonal (p.solid.inertia (p.density * p.solid.volume)) * (Matrix.of p.rot).transpose

/-- The mass distribution `μ` is what the mass model `p` describes: it has the mass of the solid at the given density, its centre of
mass at the given position, and about it the principal moments of the solid along the given axes. -/
def Model.Describes (p : Model ℝ) (μ : Measure (Fin 3 → ℝ)) : Prop :=
  Body μ (p.density * p.solid.volume) p.pos p.tensor

/-- The mass properties `P` are those of the mass distribution `μ`. -/
def MassProps.Describes (P : MassProps ℝ) (μ : Measure (Fin 3 → ℝ)) : Prop :=
  Body μ P.mass P.com P.inertia

/-! ## Lemmas -/

theorem parallel_entry (A : Mat ℝ 3 3) (m : ℝ) (r : Fin 3 → ℝ) (i j : Fin 3) :
    parallelAxis A m r i j = A i j + m * ((∑ k, r k * r k) * (if i = j then 1 else 0) - r i * r j) := by
  unfold parallelAxis
  rw [(C23_entries A _ 0 r r i j).1, (C23_entries _ A m r r i j).2.2.2.1, (C23_entries _ _ m r r i j).2.1,
    (C23_entries _ A _ r r i j).2.2.2.1, (C23_entries A A 0 r r i j).2.2.2.2.2.2.1, (C23_square A r i j).1, C22_dot,
    foldl_finRange_sum]
  split_ifs <;> ring

theorem diag_eq (d : Fin 3 → ℝ) : Matrix.of (diag d : Mat ℝ 3 3) = Matrix.diagonal d := by
  ext i j
  exact (C23_square (diag d) d i j).2.1.trans (by rw [Matrix.diagonal_apply])

theorem transpose_eq (a : Mat ℝ 3 3) : Matrix.of (transpose a) = (Matrix.of a).transpose := by
  ext i j
  exact transpose_apply a i j

theorem origin_eq (p : Model ℝ) (i j : Fin 3) :
    p.inertiaOrigin i j = p.tensor i j
      + p.density * p.solid.volume * ((∑ k, p.pos k * p.pos k) * (if i = j then 1 else 0) - p.pos i * p.pos j) := by
  rw [Model.inertiaOrigin, parallel_entry, mul_eq, mul_eq, transpose_eq, Model.tensor, ← diag_eq]
  rfl

theorem add_eq (a b : Model ℝ) : a.add b =
    if a.solid.volume ≤ 0 ∨ b.solid.volume ≤ 0 ∨ a.density * a.solid.volume + b.density * b.solid.volume ≤ 0 then none
    else
      let m := a.density * a.solid.volume + b.density * b.solid.volume
      let r : Fin 3 → ℝ := fun i =>
        (a.pos i * (a.density * a.solid.volume) + b.pos i * (b.density * b.solid.volume)) / m
      some ⟨a.solid.volume + b.solid.volume, m / (a.solid.volume + b.solid.volume), m, r, fun i j =>
        a.inertiaOrigin i j + b.inertiaOrigin i j - m * ((∑ k, r k * r k) * (if i = j then 1 else 0) - r i * r j)⟩ := by
  unfold Model.add
  by_cases h1 : a.solid.volume ≤ 0 ∨ b.solid.volume ≤ 0
  · rw [if_pos h1, if_pos (by tauto)]
  · rw [if_neg h1]
    dsimp only
    have hv : ¬ a.solid.volume + b.solid.volume ≤ 0 := by
      rw [not_or, not_le, not_le] at h1
      linarith [h1.1, h1.2]
    by_cases h2 : a.density * a.solid.volume + b.density * b.solid.volume ≤ 0
    · rw [if_pos (Or.inl h2), if_pos (by tauto)]
    · rw [if_neg (by tauto), if_neg (by tauto)]
      congr 2
      funext i j
      rw [(C23_entries _ _ (0 : ℝ) (fun _ => 0) (fun _ => 0) i j).2.1, (C23_entries _ _ (0 : ℝ) (fun _ => 0) (fun _ => 0) i j).1,
        parallel_entry, (C23_entries (fun _ _ => 0) (fun _ _ => 0) (0 : ℝ) (fun _ => 0) (fun _ => 0) i j).2.2.2.2.2.2.2.1,
        zero_add]
      rfl

theorem sub_eq (o n : Model ℝ) : o.sub n =
    if o.solid.volume ≤ 0 ∨ n.solid.volume ≤ 0 ∨ o.density * o.solid.volume - n.density * n.solid.volume ≤ 0 ∨
      o.solid.volume - n.solid.volume ≤ 0 then none
    else
      let m := o.density * o.solid.volume - n.density * n.solid.volume
      let r : Fin 3 → ℝ := fun i =>
        (o.pos i * (o.density * o.solid.volume) - n.pos i * (n.density * n.solid.volume)) / m
      some ⟨o.solid.volume - n.solid.volume, m / (o.solid.volume - n.solid.volume), m, r, fun i j =>
        o.inertiaOrigin i j - n.inertiaOrigin i j - m * ((∑ k, r k * r k) * (if i = j then 1 else 0) - r i * r j)⟩ := by
  unfold Model.sub
  by_cases h1 : o.solid.volume ≤ 0 ∨ n.solid.volume ≤ 0
  · rw [if_pos h1, if_pos (by tauto)]
  · rw [if_neg h1]
    dsimp only
    by_cases h2 : o.density * o.solid.volume - n.density * n.solid.volume ≤ 0 ∨ o.solid.volume - n.solid.volume ≤ 0
    · rw [if_pos h2, if_pos (by tauto)]
    · rw [if_neg h2, if_neg (by tauto)]
      congr 2
      funext i j
      rw [(C23_entries _ _ (0 : ℝ) (fun _ => 0) (fun _ => 0) i j).2.1, (C23_entries _ _ (0 : ℝ) (fun _ => 0) (fun _ => 0) i j).2.1,
        parallel_entry, (C23_entries (fun _ _ => 0) (fun _ _ => 0) (0 : ℝ) (fun _ => 0) (fun _ => 0) i j).2.2.2.2.2.2.2.1,
        zero_add]
      rfl

/-! ## C53: mass models -/

/-- C53. Adding two mass models is refused exactly when a part has no volume or the total mass is not positive; otherwise volumes and
masses add up, the density is mass over volume, and for all mass distributions that the two models describe, the returned mass,
centre of mass and inertia tensor are those of the two distributions together. -/
theorem C53_add (a b : Model ℝ) :
    (a.add b = none ↔ a.solid.volume ≤ 0 ∨ b.solid.volume ≤ 0 ∨
      a.density * a.solid.volume + b.density * b.solid.volume ≤ 0) ∧
    ∀ P, a.add b = some P →
      P.volume = a.solid.volume + b.solid.volume ∧ P.density * P.volume = P.mass ∧
      P.mass = a.density * a.solid.volume + b.density * b.solid.volume ∧
      ∀ μ ν, a.Describes μ → b.Describes ν → P.Describes (μ + ν) := by
  rw [add_eq]
  by_cases h : a.solid.volume ≤ 0 ∨ b.solid.volume ≤ 0 ∨ a.density * a.solid.volume + b.density * b.solid.volume ≤ 0
  · rw [if_pos h]
    exact ⟨⟨fun _ => h, fun _ => rfl⟩, fun P hP => by cases hP⟩
  · rw [if_neg h]
    refine ⟨⟨fun e => (by cases e), fun e => absurd e h⟩, ?_⟩
    simp only [not_or, not_le] at h
    obtain ⟨hva, hvb, hm⟩ := h
    intro P hP
    obtain rfl := Option.some.inj hP
    dsimp only
    refine ⟨rfl, div_mul_cancel₀ _ (by linarith), rfl, fun μ ν ha hb => ?_⟩
    refine body_of_moments (ha.fin2.add hb.fin2) ?_ ?_ ?_
    · rw [(integral_split ha.fin2 hb.fin2 0 0).1, ha.mass, hb.mass]
    · intro i
      rw [(integral_split ha.fin2 hb.fin2 i i).2.1, ← ha.com, ← hb.com]
      dsimp only
      rw [mul_div_cancel₀ _ (ne_of_gt hm)]
      ring
    · intro i j
      dsimp only
      rw [sub_add_cancel, origin_eq, origin_eq]
      have e1 := steiner ha i j
      have e2 := steiner hb i j
      rw [e1, e2, (integral_split ha.fin2 hb.fin2 i j).2.2]
      simp only [Fin.sum_univ_three, (integral_split ha.fin2 hb.fin2 _ _).2.2]
      ring

/-- C53. Subtracting a part from a whole is refused exactly when one of them has no volume or no volume or mass would remain; otherwise
volumes and masses subtract, and whenever the whole consists of the part and a rest, the returned mass, centre of mass and inertia
tensor are those of the rest. -/
theorem C53_sub (o n : Model ℝ) :
    (o.sub n = none ↔ o.solid.volume ≤ 0 ∨ n.solid.volume ≤ 0 ∨
      o.density * o.solid.volume ≤ n.density * n.solid.volume ∨ o.solid.volume ≤ n.solid.volume) ∧
    ∀ P, o.sub n = some P →
      P.volume = o.solid.volume - n.solid.volume ∧ P.density * P.volume = P.mass ∧
      P.mass = o.density * o.solid.volume - n.density * n.solid.volume ∧
      ∀ μ rest, n.Describes μ → o.Describes (μ + rest) → P.Describes rest := by
  rw [sub_eq]
  simp only [sub_nonpos]
  by_cases h : o.solid.volume ≤ 0 ∨ n.solid.volume ≤ 0 ∨
      o.density * o.solid.volume ≤ n.density * n.solid.volume ∨ o.solid.volume ≤ n.solid.volume
  · rw [if_pos h]
    exact ⟨⟨fun _ => h, fun _ => rfl⟩, fun P hP => by cases hP⟩
  · rw [if_neg h]
    refine ⟨⟨fun e => (by cases e), fun e => absurd e h⟩, ?_⟩
    simp only [not_or, not_le] at h
    obtain ⟨hvo, hvn, hm, hv⟩ := h
    intro P hP
    obtain rfl := Option.some.inj hP
    dsimp only
    refine ⟨rfl, div_mul_cancel₀ _ (by linarith), rfl, fun μ ν ha hb => ?_⟩
    have hf := hb.fin2.right
    obtain ⟨s1, s2, s3⟩ : _ ∧ _ ∧ _ := ⟨(integral_split ha.fin2 hf 0 0).1, fun i => (integral_split ha.fin2 hf i i).2.1,
      fun i j => (integral_split ha.fin2 hf i j).2.2⟩
    refine body_of_moments hf ?_ ?_ ?_
    · rw [hb.mass, ha.mass] at s1
      linarith
    · intro i
      have := s2 i
      rw [← ha.com, ← hb.com] at this
      dsimp only
      rw [mul_div_cancel₀ _ (by linarith)]
      linarith
    · intro i j
      dsimp only
      rw [sub_add_cancel, origin_eq, origin_eq]
      have e1 := steiner ha i j
      have e2 := steiner hb i j
      rw [e1, e2, s3]
      simp only [Fin.sum_univ_three, s3]
      ring

/-- C53. Turning and moving a body: if the mass distribution `ν`, in the axes of the solid, has its centre of mass at the origin and the
solid's principal moments, then turned by the model's rotation and moved to the model's position it is what the model describes. -/
theorem C53_place (p : Model ℝ) (ν : Measure (Fin 3 → ℝ)) (hR : Matrix.of p.rot * (Matrix.of p.rot).transpose = 1)
    (h : Body ν (p.density * p.solid.volume) 0 (Matrix.diagonal (p.solid.inertia (p.density * p.solid.volume)))) :
    p.Describes (ν.map fun x i => (∑ j, p.rot i j * x j) + p.pos i) := by
  set R := Matrix.of p.rot with hRd
  have hR' : R.transpose * R = 1 := mul_eq_one_comm.mp hR
  have := h.fin
  have hmeas : Measurable fun (x : Fin 3 → ℝ) (i : Fin 3) => (∑ j, p.rot i j * x j) + p.pos i := by fun_prop
  have hlin : ∀ i, Integrable (fun x : Fin 3 → ℝ => ∑ j, p.rot i j * x j) ν := fun i =>
    integrable_finsetSum _ fun j _ => (h.fin2.lin j).const_mul _
  have hquad : ∀ i k, Integrable (fun x : Fin 3 → ℝ => (∑ j, p.rot i j * x j) * (∑ j, p.rot k j * x j)) ν := by
    intro i k
    simp only [Finset.sum_mul_sum]
    refine integrable_finsetSum _ fun j _ => integrable_finsetSum _ fun l _ => ?_
    refine ((h.fin2.quad j l).const_mul (p.rot i j * p.rot k l)).congr (Filter.Eventually.of_forall fun x => ?_)
    dsimp only
    ring
  refine ⟨Measure.isFiniteMeasure_map _ _, ?_, ?_, ?_, ?_⟩
  · intro i
    rw [integrable_map_measure ((measurable_pi_apply i).pow_const 2).aestronglyMeasurable hmeas.aemeasurable]
    have : Integrable (fun x : Fin 3 → ℝ => (∑ j, p.rot i j * x j) * (∑ j, p.rot i j * x j)
        + 2 * p.pos i * (∑ j, p.rot i j * x j) + p.pos i ^ 2) ν :=
      ((hquad i i).add ((hlin i).const_mul _)).add (integrable_const _)
    refine this.congr (Filter.Eventually.of_forall fun x => ?_)
    simp only [Function.comp]
    ring
  · rw [map_measureReal_apply hmeas MeasurableSet.univ, Set.preimage_univ, h.mass]
  · intro i
    rw [integral_map hmeas.aemeasurable (measurable_pi_apply i).aestronglyMeasurable, integral_add (hlin i) (integrable_const _), integral_const, h.mass,
      integral_finsetSum _ fun j _ => (h.fin2.lin j).const_mul _]
    have : ∀ j, ∫ x : Fin 3 → ℝ, p.rot i j * x j ∂ν = 0 := by
      intro j
      rw [integral_const_mul, ← h.com j]
      simp
    simp [this]
  · intro i j
    unfold inertiaAbout
    rw [integral_map hmeas.aemeasurable (by fun_prop)]
    have hI : ∀ a b, Matrix.diagonal (p.solid.inertia (p.density * p.solid.volume)) a b
        = ∫ x : Fin 3 → ℝ, ((∑ k, x k ^ 2) * (if a = b then 1 else 0) - x a * x b) ∂ν := by
      intro a b
      rw [h.inertia a b]
      simp [inertiaAbout]
    have hint : ∀ a b, Integrable (fun x : Fin 3 → ℝ => (∑ k, x k ^ 2) * (if a = b then 1 else 0) - x a * x b) ν := fun a b =>
      ((integrable_finsetSum _ fun k _ => h.int k).mul_const _).sub (h.fin2.quad a b)
    rw [Model.tensor, Matrix.mul_apply]
    simp only [Matrix.mul_apply, hI, Matrix.transpose_apply]
    have e1 : ∀ b, (∑ a, R i a * ∫ x : Fin 3 → ℝ, ((∑ k, x k ^ 2) * (if a = b then 1 else 0) - x a * x b) ∂ν) * R j b
        = ∫ x : Fin 3 → ℝ, (∑ a, R i a * ((∑ k, x k ^ 2) * (if a = b then 1 else 0) - x a * x b)) * R j b ∂ν := by
      intro b
      rw [integral_mul_const, integral_finsetSum _ fun a _ => (hint a b).const_mul _]
      simp only [integral_const_mul]
    simp only [← hRd, e1]
    rw [← integral_finsetSum _ fun b _ =>
      (integrable_finsetSum _ fun a _ => (hint a b).const_mul _).mul_const _]
    congr 1
    funext x
    have o1 := congrFun (congrFun hR i) j
    simp only [Matrix.mul_apply, Matrix.transpose_apply, Matrix.one_apply] at o1
    have o2 : ∑ k, (∑ l, R k l * x l) ^ 2 = ∑ k, x k ^ 2 := by
      have o := fun a b => congrFun (congrFun hR' a) b
      simp only [Matrix.mul_apply, Matrix.transpose_apply, Matrix.one_apply] at o
      have t : ∀ k, (∑ l, R k l * x l) ^ 2 = ∑ a, ∑ b, R k a * R k b * (x a * x b) := by
        intro k
        rw [sq, Finset.sum_mul_sum]
        exact Finset.sum_congr rfl fun a _ => Finset.sum_congr rfl fun b _ => by ring
      simp only [t]
      rw [Finset.sum_comm]
      refine Finset.sum_congr rfl fun a _ => ?_
      rw [Finset.sum_comm]
      simp only [← Finset.sum_mul, o]
      simp [sq]
    have hr : ∀ k l, p.rot k l = R k l := fun _ _ => rfl
    simp only [hr, add_sub_cancel_right, o2, ← o1]
    simp only [Fin.sum_univ_three, Fin.isValue]
    simp
    ring

/-- C53. Adding is commutative. -/
theorem C53_comm (a b : Model ℝ) : a.add b = b.add a := by
  rw [add_eq, add_eq]
  by_cases h : a.solid.volume ≤ 0 ∨ b.solid.volume ≤ 0 ∨ a.density * a.solid.volume + b.density * b.solid.volume ≤ 0
  · rw [if_pos h, if_pos (by rw [add_comm]; tauto)]
  · rw [if_neg h, if_neg (by rw [add_comm]; tauto)]
    have e : ∀ i, b.pos i * (b.density * b.solid.volume) + a.pos i * (a.density * a.solid.volume)
        = a.pos i * (a.density * a.solid.volume) + b.pos i * (b.density * b.solid.volume) := fun i => add_comm _ _
    have e' : ∀ i j, b.inertiaOrigin i j + a.inertiaOrigin i j = a.inertiaOrigin i j + b.inertiaOrigin i j :=
      fun i j => add_comm _ _
    simp only [e, e', add_comm b.solid.volume a.solid.volume,
      add_comm (b.density * b.solid.volume) (a.density * a.solid.volume)]

/-- A mass model with the mass properties `P` of an earlier combination: this is how a combination is used as a part. -/
structure Model.Wraps (p : Model ℝ) (P : MassProps ℝ) : Prop where
  volume : p.solid.volume = P.volume
  density : p.density = P.density
  pos : p.pos = P.com
  tensor : p.tensor = Matrix.of P.inertia

theorem wraps_origin {a b ab : Model ℝ} {P : MassProps ℝ} (h : Model.add a b = some P) (w : ab.Wraps P) :
    0 < a.solid.volume ∧ 0 < b.solid.volume ∧ 0 < a.density * a.solid.volume + b.density * b.solid.volume ∧
    ab.solid.volume = a.solid.volume + b.solid.volume ∧
    ab.density * ab.solid.volume = a.density * a.solid.volume + b.density * b.solid.volume ∧
    (∀ i, ab.pos i * (ab.density * ab.solid.volume)
      = a.pos i * (a.density * a.solid.volume) + b.pos i * (b.density * b.solid.volume)) ∧
    ∀ i j, ab.inertiaOrigin i j = a.inertiaOrigin i j + b.inertiaOrigin i j := by
  rw [add_eq] at h
  split_ifs at h with h1
  simp only [not_or, not_le] at h1
  obtain ⟨h1, h2, h3⟩ := h1
  obtain rfl := Option.some.inj h
  have hv := w.volume
  have hd := w.density
  have hp := w.pos
  have ht := w.tensor
  dsimp only at hv hd hp ht
  have hm : ab.density * ab.solid.volume = a.density * a.solid.volume + b.density * b.solid.volume := by
    rw [hd, hv, div_mul_cancel₀ _ (by linarith)]
  refine ⟨h1, h2, h3, hv, hm, fun i => ?_, fun i j => ?_⟩
  · rw [hm, hp, div_mul_cancel₀ _ (by linarith)]
  · rw [origin_eq, hm, ht, hp]
    simp only [Matrix.of_apply]
    ring

theorem add_congr {a b a' b' : Model ℝ} (h1 : ¬ a.solid.volume ≤ 0) (h2 : ¬ b.solid.volume ≤ 0) (h1' : ¬ a'.solid.volume ≤ 0)
    (h2' : ¬ b'.solid.volume ≤ 0) (hv : a.solid.volume + b.solid.volume = a'.solid.volume + b'.solid.volume)
    (hm : a.density * a.solid.volume + b.density * b.solid.volume = a'.density * a'.solid.volume + b'.density * b'.solid.volume)
    (hr : ∀ i, a.pos i * (a.density * a.solid.volume) + b.pos i * (b.density * b.solid.volume)
      = a'.pos i * (a'.density * a'.solid.volume) + b'.pos i * (b'.density * b'.solid.volume))
    (hI : ∀ i j, a.inertiaOrigin i j + b.inertiaOrigin i j = a'.inertiaOrigin i j + b'.inertiaOrigin i j) :
    a.add b = a'.add b' := by
  rw [add_eq, add_eq, hm, hv]
  simp only [hr, hI, h1, h2, h1', h2', false_or]

/-- C53. Adding is associative: combining `a` and `b` first and then `c` gives the same mass properties as combining `b` and `c` first. -/
theorem C53_assoc (a b c ab bc : Model ℝ) (P Q : MassProps ℝ) (hP : a.add b = some P) (hab : ab.Wraps P)
    (hQ : b.add c = some Q) (hbc : bc.Wraps Q) : ab.add c = a.add bc := by
  obtain ⟨a1, b1, m1, v1, d1, r1, i1⟩ := wraps_origin hP hab
  obtain ⟨_, c2, m2, v2, d2, r2, i2⟩ := wraps_origin hQ hbc
  refine add_congr (by linarith) (by linarith) (by linarith) (by linarith) (by linarith) (by linarith) (fun i => ?_) fun i j => ?_
  · linarith [r1 i, r2 i]
  · linarith [i1 i j, i2 i j]

/-- C53. Subtracting one part from the sum gives the other part back. -/
theorem C53_add_sub (a b ab : Model ℝ) (P : MassProps ℝ) (hP : a.add b = some P) (hab : ab.Wraps P)
    (ha : 0 < a.density) :
    ∃ Q, ab.sub b = some Q ∧ Q.volume = a.solid.volume ∧ Q.density = a.density ∧ Q.mass = a.density * a.solid.volume ∧
      Q.com = a.pos ∧ Matrix.of Q.inertia = a.tensor := by
  obtain ⟨a1, b1, m1, v1, d1, r1, i1⟩ := wraps_origin hP hab
  have hm : 0 < a.density * a.solid.volume := mul_pos ha a1
  have em : ab.density * ab.solid.volume - b.density * b.solid.volume = a.density * a.solid.volume := by linarith
  have ev : ab.solid.volume - b.solid.volume = a.solid.volume := by linarith
  rw [sub_eq, em, ev, if_neg (by simp only [not_or, not_le]; exact ⟨by linarith, b1, hm, a1⟩)]
  have er : (fun i => (ab.pos i * (ab.density * ab.solid.volume) - b.pos i * (b.density * b.solid.volume))
      / (a.density * a.solid.volume)) = a.pos := by
    funext i
    rw [r1 i, add_sub_cancel_right, mul_div_cancel_right₀ _ (ne_of_gt hm)]
  refine ⟨_, rfl, rfl, mul_div_cancel_right₀ _ (ne_of_gt a1), rfl, er, ?_⟩
  ext i j
  simp only [Matrix.of_apply]
  have e2 := fun k => congrFun er k
  simp only [e2]
  rw [i1, origin_eq a]
  ring

/-- The hypotheses of C53 can be met: two bricks side by side; the sum is wrapped again by a brick of the sum's dimensions. -/
example : ∃ (a b ab : Model ℝ) (P : MassProps ℝ), a.add b = some P ∧ ab.Wraps P ∧ 0 < a.density := by
  let I3 : Mat ℝ 3 3 := fun i j => if i = j then 1 else 0
  refine ⟨⟨prism 1 1 1, 12, I3, ![0, 0, 0]⟩, ⟨prism 1 1 1, 12, I3, ![1, 0, 0]⟩, ⟨prism 2 1 1, 12, I3, ![1 / 2, 0, 0]⟩, _,
    (add_eq _ _).trans (if_neg ?_), ⟨?_, ?_, ?_, ?_⟩, ?_⟩
  · norm_num [prism, prismOf]
  · norm_num [prism, prismOf]
  · norm_num [prism, prismOf]
  · funext i; fin_cases i <;> norm_num [prism, prismOf]
  · have hI : Matrix.of I3 = 1 := by ext i j; simp [I3, Matrix.one_apply]
    ext i j
    simp only [origin_eq, Model.tensor, hI, one_mul, Matrix.transpose_one, mul_one, Matrix.of_apply, Fin.sum_univ_three]
    fin_cases i <;> fin_cases j <;> norm_num [prism, prismOf, Matrix.diagonal, Matrix.cons_val_two, Matrix.vecHead, Matrix.vecTail]
  · norm_num

/-! ## C55: propellant tanks -/

/-- C55. The usable volume lies between zero and the geometric volume and the greatest mass is not negative, whatever the
specification; a specification within the sensible range gets its geometric volume, fill fraction and density honoured exactly. -/
theorem C55_limits (s : TankSpec) :
    0 ≤ s.limits.usable ∧ s.limits.usable ≤ s.limits.geometric ∧ 0 ≤ s.limits.maxMass ∧
    (0 ≤ s.shape.volume → 0 ≤ s.fill → s.fill ≤ 1 → 0 ≤ s.density →
      s.limits.geometric = s.shape.volume ∧ s.limits.usable = s.fill * s.shape.volume ∧
      s.limits.maxMass = s.density * s.limits.usable) := by
  unfold TankSpec.limits
  dsimp only
  have h1 : 0 ≤ max s.shape.volume 0 := le_max_right _ _
  have h2 : 0 ≤ min (max s.fill 0) 1 := le_min (le_max_right _ _) zero_le_one
  have h3 : min (max s.fill 0) 1 ≤ 1 := min_le_right _ _
  refine ⟨mul_nonneg h1 h2, mul_le_of_le_one_right h1 h3, mul_nonneg (mul_nonneg h1 h2) (le_max_right _ _), ?_⟩
  intro a b c d
  rw [max_eq_left a, max_eq_left b, min_eq_left c, max_eq_left d]
  exact ⟨rfl, mul_comm _ _, mul_comm _ _⟩

/-- C55. A tank's principal inertias are those of the solid shape at the tank's mass; the signs of the dimensions do not matter, and a
negative mass counts as zero. -/
theorem C55_tank (r h m : ℝ) :
    (TankShape.sph r).inertia m = ![2 / 5 * max m 0 * r ^ 2, 2 / 5 * max m 0 * r ^ 2, 2 / 5 * max m 0 * r ^ 2] ∧
    (TankShape.cyl r h).inertia m = ![max m 0 * (3 * r ^ 2 + h ^ 2) / 12, max m 0 * (3 * r ^ 2 + h ^ 2) / 12,
      max m 0 * r ^ 2 / 2] ∧
    (TankShape.sph r).volume = 4 / 3 * Real.pi * r ^ 3 ∧ (TankShape.cyl r h).volume = Real.pi * r ^ 2 * h := by
  have e1 : |r| * |r| = r ^ 2 := by rw [abs_mul_abs_self, sq]
  have e2 : |h| * |h| = h ^ 2 := by rw [abs_mul_abs_self, sq]
  refine ⟨?_, ?_, ?_, ?_⟩
  · funext i
    fin_cases i <;> simp [TankShape.inertia, sphere, sphereOf] <;> rw [mul_assoc _ |r|, e1] <;> norm_num
  · funext i
    fin_cases i <;> simp [TankShape.inertia, cylinder, cylinderOf, e1, e2] <;> ring
  · simp only [TankShape.volume, sphere, sphereOf]; ring
  · simp only [TankShape.volume, cylinder, cylinderOf]; ring

theorem inertia_nonneg (s : TankShape) (m : ℝ) (i : Fin 3) : 0 ≤ s.inertia m i := by
  have := le_max_right m 0
  cases s with
  | cyl r h =>
    rw [(C55_tank r h m).2.1]
    generalize max m 0 = k at *
    fin_cases i <;> simp <;> positivity
  | sph r =>
    rw [(C55_tank r 0 m).1]
    generalize max m 0 = k at *
    fin_cases i <;> simp <;> positivity

theorem mass_fold (l : List Tank) (a : ℝ) :
    l.foldl (fun total t => total + max t.mass 0) a = a + (l.map fun t => max t.mass 0).sum := by
  induction l generalizing a with
  | nil => simp
  | cons t l ih => rw [List.foldl_cons, ih, List.map_cons, List.sum_cons, add_assoc]

theorem inertia_fold (l : List Tank) (a : Fin 3 → ℝ) (i : Fin 3) :
    l.foldl (fun p t => let i := t.shape.inertia (max t.mass 0); ![p 0 + i 0, p 1 + i 1, p 2 + i 2]) a i
      = a i + (l.map fun t => t.shape.inertia t.mass i).sum := by
  induction l generalizing a with
  | nil => simp
  | cons t l ih =>
    rw [List.foldl_cons, ih, List.map_cons, List.sum_cons, ← add_assoc]
    congr 1
    have : t.shape.inertia (max t.mass 0) = t.shape.inertia t.mass := by
      unfold TankShape.inertia
      dsimp only
      rw [max_eq_left (le_max_right t.mass 0)]
    fin_cases i <;> simp [this]

/-- C55. The aggregate mass and principal inertias of any list of tanks are the sums over the tanks, a negative mass counting as zero. They
are never negative, add up when lists are joined, and do not depend on the order of the tanks. -/
theorem C55_aggregate (l : List Tank) :
    aggregateMass l = (l.map fun t => max t.mass 0).sum ∧
    (∀ i, aggregateInertia l i = (l.map fun t => t.shape.inertia t.mass i).sum) ∧
    0 ≤ aggregateMass l ∧ (∀ i, 0 ≤ aggregateInertia l i) ∧
    (∀ k, aggregateMass (l ++ k) = aggregateMass l + aggregateMass k ∧
      ∀ i, aggregateInertia (l ++ k) i = aggregateInertia l i + aggregateInertia k i) ∧
    ∀ k, l.Perm k → aggregateMass l = aggregateMass k ∧ aggregateInertia l = aggregateInertia k := by
  have hm : ∀ l, aggregateMass l = (l.map fun t : Tank => max t.mass 0).sum := fun l => by
    unfold aggregateMass; rw [mass_fold, zero_add]
  have hi : ∀ l i, aggregateInertia l i = (l.map fun t : Tank => t.shape.inertia t.mass i).sum := fun l i => by
    unfold aggregateInertia; rw [inertia_fold, zero_add]
  refine ⟨hm l, hi l, ?_, ?_, ?_, ?_⟩
  · rw [hm]
    exact List.sum_nonneg fun x hx => by
      obtain ⟨t, _, rfl⟩ := List.mem_map.mp hx
      exact le_max_right _ _
  · intro i
    rw [hi]
    exact List.sum_nonneg fun x hx => by
      obtain ⟨t, _, rfl⟩ := List.mem_map.mp hx
      exact inertia_nonneg _ _ _
  · intro k
    simp only [hm, hi, List.map_append, List.sum_append]
    simp
  · intro k hk
    refine ⟨?_, ?_⟩
    · rw [hm, hm]; exact (hk.map _).sum_eq
    · funext i
      rw [hi, hi]; exact (hk.map _).sum_eq

example : (TankSpec.mk (.sph (-1)) 5 2).limits.geometric = 0 := by
  have : (TankShape.sph (-1)).volume ≤ 0 := by
    rw [(C55_tank (-1) 0 0).2.2.1]; nlinarith [Real.pi_pos]
  simp only [TankSpec.limits]
  exact max_eq_right this

end Verif.Shapes
