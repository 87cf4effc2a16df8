import Verif.Geom.PropsUnit

/-! # C124: rotating a vector in rounded arithmetic -/

namespace Verif.Geom

open Verif.Simd (Fl Accurate)
open Verif.Round
open Verif.Att (Quat)

variable {fl : ℝ → ℝ} {u : ℝ}

/-- The four components of a unit quaternion sum to at most two. -/
theorem sum_abs_le_two {q : Quat ℝ} (hq : qlen q = 1) : |q.w| + |q.i| + |q.j| + |q.k| ≤ 2 := by
  have := cauchy4 q ⟨1, 1, 1, 1⟩
  have e : qlen ⟨1, 1, 1, 1⟩ = 2 := by
    unfold qlen
    rw [show (1 : ℝ) ^ 2 + 1 ^ 2 + 1 ^ 2 + 1 ^ 2 = 2 ^ 2 by norm_num, Real.sqrt_sq (by norm_num)]
  rw [hq, e] at this
  simpa using this

theorem len3 (a b c : ℝ) : len ![a, b, c] = √(a ^ 2 + b ^ 2 + c ^ 2) := by
  unfold len
  rw [Fin.sum_univ_three]
  rfl

/-- A product of a quaternion and a vector, in rounded arithmetic. -/
theorem sandwich_near (h : Accurate fl u) (hu : u < 1) {c : Quat (Fl fl)} {n : Quat ℝ} (hn : qlen n = 1)
    (cw : Near u 5 |n.w| c.w.val n.w) (ci : Near u 5 |n.i| c.i.val n.i) (cj : Near u 5 |n.j| c.j.val n.j)
    (ck : Near u 5 |n.k| c.k.val n.k) (v : Fin 3 → Fl fl) (i : Fin 3) :
    |(c.sandwich v i).val - n.sandwich (valV v) i| ≤ growth u 17 * (2 * len (valV v)) := by
  set L := len (valV v) with hL
  have hlen : L ^ 2 = (v 0).val ^ 2 + (v 1).val ^ 2 + (v 2).val ^ 2 := by
    rw [hL, len_sq, Fin.sum_univ_three]
    rfl
  have hL0 : 0 ≤ L := len_nonneg _
  have bound : ∀ a b c d : ℝ, a ^ 2 + b ^ 2 + c ^ 2 + d ^ 2 = L ^ 2 →
      |n.w| * |a| + |n.i| * |b| + |n.j| * |c| + |n.k| * |d| ≤ L := by
    intro a b c d hs
    have := cauchy4 n ⟨a, b, c, d⟩
    rw [hn, one_mul] at this
    refine this.trans ?_
    unfold qlen
    rw [hs, Real.sqrt_sq hL0]
  have r : ∀ k, Near u 0 |(v k).val| (v k).val (v k).val := fun k => Near.refl _
  have m : ∀ {a : Fl fl} {x : ℝ} (k : Fin 3), Near u 5 |x| a.val x →
      Near u 6 (|x| * |(v k).val|) (a * v k).val (x * (v k).val) := fun k ha => ha.rmul h hu (r k)
  have ci' : Near u 5 |-n.i| (-c.i).val (-n.i) := by rw [abs_neg]; exact ci.neg
  have cj' : Near u 5 |-n.j| (-c.j).val (-n.j) := by rw [abs_neg]; exact cj.neg
  have ck' : Near u 5 |-n.k| (-c.k).val (-n.k) := by rw [abs_neg]; exact ck.neg
  -- the first product
  have aw := ((((m 0 ci').radd h hu (m 1 cj') le_rfl).radd h hu (m 2 ck') (by norm_num)).neg).mono h hu (le_refl 8)
    (show _ ≤ L by
      have := bound 0 (v 0).val (v 1).val (v 2).val (by rw [hlen]; ring)
      rw [abs_neg, abs_neg, abs_neg]
      simpa using this)
  have ax := (((m 0 cw).radd h hu (m 2 cj') le_rfl).rsub h hu (m 1 ck') (by norm_num)).mono h hu (le_refl 8)
    (show _ ≤ L by
      have := bound (v 0).val 0 (v 2).val (v 1).val (by rw [hlen]; ring)
      rw [abs_neg, abs_neg]
      simpa using this)
  have ay := (((m 1 cw).radd h hu (m 0 ck') le_rfl).rsub h hu (m 2 ci') (by norm_num)).mono h hu (le_refl 8)
    (show _ ≤ L by
      have := bound (v 1).val (v 2).val 0 (v 0).val (by rw [hlen]; ring)
      rw [abs_neg, abs_neg]
      rw [abs_zero, mul_zero, add_zero] at this
      linarith)
  have az := (((m 2 cw).radd h hu (m 1 ci') le_rfl).rsub h hu (m 0 cj') (by norm_num)).mono h hu (le_refl 8)
    (show _ ≤ L by
      have := bound (v 2).val (v 1).val (v 0).val 0 (by rw [hlen]; ring)
      rw [abs_neg, abs_neg]
      simpa using this)
  -- the second product
  have g := growth_nonneg h hu 17
  have two := sum_abs_le_two hn
  have hsum : ∀ a b c d : ℝ, a + b + c + d ≤ 2 → L * a + L * b + L * c + L * d ≤ 2 * L := by
    intro a b c d hs
    nlinarith
  fin_cases i
  · refine ((((aw.rmul h hu ci).radd h hu (ax.rmul h hu cw) le_rfl).radd h hu (ay.rmul h hu ck) (by norm_num)).rsub h hu
      (az.rmul h hu cj) (by norm_num)).2.trans (mul_le_mul_of_nonneg_left (hsum _ _ _ _ (by linarith)) g)
  · refine ((((aw.rmul h hu cj).rsub h hu (ax.rmul h hu ck) le_rfl).radd h hu (ay.rmul h hu cw) (by norm_num)).radd h hu
      (az.rmul h hu ci) (by norm_num)).2.trans (mul_le_mul_of_nonneg_left (hsum _ _ _ _ (by linarith)) g)
  · refine ((((aw.rmul h hu ck).radd h hu (ax.rmul h hu cj) le_rfl).rsub h hu (ay.rmul h hu ci) (by norm_num)).radd h hu
      (az.rmul h hu cw) (by norm_num)).2.trans (mul_le_mul_of_nonneg_left (hsum _ _ _ _ (by linarith)) g)

/-- **C124**: rotating a vector by a quaternion in rounded arithmetic gives the exact rotation up to seventeen roundings
of four times the length of the vector. -/
theorem C124_rotate (h : Accurate fl u) (hu : u < 1) {f : Fns (Fl fl)} (hf : f.sqrt = rsqrt) (q : Quat (Fl fl))
    (hq : qval q ≠ ⟨0, 0, 0, 0⟩) (v : Fin 3 → Fl fl) :
    dist (valV (rotate f q v)) ((qval q).rotate (valV v)) ≤ 4 * growth u 17 * len (valV v) := by
  obtain ⟨r1, r2, r3, r4⟩ := normalized_rel h hu hf q
  have hn := normalized_qlen hq
  have key := sandwich_near h hu (c := normalized f q) (n := (qval q).normalized) hn
    (by unfold Quat.normalized; rw [qlen_norm]; exact r1.near h hu)
    (by unfold Quat.normalized; rw [qlen_norm]; exact r2.near h hu)
    (by unfold Quat.normalized; rw [qlen_norm]; exact r3.near h hu)
    (by unfold Quat.normalized; rw [qlen_norm]; exact r4.near h hu) v
  have g := growth_nonneg h hu 17
  have hL := len_nonneg (valV v)
  unfold dist len
  refine Real.sqrt_le_iff.2 ⟨by positivity, ?_⟩
  have s : ∀ i, (valV (rotate f q v) i - (qval q).rotate (valV v) i) ^ 2 ≤ (growth u 17 * (2 * len (valV v))) ^ 2 := by
    intro i
    rw [← sq_abs]
    exact pow_le_pow_left₀ (abs_nonneg _) (key i) 2
  rw [Fin.sum_univ_three]
  have := s 0
  have := s 1
  have := s 2
  have := sq_nonneg (growth u 17 * len (valV v))
  change _ ≤ (4 * growth u 17 * len (valV v)) ^ 2
  nlinarith

/-- **C124**: the length of the vector is kept up to as much. -/
theorem C124_length (h : Accurate fl u) (hu : u < 1) {f : Fns (Fl fl)} (hf : f.sqrt = rsqrt) (q : Quat (Fl fl))
    (hq : qval q ≠ ⟨0, 0, 0, 0⟩) (v : Fin 3 → Fl fl) :
    |len (valV (rotate f q v)) - len (valV v)| ≤ 4 * growth u 17 * len (valV v) := by
  have h1 := C124_rotate h hu hf q hq v
  have h2 := len_sub_le (valV (rotate f q v)) ((qval q).rotate (valV v))
  have h3 : len ((qval q).rotate (valV v)) = len (valV v) := by
    have hn := qlen_sq (qval q).normalized
    rw [normalized_qlen hq, one_pow] at hn
    unfold len Quat.rotate
    congr 1
    rw [Fin.sum_univ_three, Fin.sum_univ_three]
    generalize (qval q).normalized = m at hn
    generalize hx : valV v 0 = x
    generalize hy : valV v 1 = y
    generalize hz : valV v 2 = z
    simp only [Quat.sandwich, Quat.conj, hx, hy, hz, Matrix.cons_val]
    linear_combination (-(x ^ 2 + y ^ 2 + z ^ 2) * (1 + m.w ^ 2 + m.i ^ 2 + m.j ^ 2 + m.k ^ 2)) * hn
  rw [h3] at h2
  exact h2.trans h1

/-- A case that meets the hypotheses: rounding that always overshoots by a thousandth. -/
example : ∃ (fl : ℝ → ℝ) (u : ℝ) (f : Fns (Fl fl)) (q : Quat (Fl fl)), fl ≠ id ∧ Accurate fl u ∧ u < 1 ∧
    f.sqrt = rsqrt ∧ qval q ≠ ⟨0, 0, 0, 0⟩ := by
  refine ⟨fun x => x * (1 + 1 / 1000), 1 / 1000, ⟨rsqrt, id, id, ⟨1 / 2⟩⟩, ⟨⟨1⟩, ⟨2⟩, ⟨0⟩, ⟨0⟩⟩, ?_, ?_, by norm_num, rfl, ?_⟩
  · intro hc
    have := congrFun hc 1
    norm_num at this
  · intro x
    show |x * (1 + 1 / 1000) - x| ≤ 1 / 1000 * |x|
    rw [show x * (1 + 1 / 1000) - x = 1 / 1000 * x by ring, abs_mul]
    norm_num
  · intro hc
    have := congrArg Quat.w hc
    simp [qval] at this

end Verif.Geom
