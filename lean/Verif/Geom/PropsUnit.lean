import Verif.Geom.Lemmas

/-! # C123: unit vectors and unit quaternions in rounded arithmetic -/

namespace Verif.Geom

open Verif.Simd (Fl Accurate)
open Verif.Round
open Verif.Att (Quat)

variable {fl : ℝ → ℝ} {u : ℝ} {n : Nat}

/-- The components of a computed unit vector. -/
theorem normalize_rel (h : Accurate fl u) (hu : u < 1) {f : Fns (Fl fl)} (hf : f.sqrt = rsqrt) (v : Fin n → Fl fl)
    (i : Fin n) : Rel u ((n + 2) / 2 + 2) (normalize f v i).val ((v i).val / len (valV v)) := by
  unfold normalize vdiv
  rw [hf, val_div]
  have := ((Rel.refl (u := u) (v i).val).div hu (norm_rel h hu v)).round h hu
  rwa [show 0 + ((n + 2) / 2 + 1) + 1 = (n + 2) / 2 + 2 by omega] at this

/-- The components of a computed unit quaternion. -/
theorem normalized_rel (h : Accurate fl u) (hu : u < 1) {f : Fns (Fl fl)} (hf : f.sqrt = rsqrt) (q : Quat (Fl fl)) :
    Rel u 5 (normalized f q).w.val (q.w.val / qlen (qval q)) ∧ Rel u 5 (normalized f q).i.val (q.i.val / qlen (qval q)) ∧
    Rel u 5 (normalized f q).j.val (q.j.val / qlen (qval q)) ∧ Rel u 5 (normalized f q).k.val (q.k.val / qlen (qval q)) := by
  unfold normalized
  rw [hf]
  have := qnorm_rel h hu q
  refine ⟨?_, ?_, ?_, ?_⟩ <;> exact ((Rel.refl (u := u) _).div hu this).round h hu

/-- **C123**: normalising a vector gives every component with a small relative error, of half as many roundings as there
are components and a few more. -/
theorem C123_components (h : Accurate fl u) (hu : u < 1) {f : Fns (Fl fl)} (hf : f.sqrt = rsqrt) (v : Fin n → Fl fl)
    (i : Fin n) : |(normalize f v i).val - (v i).val / len (valV v)| ≤
      growth u ((n + 2) / 2 + 2) * |(v i).val / len (valV v)| :=
  ((normalize_rel h hu hf v i).near h hu).2

/-- **C123**: a normalised vector has unit length up to rounding. -/
theorem C123_vector (h : Accurate fl u) (hu : u < 1) {f : Fns (Fl fl)} (hf : f.sqrt = rsqrt) (v : Fin n → Fl fl)
    (hv : valV v ≠ 0) : |len (valV (normalize f v)) - 1| ≤ growth u ((n + 2) / 2 + 2) := by
  have hpos : 0 < len (valV v) := by
    refine Real.sqrt_pos.2 ?_
    obtain ⟨i, hi⟩ := Function.ne_iff.1 hv
    exact lt_of_lt_of_le (pow_pos (abs_pos.2 hi) 2 |>.trans_eq (sq_abs _))
      (Finset.single_le_sum (f := fun i => valV v i ^ 2) (fun _ _ => sq_nonneg _) (Finset.mem_univ i))
  have h1 : len (fun i => (v i).val / len (valV v)) = 1 := by
    have e : ∀ i, ((v i).val / len (valV v)) ^ 2 = valV v i ^ 2 / len (valV v) ^ 2 := fun i => div_pow _ _ 2
    rw [len, Finset.sum_congr rfl fun i _ => e i, ← Finset.sum_div, ← len_sq, div_self (by positivity), Real.sqrt_one]
  have h2 : dist (valV (normalize f v)) (fun i => (v i).val / len (valV v)) ≤
      growth u ((n + 2) / 2 + 2) * len fun i => (v i).val / len (valV v) :=
    len_le (growth_nonneg h hu _) fun i => C123_components h hu hf v i
  have h3 := len_sub_le (valV (normalize f v)) (fun i => (v i).val / len (valV v))
  rw [h1, mul_one] at h2
  rw [h1] at h3
  exact h3.trans h2

/-- **C123**: a normalised quaternion is close to the exact one, and has unit length up to five roundings. -/
theorem C123_quaternion (h : Accurate fl u) (hu : u < 1) {f : Fns (Fl fl)} (hf : f.sqrt = rsqrt) (q : Quat (Fl fl))
    (hq : qval q ≠ ⟨0, 0, 0, 0⟩) :
    qdist (qval (normalized f q)) (qval q).normalized ≤ growth u 5 ∧ |qlen (qval (normalized f q)) - 1| ≤ growth u 5 := by
  have h1 : qlen (qval q).normalized = 1 := normalized_qlen hq
  obtain ⟨r1, r2, r3, r4⟩ := normalized_rel h hu hf q
  have h2 : qdist (qval (normalized f q)) (qval q).normalized ≤ growth u 5 * 1 := by
    rw [← h1, qdist_eq, qlen_eq]
    refine len_le (growth_nonneg h hu _) fun i => ?_
    unfold Quat.normalized
    rw [qlen_norm]
    fin_cases i
    · exact (r1.near h hu).2
    · exact (r2.near h hu).2
    · exact (r3.near h hu).2
    · exact (r4.near h hu).2
  rw [mul_one] at h2
  have h3 := qlen_sub_le (qval (normalized f q)) (qval q).normalized
  rw [h1] at h3
  exact ⟨h2, h3.trans h2⟩

/-- A case that meets the hypotheses: rounding that always overshoots by a thousandth. -/
example : ∃ (fl : ℝ → ℝ) (u : ℝ) (f : Fns (Fl fl)) (v : Fin 3 → Fl fl) (q : Quat (Fl fl)), fl ≠ id ∧ Accurate fl u ∧ u < 1 ∧
    f.sqrt = rsqrt ∧ valV v ≠ 0 ∧ qval q ≠ ⟨0, 0, 0, 0⟩ := by
  refine ⟨fun x => x * (1 + 1 / 1000), 1 / 1000, ⟨rsqrt, id, id, ⟨1 / 2⟩⟩, fun _ => ⟨1⟩, ⟨⟨1⟩, ⟨2⟩, ⟨0⟩, ⟨0⟩⟩, ?_, ?_,
    by norm_num, rfl, ?_, ?_⟩
  · intro hc
    have := congrFun hc 1
    norm_num at this
  · intro x
    show |x * (1 + 1 / 1000) - x| ≤ 1 / 1000 * |x|
    rw [show x * (1 + 1 / 1000) - x = 1 / 1000 * x by ring, abs_mul]
    norm_num
  · intro hc
    have := congrFun hc 0
    simp [valV] at this
  · intro hc
    have := congrArg Quat.w hc
    simp [qval] at this

end Verif.Geom
