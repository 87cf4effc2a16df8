import Verif.Geom.PropsUnit

/-! # C125: rotation matrices in rounded arithmetic -/

namespace Verif.Geom

open Verif.Simd (Fl Accurate)
open Verif.Round
open Verif.Att (Quat)

variable {fl : ℝ → ℝ} {u : ℝ}

/-- The entries of the matrix of a quaternion whose components are known up to five roundings. -/
theorem dcmActive_near (h : Accurate fl u) (hu : u < 1) {c : Quat (Fl fl)} {n : Quat ℝ} (hn : qlen n = 1)
    (cw : Near u 5 |n.w| c.w.val n.w) (ci : Near u 5 |n.i| c.i.val n.i) (cj : Near u 5 |n.j| c.j.val n.j)
    (ck : Near u 5 |n.k| c.k.val n.k) (i j : Fin 3) : |(c.dcmActive i j).val - n.dcmActive i j| ≤ growth u 14 := by
  have hs := qlen_sq n
  rw [hn, one_pow] at hs
  have a : ∀ x : ℝ, x ^ 2 = |x| ^ 2 := fun x => (sq_abs x).symm
  rw [a n.w, a n.i, a n.j, a n.k] at hs
  have m : ∀ {p q : Fl fl} {x y : ℝ}, Near u 5 |x| p.val x → Near u 5 |y| q.val y →
      Near u 11 (|x| * |y|) (p * q).val (x * y) := fun hp hq => hp.rmul h hu hq
  have two : Near u 1 2 (1 + 1 : Fl fl).val (1 + 1) := by
    have := (Near.refl (u := u) 1).radd h hu (Near.refl 1) le_rfl
    exact this.mono h hu le_rfl (by rw [abs_one]; norm_num)
  have g := growth_nonneg h hu 14
  have fin : ∀ {A p x : ℝ}, Near u 14 A p x → A ≤ 1 → |p - x| ≤ growth u 14 := by
    intro A p x hp hA
    refine hp.2.trans ?_
    nlinarith
  have sq1 := sq_nonneg (|n.w| - |n.k|)
  have sq2 := sq_nonneg (|n.i| - |n.j|)
  have sq3 := sq_nonneg (|n.w| - |n.j|)
  have sq4 := sq_nonneg (|n.i| - |n.k|)
  have sq5 := sq_nonneg (|n.w| - |n.i|)
  have sq6 := sq_nonneg (|n.j| - |n.k|)
  fin_cases i <;> fin_cases j
  · exact fin ((((m cw cw).radd h hu (m ci ci) le_rfl).rsub h hu (m cj cj) (by norm_num)).rsub h hu (m ck ck)
      (by norm_num)) (by nlinarith)
  · exact fin (two.rmul h hu ((m ci cj).rsub h hu (m cw ck) le_rfl)) (by nlinarith)
  · exact fin (two.rmul h hu ((m ci ck).radd h hu (m cw cj) le_rfl)) (by nlinarith)
  · exact fin (two.rmul h hu ((m ci cj).radd h hu (m cw ck) le_rfl)) (by nlinarith)
  · exact fin ((((m cw cw).rsub h hu (m ci ci) le_rfl).radd h hu (m cj cj) (by norm_num)).rsub h hu (m ck ck)
      (by norm_num)) (by nlinarith)
  · exact fin (two.rmul h hu ((m cj ck).rsub h hu (m cw ci) le_rfl)) (by nlinarith)
  · exact fin (two.rmul h hu ((m ci ck).rsub h hu (m cw cj) le_rfl)) (by nlinarith)
  · exact fin (two.rmul h hu ((m cj ck).radd h hu (m cw ci) le_rfl)) (by nlinarith)
  · exact fin ((((m cw cw).rsub h hu (m ci ci) le_rfl).rsub h hu (m cj cj) (by norm_num)).radd h hu (m ck ck)
      (by norm_num)) (by nlinarith)

/-- **C125**: the computed matrix of a quaternion is the exact one up to fourteen roundings of one in every entry. -/
theorem C125_entries (h : Accurate fl u) (hu : u < 1) {f : Fns (Fl fl)} (hf : f.sqrt = rsqrt) (q : Quat (Fl fl))
    (hq : qval q ≠ ⟨0, 0, 0, 0⟩) (i j : Fin 3) : |(toDcm f q i j).val - (qval q).toDcm i j| ≤ growth u 14 := by
  obtain ⟨r1, r2, r3, r4⟩ := normalized_rel h hu hf q
  refine dcmActive_near h hu (c := normalized f q) (n := (qval q).normalized) (normalized_qlen hq) ?_ ?_ ?_ ?_ i j <;>
    unfold Quat.normalized <;> rw [qlen_norm]
  · exact r1.near h hu
  · exact r2.near h hu
  · exact r3.near h hu
  · exact r4.near h hu

/-- The rows of the exact matrix are orthonormal. -/
theorem rows_exact {n : Quat ℝ} (hn : n.w ^ 2 + n.i ^ 2 + n.j ^ 2 + n.k ^ 2 = 1) (i j : Fin 3) :
    ∑ k, n.dcmActive i k * n.dcmActive j k = if i = j then 1 else 0 := by
  rw [Fin.sum_univ_three]
  fin_cases i <;> fin_cases j <;> simp [Quat.dcmActive] <;>
    first | ring1 | linear_combination (n.w ^ 2 + n.i ^ 2 + n.j ^ 2 + n.k ^ 2 + 1) * hn

theorem perturbed {x y a b e : ℝ} (hx : |x - a| ≤ e) (hy : |y - b| ≤ e) :
    |x * y - a * b| ≤ e * |a| + e * |b| + e * e := by
  have he := (abs_nonneg _).trans hx
  have t : x * y - a * b = a * (y - b) + (x - a) * b + (x - a) * (y - b) := by ring
  rw [t]
  refine (abs_add_le _ _).trans (add_le_add ((abs_add_le _ _).trans (add_le_add ?_ ?_)) ?_)
  · rw [abs_mul, mul_comm]; exact mul_le_mul_of_nonneg_right hy (abs_nonneg _)
  · rw [abs_mul]; exact mul_le_mul_of_nonneg_right hx (abs_nonneg _)
  · rw [abs_mul]; exact mul_le_mul hx hy (abs_nonneg _) he

theorem row_sum_le {a b c : ℝ} (h : a * a + b * b + c * c = 1) : |a| + |b| + |c| ≤ 2 := by
  have h' : |a| ^ 2 + |b| ^ 2 + |c| ^ 2 = 1 := by rw [sq_abs, sq_abs, sq_abs]; linarith
  nlinarith [sq_nonneg (|a| - |b|), sq_nonneg (|a| - |c|), sq_nonneg (|b| - |c|), abs_nonneg a, abs_nonneg b, abs_nonneg c]

/-- **C125**: the computed matrix is orthogonal up to rounding. -/
theorem C125_orthogonal (h : Accurate fl u) (hu : u < 1) {f : Fns (Fl fl)} (hf : f.sqrt = rsqrt) (q : Quat (Fl fl))
    (hq : qval q ≠ ⟨0, 0, 0, 0⟩) (i j : Fin 3) :
    |(∑ k, (toDcm f q i k).val * (toDcm f q j k).val) - if i = j then 1 else 0| ≤
      4 * growth u 14 + 3 * growth u 14 ^ 2 := by
  have e := C125_entries h hu hf q hq
  have hn := qlen_sq (qval q).normalized
  rw [normalized_qlen hq, one_pow] at hn
  have ex := rows_exact hn.symm
  have di := ex i i
  have dj := ex j j
  rw [if_pos rfl, Fin.sum_univ_three] at di dj
  have si := row_sum_le di
  have sj := row_sum_le dj
  have g := growth_nonneg h hu 14
  have p : ∀ k, |(toDcm f q i k).val * (toDcm f q j k).val - (qval q).toDcm i k * (qval q).toDcm j k| ≤
      growth u 14 * |(qval q).toDcm i k| + growth u 14 * |(qval q).toDcm j k| + growth u 14 * growth u 14 :=
    fun k => perturbed (e i k) (e j k)
  rw [← ex i j, ← Finset.sum_sub_distrib]
  refine (Finset.abs_sum_le_sum_abs _ _).trans ((Finset.sum_le_sum fun k _ => p k).trans ?_)
  rw [Fin.sum_univ_three]
  unfold Quat.toDcm
  nlinarith

/-- A case that meets the hypotheses: rounding that always overshoots by a thousandth. -/
example : ∃ (fl : ℝ → ℝ) (u : ℝ) (f : Fns (Fl fl)) (q : Quat (Fl fl)), fl ≠ id ∧ Accurate fl u ∧ u < 1 ∧
    f.sqrt = rsqrt ∧ qval q ≠ ⟨0, 0, 0, 0⟩ := by
  refine ⟨fun x => x * (1 + 1 / 1000), 1 / 1000, ⟨rsqrt, id, id, ⟨1 / 2⟩⟩, ⟨⟨1⟩, ⟨2⟩, ⟨0⟩, ⟨0⟩⟩, ?_, ?_, by norm_num, rfl, ?_⟩
  · intro hc
    have := congrFun hc 1
    norm_num at this
  · intro x
    show |x * (1 + 1 / 1000) - x| ≤ 1 / 1000 * |x|
    rw [show x * (1 + 1 / 1000) - x = 1 / 1000 * x by ring, abs_mul]
    norm_num
  · intro hc
    have := congrArg Quat.w hc
    simp [qval] at this

end Verif.Geom
