import Verif.Geom.Calculus
import Verif.Geom.Model
import Verif.Num.Loops
import Mathlib.Analysis.InnerProductSpace.PiL2

/-! # Lemmas: lengths and normalisation in rounded arithmetic -/

namespace Verif.Geom

open Verif.Simd (Fl Accurate)
open Verif.Round
open Verif.Att (Quat)

variable {fl : ℝ → ℝ} {u : ℝ} {n : Nat}

/-! ## Lengths -/

section Lengths

theorem len_eq_norm (v : Fin n → ℝ) : len v = ‖(WithLp.toLp 2 v : EuclideanSpace ℝ (Fin n))‖ := by
  rw [EuclideanSpace.norm_eq]
  unfold len
  congr 1
  exact Finset.sum_congr rfl fun i _ => by simp

theorem len_nonneg (v : Fin n → ℝ) : 0 ≤ len v := Real.sqrt_nonneg _

theorem len_add_le (v w : Fin n → ℝ) : len (fun i => v i + w i) ≤ len v + len w := by
  rw [len_eq_norm, len_eq_norm, len_eq_norm]
  exact norm_add_le (WithLp.toLp 2 v : EuclideanSpace ℝ (Fin n)) (WithLp.toLp 2 w)

theorem len_sq (v : Fin n → ℝ) : len v ^ 2 = ∑ i, v i ^ 2 :=
  Real.sq_sqrt (Finset.sum_nonneg fun _ _ => sq_nonneg _)

theorem abs_le_len (v : Fin n → ℝ) (i : Fin n) : |v i| ≤ len v := by
  rw [← Real.sqrt_sq_eq_abs]
  exact Real.sqrt_le_sqrt (Finset.single_le_sum (f := fun i => v i ^ 2) (fun _ _ => sq_nonneg _) (Finset.mem_univ i))

/-- A bound for every entry bounds the length. -/
theorem len_le {v w : Fin n → ℝ} {c : ℝ} (hc : 0 ≤ c) (h : ∀ i, |v i| ≤ c * |w i|) : len v ≤ c * len w := by
  unfold len
  refine Real.sqrt_le_iff.2 ⟨mul_nonneg hc (Real.sqrt_nonneg _), ?_⟩
  rw [mul_pow, Real.sq_sqrt (Finset.sum_nonneg fun _ _ => sq_nonneg _), Finset.mul_sum]
  refine Finset.sum_le_sum fun i _ => ?_
  have := pow_le_pow_left₀ (abs_nonneg _) (h i) 2
  rwa [mul_pow, sq_abs, sq_abs] at this

theorem len_sub_le (v w : Fin n → ℝ) : |len v - len w| ≤ dist v w := by
  unfold dist
  have h1 := len_add_le (fun i => v i - w i) w
  have h2 := len_add_le (fun i => w i - v i) v
  have e1 : (fun i => (v i - w i) + w i) = v := funext fun i => by ring
  have e2 : (fun i => (w i - v i) + v i) = w := funext fun i => by ring
  have e3 : len (fun i => w i - v i) = len fun i => v i - w i := by
    unfold len
    congr 1
    exact Finset.sum_congr rfl fun i _ => by ring
  rw [e1] at h1
  rw [e2, e3] at h2
  exact abs_le.2 ⟨by linarith, by linarith⟩

/-- A quaternion as a vector. -/
def vec (q : Quat ℝ) : Fin 4 → ℝ := ![q.w, q.i, q.j, q.k]

theorem qlen_eq (q : Quat ℝ) : qlen q = len (vec q) := by
  unfold qlen len vec
  simp [Fin.sum_univ_four]

theorem qdist_eq (p q : Quat ℝ) : qdist p q = dist (vec p) (vec q) := by
  unfold qdist dist
  rw [qlen_eq]
  congr 1
  funext i
  fin_cases i <;> rfl

theorem qlen_nonneg (q : Quat ℝ) : 0 ≤ qlen q := Real.sqrt_nonneg _

theorem qlen_sq (q : Quat ℝ) : qlen q ^ 2 = q.w ^ 2 + q.i ^ 2 + q.j ^ 2 + q.k ^ 2 := Real.sq_sqrt (by positivity)

theorem qlen_mul (p q : Quat ℝ) : qlen (p.mul q) = qlen p * qlen q := by
  unfold qlen
  rw [← Real.sqrt_mul (by positivity)]
  congr 1
  simp only [Quat.mul]
  ring

theorem qdist_triangle (p q r : Quat ℝ) : qdist p r ≤ qdist p q + qdist q r := by
  rw [qdist_eq, qdist_eq, qdist_eq]
  have := len_add_le (fun i => vec p i - vec q i) (fun i => vec q i - vec r i)
  have e : (fun i => (vec p i - vec q i) + (vec q i - vec r i)) = fun i => vec p i - vec r i := funext fun i => by ring
  rwa [e] at this

theorem qlen_sub_le (p q : Quat ℝ) : |qlen p - qlen q| ≤ qdist p q := by
  rw [qlen_eq, qlen_eq, qdist_eq]
  exact len_sub_le _ _

/-- Cauchy-Schwarz for absolute values. -/
theorem cauchy4 (p q : Quat ℝ) : |p.w| * |q.w| + |p.i| * |q.i| + |p.j| * |q.j| + |p.k| * |q.k| ≤ qlen p * qlen q := by
  unfold qlen
  rw [← Real.sqrt_mul (by positivity)]
  refine Real.le_sqrt_of_sq_le ?_
  have s : ∀ x : ℝ, x ^ 2 = |x| ^ 2 := fun x => (sq_abs x).symm
  rw [s p.w, s p.i, s p.j, s p.k, s q.w, s q.i, s q.j, s q.k]
  generalize |p.w| = a, |p.i| = b, |p.j| = c, |p.k| = d, |q.w| = e, |q.i| = f, |q.j| = g, |q.k| = h
  nlinarith [sq_nonneg (a * f - b * e), sq_nonneg (a * g - c * e), sq_nonneg (a * h - d * e), sq_nonneg (b * g - c * f),
    sq_nonneg (b * h - d * f), sq_nonneg (c * h - d * g)]

/-- A bound for every component bounds the distance. -/
theorem qdist_le {p q : Quat ℝ} {c : ℝ} (hw : |p.w - q.w| ≤ c) (hi : |p.i - q.i| ≤ c) (hj : |p.j - q.j| ≤ c)
    (hk : |p.k - q.k| ≤ c) : qdist p q ≤ 2 * c := by
  unfold qdist qlen
  have hc := (abs_nonneg _).trans hw
  refine Real.sqrt_le_iff.2 ⟨by linarith, ?_⟩
  have s : ∀ {x : ℝ}, |x| ≤ c → x ^ 2 ≤ c ^ 2 := fun h => by
    rw [← sq_abs]; exact pow_le_pow_left₀ (abs_nonneg _) h 2
  nlinarith [s hw, s hi, s hj, s hk]

end Lengths

/-! ## Values of the operations -/

section Values

@[simp] theorem val_add (a b : Fl fl) : (a + b).val = fl (a.val + b.val) := rfl
@[simp] theorem val_sub (a b : Fl fl) : (a - b).val = fl (a.val - b.val) := rfl
@[simp] theorem val_mul (a b : Fl fl) : (a * b).val = fl (a.val * b.val) := rfl
@[simp] theorem val_div (a b : Fl fl) : (a / b).val = fl (a.val / b.val) := rfl
@[simp] theorem val_neg (a : Fl fl) : (-a).val = -a.val := rfl
@[simp] theorem val_zero : (0 : Fl fl).val = 0 := rfl
@[simp] theorem val_one : (1 : Fl fl).val = 1 := rfl

end Values

/-! ## The computed length -/

theorem sum_rel (h : Accurate fl u) (hu : u < 1) (v : Fin n → Fl fl) : ∀ (l : List (Fin n)) (acc : Fl fl) (k : Nat) (s : ℝ),
    0 ≤ s → Rel u (k + 1) acc.val s →
    Rel u (k + l.length + 1) (l.foldl (fun acc i => acc + v i * v i) acc).val (s + (l.map fun i => (v i).val ^ 2).sum)
  | [], acc, k, s, _, hr => by simpa using hr
  | i :: l, acc, k, s, hs, hr => by
    have hx : Rel u (k + 1) (v i * v i).val ((v i).val ^ 2) := by
      have := ((Rel.refl (u := u) (v i).val).mul hu (Rel.refl (v i).val)).round h hu
      rw [pow_two]
      exact this.mono h hu (show 0 + 0 + 1 ≤ k + 1 by omega)
    have := sum_rel h hu v l (acc + v i * v i) (k + 1) (s + (v i).val ^ 2) (add_nonneg hs (sq_nonneg _))
      ((hr.add hu hs (sq_nonneg _) hx).round h hu)
    rw [List.foldl_cons, List.map_cons, List.sum_cons, List.length_cons, ← add_assoc s,
      show k + (l.length + 1) + 1 = k + 1 + l.length + 1 by omega]
    exact this

/-- The computed squared length. -/
theorem dot_rel (h : Accurate fl u) (hu : u < 1) (v : Fin n → Fl fl) :
    Rel u (n + 1) (Mat.dot v v).val (∑ i, (v i).val ^ 2) := by
  unfold Mat.dot
  rw [rng_full]
  have := sum_rel h hu v (List.finRange n) 0 0 0 le_rfl ((Rel.refl 0).mono h hu (by omega))
  rw [List.length_finRange, zero_add, zero_add] at this
  rwa [← Fin.sum_univ_def] at this

/-- The computed length. -/
theorem norm_rel (h : Accurate fl u) (hu : u < 1) (v : Fin n → Fl fl) :
    Rel u ((n + 2) / 2 + 1) (Mat.norm rsqrt v).val (len (valV v)) := by
  have h1 := dot_rel h hu v
  have h2 : Rel u ((n + 2) / 2) (√(Mat.dot v v).val) (len (valV v)) := by
    refine Rel.sqrt hu (Finset.sum_nonneg fun _ _ => sq_nonneg _) (h1.mono h hu (by omega))
  exact h2.round h hu

/-- The computed length of a quaternion. -/
theorem qnorm_rel (h : Accurate fl u) (hu : u < 1) (q : Quat (Fl fl)) :
    Rel u 4 (rsqrt q.norm2).val (qlen (qval q)) := by
  have := norm_rel h hu ![q.w, q.i, q.j, q.k]
  have e : len (valV ![q.w, q.i, q.j, q.k]) = qlen (qval q) := by
    rw [qlen_eq]
    congr 1
    funext i
    fin_cases i <;> rfl
  rw [e] at this
  exact this

/-- The length of a quaternion, in terms of the model's own norm. -/
theorem qlen_norm (q : Quat ℝ) : q.norm = qlen q := by
  unfold Quat.norm Quat.norm2 qlen
  congr 1
  show 0 + q.w * q.w + q.i * q.i + q.j * q.j + q.k * q.k = _
  ring

theorem qlen_pos {q : Quat ℝ} (hq : q ≠ ⟨0, 0, 0, 0⟩) : 0 < qlen q := by
  refine Real.sqrt_pos.2 ?_
  by_contra hc
  have := sq_nonneg q.w
  have := sq_nonneg q.i
  have := sq_nonneg q.j
  have := sq_nonneg q.k
  refine hq ?_
  ext <;> refine pow_eq_zero_iff two_ne_zero |>.1 ?_ <;> linarith

theorem normalized_qlen {q : Quat ℝ} (hq : q ≠ ⟨0, 0, 0, 0⟩) : qlen q.normalized = 1 := by
  have hpos := qlen_pos hq
  unfold Quat.normalized
  rw [qlen_norm]
  unfold qlen
  rw [div_pow, div_pow, div_pow, div_pow, ← add_div, ← add_div, ← add_div, ← qlen_sq,
    Real.sqrt_sq hpos.le, div_self (by positivity), Real.sqrt_one]

end Verif.Geom
