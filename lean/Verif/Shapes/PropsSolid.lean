import Verif.Shapes.Uniform
import Verif.Shapes.Model
import Mathlib.LinearAlgebra.Matrix.Notation

/-!
# Volume and inertia of the solids (C54)
-/

namespace Verif.Shapes

open MeasureTheory

/-- The points of a sphere of radius `r` about the origin. -/
def sphereRegion (r : ℝ) : Set (Fin 3 → ℝ) := {x | x 0 ^ 2 + x 1 ^ 2 + x 2 ^ 2 ≤ r ^ 2}

/-- The points of a cylinder of radius `r` and height `h` along the third axis, centred at the origin. -/
def cylinderRegion (r h : ℝ) : Set (Fin 3 → ℝ) := {x | x 0 ^ 2 + x 1 ^ 2 ≤ r ^ 2 ∧ |x 2| ≤ h / 2}

/-- The points of a rectangular block with edges `a`, `b`, `c` along the axes, centred at the origin. -/
def prismRegion (a b c : ℝ) : Set (Fin 3 → ℝ) := {x | |x 0| ≤ a / 2 ∧ |x 1| ≤ b / 2 ∧ |x 2| ≤ c / 2}

/-- What it means for a shape to be right about its region: the volume is the region's, and filled with matter of any uniform density it
has that density times the volume as mass, its centre of mass at the origin, and the shape's principal moments about the axes. -/
def Solid.Right (s : Solid ℝ) (region : Set (Fin 3 → ℝ)) : Prop :=
  s.volume = MeasureTheory.volume.real region ∧
  ∀ ρ, 0 ≤ ρ → Body (uniform ρ region) (ρ * s.volume) 0 (Matrix.diagonal (s.inertia (ρ * s.volume)))

/-! ## Lemmas -/

theorem body_diag {μ m r} {d d' : Fin 3 → ℝ} (h : ∀ i, d i = d' i) (b : Body μ m r (Matrix.diagonal d')) :
    Body μ m r (Matrix.diagonal d) := by
  rw [funext h]; exact b

theorem seg_volume {d : ℝ} (hd : 0 ≤ d) : ∫ _ in Set.Icc (-(d / 2)) (d / 2), (1 : ℝ) = d := by
  rw [setIntegral_const, smul_eq_mul, mul_one, Real.volume_real_Icc_of_le (by linarith)]
  ring

theorem seg_sq {d : ℝ} (hd : 0 ≤ d) : ∫ y in Set.Icc (-(d / 2)) (d / 2), y ^ 2 = d ^ 3 / 12 := by
  rw [integral_Icc_eq_integral_Ioc, ← intervalIntegral.integral_of_le (by linarith), integral_pow]
  push_cast
  ring

theorem prism_pi (d : Fin 3 → ℝ) :
    prismRegion (d 0) (d 1) (d 2) = Set.univ.pi fun i => Set.Icc (-(d i / 2)) (d i / 2) := by
  ext x
  simp only [prismRegion, Set.mem_ofPred_eq, Set.mem_univ_pi, Set.mem_Icc, abs_le, Fin.forall_fin_succ, Fin.isValue]
  simp

theorem prism_int (d : Fin 3 → ℝ) (f : Fin 3 → ℝ → ℝ) :
    ∫ x in prismRegion (d 0) (d 1) (d 2), ∏ i, f i (x i) = ∏ i, ∫ y in Set.Icc (-(d i / 2)) (d i / 2), f i y := by
  rw [prism_pi, volume_pi, Measure.restrict_pi_pi, integral_fintype_prod_eq_prod]

theorem prism_bound (d : Fin 3 → ℝ) (x) (hx : x ∈ prismRegion (d 0) (d 1) (d 2)) (i : Fin 3) :
    |x i| ≤ |d 0| + |d 1| + |d 2| := by
  obtain ⟨h0, h1, h2⟩ := hx
  have := le_abs_self (d 0)
  have := le_abs_self (d 1)
  have := le_abs_self (d 2)
  have := abs_nonneg (d 0)
  have := abs_nonneg (d 1)
  have := abs_nonneg (d 2)
  fin_cases i <;> simp only [Fin.isValue, Fin.zero_eta, Fin.mk_one, Fin.reduceFinMk] <;> linarith

theorem prism_finite (d : Fin 3 → ℝ) : volume (prismRegion (d 0) (d 1) (d 2)) ≠ ⊤ := by
  rw [prism_pi, volume_pi_pi]
  exact ENNReal.prod_ne_top fun i _ => by simp

theorem prism_meas (d : Fin 3 → ℝ) : MeasurableSet (prismRegion (d 0) (d 1) (d 2)) := by
  rw [prism_pi]
  exact MeasurableSet.univ_pi fun i => measurableSet_Icc

theorem prism_reflect (a b c : ℝ) (i : Fin 3) (x) : reflect i x ∈ prismRegion a b c ↔ x ∈ prismRegion a b c := by
  have : ∀ k, |reflect i x k| = |x k| := by
    intro k; rw [reflect_apply]; split_ifs <;> simp
  simp [prismRegion, this]

theorem region_ball (r : ℝ) : sphereRegion r = ball 3 r := by
  ext x
  simp [sphereRegion, ball, Fin.sum_univ_three]

/-! ## C54 -/

/-- C54. Rectangular blocks. -/
theorem C54_prism (a b c : ℝ) (ha : 0 ≤ a) (hb : 0 ≤ b) (hc : 0 ≤ c) : (prism a b c).Right (prismRegion a b c) := by
  have h1 := prism_int ![a, b, c] fun _ _ => 1
  have h2 := fun i : Fin 3 => prism_int ![a, b, c] fun k y => if k = i then y ^ 2 else 1
  simp only [Matrix.cons_val_zero, Matrix.cons_val_one, Matrix.cons_val, Finset.prod_const_one, setIntegral_const, smul_eq_mul, mul_one,
    Finset.prod_ite_eq', Finset.mem_univ, if_true] at h1 h2
  have hv : (prism a b c).volume = volume.real (prismRegion a b c) := by
    rw [h1, Fin.prod_univ_three]
    have := fun d hd => (setIntegral_const (μ := volume) (s := Set.Icc (-(d / 2)) (d / 2)) (1 : ℝ)).symm.trans (seg_volume (d := d) hd)
    simp only [smul_eq_mul, mul_one] at this
    simp [this, ha, hb, hc, prism, prismOf]
  have hq : ∀ i, ∫ x in prismRegion a b c, x i ^ 2 = a * b * c * ![a ^ 2, b ^ 2, c ^ 2] i / 12 := by
    intro i
    have h := h2 i
    rw [h, Fin.prod_univ_three]
    fin_cases i <;> simp [seg_sq, ha, hb, hc] <;> ring
  refine ⟨hv, fun ρ hρ => ?_⟩
  have := uniform_body (prism_meas ![a, b, c]) _ (prism_bound ![a, b, c]) (prism_finite ![a, b, c])
    (fun i x => prism_reflect _ _ _ i x) hρ
  simp only [Matrix.cons_val_zero, Matrix.cons_val_one, Matrix.cons_val] at this
  rw [← hv] at this
  refine body_diag (fun i => ?_) this
  rw [Fin.sum_univ_three, hq, hq, hq, hq]
  fin_cases i <;> simp [prism, prismOf] <;> ring

/-- C54. Spheres. -/
theorem C54_sphere (r : ℝ) (hr : 0 ≤ r) : (sphere r).Right (sphereRegion r) := by
  rw [region_ball]
  have hv : (sphere r).volume = volume.real (ball 3 r) := by
    rw [ball_three hr, sphere, sphereOf]
    ring
  refine ⟨hv, fun ρ hρ => ?_⟩
  have := uniform_body (ball_meas 3 r) r (fun x hx i => ball_bound hr hx i) (ball_finite hr) (fun i x => ball_reflect r i x) hρ
  rw [← hv] at this
  refine body_diag (fun i => ?_) this
  rw [Fin.sum_univ_three, ball_sq hr, ball_sq hr, ball_sq hr, ball_sq hr, unit_three]
  fin_cases i <;> simp [sphere, sphereOf] <;> ring

/-- Splitting off the third coordinate. -/
noncomputable def split3 : (Fin 3 → ℝ) ≃ᵐ ℝ × (Fin 2 → ℝ) := MeasurableEquiv.piFinSuccAbove (fun _ => ℝ) 2

theorem split3_apply (x : Fin 3 → ℝ) : split3 x = (x 2, ![x 0, x 1]) := by
  refine Prod.ext rfl ?_
  funext j
  fin_cases j <;> rfl

theorem cyl_preimage {r h : ℝ} :
    cylinderRegion r h = split3 ⁻¹' (Set.Icc (-(h / 2)) (h / 2) ×ˢ ball 2 r) := by
  ext x
  simp only [Set.mem_preimage, split3_apply, Set.mem_prod, Set.mem_Icc, cylinderRegion, ball, Set.mem_ofPred_eq, Fin.sum_univ_two,
    abs_le, Matrix.cons_val_zero, Matrix.cons_val_one]
  tauto

theorem cyl_int {r h : ℝ} (f : ℝ → ℝ) (g : (Fin 2 → ℝ) → ℝ) :
    ∫ x in cylinderRegion r h, f (x 2) * g ![x 0, x 1]
      = (∫ y in Set.Icc (-(h / 2)) (h / 2), f y) * ∫ z in ball 2 r, g z := by
  rw [cyl_preimage]
  have := (volume_preserving_piFinSuccAbove (fun _ : Fin 3 => ℝ) 2).setIntegral_preimage_emb split3.measurableEmbedding
    (fun p : ℝ × (Fin 2 → ℝ) => f p.1 * g p.2) (Set.Icc (-(h / 2)) (h / 2) ×ˢ ball 2 r)
  rw [show (volume : Measure (ℝ × (Fin 2 → ℝ))) = volume.prod volume from rfl, setIntegral_prod_mul] at this
  rw [← this]
  refine setIntegral_congr_fun (split3.measurable ((measurableSet_Icc).prod (ball_meas 2 r))) fun x _ => ?_
  have e := split3_apply x
  unfold split3 at e
  simp only [e]

theorem cyl_meas (r h : ℝ) : MeasurableSet (cylinderRegion r h) := by
  rw [cyl_preimage]
  exact split3.measurable ((measurableSet_Icc).prod (ball_meas 2 r))

theorem cyl_bound {r h : ℝ} (hr : 0 ≤ r) (hh : 0 ≤ h) (x) (hx : x ∈ cylinderRegion r h) (i : Fin 3) : |x i| ≤ r + h := by
  obtain ⟨h0, h1⟩ := hx
  have a0 : |x 0| ≤ r := abs_le_of_sq_le_sq (by nlinarith [sq_nonneg (x 1)]) hr
  have a1 : |x 1| ≤ r := abs_le_of_sq_le_sq (by nlinarith [sq_nonneg (x 0)]) hr
  fin_cases i <;> simp only [Fin.isValue, Fin.zero_eta, Fin.mk_one, Fin.reduceFinMk] <;> linarith

theorem cyl_finite {r h : ℝ} (hr : 0 ≤ r) (hh : 0 ≤ h) : volume (cylinderRegion r h) ≠ ⊤ := by
  refine ne_top_of_le_ne_top (prism_finite fun _ => 2 * (r + h)) (measure_mono fun x hx => ?_)
  have := cyl_bound hr hh x hx
  refine ⟨?_, ?_, ?_⟩ <;> linarith [this 0, this 1, this 2]

theorem cyl_reflect (r h : ℝ) (i : Fin 3) (x) : reflect i x ∈ cylinderRegion r h ↔ x ∈ cylinderRegion r h := by
  have h1 : ∀ k, |reflect i x k| = |x k| := by
    intro k; rw [reflect_apply]; split_ifs <;> simp
  have h2 : ∀ k, reflect i x k ^ 2 = x k ^ 2 := by
    intro k; rw [reflect_apply]; split_ifs <;> ring
  simp [cylinderRegion, h1, h2]

/-- C54. Cylinders. -/
theorem C54_cylinder (r h : ℝ) (hr : 0 ≤ r) (hh : 0 ≤ h) : (cylinder r h).Right (cylinderRegion r h) := by
  have hv : (cylinder r h).volume = volume.real (cylinderRegion r h) := by
    have := cyl_int (r := r) (h := h) (fun _ => 1) fun _ => 1
    rw [seg_volume hh] at this
    simp only [setIntegral_const, smul_eq_mul, mul_one] at this
    rw [this, ball_two hr, cylinder, cylinderOf]
    ring
  have q2 : ∫ x in cylinderRegion r h, x 2 ^ 2 = h ^ 3 / 12 * (Real.pi * r ^ 2) := by
    have := cyl_int (r := r) (h := h) (fun y => y ^ 2) fun _ => 1
    rw [seg_sq hh] at this
    simp only [setIntegral_const, smul_eq_mul, mul_one] at this
    rw [this, ball_two hr]
  have q0 : ∫ x in cylinderRegion r h, x 0 ^ 2 = h * (Real.pi * (r ^ 4 / 4)) := by
    have := cyl_int (r := r) (h := h) (fun _ => 1) fun z => z 0 ^ 2
    rw [seg_volume hh, ball_sq hr, unit_two] at this
    simp only [one_mul, Matrix.cons_val_zero] at this
    rw [this]
    norm_num
  have q1 : ∫ x in cylinderRegion r h, x 1 ^ 2 = h * (Real.pi * (r ^ 4 / 4)) := by
    have := cyl_int (r := r) (h := h) (fun _ => 1) fun z => z 1 ^ 2
    rw [seg_volume hh, ball_sq hr, unit_two] at this
    simp only [one_mul, Matrix.cons_val_one, Matrix.cons_val_zero] at this
    rw [this]
    norm_num
  refine ⟨hv, fun ρ hρ => ?_⟩
  have := uniform_body (cyl_meas r h) _ (cyl_bound hr hh) (cyl_finite hr hh) (fun i x => cyl_reflect r h i x) hρ
  rw [← hv] at this
  refine body_diag (fun i => ?_) this
  rw [Fin.sum_univ_three, q0, q1, q2]
  fin_cases i <;> simp [cylinder, cylinderOf, q0, q1, q2] <;> ring

/-- The principal moments are those of some distribution of mass only if none is negative and none exceeds the sum of the others. -/
def Physical (d : Fin 3 → ℝ) : Prop :=
  (∀ i, 0 ≤ d i) ∧ d 0 ≤ d 1 + d 2 ∧ d 1 ≤ d 0 + d 2 ∧ d 2 ≤ d 0 + d 1

/-- C54. For all dimensions, of whatever sign, and every non-negative mass the principal moments are physical; they are proportional to the
mass, and grow with the square of the size when all dimensions are scaled by `k`, the volume growing with its cube. -/
theorem C54_physical (a b c m k s : ℝ) (hm : 0 ≤ m) :
    (Physical ((sphere a).inertia m) ∧ Physical ((cylinder a b).inertia m) ∧ Physical ((prism a b c).inertia m)) ∧
    (∀ i, (sphere a).inertia (s * m) i = s * (sphere a).inertia m i ∧
      (cylinder a b).inertia (s * m) i = s * (cylinder a b).inertia m i ∧
      (prism a b c).inertia (s * m) i = s * (prism a b c).inertia m i) ∧
    (∀ i, (sphere (k * a)).inertia m i = k ^ 2 * (sphere a).inertia m i ∧
      (cylinder (k * a) (k * b)).inertia m i = k ^ 2 * (cylinder a b).inertia m i ∧
      (prism (k * a) (k * b) (k * c)).inertia m i = k ^ 2 * (prism a b c).inertia m i) ∧
    (sphere (k * a)).volume = k ^ 3 * (sphere a).volume ∧
    (cylinder (k * a) (k * b)).volume = k ^ 3 * (cylinder a b).volume ∧
    (prism (k * a) (k * b) (k * c)).volume = k ^ 3 * (prism a b c).volume := by
  have ha := mul_nonneg hm (sq_nonneg a)
  have hb := mul_nonneg hm (sq_nonneg b)
  have hc := mul_nonneg hm (sq_nonneg c)
  refine ⟨⟨?_, ?_, ?_⟩, fun i => ⟨?_, ?_, ?_⟩, fun i => ⟨?_, ?_, ?_⟩, ?_, ?_, ?_⟩
  · refine ⟨fun i => ?_, ?_, ?_, ?_⟩
    · fin_cases i <;> simp [sphere, sphereOf] <;> nlinarith
    all_goals simp [sphere, sphereOf]; nlinarith
  · refine ⟨fun i => ?_, ?_, ?_, ?_⟩
    · fin_cases i <;> simp [cylinder, cylinderOf] <;> nlinarith
    all_goals simp [cylinder, cylinderOf]; nlinarith
  · refine ⟨fun i => ?_, ?_, ?_, ?_⟩
    · fin_cases i <;> simp [prism, prismOf] <;> nlinarith
    all_goals simp [prism, prismOf]; nlinarith
  all_goals first
    | (fin_cases i <;> simp [sphere, sphereOf, cylinder, cylinderOf, prism, prismOf] <;> ring)
    | (simp [sphere, sphereOf, cylinder, cylinderOf, prism, prismOf]; ring)

/-- A block of edges 1, 2, 3, mass 12: neither volume nor moments are zero, and they differ from axis to axis. -/
example : (prism 1 2 3).Right (prismRegion 1 2 3) ∧ (prism 1 2 3).volume = 6 ∧ (prism 1 2 3).inertia 12 = ![13, 10, 5] := by
  refine ⟨C54_prism 1 2 3 (by norm_num) (by norm_num) (by norm_num), by norm_num [prism, prismOf], ?_⟩
  funext i
  fin_cases i <;> norm_num [prism, prismOf]

end Verif.Shapes
