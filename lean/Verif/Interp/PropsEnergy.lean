import Verif.Interp.Props
import Mathlib.MeasureTheory.Integral.IntervalIntegral.IntegrationByParts
import Mathlib.Analysis.Calculus.MeanValue
import Mathlib.Analysis.Calculus.Deriv.Polynomial
import Mathlib.Topology.Algebra.Polynomial

/-!
# C122: the cubic spline is the smoothest interpolant
-/

namespace Verif.Interp

open Polynomial Set intervalIntegral

theorem deriv2_continuous {f : ℝ → ℝ} (h : ContDiff ℝ 2 f) : Continuous (deriv (deriv f)) := by
  have h1 : ContDiff ℝ 1 (deriv f) := ((contDiff_succ_iff_deriv (n := 1)).1 h).2.2
  exact ((contDiff_succ_iff_deriv (n := 0)).1 h1).2.2.continuous

theorem deriv_differentiable {f : ℝ → ℝ} (h : ContDiff ℝ 2 f) : Differentiable ℝ (deriv f) := by
  have h1 : ContDiff ℝ 1 (deriv f) := ((contDiff_succ_iff_deriv (n := 1)).1 h).2.2
  exact h1.differentiable one_ne_zero

/-- On a segment where a smooth function is a polynomial its second derivative is that of the polynomial. -/
theorem deriv2_poly {f : ℝ → ℝ} (h : ContDiff ℝ 2 f) {a b : ℝ} (hab : a < b) {p : ℝ[X]}
    (hp : ∀ x ∈ Icc a b, f x = p.eval x) {x : ℝ} (hx : x ∈ Icc a b) :
    deriv (deriv f) x = p.derivative.derivative.eval x := by
  have inner : ∀ x ∈ Ioo a b, deriv (deriv f) x = p.derivative.derivative.eval x := by
    intro x hx
    have e1 : ∀ y ∈ Ioo a b, deriv f y = p.derivative.eval y := by
      intro y hy
      have : f =ᶠ[nhds y] fun z => p.eval z :=
        Filter.eventuallyEq_of_mem (Ioo_mem_nhds hy.1 hy.2) fun z hz => hp z (Ioo_subset_Icc_self hz)
      rw [this.deriv_eq, Polynomial.deriv]
    have : deriv f =ᶠ[nhds x] fun z => p.derivative.eval z :=
      Filter.eventuallyEq_of_mem (Ioo_mem_nhds hx.1 hx.2) e1
    rw [this.deriv_eq, Polynomial.deriv]
  have hc : closure (Ioo a b) = Icc a b := closure_Ioo hab.ne
  have := Set.EqOn.closure (s := Ioo a b) inner (deriv2_continuous h) p.derivative.derivative.continuous
  rw [hc] at this
  exact this hx

/-- Integration by parts twice on one segment. -/
theorem segment_parts {f d : ℝ → ℝ} (hf : ContDiff ℝ 2 f) (hd : ContDiff ℝ 2 d) {a b : ℝ} (hab : a < b) {p : ℝ[X]}
    (hdeg : p.natDegree ≤ 3) (hp : ∀ x ∈ Icc a b, f x = p.eval x) (ha : d a = 0) (hb : d b = 0) :
    ∫ x in a..b, deriv (deriv f) x * deriv (deriv d) x =
      deriv (deriv f) b * deriv d b - deriv (deriv f) a * deriv d a := by
  have e : ∫ x in a..b, deriv (deriv f) x * deriv (deriv d) x =
      ∫ x in a..b, p.derivative.derivative.eval x * deriv (deriv d) x := by
    refine integral_congr fun x hx => ?_
    rw [uIcc_of_le hab.le] at hx
    simp only [deriv2_poly hf hab hp hx]
  have hconst : ∀ x, p.derivative.derivative.derivative.eval x = p.derivative.derivative.derivative.coeff 0 := by
    intro x
    have h0 : p.derivative.derivative.derivative.natDegree = 0 := by
      have h1 := natDegree_derivative_le p
      have h2 := natDegree_derivative_le p.derivative
      have h3 := natDegree_derivative_le p.derivative.derivative
      omega
    rw [eq_C_of_natDegree_eq_zero h0, eval_C, coeff_C_zero]
  rw [e, integral_mul_deriv_eq_deriv_mul (u := fun x => p.derivative.derivative.eval x) (v := deriv d)
    (u' := fun x => p.derivative.derivative.derivative.eval x) (v' := deriv (deriv d))
    (fun x _ => p.derivative.derivative.hasDerivAt x)
    (fun x _ => (deriv_differentiable hd x).hasDerivAt)
    (p.derivative.derivative.derivative.continuous.intervalIntegrable _ _)
    ((deriv2_continuous hd).intervalIntegrable _ _)]
  have z : ∫ x in a..b, p.derivative.derivative.derivative.eval x * deriv d x = 0 := by
    simp only [hconst]
    rw [integral_const_mul, integral_deriv_eq_sub (fun x _ => (hd.differentiable two_ne_zero x))
      ((deriv_differentiable hd).continuous.intervalIntegrable _ _), ha, hb]
    simp
  rw [z, deriv2_poly hf hab hp (left_mem_Icc.2 hab.le), deriv2_poly hf hab hp (right_mem_Icc.2 hab.le)]
  ring

theorem knots_le {n : ℕ} {xs : ℕ → ℝ} (hx : ∀ i, i + 1 < n → xs i < xs (i + 1)) :
    ∀ k, k < n → xs 0 ≤ xs k
  | 0, _ => le_rfl
  | k + 1, h => (knots_le hx k (by omega)).trans (hx k h).le

/-- The curvature of a natural spline is orthogonal to that of any function vanishing at the knots. -/
theorem natural_orthogonal {n : ℕ} {xs ys : ℕ → ℝ} {f d : ℝ → ℝ} (hx : ∀ i, i + 1 < n → xs i < xs (i + 1))
    (hf : IsNaturalSpline n xs ys f) (hd : ContDiff ℝ 2 d) (h0 : ∀ i < n, d (xs i) = 0) :
    ∫ x in xs 0..xs (n - 1), deriv (deriv f) x * deriv (deriv d) x = 0 := by
  have key : ∀ k, k < n → ∫ x in xs 0..xs k, deriv (deriv f) x * deriv (deriv d) x =
      deriv (deriv f) (xs k) * deriv d (xs k) := by
    intro k
    induction k with
    | zero => intro _; rw [integral_same, hf.first, zero_mul]
    | succ k ih =>
      intro hk
      obtain ⟨p, hdeg, hp⟩ := hf.cubic k hk
      have hc : Continuous fun x => deriv (deriv f) x * deriv (deriv d) x :=
        (deriv2_continuous hf.smooth).mul (deriv2_continuous hd)
      rw [← integral_add_adjacent_intervals (hc.intervalIntegrable (xs 0) (xs k)) (hc.intervalIntegrable _ _),
        ih (by omega), segment_parts hf.smooth hd (hx k hk) hdeg hp (h0 k (by omega)) (h0 (k + 1) hk)]
      ring
  rcases Nat.eq_zero_or_pos n with rfl | hn
  · exact integral_same
  · rw [key (n - 1) (by omega), hf.last, zero_mul]

/-- The bending energy of an interpolant exceeds that of the natural spline by the energy of their difference. -/
theorem natural_energy {n : ℕ} {xs ys : ℕ → ℝ} {f g : ℝ → ℝ} (hx : ∀ i, i + 1 < n → xs i < xs (i + 1))
    (hf : IsNaturalSpline n xs ys f) (hg : ContDiff ℝ 2 g) (hgy : ∀ i < n, g (xs i) = ys i) :
    ∫ x in xs 0..xs (n - 1), deriv (deriv g) x ^ 2 =
      (∫ x in xs 0..xs (n - 1), deriv (deriv f) x ^ 2) +
        ∫ x in xs 0..xs (n - 1), (deriv (deriv g) x - deriv (deriv f) x) ^ 2 := by
  have hd : ContDiff ℝ 2 (g - f) := hg.sub hf.smooth
  have o := natural_orthogonal hx hf hd fun i hi => by
    rw [Pi.sub_apply, hgy i hi, hf.interpolates i hi, sub_self]
  have e : ∀ x, deriv (deriv (g - f)) x = deriv (deriv g) x - deriv (deriv f) x := by
    intro x
    have : deriv (g - f) = deriv g - deriv f := by
      funext y
      exact deriv_sub (hg.differentiable two_ne_zero y) (hf.smooth.differentiable two_ne_zero y)
    rw [this]
    exact deriv_sub (deriv_differentiable hg x) (deriv_differentiable hf.smooth x)
  simp only [e] at o
  have c1 := deriv2_continuous hf.smooth
  have c2 := deriv2_continuous hg
  have hsplit : ∫ x in xs 0..xs (n - 1), deriv (deriv g) x ^ 2 =
      ∫ x in xs 0..xs (n - 1), ((deriv (deriv f) x ^ 2 + (deriv (deriv g) x - deriv (deriv f) x) ^ 2) +
        2 * (deriv (deriv f) x * (deriv (deriv g) x - deriv (deriv f) x))) :=
    integral_congr fun x _ => by ring
  rw [hsplit, integral_add (by apply Continuous.intervalIntegrable; fun_prop)
    (by apply Continuous.intervalIntegrable; fun_prop), integral_const_mul, o, mul_zero, add_zero,
    integral_add (by apply Continuous.intervalIntegrable; fun_prop)
    (by apply Continuous.intervalIntegrable; fun_prop)]

/-- An interpolant with no more bending energy than the natural spline is the natural spline between the knots. -/
theorem natural_unique {n : ℕ} {xs ys : ℕ → ℝ} {f g : ℝ → ℝ} (hn : 2 ≤ n)
    (hx : ∀ i, i + 1 < n → xs i < xs (i + 1)) (hf : IsNaturalSpline n xs ys f) (hg : ContDiff ℝ 2 g)
    (hgy : ∀ i < n, g (xs i) = ys i)
    (hle : ∫ x in xs 0..xs (n - 1), deriv (deriv g) x ^ 2 ≤ ∫ x in xs 0..xs (n - 1), deriv (deriv f) x ^ 2) :
    ∀ x ∈ Icc (xs 0) (xs (n - 1)), g x = f x := by
  have hlt : xs 0 < xs (n - 1) := by
    have h1 := knots_le (n := n) hx (n - 2) (by omega)
    have h2 := hx (n - 2) (by omega)
    rw [show n - 2 + 1 = n - 1 by omega] at h2
    linarith
  have he := natural_energy hx hf hg hgy
  have c1 := deriv2_continuous hf.smooth
  have c2 := deriv2_continuous hg
  have hz : ∫ x in xs 0..xs (n - 1), (deriv (deriv g) x - deriv (deriv f) x) ^ 2 = 0 :=
    le_antisymm (by linarith) (integral_nonneg hlt.le fun x _ => sq_nonneg _)
  have hcont : Continuous fun x => (deriv (deriv g) x - deriv (deriv f) x) ^ 2 := by fun_prop
  have hzero : ∀ x ∈ Icc (xs 0) (xs (n - 1)), deriv (deriv g) x - deriv (deriv f) x = 0 := by
    intro x hx'
    by_contra hne
    have : 0 < ∫ x in xs 0..xs (n - 1), (deriv (deriv g) x - deriv (deriv f) x) ^ 2 :=
      integral_pos hlt hcont.continuousOn (fun y _ => sq_nonneg _) ⟨x, hx', by positivity⟩
    linarith
  have hd1 : ∀ x, HasDerivAt (fun y => g y - f y) (deriv g x - deriv f x) x := fun x =>
    ((hg.differentiable two_ne_zero x).hasDerivAt).sub ((hf.smooth.differentiable two_ne_zero x).hasDerivAt)
  have hd2 : ∀ x, HasDerivAt (fun y => deriv g y - deriv f y) (deriv (deriv g) x - deriv (deriv f) x) x := fun x =>
    ((deriv_differentiable hg x).hasDerivAt).sub ((deriv_differentiable hf.smooth x).hasDerivAt)
  set m := deriv g (xs 0) - deriv f (xs 0) with hm
  have hslope : ∀ x ∈ Icc (xs 0) (xs (n - 1)), deriv g x - deriv f x = m :=
    constant_of_has_deriv_right_zero (fun x _ => (hd2 x).continuousAt.continuousWithinAt) fun x hx' => by
      have := (hd2 x).hasDerivWithinAt (s := Ici x)
      rwa [hzero x (Ico_subset_Icc_self hx')] at this
  have hlin : ∀ x ∈ Icc (xs 0) (xs (n - 1)), (g x - f x) - m * x = (g (xs 0) - f (xs 0)) - m * xs 0 :=
    constant_of_has_deriv_right_zero
      (f := fun x => (g x - f x) - m * x)
      (fun x _ => ((hd1 x).sub ((hasDerivAt_id x).const_mul m)).continuousAt.continuousWithinAt) fun x hx' => by
      have := ((hd1 x).sub ((hasDerivAt_id x).const_mul m)).hasDerivWithinAt (s := Ici x)
      rw [hslope x (Ico_subset_Icc_self hx')] at this
      have e0 : m - m * 1 = 0 := by ring
      rw [e0] at this
      exact this
  have z0 : g (xs 0) - f (xs 0) = 0 := by rw [hgy 0 (by omega), hf.interpolates 0 (by omega), sub_self]
  have z1 : g (xs (n - 1)) - f (xs (n - 1)) = 0 := by
    rw [hgy _ (by omega), hf.interpolates _ (by omega), sub_self]
  have hend := hlin _ (right_mem_Icc.2 hlt.le)
  rw [z0, z1] at hend
  have hm0 : m = 0 := by
    have : m * (xs (n - 1) - xs 0) = 0 := by linarith
    exact (mul_eq_zero.1 this).resolve_right (sub_pos.2 hlt).ne'
  intro x hx'
  have := hlin x hx'
  rw [z0, hm0] at this
  linarith

theorem evaluate_natural {n : ℕ} {xs ys : ℕ → ℝ} {s : Spline} (h : Spline.new n xs ys = some s) {f : ℝ → ℝ}
    (hf : ∀ x, s.evaluate n x = some (f x)) : IsNaturalSpline n xs ys f := by
  obtain ⟨f', h1, h2⟩ := C38_natural h
  have : f = f' := funext fun x => Option.some.inj ((hf x).symm.trans (h1 x))
  rwa [this]

/-- **C122**: of all twice continuously differentiable functions through the points the interpolant has the least bending
energy between the first and the last knot. -/
theorem C122_smoothest {n : ℕ} {xs ys : ℕ → ℝ} {s : Spline} (h : Spline.new n xs ys = some s) {f : ℝ → ℝ}
    (hf : ∀ x, s.evaluate n x = some (f x)) {g : ℝ → ℝ} (hg : ContDiff ℝ 2 g) (hgy : ∀ i < n, g (xs i) = ys i) :
    ∫ x in xs 0..xs (n - 1), deriv (deriv f) x ^ 2 ≤ ∫ x in xs 0..xs (n - 1), deriv (deriv g) x ^ 2 := by
  obtain ⟨_, hx⟩ := (C38_new n xs ys).1 ⟨s, h⟩
  rw [natural_energy hx (evaluate_natural h hf) hg hgy]
  have : 0 ≤ ∫ x in xs 0..xs (n - 1), (deriv (deriv g) x - deriv (deriv f) x) ^ 2 :=
    integral_nonneg (knots_le hx (n - 1) (by omega)) fun x _ => sq_nonneg _
  linarith

/-- **C122**: and it is the only one with so little energy. -/
theorem C122_only {n : ℕ} {xs ys : ℕ → ℝ} {s : Spline} (h : Spline.new n xs ys = some s) {f : ℝ → ℝ}
    (hf : ∀ x, s.evaluate n x = some (f x)) {g : ℝ → ℝ} (hg : ContDiff ℝ 2 g) (hgy : ∀ i < n, g (xs i) = ys i)
    (hle : ∫ x in xs 0..xs (n - 1), deriv (deriv g) x ^ 2 ≤ ∫ x in xs 0..xs (n - 1), deriv (deriv f) x ^ 2) :
    ∀ x ∈ Icc (xs 0) (xs (n - 1)), s.evaluate n x = some (g x) := by
  obtain ⟨hn, hx⟩ := (C38_new n xs ys).1 ⟨s, h⟩
  intro x hx'
  rw [hf, natural_unique hn hx (evaluate_natural h hf) hg hgy hle x hx']

/-- **C122**: any natural cubic spline through the points is the one evaluated. -/
theorem C122_unique {n : ℕ} {xs ys : ℕ → ℝ} {s : Spline} (h : Spline.new n xs ys = some s) {g : ℝ → ℝ}
    (hg : IsNaturalSpline n xs ys g) : ∀ x ∈ Icc (xs 0) (xs (n - 1)), s.evaluate n x = some (g x) := by
  obtain ⟨f, hf, hn⟩ := C38_natural h
  obtain ⟨_, hx⟩ := (C38_new n xs ys).1 ⟨s, h⟩
  refine C122_only h hf hg.smooth hg.interpolates ?_
  rw [natural_energy hx hg hn.smooth hn.interpolates]
  have : 0 ≤ ∫ x in xs 0..xs (n - 1), (deriv (deriv f) x - deriv (deriv g) x) ^ 2 :=
    integral_nonneg (knots_le hx (n - 1) (by omega)) fun x _ => sq_nonneg _
  linarith

/-- A case that meets the hypotheses of `C122_smoothest`: three points of a parabola, which is an interpolant. -/
example : ∃ (s : Spline) (f : ℝ → ℝ), Spline.new 3 (fun i => (i : ℝ)) (fun i => (i : ℝ) ^ 2) = some s ∧
    (∀ x, s.evaluate 3 x = some (f x)) ∧ ContDiff ℝ 2 (fun x : ℝ => x ^ 2) ∧
    ∀ i < 3, (fun x : ℝ => x ^ 2) ((fun i : ℕ => (i : ℝ)) i) = (i : ℝ) ^ 2 := by
  obtain ⟨s, hs⟩ := (C38_new 3 (fun i => (i : ℝ)) (fun i => (i : ℝ) ^ 2)).2 ⟨by norm_num, fun i _ => by push_cast; linarith⟩
  obtain ⟨f, hf, _⟩ := C38_natural hs
  exact ⟨s, f, hs, hf, contDiff_id.pow 2, fun _ _ => rfl⟩

end Verif.Interp
