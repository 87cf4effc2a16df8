import Verif.Interp.Lemmas
import Mathlib.LinearAlgebra.AffineSpace.AffineMap
import Mathlib.Algebra.Polynomial.Eval.Degree
import Mathlib.Tactic.ComputeDegree

/-!
# Properties of `aether_interp` (C36-C39)

Linear interpolation is compared with Mathlib's `AffineMap.lineMap`, polynomial interpolation with any
`Polynomial ℝ` of degree below the number of nodes through the data, and the cubic spline with `IsNaturalSpline`
below.
-/

namespace Verif.Interp

open Polynomial Set

/-! ## C36 -/

/-- C36: `lerp` is the affine map through the two end points, for scalars and vectors. -/
theorem C36_affine {E : Type*} [AddCommGroup E] [Module ℝ E] (a b : E) (t : ℝ) :
    lerp a b t = AffineMap.lineMap a b t := by
  simp [lerp, AffineMap.lineMap_apply, add_comm]

/-- C36: `lerp` hits both end points, and swapping them reverses the parameter. -/
theorem C36_endpoints {E : Type*} [AddCommGroup E] [Module ℝ E] (a b : E) :
    lerp a b 0 = a ∧ lerp a b 1 = b ∧ ∀ t, lerp b a (1 - t) = lerp a b t := by
  refine ⟨by simp [lerp], by simp [lerp], fun t => ?_⟩
  simp only [lerp]; module

/-- C36: between the end points for a parameter in `[0, 1]`. -/
theorem C36_between (a b t : ℝ) (h0 : 0 ≤ t) (h1 : t ≤ 1) : lerp a b t ∈ uIcc a b := by
  rw [mem_uIcc]
  simp only [lerp, smul_eq_mul]
  rcases le_total a b with h | h
  · exact Or.inl ⟨by nlinarith, by nlinarith⟩
  · exact Or.inr ⟨by nlinarith, by nlinarith⟩

example : lerp (3 : ℝ) 1 (1 / 2) = 2 ∧ (0 : ℝ) ≤ 1 / 2 ∧ (1 / 2 : ℝ) ≤ 1 := by
  refine ⟨?_, ?_, ?_⟩ <;> norm_num [lerp]

/-- C36: monotone in the parameter, in the direction of the end points. -/
theorem C36_monotone (a b : ℝ) : (a < b → StrictMono (lerp a b)) ∧ (b < a → StrictAnti (lerp a b)) ∧
    (a = b → ∀ t, lerp a b t = a) := by
  refine ⟨fun h s t hst => ?_, fun h s t hst => ?_, fun h t => ?_⟩
  · simp only [lerp, smul_eq_mul]; nlinarith
  · simp only [lerp, smul_eq_mul]; nlinarith
  · subst h; simp [lerp]

example : (1 : ℝ) < 2 ∧ (2 : ℝ) > 1 := by norm_num

/-- C36: `inverse_lerp` and `lerp` undo each other when the end points differ by more than the tolerance;
otherwise `inverse_lerp` is zero. -/
theorem C36_inverse (a b : ℝ) :
    (eps < |b - a| → (∀ t, inverseLerp a b (lerp a b t) = t) ∧ ∀ v, lerp a b (inverseLerp a b v) = v) ∧
    (|b - a| ≤ eps → ∀ v, inverseLerp a b v = 0) := by
  refine ⟨fun h => ?_, fun h v => by simp [inverseLerp, h]⟩
  have hd : b - a ≠ 0 := by
    rintro h0
    rw [h0, abs_zero] at h
    exact absurd h (not_lt.2 eps_pos.le)
  constructor
  · intro t
    simp only [inverseLerp, if_neg (not_le.2 h), lerp, smul_eq_mul]
    field_simp; ring
  · intro v
    simp only [inverseLerp, if_neg (not_le.2 h), lerp, smul_eq_mul]
    field_simp; ring

example : eps < |(2 : ℝ) - 1| ∧ |(1 : ℝ) - 1| ≤ eps := by
  constructor
  · norm_num [eps]
  · norm_num [eps]

/-- C36: `remap` sends range ends to range ends, is undone by the opposite `remap`, and keeps the proportion. -/
theorem C36_remap (v a b c d : ℝ) (h : eps < |b - a|) :
    remap a a b c d = c ∧ remap b a b c d = d ∧ (remap v a b c d - c) * (b - a) = (v - a) * (d - c) ∧
    (eps < |d - c| → remap (remap v a b c d) c d a b = v) := by
  have hd : b - a ≠ 0 := by
    rintro h0
    rw [h0, abs_zero] at h
    exact absurd h (not_lt.2 eps_pos.le)
  refine ⟨?_, ?_, ?_, fun h2 => ?_⟩
  · simp [remap, inverseLerp, lerp]
  · simp [remap, inverseLerp, lerp, not_le.2 h, hd]
  · simp only [remap, inverseLerp, if_neg (not_le.2 h), lerp, smul_eq_mul]; field_simp; ring
  · simp only [remap]
    rw [((C36_inverse c d).1 h2).1, ((C36_inverse a b).1 h).2]

/-! ## C37 -/

/-- C37: construction fails exactly when there are no nodes or two nodes are within the tolerance. -/
theorem C37_new (n : ℕ) (xs ys : ℕ → ℝ) :
    Poly.new n xs ys = none ↔ n = 0 ∨ ∃ i < n, ∃ j < n, i ≠ j ∧ |xs i - xs j| ≤ eps := by
  constructor
  · intro h
    unfold Poly.new at h
    by_cases hn : n = 0
    · exact Or.inl hn
    · rw [if_neg hn] at h
      cases hw : weightsLoop xs n (List.range n) (fun _ => 1) with
      | some w => rw [hw] at h; simp at h
      | none =>
        obtain ⟨j, hj, v, hv⟩ := weightsLoop_none xs n _ _ hw
        obtain ⟨k, hk, hjk, hd⟩ := weightLoop_none xs j _ _ hv
        exact Or.inr ⟨j, List.mem_range.1 hj, k, List.mem_range.1 hk, hjk, hd⟩
  · intro h
    cases hp : Poly.new n xs ys with
    | none => rfl
    | some p =>
      obtain ⟨hn, _, _, hs, _⟩ := new_eq_some hp
      rcases h with h | ⟨i, hi, j, hj, hij, hd⟩
      · exact absurd h hn
      · exact absurd (hs i hi j hj hij) (not_lt.2 hd)

/-- C37: evaluation at a node returns the value given for it. -/
theorem C37_node {n : ℕ} {xs ys : ℕ → ℝ} {p : Poly} (h : Poly.new n xs ys = some p) (i : ℕ) (hi : i < n) :
    p.evaluate n (xs i) = ys i := by
  obtain ⟨_, hxs, hys, hs, _⟩ := new_eq_some h
  unfold Poly.evaluate
  rw [nodeLoop_some p (xs i) _ i (List.mem_range.2 hi) (by rw [hxs, sub_self, abs_zero]; exact eps_pos.le)
    (fun j hj hji => by rw [hxs]; exact hs i hi j (List.mem_range.1 hj) hji.symm), hys]

/-- C37: there is exactly one polynomial of degree below `n` through the data, and away from the nodes evaluation
returns its value. -/
theorem C37_polynomial {n : ℕ} {xs ys : ℕ → ℝ} {p : Poly} (h : Poly.new n xs ys = some p) :
    (∃! P : ℝ[X], P.degree < n ∧ ∀ i < n, P.eval (xs i) = ys i) ∧
    ∀ P : ℝ[X], P.degree < n → (∀ i < n, P.eval (xs i) = ys i) →
      ∀ x, (∀ i < n, eps < |x - xs i|) → p.evaluate n x = P.eval x := by
  obtain ⟨hn, hxs, hys, hs, hw⟩ := new_eq_some h
  have hinj : InjOn xs (Finset.range n) := by
    intro i hi j hj hij
    by_contra hne
    have := hs i (by simpa using hi) j (by simpa using hj) hne
    rw [hij, sub_self, abs_zero] at this
    exact absurd this (not_lt.2 eps_pos.le)
  have huniq : ∀ P : ℝ[X], P.degree < n → (∀ i < n, P.eval (xs i) = ys i) →
      P = Lagrange.interpolate (Finset.range n) xs ys := fun P hP hv =>
    Lagrange.eq_interpolate_of_eval_eq ys hinj (by rwa [Finset.card_range]) (fun i hi => hv i (Finset.mem_range.1 hi))
  refine ⟨⟨Lagrange.interpolate (Finset.range n) xs ys, ⟨?_, ?_⟩, fun Q hQ => huniq Q hQ.1 hQ.2⟩, ?_⟩
  · have := Lagrange.degree_interpolate_lt ys hinj
    rwa [Finset.card_range] at this
  · intro i hi
    exact Lagrange.eval_interpolate_at_node ys hinj (Finset.mem_range.2 hi)
  · intro P hP hv x hx
    rw [huniq P hP hv, Lagrange.eval_interpolate_not_at_node' ys hinj (Finset.nonempty_range_iff.2 hn)
      (fun i hi => ?_)]
    · unfold Poly.evaluate
      rw [nodeLoop_none p x _ (fun i hi => by rw [hxs]; exact hx i (List.mem_range.1 hi))]
      dsimp only
      rw [foldl_pair (fun i => p.weights i / (x - p.xs i) * p.ys i) (fun i => p.weights i / (x - p.xs i)) n]
      dsimp only
      congr 1
      · refine Finset.sum_congr rfl fun i hi => ?_
        rw [hw i (Finset.mem_range.1 hi), hxs, hys, div_eq_mul_inv]
      · refine Finset.sum_congr rfl fun i hi => ?_
        rw [hw i (Finset.mem_range.1 hi), hxs, div_eq_mul_inv]
    · rintro rfl
      have := hx i (Finset.mem_range.1 hi)
      rw [sub_self, abs_zero] at this
      exact absurd this (not_lt.2 eps_pos.le)

/-- Three nodes that construction accepts. -/
example : ∃ p, Poly.new 3 (fun i => (i : ℝ)) (fun i => (i : ℝ) ^ 2) = some p := by
  rw [← Option.isSome_iff_exists, ← Option.ne_none_iff_isSome, Ne, C37_new]
  rintro (h | ⟨i, hi, j, hj, hij, h⟩)
  · omega
  · have h1 : (1 : ℝ) ≤ |(i : ℝ) - (j : ℝ)| := by
      have : (1 : ℤ) ≤ |(i : ℤ) - (j : ℤ)| := Int.one_le_abs (by omega)
      exact_mod_cast this
    have h2 : eps < 1 := by norm_num [eps]
    linarith

/-! ## C39 -/

/-- C39: for every array of at least two entries, sorted or not, and every query the search ends, without reading
past the array, in the index of a segment. -/
theorem C39_terminates (n : ℕ) (xs : ℕ → ℝ) (x : ℝ) (hn : 2 ≤ n) :
    ∃ k, segmentIndex n xs x = some k ∧ k + 1 < n := by
  unfold segmentIndex
  have h0 : 0 < n := by omega
  have h1 : n - 1 < n := by omega
  simp only [rd, if_pos h0, if_pos h1, Option.bind_eq_bind, Option.bind_some]
  by_cases ha : x ≤ xs 0
  · rw [if_pos ha]; exact ⟨0, rfl, by omega⟩
  · rw [if_neg ha]
    by_cases hb : x ≥ xs (n - 1)
    · simp only [if_pos hb]; exact ⟨n - 2, rfl, by omega⟩
    · simp only [if_neg hb]
      obtain ⟨k, e, h2, h3, _, _⟩ := searchLoop_spec n xs x n 0 (n - 1) (by omega) (by omega) (by omega)
      exact ⟨k, e, by omega⟩

/-- C39: on strictly increasing knots the segment found contains the query if the query is in the range of the
knots (with `x` in the right-hand segment at an interior knot); outside it is the first or the last segment. -/
theorem C39_contains (n : ℕ) (xs : ℕ → ℝ) (hn : 2 ≤ n) (hx : ∀ i, i + 1 < n → xs i < xs (i + 1)) (x : ℝ) (k : ℕ)
    (hk : segmentIndex n xs x = some k) :
    (xs 0 ≤ x → x < xs (n - 1) → xs k ≤ x ∧ x < xs (k + 1)) ∧ (x ≤ xs 0 → k = 0) ∧ (xs (n - 1) ≤ x → k = n - 2) := by
  obtain ⟨k', e, h1, h2, h3⟩ := segmentIndex_spec hn hx x
  rw [hk] at e
  obtain rfl := Option.some.inj e
  refine ⟨fun ha hb => ⟨?_, ?_⟩, fun ha => ?_, fun hb => ?_⟩
  · rcases Nat.eq_zero_or_pos k with rfl | hp
    · exact ha
    · exact h2 hp
  · by_cases hp : k + 2 < n
    · exact h3 hp
    · have : k + 1 = n - 1 := by omega
      rw [this]; exact hb
  · by_contra hp
    have hx' : Increasing n xs := hx
    exact absurd (h2 (by omega)) (not_le.2 (ha.trans_lt (hx'.lt (by omega) (by omega))))
  · by_contra hp
    have hx' : Increasing n xs := hx
    exact absurd (h3 (by omega)) (not_lt.2 ((hx'.le (by omega) (by omega)).trans hb))

example : (2 : ℕ) ≤ 5 ∧ ∀ i, i + 1 < 5 → (fun i : ℕ => (i : ℝ)) i < (fun i : ℕ => (i : ℝ)) (i + 1) := by
  refine ⟨by omega, fun i _ => ?_⟩
  simp

/-! ## C38 -/

/-- `f` is the natural cubic spline through the `n` points `(xs i, ys i)`: a cubic on each segment, through every
point, twice continuously differentiable, without curvature at both ends. -/
structure IsNaturalSpline (n : ℕ) (xs ys : ℕ → ℝ) (f : ℝ → ℝ) : Prop where
  interpolates : ∀ i < n, f (xs i) = ys i
  cubic : ∀ i, i + 1 < n → ∃ p : ℝ[X], p.natDegree ≤ 3 ∧ ∀ x ∈ Icc (xs i) (xs (i + 1)), f x = p.eval x
  smooth : ContDiff ℝ 2 f
  first : deriv (deriv f) (xs 0) = 0
  last : deriv (deriv f) (xs (n - 1)) = 0

/-- C38: construction succeeds exactly on two or more strictly increasing knots. -/
theorem C38_new (n : ℕ) (xs ys : ℕ → ℝ) :
    (∃ s, Spline.new n xs ys = some s) ↔ 2 ≤ n ∧ ∀ i, i + 1 < n → xs i < xs (i + 1) := by
  constructor
  · rintro ⟨s, h⟩
    exact ⟨(spline_new h).1, (spline_new h).2.1⟩
  · rintro ⟨hn, hx⟩
    unfold Spline.new
    rw [if_neg (by omega), if_neg]
    · exact ⟨_, rfl⟩
    · intro h
      obtain ⟨i, hi, hc⟩ := List.any_eq_true.1 h
      have hi' := List.mem_range.1 hi
      exact absurd (hx i (by omega)) (not_lt.2 (of_decide_eq_true hc))

theorem piece_left (s : Spline) (k : ℕ) (h : s.xs (k + 1) - s.xs k ≠ 0) : s.piece k (s.xs k) = s.ys k := by
  unfold Spline.piece
  simp only [sub_self, zero_div, div_self h]; ring

theorem piece_right (s : Spline) (k : ℕ) (h : s.xs (k + 1) - s.xs k ≠ 0) :
    s.piece k (s.xs (k + 1)) = s.ys (k + 1) := by
  unfold Spline.piece
  simp only [sub_self, zero_div, div_self h]; ring

/-- C38: evaluation never panics and is the natural cubic spline. On the whole line it is twice continuously
differentiable. -/
theorem C38_natural {n : ℕ} {xs ys : ℕ → ℝ} {s : Spline} (h : Spline.new n xs ys = some s) :
    ∃ f : ℝ → ℝ, (∀ x, s.evaluate n x = some (f x)) ∧ IsNaturalSpline n xs ys f := by
  obtain ⟨hn, hx, hxs, hys, hfirst, hlast, hsys⟩ := spline_new h
  choose idx hidx hseg using segmentIndex_spec hn hx
  have hne : ∀ k, k + 1 < n → s.xs (k + 1) - s.xs k ≠ 0 := fun k hk => by
    rw [hxs]; exact (sub_pos.2 (hx k hk)).ne'
  have g0 : ∀ k, k + 2 < n → s.piece k (xs (k + 1)) = s.piece (k + 1) (xs (k + 1)) := fun k hk => by
    have a := piece_right s k (hne k (by omega))
    have b := piece_left s (k + 1) (hne (k + 1) (by omega))
    rw [hxs] at a b
    rw [a, b]
  have g1 : ∀ k, k + 2 < n → piece1 s k (xs (k + 1)) = piece1 s (k + 1) (xs (k + 1)) := fun k hk => by
    have e := hsys k hk
    have a := hne k (by omega)
    have b := hne (k + 1) (by omega)
    unfold piece1
    rw [hxs, hys] at *
    have q : k + 1 + 1 = k + 2 := rfl
    rw [q] at *
    simp only [sub_self, zero_div, div_self a, div_self b]
    linear_combination (1 / 6 : ℝ) * e
  have g2 : ∀ k, k + 2 < n → piece2 s k (xs (k + 1)) = piece2 s (k + 1) (xs (k + 1)) := fun k hk => by
    have a := hne k (by omega)
    have b := hne (k + 1) (by omega)
    unfold piece2
    rw [hxs] at *
    simp only [sub_self, zero_div, div_self a, div_self b]
    ring
  have d0 : ∀ x, HasDerivAt (fun y => s.piece (idx y) y) (piece1 s (idx x) x) x :=
    glue_deriv hx hseg (fun k x hk => piece_deriv s k x (hne k hk)) g0 g1
  have d1 : ∀ x, HasDerivAt (fun y => piece1 s (idx y) y) (piece2 s (idx x) x) x :=
    glue_deriv hx hseg (fun k x hk => piece1_deriv s k x (hne k hk)) g1 g2
  have d2 : Continuous (fun y => piece2 s (idx y) y) :=
    glue_continuous hx hseg (fun k _ => piece2_continuous s k) g2
  have e1 : deriv (fun y => s.piece (idx y) y) = fun y => piece1 s (idx y) y := funext fun x => (d0 x).deriv
  have e2 : deriv (fun y => piece1 s (idx y) y) = fun y => piece2 s (idx y) y := funext fun x => (d1 x).deriv
  -- the value on a closed segment
  have hclosed : ∀ i, i + 1 < n → ∀ x ∈ Icc (xs i) (xs (i + 1)), s.piece (idx x) x = s.piece i x := by
    intro i hi x hxi
    by_cases hlt : x < xs (i + 1)
    · rw [(hseg x).unique hx ⟨hi, fun _ => hxi.1, fun _ => hlt⟩]
    · have hxe : x = xs (i + 1) := le_antisymm hxi.2 (not_lt.1 hlt)
      by_cases h2 : i + 2 < n
      · rw [(hseg x).unique hx (k := i + 1) ⟨by omega, fun _ => hxe.ge, fun h3 => hxe ▸ hx (i + 1) (by omega)⟩, hxe]
        exact (g0 i h2).symm
      · rw [(hseg x).unique hx ⟨hi, fun _ => hxi.1, fun h3 => absurd h3 h2⟩]
  refine ⟨fun y => s.piece (idx y) y, fun x => ?_, ?_, ?_, ?_, ?_, ?_⟩
  · have hk := (hseg x).1
    unfold Spline.evaluate
    rw [hxs, hidx]
    simp [rd, hk, show idx x < n by omega]
  · intro i hi
    rcases Nat.lt_or_ge (i + 1) n with h1 | h1
    · rw [hclosed i h1 (xs i) ⟨le_rfl, (hx i h1).le⟩]
      have := piece_left s i (hne i h1)
      rwa [hxs, hys] at this
    · obtain ⟨j, rfl⟩ : ∃ j, i = j + 1 := ⟨i - 1, by omega⟩
      rw [hclosed j hi (xs (j + 1)) ⟨(hx j hi).le, le_rfl⟩]
      have := piece_right s j (hne j hi)
      rwa [hxs, hys] at this
  · intro i hi
    let d := s.xs (i + 1) - s.xs i
    let A : ℝ[X] := (C (s.xs (i + 1)) - X) * C d⁻¹
    let B : ℝ[X] := (X - C (s.xs i)) * C d⁻¹
    refine ⟨A * C (s.ys i) + B * C (s.ys (i + 1)) +
      ((A * A * A - A) * C (s.sd i) + (B * B * B - B) * C (s.sd (i + 1))) * C (d * d / 6), ?_, ?_⟩
    · simp only [A, B]
      compute_degree
    · intro x hxi
      show s.piece (idx x) x = _
      rw [hclosed i hi x hxi]
      simp [Spline.piece, A, B, d, div_eq_mul_inv]
  · have h2 : (2 : WithTop ℕ∞) = 1 + 1 := by norm_num
    rw [h2, contDiff_succ_iff_deriv]
    refine ⟨fun x => (d0 x).differentiableAt, by simp, ?_⟩
    rw [e1, contDiff_one_iff_deriv, e2]
    exact ⟨fun x => (d1 x).differentiableAt, d2⟩
  · rw [e1, e2]
    dsimp only
    rw [(hseg (xs 0)).unique hx (k := 0) ⟨by omega, fun h => absurd h (lt_irrefl _), fun _ => hx 0 (by omega)⟩]
    have a := hne 0 (by omega)
    unfold piece2
    rw [hxs] at *
    rw [hfirst, sub_self]; ring
  · rw [e1, e2]
    dsimp only
    obtain ⟨m, rfl⟩ : ∃ m, n = m + 2 := ⟨n - 2, by omega⟩
    rw [show m + 2 - 1 = m + 1 from rfl] at *
    rw [(hseg (xs (m + 1))).unique hx (k := m) ⟨by omega, fun h => (hx m (by omega)).le, fun h => by omega⟩]
    unfold piece2
    rw [hxs] at *
    rw [hlast, sub_self]; ring

/-- C38: samples of a straight line give that line, inside and outside the range of the knots. -/
theorem C38_lines {n : ℕ} {xs : ℕ → ℝ} {s : Spline} (a b : ℝ)
    (h : Spline.new n xs (fun i => a + b * xs i) = some s) (x : ℝ) : s.evaluate n x = some (a + b * x) := by
  obtain ⟨hn, hx, hxs, hys, hfirst, hlast, hsys⟩ := spline_new h
  -- all second derivatives vanish: compare the largest and the smallest
  have hrhs : ∀ i, i + 2 < n → (xs (i + 1) - xs i) * s.sd i + 2 * (xs (i + 2) - xs i) * s.sd (i + 1)
        + (xs (i + 2) - xs (i + 1)) * s.sd (i + 2) = 0 := by
    intro i hi
    rw [hsys i hi]
    have h1 : xs (i + 1) - xs i ≠ 0 := (sub_pos.2 (hx i (by omega))).ne'
    have h2 : xs (i + 2) - xs (i + 1) ≠ 0 := (sub_pos.2 (hx (i + 1) (by omega))).ne'
    have e1 : (a + b * xs (i + 2) - (a + b * xs (i + 1))) = b * (xs (i + 2) - xs (i + 1)) := by ring
    have e2 : (a + b * xs (i + 1) - (a + b * xs i)) = b * (xs (i + 1) - xs i) := by ring
    rw [e1, e2, mul_div_cancel_right₀ _ h2, mul_div_cancel_right₀ _ h1]; ring
  have hzero : ∀ i < n, s.sd i = 0 := by
    obtain ⟨k, hk, hmax⟩ := Finset.exists_max_image (Finset.range n) (fun i => |s.sd i|) ⟨0, by simp; omega⟩
    have hk' := Finset.mem_range.1 hk
    have hk0 : s.sd k = 0 := by
      by_cases h0 : k = 0
      · rw [h0]; exact hfirst
      by_cases h1 : k = n - 1
      · rw [h1]; exact hlast
      obtain ⟨i, rfl⟩ : ∃ i, k = i + 1 := ⟨k - 1, by omega⟩
      have e := hrhs i (by omega)
      have m1 := hmax i (Finset.mem_range.2 (by omega))
      have m2 := hmax (i + 2) (Finset.mem_range.2 (by omega))
      have p1 : 0 < xs (i + 1) - xs i := sub_pos.2 (hx i (by omega))
      have p2 : 0 < xs (i + 2) - xs (i + 1) := sub_pos.2 (hx (i + 1) (by omega))
      by_contra hne
      have hpos : 0 < |s.sd (i + 1)| := abs_pos.2 hne
      have hA : 2 * (xs (i + 2) - xs i) * s.sd (i + 1) =
          -((xs (i + 1) - xs i) * s.sd i + (xs (i + 2) - xs (i + 1)) * s.sd (i + 2)) := by linarith
      have hB : 2 * (xs (i + 2) - xs i) * |s.sd (i + 1)| ≤
          (xs (i + 1) - xs i) * |s.sd i| + (xs (i + 2) - xs (i + 1)) * |s.sd (i + 2)| := by
        have h3 : 2 * (xs (i + 2) - xs i) * |s.sd (i + 1)| = |2 * (xs (i + 2) - xs i) * s.sd (i + 1)| := by
          rw [abs_mul, abs_of_pos (by linarith : 0 < 2 * (xs (i + 2) - xs i))]
        rw [h3, hA, abs_neg]
        refine (abs_add_le _ _).trans ?_
        rw [abs_mul, abs_mul, abs_of_pos p1, abs_of_pos p2]
      nlinarith
    intro i hi
    have := hmax i (Finset.mem_range.2 hi)
    rw [hk0, abs_zero] at this
    exact abs_eq_zero.1 (le_antisymm this (abs_nonneg _))
  obtain ⟨k, hk, hseg⟩ := segmentIndex_spec hn hx x
  have hk1 := hseg.1
  unfold Spline.evaluate
  rw [hxs, hk]
  simp only [rd, Option.bind_eq_bind, Option.bind_some, if_pos hk1, if_pos (show k < n by omega), Option.pure_def,
    Option.some.injEq]
  unfold Spline.piece
  rw [hxs, hys, hzero k (by omega), hzero (k + 1) hk1]
  have h1 : xs (k + 1) - xs k ≠ 0 := (sub_pos.2 (hx k hk1)).ne'
  field_simp
  ring

/-- Knots that construction accepts. -/
example : ∃ s, Spline.new 4 (fun i => (i : ℝ)) (fun i => (i : ℝ) ^ 3) = some s :=
  (C38_new _ _ _).2 ⟨by omega, fun i _ => by simp⟩

end Verif.Interp
