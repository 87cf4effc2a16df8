import Verif.Shapes.PropsMass
import Verif.Stats.PropsCovFloat

/-!
# C173: combining parts in floating-point arithmetic

`Fl fl` is the reals with every operation rounded by `fl`; `Accurate fl u`: one rounding moves a number by at most the fraction `u` of it;
`growth u d = (1 - u)⁻ᵈ - 1` is the accumulated effect of `d` roundings.
-/

namespace Verif.Shapes

open Verif.Mat Verif.Simd Verif.Round Verif.Stats

variable {fl : ℝ → ℝ} {u : ℝ}

/-! ## Specification -/

/-- The computed number `x` is the number `s` up to `d` roundings. -/
def Rel (u : ℝ) (d : ℕ) (x : Fl fl) (s : ℝ) : Prop := ∃ t, Fac u d t ∧ x.val = s * t

/-- The computed solid `s` is the solid `t` up to `d` roundings of each of its numbers; its moments do not cancel. -/
structure Solid.Near (u : ℝ) (d : ℕ) (s : Solid (Fl fl)) (t : Solid ℝ) : Prop where
  pos : 0 < t.volume
  vol : Rel u d s.volume t.volume
  nonneg : ∀ m, 0 ≤ m → ∀ i, 0 ≤ t.inertia m i
  mom : ∀ (e : ℕ) (x : Fl fl) (m : ℝ), 0 ≤ m → Rel u e x m → ∀ i, Rel u (e + d) (s.inertia x i) (t.inertia m i)

/-- The computed part `p` is the part `q`: the same density, axes and position, and a solid which is the same up to `d` roundings. -/
structure Model.Near (u : ℝ) (d : ℕ) (p : Model (Fl fl)) (q : Model ℝ) : Prop where
  solid : p.solid.Near u d q.solid
  density : q.density = p.density.val
  rot : ∀ i j, q.rot i j = (p.rot i j).val
  pos : ∀ i, q.pos i = (p.pos i).val
  dens : 0 < q.density

/-! ## Lemmas -/

theorem Err.mono (h0 : 0 ≤ u) (hu : u < 1) {d e : ℕ} (hde : d ≤ e) {a s A : ℝ} (h : Err u d a s A) : Err u e a s A := by
  refine ⟨h.1.trans ?_, h.2⟩
  have hA : 0 ≤ A := (abs_nonneg _).trans h.2
  refine mul_le_mul_of_nonneg_right ?_ hA
  unfold growth
  have h2 : (1 - u) ^ e ≤ (1 - u) ^ d := pow_le_pow_of_le_one (by linarith) (by linarith) hde
  linarith [inv_anti₀ (pow_pos (by linarith : 0 < 1 - u) e) h2]

theorem Err.round (h : Accurate fl u) (hu : u < 1) {d : ℕ} {a s A : ℝ} (ha : Err u d a s A) : Err u (d + 1) (fl a) s A := by
  obtain ⟨r, hr, e⟩ := accurate_fac h hu a
  rw [e]
  exact Err.fac (accurate_nonneg h) hu ha hr

theorem err_self (x : ℝ) : Err u 0 x x |x| := by
  refine ⟨?_, le_rfl⟩
  simp [growth]

theorem err_add (h : Accurate fl u) (hu : u < 1) {d : ℕ} {x y : Fl fl} {s t A B : ℝ} (ha : Err u d x.val s A) (hb : Err u d y.val t B) :
    Err u (d + 1) (x + y).val (s + t) (A + B) := by
  refine Err.round h hu ⟨?_, (abs_add_le _ _).trans (add_le_add ha.2 hb.2)⟩
  rw [mul_add, show x.val + y.val - (s + t) = (x.val - s) + (y.val - t) by ring]
  exact (abs_add_le _ _).trans (add_le_add ha.1 hb.1)

theorem err_sub (h : Accurate fl u) (hu : u < 1) {d : ℕ} {x y : Fl fl} {s t A B : ℝ} (ha : Err u d x.val s A) (hb : Err u d y.val t B) :
    Err u (d + 1) (x - y).val (s - t) (A + B) := by
  refine Err.round h hu ⟨?_, (abs_sub _ _).trans (add_le_add ha.2 hb.2)⟩
  rw [mul_add, show x.val - y.val - (s - t) = (x.val - s) - (y.val - t) by ring]
  exact (abs_sub _ _).trans (add_le_add ha.1 hb.1)

theorem err_mul (h : Accurate fl u) (hu : u < 1) {d e : ℕ} {x y : Fl fl} {s t A B : ℝ} (ha : Err u d x.val s A) (hb : Err u e y.val t B) :
    Err u (d + e + 1) (x * y).val (s * t) (A * B) := by
  have h0 := accurate_nonneg h
  have hA : 0 ≤ A := (abs_nonneg _).trans ha.2
  have hB : 0 ≤ B := (abs_nonneg _).trans hb.2
  have gd := growth_pos h0 hu d
  have ge := growth_pos h0 hu e
  refine Err.round h hu ⟨?_, by rw [abs_mul]; exact mul_le_mul ha.2 hb.2 (abs_nonneg _) hA⟩
  have e1 : x.val * y.val - s * t = (x.val - s) * (y.val - t) + (x.val - s) * t + s * (y.val - t) := by ring
  have e2 : growth u (d + e) = growth u d * growth u e + growth u d + growth u e := by
    unfold growth; rw [pow_add, mul_inv]; ring
  rw [e1, e2]
  refine (abs_add_three _ _ _).trans ?_
  rw [abs_mul, abs_mul, abs_mul]
  have m1 := mul_le_mul ha.1 hb.1 (abs_nonneg _) (by positivity)
  have m2 := mul_le_mul ha.1 hb.2 (abs_nonneg _) (by positivity)
  have m3 := mul_le_mul ha.2 hb.1 (abs_nonneg _) hA
  linarith

theorem rel_err (h0 : 0 ≤ u) (hu : u < 1) {d : ℕ} {x : Fl fl} {s : ℝ} (hx : Rel u d x s) : Err u d x.val s |s| := by
  obtain ⟨t, ht, e⟩ := hx
  have := Err.fac h0 hu (err_self (u := u) s) ht
  rwa [zero_add, ← e] at this

theorem err_div (h : Accurate fl u) (hu : u < 1) {d e : ℕ} {x y : Fl fl} {s t A : ℝ} (ha : Err u d x.val s A) (hb : Rel u e y t) (ht : 0 < t) :
    Err u (d + e + 1) (x / y).val (s / t) (A / t) := by
  have h0 := accurate_nonneg h
  obtain ⟨f, hf, ef⟩ := hb
  refine Err.round h hu ?_
  have h1 := (ha.fac h0 hu (hf.inv hu)).scale (c := t⁻¹) (inv_nonneg.2 ht.le)
  rw [ef, div_eq_mul_inv, div_eq_mul_inv, div_eq_mul_inv, mul_inv, mul_comm t⁻¹, ← mul_assoc]
  exact h1

theorem rel_self (x : Fl fl) : Rel u 0 x x.val := ⟨1, ⟨by simp, by simp⟩, by simp⟩

theorem Rel.round (h : Accurate fl u) (hu : u < 1) {d : ℕ} {a s t : ℝ} (ht : Fac u d t) (e : a = s * t) :
    Rel u (d + 1) (⟨fl a⟩ : Fl fl) s := by
  obtain ⟨r, hr, er⟩ := accurate_fac h hu a
  exact ⟨t * r, ht.mul hu hr, by show fl a = _; rw [er, e]; ring⟩

theorem Rel.mono (h : Accurate fl u) (hu : u < 1) {d e : ℕ} (hde : d ≤ e) {x : Fl fl} {s : ℝ} (hx : Rel u d x s) : Rel u e x s := by
  obtain ⟨t, ht, e'⟩ := hx
  exact ⟨t, ht.mono (accurate_nonneg h) hu hde, e'⟩

theorem Rel.mul (h : Accurate fl u) (hu : u < 1) {d e : ℕ} {x y : Fl fl} {s t : ℝ} (hx : Rel u d x s) (hy : Rel u e y t) :
    Rel u (d + e + 1) (x * y) (s * t) := by
  obtain ⟨p, hp, ep⟩ := hx
  obtain ⟨q, hq, eq⟩ := hy
  exact Rel.round h hu (hp.mul hu hq) (by rw [ep, eq]; ring)

theorem Rel.div (h : Accurate fl u) (hu : u < 1) {d e : ℕ} {x y : Fl fl} {s t : ℝ} (hx : Rel u d x s) (hy : Rel u e y t) :
    Rel u (d + e + 1) (x / y) (s / t) := by
  obtain ⟨p, hp, ep⟩ := hx
  obtain ⟨q, hq, eq⟩ := hy
  exact Rel.round h hu (hp.mul hu (hq.inv hu)) (by rw [ep, eq, div_eq_mul_inv, div_eq_mul_inv, mul_inv]; ring)

theorem Rel.add (h : Accurate fl u) (hu : u < 1) {d : ℕ} {x y : Fl fl} {s t : ℝ} (hs : 0 ≤ s) (ht : 0 ≤ t) (hx : Rel u d x s)
    (hy : Rel u d y t) : Rel u (d + 1) (x + y) (s + t) := by
  obtain ⟨p, hp, ep⟩ := hx
  obtain ⟨q, hq, eq⟩ := hy
  have h0 := accurate_nonneg h
  rcases (add_nonneg hs ht).eq_or_lt with e | hpos
  · have e1 : s = 0 := by linarith
    have e2 : t = 0 := by linarith
    refine Rel.round h hu (t := p) hp ?_
    rw [ep, eq, e1, e2]; ring
  · refine Rel.round h hu (t := (s * p + t * q) / (s + t)) ⟨?_, ?_⟩ ?_
    · rw [le_div_iff₀ hpos]
      nlinarith [mul_le_mul_of_nonneg_left hp.1 hs, mul_le_mul_of_nonneg_left hq.1 ht]
    · rw [div_le_iff₀ hpos]
      nlinarith [mul_le_mul_of_nonneg_left hp.2 hs, mul_le_mul_of_nonneg_left hq.2 ht]
    · rw [ep, eq]; field_simp

theorem Rel.pos (hu : u < 1) {d : ℕ} {x : Fl fl} {s : ℝ} (hs : 0 < s) (hx : Rel u d x s) : 0 < x.val := by
  obtain ⟨t, ht, e⟩ := hx
  rw [e]
  exact mul_pos hs (ht.pos hu)

/-! ## The shapes -/

theorem rel_one : Rel u 0 (1 : Fl fl) 1 := rel_self (1 : Fl fl)

theorem rel_two (h : Accurate fl u) (hu : u < 1) : Rel u 1 (1 + 1 : Fl fl) (1 + 1) := Rel.add h hu (by norm_num) (by norm_num) rel_one rel_one

theorem rel_succ (h : Accurate fl u) (hu : u < 1) {d : ℕ} {x : Fl fl} {s : ℝ} (hs : 0 ≤ s) (hx : Rel u d x s) : Rel u (d + 1) (x + 1) (s + 1) :=
  Rel.add h hu hs (by norm_num) hx (rel_one.mono h hu (Nat.zero_le _))

theorem rel_three (h : Accurate fl u) (hu : u < 1) : Rel u 2 (1 + 1 + 1 : Fl fl) (1 + 1 + 1) := rel_succ h hu (by norm_num) (rel_two h hu)

theorem rel_four (h : Accurate fl u) (hu : u < 1) : Rel u 3 (1 + 1 + 1 + 1 : Fl fl) (1 + 1 + 1 + 1) := rel_succ h hu (by norm_num) (rel_three h hu)

theorem rel_five (h : Accurate fl u) (hu : u < 1) : Rel u 4 (1 + 1 + 1 + 1 + 1 : Fl fl) (1 + 1 + 1 + 1 + 1) :=
  rel_succ h hu (by norm_num) (rel_four h hu)

theorem rel_twelve (h : Accurate fl u) (hu : u < 1) : Rel u 11 (1 + 1 + 1 + 1 + 1 + 1 + 1 + 1 + 1 + 1 + 1 + 1 : Fl fl)
    (1 + 1 + 1 + 1 + 1 + 1 + 1 + 1 + 1 + 1 + 1 + 1) := by
  iterate 7 refine rel_succ h hu (by norm_num) ?_
  exact rel_five h hu

theorem rel_pi (h : Accurate fl u) (hu : u < 1) : Rel u 1 (⟨fl Real.pi⟩ : Fl fl) Real.pi := by
  have := Rel.round h hu (d := 0) (a := Real.pi) (s := Real.pi) (t := 1) ⟨by simp, by simp⟩ (by simp)
  exact this

theorem near_prism (h : Accurate fl u) (hu : u < 1) {a b c : Fl fl} (ha : 0 < a.val) (hb : 0 < b.val) (hc : 0 < c.val) :
    Solid.Near u 18 (prismOf a b c) (prism a.val b.val c.val) := by
  refine ⟨by show 0 < a.val * b.val * c.val; positivity, ?_, fun m hm i => ?_, fun e x m hm hx i => ?_⟩
  · exact (((rel_self a).mul h hu (rel_self b)).mul h hu (rel_self c)).mono h hu (by norm_num)
  · fin_cases i <;> simp [prism, prismOf] <;> positivity
  · have sq : ∀ y z : Fl fl, Rel u 2 (y * y + z * z) (y.val * y.val + z.val * z.val) := fun y z =>
      Rel.add h hu (mul_self_nonneg _) (mul_self_nonneg _) ((rel_self y).mul h hu (rel_self y)) ((rel_self z).mul h hu (rel_self z))
    have go : ∀ y z : Fl fl, Rel u (e + 18) (x * (y * y + z * z) / (1 + 1 + 1 + 1 + 1 + 1 + 1 + 1 + 1 + 1 + 1 + 1))
        (m * (y.val * y.val + z.val * z.val) / (1 + 1 + 1 + 1 + 1 + 1 + 1 + 1 + 1 + 1 + 1 + 1)) := fun y z =>
      ((hx.mul h hu (sq y z)).div h hu (rel_twelve h hu)).mono h hu (by omega)
    fin_cases i
    · exact go b c
    · exact go a c
    · exact go a b

theorem near_sphere (h : Accurate fl u) (hu : u < 1) {r : Fl fl} (hr : 0 < r.val) :
    Solid.Near u 18 (sphereOf ⟨fl Real.pi⟩ r) (sphere r.val) := by
  have hp := Real.pi_pos
  refine ⟨?_, ?_, fun m hm i => ?_, fun e x m hm hx i => ?_⟩
  · show 0 < ((1 : ℝ) + 1 + 1 + 1) / (1 + 1 + 1) * Real.pi * r.val * r.val * r.val; positivity
  · exact (((((((rel_four h hu).div h hu (rel_three h hu)).mul h hu (rel_pi h hu)).mul h hu (rel_self r)).mul h hu (rel_self r)).mul h hu
      (rel_self r))).mono h hu (by norm_num)
  · fin_cases i <;> simp [sphere, sphereOf] <;> positivity
  · have go : Rel u (e + 18) ((1 + 1) / (1 + 1 + 1 + 1 + 1) * x * r * r) ((1 + 1) / (1 + 1 + 1 + 1 + 1) * m * r.val * r.val) :=
      (((((rel_two h hu).div h hu (rel_five h hu)).mul h hu hx).mul h hu (rel_self r)).mul h hu (rel_self r)).mono h hu (by omega)
    fin_cases i <;> exact go

theorem near_cylinder (h : Accurate fl u) (hu : u < 1) {r l : Fl fl} (hr : 0 < r.val) (hl : 0 < l.val) :
    Solid.Near u 18 (cylinderOf ⟨fl Real.pi⟩ r l) (cylinder r.val l.val) := by
  have hp := Real.pi_pos
  refine ⟨?_, ?_, fun m hm i => ?_, fun e x m hm hx i => ?_⟩
  · show 0 < Real.pi * r.val * r.val * l.val; positivity
  · exact ((((rel_pi h hu).mul h hu (rel_self r)).mul h hu (rel_self r)).mul h hu (rel_self l)).mono h hu (by norm_num)
  · fin_cases i <;> simp [cylinder, cylinderOf] <;> positivity
  · have sq : ∀ y : Fl fl, Rel u 1 (y * y) (y.val * y.val) := fun y => (rel_self y).mul h hu (rel_self y)
    have iz : Rel u (e + 18) (x * (r * r) * (1 / (1 + 1))) (m * (r.val * r.val) * (1 / (1 + 1))) :=
      ((hx.mul h hu (sq r)).mul h hu (rel_one.div h hu (rel_two h hu))).mono h hu (by omega)
    have ixy : Rel u (e + 18) ((x * (1 + 1 + 1) * (r * r) + x * (l * l)) / (1 + 1 + 1 + 1 + 1 + 1 + 1 + 1 + 1 + 1 + 1 + 1))
        ((m * (1 + 1 + 1) * (r.val * r.val) + m * (l.val * l.val)) / (1 + 1 + 1 + 1 + 1 + 1 + 1 + 1 + 1 + 1 + 1 + 1)) :=
      ((Rel.add h hu (d := e + 5) (by positivity) (mul_nonneg hm (mul_self_nonneg _))
        (((hx.mul h hu (rel_three h hu)).mul h hu (sq r)).mono h hu (by omega)) ((hx.mul h hu (sq l)).mono h hu (by omega))).div h hu
          (rel_twelve h hu)).mono h hu (by omega)
    fin_cases i
    · exact ixy
    · exact ixy
    · exact iz

/-! ## Combining -/

/-- A computed sum of three products. -/
theorem err_three (h : Accurate fl u) (hu : u < 1) {d : ℕ} {x y : Fin 3 → Fl fl} {s A : Fin 3 → ℝ}
    (hk : ∀ k, Err u d (x k * y k).val (s k) (A k)) :
    Err u (d + 3) ((List.finRange 3).foldl (fun acc k => acc + x k * y k) (0 : Fl fl)).val (∑ k, s k) (∑ k, A k) := by
  have h0 := accurate_nonneg h
  have e : (List.finRange 3).foldl (fun acc k => acc + x k * y k) (0 : Fl fl) = 0 + x 0 * y 0 + x 1 * y 1 + x 2 * y 2 := rfl
  have z : Err u d (0 : Fl fl).val 0 0 := err_zero d
  have h1 := err_add h hu z (hk 0)
  have h2 := err_add h hu h1 (Err.mono h0 hu (Nat.le_add_right d 1) (hk 1))
  have h3 := err_add h hu h2 (Err.mono h0 hu (Nat.le_add_right d 2) (hk 2))
  rw [e, Fin.sum_univ_three, Fin.sum_univ_three]
  simpa only [zero_add] using h3

theorem err_ite (i j : Fin 3) : Err u 0 ((if i = j then 1 else 0 : Fl fl)).val (if i = j then 1 else 0) (if i = j then 1 else 0) := by
  split_ifs
  · have := err_self (u := u) (1 : ℝ)
    rwa [abs_one] at this
  · exact err_zero 0

theorem err_parallel (h : Accurate fl u) (hu : u < 1) {e f g : ℕ} {icm : Mat (Fl fl) 3 3} {I A : Fin 3 → Fin 3 → ℝ} {x : Fl fl} {m : ℝ}
    {r : Fin 3 → Fl fl} {s S : Fin 3 → ℝ} (hi : ∀ i j, Err u e (icm i j).val (I i j) (A i j)) (hm : 0 ≤ m) (hx : Rel u f x m)
    (hr : ∀ i, Err u g (r i).val (s i) (S i)) (hle : 2 * g + f + 7 ≤ e) (i j : Fin 3) :
    Err u (e + 1) (parallelAxis icm x r i j).val (I i j + m * ((∑ k, s k * s k) * (if i = j then 1 else 0) - s i * s j))
      (A i j + m * ((∑ k, S k * S k) * (if i = j then 1 else 0) + S i * S j)) := by
  have h0 := accurate_nonneg h
  have e1 : parallelAxis icm x r i j = icm i j + ((if i = j then 1 else 0) * dot r r - r i * r j) * x := by
    unfold parallelAxis
    rw [(C23_entries icm _ 0 r r i j).1, (C23_entries _ icm x r r i j).2.2.2.1, (C23_entries _ _ x r r i j).2.1,
      (C23_entries _ icm _ r r i j).2.2.2.1, (C23_entries icm icm 0 r r i j).2.2.2.2.2.2.1, (C23_square icm r i j).1]
  have d1 : Err u (g + g + 1 + 3) (dot r r).val (∑ k, s k * s k) (∑ k, S k * S k) := by
    rw [C22_dot]
    exact err_three h hu fun k => err_mul h hu (hr k) (hr k)
  have d2 := err_mul h hu (err_ite (fl := fl) (u := u) i j) d1
  have d3 := err_mul h hu (hr i) (hr j)
  have d4 := err_sub h hu d2 (Err.mono h0 hu (by omega) d3)
  have d5 := err_mul h hu d4 (rel_err h0 hu hx)
  have d6 := err_add h hu (hi i j) (Err.mono h0 hu (by omega) d5)
  rw [e1]
  rw [abs_of_nonneg hm] at d6
  have q1 : I i j + ((if i = j then 1 else 0) * ∑ k, s k * s k - s i * s j) * m =
      I i j + m * ((∑ k, s k * s k) * (if i = j then 1 else 0) - s i * s j) := by ring
  have q2 : A i j + ((if i = j then 1 else 0) * ∑ k, S k * S k + S i * S j) * m =
      A i j + m * ((∑ k, S k * S k) * (if i = j then 1 else 0) + S i * S j) := by ring
  rw [← q1, ← q2]
  exact d6

/-- The size of the terms from which the inertia tensor of a part about the origin is summed. -/
noncomputable def Model.sizes (q : Model ℝ) (i j : Fin 3) : ℝ :=
  (∑ k, |q.rot i k| * q.solid.inertia (q.density * q.solid.volume) k * |q.rot j k|) +
    q.density * q.solid.volume * ((∑ k, |q.pos k| * |q.pos k|) * (if i = j then 1 else 0) + |q.pos i| * |q.pos j|)

theorem near_mass (h : Accurate fl u) (hu : u < 1) {d : ℕ} {p : Model (Fl fl)} {q : Model ℝ} (hp : p.Near u d q) :
    Rel u (d + 1) (p.density * p.solid.volume) (q.density * q.solid.volume) := by
  have := (rel_self (u := u) p.density).mul h hu hp.solid.vol
  rw [← hp.density, zero_add] at this
  exact this

theorem err_origin (h : Accurate fl u) (hu : u < 1) {d : ℕ} {p : Model (Fl fl)} {q : Model ℝ} (hp : p.Near u d q) (i j : Fin 3) :
    Err u (2 * d + 10) (p.inertiaOrigin i j).val (q.inertiaOrigin i j) (q.sizes i j) := by
  have h0 := accurate_nonneg h
  have hm0 : 0 < q.density * q.solid.volume := mul_pos hp.dens hp.solid.pos
  have hm := near_mass h hu hp
  have mom := hp.solid.mom _ _ _ hm0.le hm
  have hrot : ∀ i k, Err u 0 (p.rot i k).val (q.rot i k) |q.rot i k| := fun i k => by rw [hp.rot]; exact err_self _
  have first : ∀ i k, Err u (2 * d + 5) (mul p.rot (diag (p.solid.inertia (p.density * p.solid.volume))) i k).val
      (q.rot i k * q.solid.inertia (q.density * q.solid.volume) k) (|q.rot i k| * q.solid.inertia (q.density * q.solid.volume) k) := fun i k => by
    rw [mul_apply]
    have hd : ∀ l, Err u (2 * d + 1) (diag (p.solid.inertia (p.density * p.solid.volume)) l k).val
        (if l = k then q.solid.inertia (q.density * q.solid.volume) l else 0)
        (if l = k then q.solid.inertia (q.density * q.solid.volume) l else 0) := fun l => by
      rw [diag_apply]
      split_ifs
      · have := rel_err h0 hu (mom l)
        rw [abs_of_nonneg (hp.solid.nonneg _ hm0.le l)] at this
        exact Err.mono h0 hu (by omega) this
      · exact err_zero _
    have := err_three h hu fun l => err_mul h hu (hrot i l) (hd l)
    simp only [mul_ite, mul_zero, Finset.sum_ite_eq', Finset.mem_univ, if_true] at this
    exact Err.mono h0 hu (by omega) this
  have second : ∀ i j, Err u (2 * d + 9) (mul (mul p.rot (diag (p.solid.inertia (p.density * p.solid.volume)))) (transpose p.rot) i j).val
      (∑ k, q.rot i k * q.solid.inertia (q.density * q.solid.volume) k * q.rot j k)
      (∑ k, |q.rot i k| * q.solid.inertia (q.density * q.solid.volume) k * |q.rot j k|) := fun i j => by
    rw [mul_apply]
    refine Err.mono h0 hu (by omega) (err_three (d := 2 * d + 6) h hu fun k => ?_)
    rw [transpose_apply]
    exact Err.mono h0 hu (by omega) (err_mul h hu (first i k) (hrot j k))
  have := err_parallel h hu second hm0.le hm (g := 0) (s := q.pos) (S := fun k => |q.pos k|)
    (fun i => by rw [← hp.pos]; exact err_self _) (by omega) i j
  rw [origin_eq, Model.tensor]
  have e : (Matrix.of q.rot * Matrix.diagonal (q.solid.inertia (q.density * q.solid.volume)) * (Matrix.of q.rot).transpose) i j =
      ∑ k, q.rot i k * q.solid.inertia (q.density * q.solid.volume) k * q.rot j k := by
    rw [Matrix.mul_apply]
    refine Finset.sum_congr rfl fun k _ => ?_
    rw [Matrix.mul_diagonal, Matrix.of_apply, Matrix.transpose_apply, Matrix.of_apply]
  rw [e]
  exact this

theorem rel_dist (h : Accurate fl u) (hu : u < 1) {d : ℕ} {x : Fl fl} {s : ℝ} (hs : 0 < s) (hx : Rel u d x s) : |x.val - s| ≤ growth u d * s := by
  have := (rel_err (accurate_nonneg h) hu hx).1
  rwa [abs_of_pos hs] at this

/-- Everything that is computed when two parts are combined, with the size of the terms of each sum. -/
theorem add_near (h : Accurate fl u) (hu : u < 1) {d : ℕ} {p p' : Model (Fl fl)} {q q' : Model ℝ} (hp : p.Near u d q) (hp' : p'.Near u d q') :
    ∃ P Q, p.add p' = some P ∧ q.add q' = some Q ∧
      Q.volume = q.solid.volume + q'.solid.volume ∧ Q.mass = q.density * q.solid.volume + q'.density * q'.solid.volume ∧
      0 < Q.density ∧ Rel u (d + 1) P.volume Q.volume ∧ Rel u (d + 2) P.mass Q.mass ∧ Rel u (2 * d + 4) P.density Q.density ∧
      (∀ i, Err u (2 * d + 6) (P.com i).val (Q.com i)
        ((|q.pos i| * (q.density * q.solid.volume) + |q'.pos i| * (q'.density * q'.solid.volume)) / Q.mass)) ∧
      ∀ (S : Fin 3 → ℝ), (∀ i, S i = (|q.pos i| * (q.density * q.solid.volume) + |q'.pos i| * (q'.density * q'.solid.volume)) / Q.mass) →
        ∀ i j, Err u (5 * d + 24) (P.inertia i j).val (Q.inertia i j)
          (q.sizes i j + q'.sizes i j + Q.mass * ((∑ k, S k * S k) * (if i = j then 1 else 0) + S i * S j)) := by
  have h0 := accurate_nonneg h
  have hm := near_mass h hu hp
  have hm' := near_mass h hu hp'
  have m0 : 0 < q.density * q.solid.volume := mul_pos hp.dens hp.solid.pos
  have m0' : 0 < q'.density * q'.solid.volume := mul_pos hp'.dens hp'.solid.pos
  have hv : Rel u (d + 1) (p.solid.volume + p'.solid.volume) (q.solid.volume + q'.solid.volume) :=
    Rel.add h hu hp.solid.pos.le hp'.solid.pos.le hp.solid.vol hp'.solid.vol
  have hM : Rel u (d + 2) (p.density * p.solid.volume + p'.density * p'.solid.volume) (q.density * q.solid.volume + q'.density * q'.solid.volume) :=
    Rel.add h hu m0.le m0'.le hm hm'
  have v0 : 0 < q.solid.volume + q'.solid.volume := add_pos hp.solid.pos hp'.solid.pos
  have M0 : 0 < q.density * q.solid.volume + q'.density * q'.solid.volume := add_pos m0 m0'
  have t1 : ¬ (p.solid.volume ≤ 0 ∨ p'.solid.volume ≤ 0) := by
    rintro (e | e)
    · exact absurd (show p.solid.volume.val ≤ 0 from e) (not_le.2 (hp.solid.vol.pos hu hp.solid.pos))
    · exact absurd (show p'.solid.volume.val ≤ 0 from e) (not_le.2 (hp'.solid.vol.pos hu hp'.solid.pos))
  have t2 : ¬ (p.density * p.solid.volume + p'.density * p'.solid.volume ≤ 0 ∨ p.solid.volume + p'.solid.volume ≤ 0) := by
    rintro (e | e)
    · exact absurd (show (p.density * p.solid.volume + p'.density * p'.solid.volume).val ≤ 0 from e) (not_le.2 (hM.pos hu M0))
    · exact absurd (show (p.solid.volume + p'.solid.volume).val ≤ 0 from e) (not_le.2 (hv.pos hu v0))
  have t3 : ¬ (q.solid.volume ≤ 0 ∨ q'.solid.volume ≤ 0 ∨ q.density * q.solid.volume + q'.density * q'.solid.volume ≤ 0) := by
    simp only [not_or, not_le]; exact ⟨hp.solid.pos, hp'.solid.pos, M0⟩
  have eP := (show p.add p' = _ from if_neg t1).trans (if_neg t2)
  have eQ := (add_eq q q').trans (if_neg t3)
  have hcom : ∀ i, Err u (2 * d + 6) (vquot (vscale p.pos (p.density * p.solid.volume) + vscale p'.pos (p'.density * p'.solid.volume))
        (p.density * p.solid.volume + p'.density * p'.solid.volume) i).val
      ((q.pos i * (q.density * q.solid.volume) + q'.pos i * (q'.density * q'.solid.volume)) / (q.density * q.solid.volume + q'.density * q'.solid.volume))
      ((|q.pos i| * (q.density * q.solid.volume) + |q'.pos i| * (q'.density * q'.solid.volume)) /
        (q.density * q.solid.volume + q'.density * q'.solid.volume)) := fun i => by
    have c1 := err_mul h hu (err_self (u := u) (p.pos i).val) (rel_err h0 hu hm)
    have c2 := err_mul h hu (err_self (u := u) (p'.pos i).val) (rel_err h0 hu hm')
    rw [← hp.pos, abs_of_pos m0] at c1
    rw [← hp'.pos, abs_of_pos m0'] at c2
    have := err_div h hu (err_add h hu c1 c2) hM M0
    exact Err.mono h0 hu (by omega) this
  refine ⟨_, _, eP, eQ, rfl, rfl, div_pos M0 v0, hv, hM, (hM.div h hu hv).mono h hu (by omega), hcom, fun S hS i j => ?_⟩
  have o1 := err_origin h hu hp i j
  have o2 := err_origin h hu hp' i j
  have o3 := err_add h hu o1 o2
  have o4 := err_parallel h hu (e := 5 * d + 22) (icm := zeros 3 3) (I := fun _ _ => 0) (A := fun _ _ => 0) (fun i j => err_zero _) M0.le hM hcom (by omega) i j
  have o5 := err_sub h hu (Err.mono h0 hu (show 2 * d + 10 + 1 ≤ 5 * d + 22 + 1 by omega) o3) o4
  have hSf : S = _ := funext hS
  dsimp only
  rw [show Mat.sub (Mat.add p.inertiaOrigin p'.inertiaOrigin) (parallelAxis (zeros 3 3) (p.density * p.solid.volume + p'.density * p'.solid.volume)
      (vquot (vscale p.pos (p.density * p.solid.volume) + vscale p'.pos (p'.density * p'.solid.volume))
        (p.density * p.solid.volume + p'.density * p'.solid.volume))) i j = _ from
      (C23_entries _ _ (0 : Fl fl) (fun _ => 0) (fun _ => 0) i j).2.1, (C23_entries _ _ (0 : Fl fl) (fun _ => 0) (fun _ => 0) i j).1]
  simp only [zero_add] at o5
  rw [hSf]
  exact o5

/-- **C173**. Two parts made of shapes computed with `d` roundings (18 for all shapes, see `C173_shapes`) combine to a volume, mass and density
which are right up to a few roundings. The centre of mass is right up to a fraction of the distance of the parts from the origin. The error of
every entry of the inertia tensor is bounded by `5 d + 24` roundings of `2 (J + J') + 4 M ℓ²`, where `J` and `J'` bound the principal moments of the parts, `M` is
the mass and `ℓ` bounds the distance of the parts from the origin of the assembly.
Missing: the bound grows with the distance from the origin, although the inertia about the centre of mass does not; see `C173_fails`. -/
theorem C173_partial (h : Accurate fl u) (hu : u < 1) {d : ℕ} {p p' : Model (Fl fl)} {q q' : Model ℝ} (hp : p.Near u d q) (hp' : p'.Near u d q') :
    ∃ P Q, p.add p' = some P ∧ q.add q' = some Q ∧
      |P.volume.val - Q.volume| ≤ growth u (d + 1) * Q.volume ∧ |P.mass.val - Q.mass| ≤ growth u (d + 2) * Q.mass ∧
      |P.density.val - Q.density| ≤ growth u (2 * d + 4) * Q.density ∧
      ∀ ℓ : ℝ, 0 ≤ ℓ → ∑ i, q.pos i ^ 2 ≤ ℓ ^ 2 → ∑ i, q'.pos i ^ 2 ≤ ℓ ^ 2 →
        (∀ i, |(P.com i).val - Q.com i| ≤ growth u (2 * d + 6) * ℓ) ∧
        ∀ J J' : ℝ, (∀ i, q.solid.inertia (q.density * q.solid.volume) i ≤ J) → (∀ i, q'.solid.inertia (q'.density * q'.solid.volume) i ≤ J') →
          (∀ i, ∑ k, q.rot i k ^ 2 ≤ 2) → (∀ i, ∑ k, q'.rot i k ^ 2 ≤ 2) →
          ∀ i j, |(P.inertia i j).val - Q.inertia i j| ≤ growth u (5 * d + 24) * (2 * (J + J') + 4 * Q.mass * ℓ ^ 2) := by
  have h0 := accurate_nonneg h
  have m0 : 0 < q.density * q.solid.volume := mul_pos hp.dens hp.solid.pos
  have m0' : 0 < q'.density * q'.solid.volume := mul_pos hp'.dens hp'.solid.pos
  obtain ⟨P, Q, eP, eQ, eV, eM, pD, rV, rM, rD, hc, hI⟩ := add_near h hu hp hp'
  have V0 : 0 < Q.volume := by rw [eV]; exact add_pos hp.solid.pos hp'.solid.pos
  have M0 : 0 < Q.mass := by rw [eM]; exact add_pos m0 m0'
  refine ⟨P, Q, eP, eQ, rel_dist h hu V0 rV, rel_dist h hu M0 rM, rel_dist h hu pD rD, fun ℓ hℓ hq hq' => ?_⟩
  have coord : ∀ (r : Fin 3 → ℝ), ∑ i, r i ^ 2 ≤ ℓ ^ 2 → ∀ i, |r i| ≤ ℓ := fun r hr i => by
    refine abs_le_of_sq_le_sq ?_ hℓ
    exact (Finset.single_le_sum (f := fun i => r i ^ 2) (fun _ _ => sq_nonneg _) (Finset.mem_univ i)).trans hr
  generalize hmd : q.density * q.solid.volume = m at *
  generalize hmd' : q'.density * q'.solid.volume = m' at *
  obtain ⟨S, hS⟩ : ∃ S : Fin 3 → ℝ, ∀ i, S i = (|q.pos i| * m + |q'.pos i| * m') / Q.mass := ⟨_, fun _ => rfl⟩
  have S0 : ∀ i, 0 ≤ S i := fun i => by rw [hS]; positivity
  have Sℓ : ∀ i, S i ≤ ℓ := fun i => by
    rw [hS, div_le_iff₀ M0, eM]
    nlinarith only [mul_le_mul_of_nonneg_right (coord q.pos hq i) m0.le, mul_le_mul_of_nonneg_right (coord q'.pos hq' i) m0'.le]
  have SS : ∑ k, S k * S k ≤ ℓ ^ 2 := by
    have one : ∀ k, S k * S k ≤ (m / Q.mass) * q.pos k ^ 2 + (m' / Q.mass) * q'.pos k ^ 2 := fun k => by
      have e1 : m / Q.mass + m' / Q.mass = 1 := by rw [← add_div, eM, div_self (by linarith)]
      have e2 : S k = (m / Q.mass) * |q.pos k| + (m' / Q.mass) * |q'.pos k| := by rw [hS]; ring
      have w0 : 0 ≤ m / Q.mass := by positivity
      have w0' : 0 ≤ m' / Q.mass := by positivity
      rw [e2, ← sq_abs (q.pos k), ← sq_abs (q'.pos k)]
      generalize m / Q.mass = w at *
      generalize m' / Q.mass = w' at *
      have e3 : w' = 1 - w := by linarith
      subst e3
      nlinarith only [mul_nonneg (mul_nonneg w0 w0') (sq_nonneg (|q.pos k| - |q'.pos k|))]
    calc ∑ k, S k * S k ≤ ∑ k, ((m / Q.mass) * q.pos k ^ 2 + (m' / Q.mass) * q'.pos k ^ 2) := Finset.sum_le_sum fun k _ => one k
      _ = (m / Q.mass) * ∑ k, q.pos k ^ 2 + (m' / Q.mass) * ∑ k, q'.pos k ^ 2 := by rw [Finset.sum_add_distrib, Finset.mul_sum, Finset.mul_sum]
      _ ≤ (m / Q.mass) * ℓ ^ 2 + (m' / Q.mass) * ℓ ^ 2 := by gcongr
      _ = ℓ ^ 2 := by rw [← add_mul, ← add_div, ← eM, div_self M0.ne', one_mul]
  refine ⟨fun i => ?_, fun J J' hJ hJ' hR hR' i j => ?_⟩
  · refine (hc i).1.trans (mul_le_mul_of_nonneg_left ?_ (growth_pos h0 hu _))
    rw [← hS]
    exact Sℓ i
  · refine (hI S hS i j).1.trans (mul_le_mul_of_nonneg_left ?_ (growth_pos h0 hu _))
    have bound : ∀ (w : Model ℝ) (μ K : ℝ), 0 < μ → w.density * w.solid.volume = μ → ∑ i, w.pos i ^ 2 ≤ ℓ ^ 2 → (∀ i, w.solid.inertia μ i ≤ K) →
        (∀ i, 0 ≤ w.solid.inertia μ i) → (∀ i, ∑ k, w.rot i k ^ 2 ≤ 2) → w.sizes i j ≤ 2 * K + 2 * μ * ℓ ^ 2 := by
      intro w μ K hμ hw hpos hK hn hr
      unfold Model.sizes
      rw [hw]
      have b1 : ∑ k, |w.rot i k| * w.solid.inertia μ k * |w.rot j k| ≤ K * 2 := by
        have K0 : 0 ≤ K := (hn 0).trans (hK 0)
        have each : ∀ k, |w.rot i k| * w.solid.inertia μ k * |w.rot j k| ≤ K * ((w.rot i k ^ 2 + w.rot j k ^ 2) / 2) := fun k => by
          have a1 : |w.rot i k| * |w.rot j k| ≤ (w.rot i k ^ 2 + w.rot j k ^ 2) / 2 := by
            rw [← sq_abs (w.rot i k), ← sq_abs (w.rot j k)]
            nlinarith only [sq_nonneg (|w.rot i k| - |w.rot j k|)]
          calc |w.rot i k| * w.solid.inertia μ k * |w.rot j k| = w.solid.inertia μ k * (|w.rot i k| * |w.rot j k|) := by ring
            _ ≤ K * ((w.rot i k ^ 2 + w.rot j k ^ 2) / 2) := mul_le_mul (hK k) a1 (by positivity) K0
        refine (Finset.sum_le_sum fun k _ => each k).trans ?_
        rw [← Finset.mul_sum]
        refine mul_le_mul_of_nonneg_left ?_ K0
        rw [← Finset.sum_div, Finset.sum_add_distrib]
        linarith [hr i, hr j]
      have b2 : (∑ k, |w.pos k| * |w.pos k|) * (if i = j then 1 else 0) + |w.pos i| * |w.pos j| ≤ 2 * ℓ ^ 2 := by
        have c1 : ∑ k, |w.pos k| * |w.pos k| = ∑ k, w.pos k ^ 2 := Finset.sum_congr rfl fun k _ => by rw [abs_mul_abs_self, sq]
        have c2 : |w.pos i| * |w.pos j| ≤ ℓ * ℓ := mul_le_mul (coord _ hpos i) (coord _ hpos j) (abs_nonneg _) hℓ
        have c3 : 0 ≤ ∑ k, w.pos k ^ 2 := Finset.sum_nonneg fun _ _ => sq_nonneg _
        rw [c1]
        split_ifs <;> nlinarith only [c2, c3, hpos]
      have := mul_le_mul_of_nonneg_left b2 hμ.le
      linarith
    have b1 := bound q m J m0 hmd hq hJ (fun i => by rw [← hmd] at m0 ⊢; exact hp.solid.nonneg _ m0.le i) hR
    have b2 := bound q' m' J' m0' hmd' hq' hJ' (fun i => by rw [← hmd'] at m0' ⊢; exact hp'.solid.nonneg _ m0'.le i) hR'
    have b3 : (∑ k, S k * S k) * (if i = j then 1 else 0) + S i * S j ≤ 2 * ℓ ^ 2 := by
      have c2 : S i * S j ≤ ℓ * ℓ := mul_le_mul (Sℓ i) (Sℓ j) (S0 j) hℓ
      have c3 : 0 ≤ ∑ k, S k * S k := Finset.sum_nonneg fun k _ => mul_self_nonneg _
      split_ifs <;> nlinarith only [c2, c3, SS]
    have b4 := mul_le_mul_of_nonneg_left b3 M0.le
    rw [eM] at b4 ⊢
    linarith

/-- The shapes of the library are computed with at most 18 roundings. -/
theorem C173_shapes (h : Accurate fl u) (hu : u < 1) {a b c : Fl fl} (ha : 0 < a.val) (hb : 0 < b.val) (hc : 0 < c.val) :
    Solid.Near u 18 (prismOf a b c) (prism a.val b.val c.val) ∧ Solid.Near u 18 (sphereOf ⟨fl Real.pi⟩ a) (sphere a.val) ∧
      Solid.Near u 18 (cylinderOf ⟨fl Real.pi⟩ a b) (cylinder a.val b.val) :=
  ⟨near_prism h hu ha hb hc, near_sphere h hu ha, near_cylinder h hu ha hb⟩

/-! ## Far from the origin -/

/-- A cube of side one and density one, at distance `2 ^ 30` from the origin of the assembly. -/
noncomputable def farCube : Model (Fl fl) := ⟨prismOf 1 1 1, 1, identity 3, ![⟨2 ^ 30⟩, 0, 0]⟩

/-- The same cube in exact arithmetic. -/
noncomputable def farCubeExact : Model ℝ := ⟨prism 1 1 1, 1, identity 3, ![2 ^ 30, 0, 0]⟩

open Verif.Float in
/-- **C173** fails: two cubes at the same place far from the origin have the moment of inertia zero in `f64`; the true moment is 1/3. -/
theorem C173_fails (h : Nearest 53 fl) :
    ∃ P Q, (farCube (fl := fl)).add farCube = some P ∧ farCubeExact.add farCubeExact = some Q ∧
      (P.inertia 1 1).val = 0 ∧ Q.inertia 1 1 = 1 / 3 := by
  have hf : ∀ m : ℤ, |m| < 2 ^ 53 → fl m = m := fun m hm => h.fix ⟨m, 0, hm, by simp⟩
  have f0 : fl 0 = 0 := by simpa using hf 0 (by norm_num)
  have f1 : fl 1 = 1 := by simpa using hf 1 (by norm_num)
  have f2 : fl 2 = 2 := by simpa using hf 2 (by norm_num)
  have f3 : fl 3 = 3 := by simpa using hf 3 (by norm_num)
  have f4 : fl 4 = 4 := by simpa using hf 4 (by norm_num)
  have f5 : fl 5 = 5 := by simpa using hf 5 (by norm_num)
  have f6 : fl 6 = 6 := by simpa using hf 6 (by norm_num)
  have f7 : fl 7 = 7 := by simpa using hf 7 (by norm_num)
  have f8 : fl 8 = 8 := by simpa using hf 8 (by norm_num)
  have f9 : fl 9 = 9 := by simpa using hf 9 (by norm_num)
  have f10 : fl 10 = 10 := by simpa using hf 10 (by norm_num)
  have f11 : fl 11 = 11 := by simpa using hf 11 (by norm_num)
  have f12 : fl 12 = 12 := by simpa using hf 12 (by norm_num)
  have g30 : fl 1073741824 = 1073741824 := by simpa using hf 1073741824 (by norm_num)
  have g31 : fl 2147483648 = 2147483648 := by simpa using hf 2147483648 (by norm_num)
  have g60 : fl 1152921504606846976 = 1152921504606846976 := h.fix ⟨1, 60, by norm_num, by norm_num⟩
  have g61 : fl 2305843009213693952 = 2305843009213693952 := h.fix ⟨1, 61, by norm_num, by norm_num⟩
  obtain ⟨x, hx⟩ : ∃ x, x = fl (1 / 6) := ⟨_, rfl⟩
  have x0 : 0 ≤ x := by have := h.mono (show (0 : ℝ) ≤ 1 / 6 by norm_num); rwa [f0, ← hx] at this
  have x1 : x ≤ 1 := by have := h.mono (show (1 : ℝ) / 6 ≤ 1 by norm_num); rwa [f1, ← hx] at this
  have fx : fl x = x := by rw [hx]; exact h.fix (h.float _)
  have far : fl (x + 1152921504606846976) = 1152921504606846976 := by
    have := h.eq_grid (by norm_num) (x := x + 1152921504606846976) (k := 60) (m := 2 ^ 52) (by norm_num; linarith) (by norm_num)
      (by norm_num [abs_lt]; constructor <;> linarith)
    rw [this]; norm_num
  have add' : ∀ a b : ℝ, (⟨a⟩ + ⟨b⟩ : Fl fl) = ⟨fl (a + b)⟩ := fun _ _ => rfl
  have sub' : ∀ a b : ℝ, (⟨a⟩ - ⟨b⟩ : Fl fl) = ⟨fl (a - b)⟩ := fun _ _ => rfl
  have mul' : ∀ a b : ℝ, (⟨a⟩ * ⟨b⟩ : Fl fl) = ⟨fl (a * b)⟩ := fun _ _ => rfl
  have div' : ∀ a b : ℝ, (⟨a⟩ / ⟨b⟩ : Fl fl) = ⟨fl (a / b)⟩ := fun _ _ => rfl
  have one' : (1 : Fl fl) = ⟨1⟩ := rfl
  have zero' : (0 : Fl fl) = ⟨0⟩ := rfl
  have le' : ∀ a b : ℝ, ((⟨a⟩ : Fl fl) ≤ ⟨b⟩) = (a ≤ b) := fun _ _ => rfl
  have vol : (prismOf 1 1 1 : Solid (Fl fl)).volume = ⟨1⟩ := by
    show (1 * 1 * 1 : Fl fl) = _
    simp only [one', mul', f1, mul_one]
  have zmul : ∀ y : Fl fl, 0 * y = 0 := fun y => by
    show (⟨fl (0 * y.val)⟩ : Fl fl) = _
    rw [zero_mul, f0]; rfl
  have mulz : ∀ y : Fl fl, y * 0 = 0 := fun y => by
    show (⟨fl (y.val * 0)⟩ : Fl fl) = _
    rw [mul_zero, f0]; rfl
  have par : ∀ (icm : Mat (Fl fl) 3 3) (m : Fl fl), parallelAxis icm m ![⟨2 ^ 30⟩, 0, 0] 1 1 = icm 1 1 + ⟨1152921504606846976⟩ * m := fun icm m => by
    unfold parallelAxis
    rw [(C23_entries icm _ 0 (fun _ => 0) (fun _ => 0) 1 1).1, (C23_entries _ icm m (fun _ => 0) (fun _ => 0) 1 1).2.2.2.1,
      (C23_entries _ _ m (fun _ => 0) (fun _ => 0) 1 1).2.1, (C23_entries _ icm _ (fun _ => 0) (fun _ => 0) 1 1).2.2.2.1,
      (C23_entries icm icm 0 _ _ 1 1).2.2.2.2.2.2.1, (C23_square icm (fun _ => 0) 1 1).1, C22_dot]
    congr 2
    show (1 : Fl fl) * (0 + ⟨2 ^ 30⟩ * ⟨2 ^ 30⟩ + 0 * 0 + 0 * 0) - 0 * 0 = _
    simp only [one', zero', mul', add', sub']
    norm_num [f0, g60]
  have mom : (prismOf 1 1 1 : Solid (Fl fl)).inertia ⟨1⟩ 1 = ⟨x⟩ := by
    show ((⟨1⟩ : Fl fl) * (1 * 1 + 1 * 1) / (1 + 1 + 1 + 1 + 1 + 1 + 1 + 1 + 1 + 1 + 1 + 1)) = _
    simp only [one', mul', add', div']
    norm_num [f1, f2, f3, f4, f5, f6, f7, f8, f9, f10, f11, f12, hx]
  have rot : mul (mul (identity 3) (diag ((prismOf 1 1 1 : Solid (Fl fl)).inertia ⟨1⟩))) (transpose (identity 3)) 1 1 = (⟨x⟩ : Fl fl) := by
    have i10 : (identity 3 : Mat (Fl fl) 3 3) 1 0 = 0 := by rw [identity_apply, if_neg (by decide)]
    have i11 : (identity 3 : Mat (Fl fl) 3 3) 1 1 = 1 := by rw [identity_apply, if_pos rfl]
    have i12 : (identity 3 : Mat (Fl fl) 3 3) 1 2 = 0 := by rw [identity_apply, if_neg (by decide)]
    have first : mul (identity 3) (diag ((prismOf 1 1 1 : Solid (Fl fl)).inertia ⟨1⟩)) 1 1 = (⟨x⟩ : Fl fl) := by
      rw [mul_apply]
      show 0 + identity 3 1 0 * diag _ 0 1 + identity 3 1 1 * diag _ 1 1 + identity 3 1 2 * diag _ 2 1 = _
      rw [i10, i11, i12, show ∀ d : Fin 3 → Fl fl, diag d 1 1 = d 1 from fun d => by rw [diag_apply, if_pos rfl], mom, zmul, zmul, one', zero', mul',
        add', add', add']
      simp only [f0, fx, add_zero, zero_add, one_mul]
    rw [mul_apply]
    show 0 + mul (identity 3) _ 1 0 * transpose (identity 3) 0 1 + mul (identity 3) _ 1 1 * transpose (identity 3) 1 1 +
      mul (identity 3) _ 1 2 * transpose (identity 3) 2 1 = _
    rw [transpose_apply, transpose_apply, transpose_apply, i10, i11, i12, first, mulz, mulz, one', zero', mul', add', add', add']
    simp only [f0, fx, add_zero, zero_add, mul_one]
  have mass : (1 : Fl fl) * (prismOf 1 1 1 : Solid (Fl fl)).volume = ⟨1⟩ := by
    rw [vol, one', mul', mul_one, f1]
  have org : (farCube (fl := fl)).inertiaOrigin 1 1 = ⟨1152921504606846976⟩ := by
    show parallelAxis (mul (mul (identity 3) (diag ((prismOf 1 1 1 : Solid (Fl fl)).inertia (1 * (prismOf 1 1 1 : Solid (Fl fl)).volume))))
      (transpose (identity 3))) (1 * (prismOf 1 1 1 : Solid (Fl fl)).volume) ![⟨2 ^ 30⟩, 0, 0] 1 1 = _
    rw [mass, par, rot, mul', mul_one, g60, add', far]
  have com : vquot (vscale (farCube (fl := fl)).pos ⟨1⟩ + vscale (farCube (fl := fl)).pos ⟨1⟩) ⟨2⟩ = ![⟨2 ^ 30⟩, 0, 0] := by
    funext i
    show ((farCube (fl := fl)).pos i * ⟨1⟩ + (farCube (fl := fl)).pos i * ⟨1⟩) / ⟨2⟩ = _
    fin_cases i
    · show ((⟨2 ^ 30⟩ : Fl fl) * ⟨1⟩ + ⟨2 ^ 30⟩ * ⟨1⟩) / ⟨2⟩ = ⟨2 ^ 30⟩
      rw [mul', add', div']
      norm_num [g30, g31]
    all_goals
      show ((0 : Fl fl) * ⟨1⟩ + 0 * ⟨1⟩) / ⟨2⟩ = 0
      rw [zmul, zero', add', div']
      norm_num [f0]
  have t1 : ¬ ((farCube (fl := fl)).solid.volume ≤ 0 ∨ (farCube (fl := fl)).solid.volume ≤ 0) := by
    show ¬ ((prismOf 1 1 1 : Solid (Fl fl)).volume ≤ 0 ∨ (prismOf 1 1 1 : Solid (Fl fl)).volume ≤ 0)
    rw [vol, zero', le']; norm_num
  have em : (farCube (fl := fl)).density * (farCube (fl := fl)).solid.volume + (farCube (fl := fl)).density * (farCube (fl := fl)).solid.volume = ⟨2⟩ := by
    show 1 * (prismOf 1 1 1 : Solid (Fl fl)).volume + 1 * (prismOf 1 1 1 : Solid (Fl fl)).volume = _
    rw [mass, add']; norm_num [f2]
  have t2 : ¬ ((farCube (fl := fl)).density * (farCube (fl := fl)).solid.volume + (farCube (fl := fl)).density * (farCube (fl := fl)).solid.volume ≤ 0 ∨
      (farCube (fl := fl)).solid.volume + (farCube (fl := fl)).solid.volume ≤ 0) := by
    rw [em]
    show ¬ (_ ∨ (prismOf 1 1 1 : Solid (Fl fl)).volume + (prismOf 1 1 1 : Solid (Fl fl)).volume ≤ 0)
    rw [vol, zero', add', le', le']; norm_num [f2]
  have t3 : ¬ (farCubeExact.solid.volume ≤ 0 ∨ farCubeExact.solid.volume ≤ 0 ∨
      farCubeExact.density * farCubeExact.solid.volume + farCubeExact.density * farCubeExact.solid.volume ≤ 0) := by
    norm_num [farCubeExact, prism, prismOf]
  refine ⟨_, _, (show farCube.add farCube = _ from if_neg t1).trans (if_neg t2), (add_eq _ _).trans (if_neg t3), ?_, ?_⟩
  · dsimp only
    rw [(C23_entries _ _ (0 : Fl fl) (fun _ => 0) (fun _ => 0) 1 1).2.1, (C23_entries _ _ (0 : Fl fl) (fun _ => 0) (fun _ => 0) 1 1).1, org, em]
    rw [show (farCube (fl := fl)).density * (farCube (fl := fl)).solid.volume = ⟨1⟩ from mass, com, par]
    show (_ - ((0 : Fl fl) + _)).val = 0
    rw [mul', add', zero', add', sub']
    norm_num [g61, f0]
  · dsimp only
    rw [origin_eq]
    have hI : Matrix.of (identity 3 : Mat ℝ 3 3) = 1 := by ext i j; rw [Matrix.of_apply, identity_apply, Matrix.one_apply]
    simp only [Model.tensor, farCubeExact, hI, one_mul, Matrix.transpose_one, mul_one, Fin.sum_univ_three, Matrix.diagonal_apply_eq]
    norm_num [prism, prismOf, Matrix.cons_val_two, Matrix.vecHead, Matrix.vecTail]

-- The hypotheses are met: a block of density 7 one metre from the origin, in double precision.
open Verif.Float in
example : Accurate (rnd 53) (2 ^ (-(53 : ℕ) : ℤ)) ∧ (2 : ℝ) ^ (-(53 : ℕ) : ℤ) < 1 ∧
    Model.Near (2 ^ (-(53 : ℕ) : ℤ)) 18 (⟨prismOf ⟨1⟩ ⟨2⟩ ⟨3⟩, ⟨7⟩, identity 3, ![⟨1⟩, 0, 0]⟩ : Model (Fl (rnd 53)))
      ⟨prism 1 2 3, 7, identity 3, ![1, 0, 0]⟩ := by
  have h : Accurate (rnd 53) (2 ^ (-(53 : ℕ) : ℤ)) := (rnd_nearest (by norm_num)).accurate (by norm_num)
  have hu : (2 : ℝ) ^ (-(53 : ℕ) : ℤ) < 1 := by norm_num
  refine ⟨h, hu, (C173_shapes h hu (a := ⟨1⟩) (b := ⟨2⟩) (c := ⟨3⟩) (by norm_num) (by norm_num) (by norm_num)).1, rfl, fun i j => ?_, fun i => ?_, by norm_num⟩
  · dsimp only; rw [identity_apply, identity_apply]
    split_ifs <;> rfl
  · fin_cases i <;> rfl

end Verif.Shapes
