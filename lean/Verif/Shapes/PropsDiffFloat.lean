import Verif.Shapes.PropsMassFloat

/-!
# C205: taking one part out of another in floating-point arithmetic

The arithmetic and the notion of a part computed with `d` roundings are those of `PropsMassFloat.lean`. What is left after a subtraction may be much
smaller than what it was taken from: `κ` is the ratio of the sum of the two parts to their difference.
-/

namespace Verif.Shapes

open Verif.Mat Verif.Simd Verif.Round Verif.Stats

variable {fl : ℝ → ℝ} {u : ℝ}

/-! ## Lemmas -/

/-- `a` is `s` up to the fraction `α` of the size `A`, which bounds `s`. -/
def Clo (A α : ℝ) (a s : ℝ) : Prop := |s| ≤ A ∧ |a - s| ≤ α * A

theorem Clo.nonneg {A α a s : ℝ} (h : Clo A α a s) : 0 ≤ A := (abs_nonneg _).trans h.1

theorem Clo.size {A α a s : ℝ} (h : Clo A α a s) : |a| ≤ (1 + α) * A := by
  have := abs_sub_abs_le_abs_sub a s
  linarith [h.1, h.2]

theorem Clo.mono {A α β a s : ℝ} (h : Clo A α a s) (hb : α ≤ β) : Clo A β a s :=
  ⟨h.1, h.2.trans (mul_le_mul_of_nonneg_right hb h.nonneg)⟩

theorem Clo.round (h : Accurate fl u) {A α a s : ℝ} (ha : Clo A α a s) : Clo A (α + u * (1 + α)) (fl a) s := by
  refine ⟨ha.1, ?_⟩
  have h1 := h a
  have h2 := mul_le_mul_of_nonneg_left ha.size (accurate_nonneg h)
  rw [show fl a - s = (fl a - a) + (a - s) by ring]
  refine (abs_add_le _ _).trans ?_
  linarith [ha.2]

section
variable {η : ℝ}

theorem Clo.step (h : Accurate fl u) (hη : u ≤ η) (h1 : η ≤ 1 / 100) {A a c x s : ℝ} (ha0 : 0 ≤ a) (ha : Clo A (a * η) x s) (hc : a + 1 + a / 100 ≤ c) :
    Clo A (c * η) (fl x) s := by
  refine (Clo.round h ha).mono ?_
  have h0 := accurate_nonneg h
  have e1 : u * (1 + a * η) ≤ η * (1 + a / 100) := mul_le_mul hη (by nlinarith only [ha0, h1]) (by nlinarith only [ha0, h0, hη, mul_nonneg ha0 (h0.trans hη)]) (h0.trans hη)
  nlinarith only [e1, mul_le_mul_of_nonneg_right hc (h0.trans hη)]

theorem Clo.add' (h : Accurate fl u) (hη : u ≤ η) (h1 : η ≤ 1 / 100) {A B a c : ℝ} (ha0 : 0 ≤ a) {x y : Fl fl} {s t : ℝ} (ha : Clo A (a * η) x.val s)
    (hb : Clo B (a * η) y.val t) (hc : a + 1 + a / 100 ≤ c) : Clo (A + B) (c * η) (x + y).val (s + t) := by
  refine Clo.step h hη h1 ha0 (x := x.val + y.val) ⟨(abs_add_le _ _).trans (add_le_add ha.1 hb.1), ?_⟩ hc
  rw [mul_add, show x.val + y.val - (s + t) = (x.val - s) + (y.val - t) by ring]
  exact (abs_add_le _ _).trans (add_le_add ha.2 hb.2)

theorem Clo.sub' (h : Accurate fl u) (hη : u ≤ η) (h1 : η ≤ 1 / 100) {A B a c : ℝ} (ha0 : 0 ≤ a) {x y : Fl fl} {s t : ℝ} (ha : Clo A (a * η) x.val s)
    (hb : Clo B (a * η) y.val t) (hc : a + 1 + a / 100 ≤ c) : Clo (A + B) (c * η) (x - y).val (s - t) := by
  refine Clo.step h hη h1 ha0 (x := x.val - y.val) ⟨(abs_sub _ _).trans (add_le_add ha.1 hb.1), ?_⟩ hc
  rw [mul_add, show x.val - y.val - (s - t) = (x.val - s) - (y.val - t) by ring]
  exact (abs_sub _ _).trans (add_le_add ha.2 hb.2)

theorem Clo.mul' (h : Accurate fl u) (hη : u ≤ η) (h1 : η ≤ 1 / 100) {A B a b c : ℝ} (ha0 : 0 ≤ a) (hb0 : 0 ≤ b) {x y : Fl fl} {s t : ℝ}
    (ha : Clo A (a * η) x.val s) (hb : Clo B (b * η) y.val t)
    (hc : (a + b + a * b / 100) + 1 + (a + b + a * b / 100) / 100 ≤ c) : Clo (A * B) (c * η) (x * y).val (s * t) := by
  have hn : 0 ≤ η := (accurate_nonneg h).trans hη
  have A0 := ha.nonneg
  have B0 := hb.nonneg
  refine Clo.step h hη h1 (a := a + b + a * b / 100) (by positivity) (x := x.val * y.val) ⟨by rw [abs_mul]; exact mul_le_mul ha.1 hb.1 (abs_nonneg _) A0, ?_⟩ hc
  rw [show x.val * y.val - s * t = (x.val - s) * (y.val - t) + (x.val - s) * t + s * (y.val - t) by ring]
  refine (abs_add_three _ _ _).trans ?_
  rw [abs_mul, abs_mul, abs_mul]
  have m1 := mul_le_mul ha.2 hb.2 (abs_nonneg _) (by positivity)
  have m2 := mul_le_mul ha.2 hb.1 (abs_nonneg _) (by positivity)
  have m3 := mul_le_mul ha.1 hb.2 (abs_nonneg _) A0
  have m4 : a * η * A * (b * η * B) ≤ a * b / 100 * η * (A * B) := by
    have : η * (a * b * η * (A * B)) ≤ 1 / 100 * (a * b * η * (A * B)) := mul_le_mul_of_nonneg_right h1 (by positivity)
    linarith
  linarith

theorem Clo.div' (h : Accurate fl u) (hη : u ≤ η) (h1 : η ≤ 1 / 100) {A : ℝ} {x y : Fl fl} {s t : ℝ} (ht : 0 < t)
    (ha : Clo A (1 * η) x.val s) (hb : Clo t (1 * η) y.val t) : Clo (A / t) (3.05 * η) (x / y).val (s / t) := by
  have hn : 0 ≤ η := (accurate_nonneg h).trans hη
  have A0 := ha.nonneg
  have hy : t * (99 / 100) ≤ y.val := by
    have := (abs_le.1 hb.2).1
    nlinarith only [this, mul_le_mul_of_nonneg_right h1 ht.le]
  have y0 : 0 < y.val := by linarith
  refine Clo.step h hη h1 (a := 200 / 99) (by norm_num) (x := x.val / y.val) ⟨by rw [abs_div, abs_of_pos ht]; gcongr; exact ha.1, ?_⟩ (by norm_num)
  have e : x.val / y.val - s / t = ((x.val - s) * t - s * (y.val - t)) / (y.val * t) := by field_simp; ring
  rw [e, abs_div, abs_of_pos (mul_pos y0 ht), div_le_iff₀ (mul_pos y0 ht)]
  have m1 : |(x.val - s) * t| ≤ 1 * η * A * t := by rw [abs_mul, abs_of_pos ht]; exact mul_le_mul_of_nonneg_right ha.2 ht.le
  have m2 : |s * (y.val - t)| ≤ A * (1 * η * t) := by rw [abs_mul]; exact mul_le_mul ha.1 hb.2 (abs_nonneg _) A0
  refine (abs_sub _ _).trans ?_
  have m3 : 200 / 99 * η * (A / t) * (y.val * t) = 200 / 99 * η * A * y.val := by field_simp
  have m4 := mul_le_mul_of_nonneg_left hy (show 0 ≤ 200 / 99 * η * A by positivity)
  rw [m3]
  linarith

/-- The parallel-axis term about a point within `L` whose coordinates are known up to `3.05 η L`. -/
theorem Clo.parallel (h : Accurate fl u) (hη : u ≤ η) (h1 : η ≤ 1 / 100) {L m : ℝ} {x : Fl fl} {r : Fin 3 → Fl fl} {s : Fin 3 → ℝ}
    (hx : Clo m (1 * η) x.val m) (hr : ∀ i, Clo L (3.05 * η) (r i).val (s i)) (i j : Fin 3) :
    Clo (4 * L ^ 2 * m) (16.3 * η) (parallelAxis (zeros 3 3) x r i j).val (m * ((∑ k, s k * s k) * (if i = j then 1 else 0) - s i * s j)) := by
  have hn : 0 ≤ η := (accurate_nonneg h).trans hη
  have e1 : parallelAxis (zeros 3 3) x r i j = 0 + ((if i = j then 1 else 0) * dot r r - r i * r j) * x := by
    unfold parallelAxis
    rw [(C23_entries (zeros 3 3) _ 0 r r i j).1, (C23_entries _ (zeros 3 3) x r r i j).2.2.2.1, (C23_entries _ _ x r r i j).2.1,
      (C23_entries _ (zeros 3 3) _ r r i j).2.2.2.1, (C23_entries (zeros 3 3) (zeros 3 3) 0 r r i j).2.2.2.2.2.2.1, (C23_square (zeros 3 3) r i j).1]
    rfl
  have z : ∀ a : ℝ, Clo 0 (a * η) (0 : Fl fl).val 0 := fun a => by
    show |(0 : ℝ)| ≤ 0 ∧ |(0 : ℝ) - 0| ≤ a * η * 0
    simp
  have pr : ∀ a b, Clo (L * L) (7.3 * η) (r a * r b).val (s a * s b) := fun a b =>
    Clo.mul' h hη h1 (by norm_num) (by norm_num) (hr a) (hr b) (by norm_num)
  have wd : ∀ {A α β a s : ℝ}, Clo A (α * η) a s → α ≤ β → Clo A (β * η) a s := fun hc hab => hc.mono (mul_le_mul_of_nonneg_right hab hn)
  have d1 : Clo (0 + L * L + L * L + L * L) (10.6 * η) (dot r r).val (0 + s 0 * s 0 + s 1 * s 1 + s 2 * s 2) := by
    rw [C22_dot]
    have q1 := Clo.add' h hη h1 (by norm_num) (z 7.3) (pr 0 0) (c := 8.38) (by norm_num)
    have q2 := Clo.add' h hη h1 (by norm_num) q1 (wd (pr 1 1) (by norm_num)) (c := 9.47) (by norm_num)
    exact Clo.add' h hη h1 (by norm_num) q2 (wd (pr 2 2) (by norm_num)) (c := 10.6) (by norm_num)
  have ite : Clo 1 (0 * η) ((if i = j then 1 else 0 : Fl fl)).val (if i = j then 1 else 0) := by
    split_ifs
    · show |(1 : ℝ)| ≤ 1 ∧ |(1 : ℝ) - 1| ≤ _
      simp
    · show |(0 : ℝ)| ≤ 1 ∧ |(0 : ℝ) - 0| ≤ _
      simp
  have d2 := Clo.mul' h hη h1 le_rfl (by norm_num) ite d1 (c := 11.71) (by norm_num)
  have d3 := Clo.sub' h hη h1 (by norm_num) d2 (wd (pr i j) (by norm_num)) (c := 12.83) (by norm_num)
  have d4 := Clo.mul' h hη h1 (by norm_num) (by norm_num) d3 hx (c := 15.1) (by norm_num)
  have d5 := Clo.add' h hη h1 (by norm_num) (z 15.1) d4 (c := 16.3) (by norm_num)
  rw [e1]
  rw [show m * ((∑ k, s k * s k) * (if i = j then 1 else 0) - s i * s j) =
      0 + ((if i = j then 1 else 0) * (0 + s 0 * s 0 + s 1 * s 1 + s 2 * s 2) - s i * s j) * m by rw [Fin.sum_univ_three]; ring,
    show 4 * L ^ 2 * m = 0 + (1 * (0 + L * L + L * L + L * L) + L * L) * m by ring]
  exact d5

end

theorem sizes_le {w : Model ℝ} {μ K ℓ : ℝ} (hμ : 0 < μ) (hw : w.density * w.solid.volume = μ) (hℓ : 0 ≤ ℓ) (hpos : ∑ i, w.pos i ^ 2 ≤ ℓ ^ 2)
    (hK : ∀ i, w.solid.inertia μ i ≤ K) (hn : ∀ i, 0 ≤ w.solid.inertia μ i) (hr : ∀ i, ∑ k, w.rot i k ^ 2 ≤ 2) (i j : Fin 3) :
    w.sizes i j ≤ 2 * K + 2 * μ * ℓ ^ 2 := by
  have coord : ∀ i, |w.pos i| ≤ ℓ := fun i => by
    refine abs_le_of_sq_le_sq ?_ hℓ
    exact (Finset.single_le_sum (f := fun i => w.pos i ^ 2) (fun _ _ => sq_nonneg _) (Finset.mem_univ i)).trans hpos
  unfold Model.sizes
  rw [hw]
  have b1 : ∑ k, |w.rot i k| * w.solid.inertia μ k * |w.rot j k| ≤ K * 2 := by
    have K0 : 0 ≤ K := (hn 0).trans (hK 0)
    have each : ∀ k, |w.rot i k| * w.solid.inertia μ k * |w.rot j k| ≤ K * ((w.rot i k ^ 2 + w.rot j k ^ 2) / 2) := fun k => by
      have a1 : |w.rot i k| * |w.rot j k| ≤ (w.rot i k ^ 2 + w.rot j k ^ 2) / 2 := by
        rw [← sq_abs (w.rot i k), ← sq_abs (w.rot j k)]
        nlinarith only [sq_nonneg (|w.rot i k| - |w.rot j k|)]
      calc |w.rot i k| * w.solid.inertia μ k * |w.rot j k| = w.solid.inertia μ k * (|w.rot i k| * |w.rot j k|) := by ring
        _ ≤ K * ((w.rot i k ^ 2 + w.rot j k ^ 2) / 2) := mul_le_mul (hK k) a1 (by positivity) K0
    refine (Finset.sum_le_sum fun k _ => each k).trans ?_
    rw [← Finset.mul_sum]
    refine mul_le_mul_of_nonneg_left ?_ K0
    rw [← Finset.sum_div, Finset.sum_add_distrib]
    linarith [hr i, hr j]
  have b2 : (∑ k, |w.pos k| * |w.pos k|) * (if i = j then 1 else 0) + |w.pos i| * |w.pos j| ≤ 2 * ℓ ^ 2 := by
    have c1 : ∑ k, |w.pos k| * |w.pos k| = ∑ k, w.pos k ^ 2 := Finset.sum_congr rfl fun k _ => by rw [abs_mul_abs_self, sq]
    have c2 : |w.pos i| * |w.pos j| ≤ ℓ * ℓ := mul_le_mul (coord i) (coord j) (abs_nonneg _) hℓ
    have c3 : 0 ≤ ∑ k, w.pos k ^ 2 := Finset.sum_nonneg fun _ _ => sq_nonneg _
    rw [c1]
    split_ifs <;> nlinarith only [c2, c3, hpos]
  have := mul_le_mul_of_nonneg_left b2 hμ.le
  linarith

theorem last_step (h : Accurate fl u) {g η S L m x t B D : ℝ} {X T : Fl fl} (ug : u ≤ g) (gη : g ≤ η) (hη : η ≤ 1 / 100)
    (h1 : |X.val - x| ≤ g * S) (h2 : |x| ≤ S) (hT : Clo (4 * L ^ 2 * m) (16.3 * η) T.val t)
    (hS : g * S ≤ 2 * (g * B) + 2 * (η * D)) (hD : 0 ≤ D) (e : D = m * L ^ 2 := by rfl) :
    |(X - T).val - (x - t)| ≤ 5 * g * B + 75 * η * D := by
  have h0 := accurate_nonneg h
  have g0 := h0.trans ug
  have S0 : 0 ≤ S := (abs_nonneg _).trans h2
  have r1 : |(X - T).val - (X.val - T.val)| ≤ u * |X.val - T.val| := h (X.val - T.val)
  have r2 : |X.val| ≤ (1 + g) * S := by
    have := abs_sub_abs_le_abs_sub X.val x
    linarith
  have r3 := hT.size
  have hT2 := hT.2
  rw [show 4 * L ^ 2 * m = 4 * D by rw [e]; ring] at r3 hT2
  have r4 : u * |X.val - T.val| ≤ g * ((1 + g) * S) + η * ((1 + 16.3 * η) * (4 * D)) := by
    refine (mul_le_mul_of_nonneg_left ((abs_sub _ _).trans (add_le_add r2 r3)) h0).trans ?_
    rw [mul_add]
    have p1 : 0 ≤ (1 + g) * S := (abs_nonneg _).trans r2
    have p2 : 0 ≤ (1 + 16.3 * η) * (4 * D) := (abs_nonneg _).trans r3
    exact add_le_add (mul_le_mul_of_nonneg_right ug p1) (mul_le_mul_of_nonneg_right (ug.trans gη) p2)
  have r5 : g * (g * S) ≤ 1 / 100 * (g * S) := mul_le_mul_of_nonneg_right (gη.trans hη) (mul_nonneg g0 S0)
  have r6 : η * (η * D) ≤ 1 / 100 * (η * D) := mul_le_mul_of_nonneg_right hη (mul_nonneg (g0.trans gη) hD)
  have gs := mul_nonneg g0 S0
  have gd := mul_nonneg (g0.trans gη) hD
  rw [show (X - T).val - (x - t) = ((X - T).val - (X.val - T.val)) + ((X.val - x) + (t - T.val)) by ring]
  have r7 := abs_add_le ((X - T).val - (X.val - T.val)) ((X.val - x) + (t - T.val))
  have r8 := abs_add_le (X.val - x) (t - T.val)
  rw [abs_sub_comm t] at r8
  linarith

/-! ## C205 -/

/-- **C205**. Part `o` with part `n` taken out of it, both computed with `d` roundings (18 for all shapes). `κ` bounds the ratio of the sum of the two masses
to their difference, and the same for the volumes; `ℓ` bounds the distance of the parts from the origin of the assembly, `c` that of what is left. When `5 d + 24`
roundings, multiplied by `κ`, amount to at most one hundredth, the computation succeeds, and the volume, mass and density of what is left are right up to that
fraction (three times it for the density); the centre of mass is right up to that fraction of `ℓ + c`; and so is the inertia tensor, up to
that fraction of `M (ℓ + c)²`, and `5 d + 24` roundings of the principal moments `J` and `J'` of the parts. -/
theorem C205_difference (h : Accurate fl u) (hu : u < 1) {d : ℕ} {p p' : Model (Fl fl)} {o n : Model ℝ} (hp : p.Near u d o) (hp' : p'.Near u d n)
    {κ : ℝ} (hv : n.solid.volume < o.solid.volume) (hvκ : o.solid.volume + n.solid.volume ≤ κ * (o.solid.volume - n.solid.volume))
    (hm : n.density * n.solid.volume < o.density * o.solid.volume)
    (hmκ : o.density * o.solid.volume + n.density * n.solid.volume ≤ κ * (o.density * o.solid.volume - n.density * n.solid.volume))
    (hκ : growth u (5 * d + 24) * κ ≤ 1 / 100) :
    ∃ P Q, p.sub p' = some P ∧ o.sub n = some Q ∧
      |P.volume.val - Q.volume| ≤ growth u (5 * d + 24) * κ * Q.volume ∧ |P.mass.val - Q.mass| ≤ growth u (5 * d + 24) * κ * Q.mass ∧
      |P.density.val - Q.density| ≤ 3.05 * (growth u (5 * d + 24) * κ) * Q.density ∧
      ∀ ℓ c : ℝ, 0 ≤ ℓ → 0 ≤ c → ∑ i, o.pos i ^ 2 ≤ ℓ ^ 2 → ∑ i, n.pos i ^ 2 ≤ ℓ ^ 2 → ∑ i, Q.com i ^ 2 ≤ c ^ 2 →
        (∀ i, |(P.com i).val - Q.com i| ≤ 3.05 * (growth u (5 * d + 24) * κ) * (ℓ + c)) ∧
        ∀ J J' : ℝ, (∀ i, o.solid.inertia (o.density * o.solid.volume) i ≤ J) → (∀ i, n.solid.inertia (n.density * n.solid.volume) i ≤ J') →
          (∀ i, ∑ k, o.rot i k ^ 2 ≤ 2) → (∀ i, ∑ k, n.rot i k ^ 2 ≤ 2) →
          ∀ i j, |(P.inertia i j).val - Q.inertia i j| ≤
            5 * growth u (5 * d + 24) * (J + J') + 75 * (growth u (5 * d + 24) * κ) * (Q.mass * (ℓ + c) ^ 2) := by
  have h0 := accurate_nonneg h
  have rm := near_mass h hu hp
  have rm' := near_mass h hu hp'
  have m0 : 0 < o.density * o.solid.volume := mul_pos hp.dens hp.solid.pos
  have m0' : 0 < n.density * n.solid.volume := mul_pos hp'.dens hp'.solid.pos
  have v0 := hp.solid.pos
  have v0' := hp'.solid.pos
  have hv1 := err_sub h hu (rel_err h0 hu hp.solid.vol) (rel_err h0 hu hp'.solid.vol)
  have hm1 := err_sub h hu (rel_err h0 hu rm) (rel_err h0 hu rm')
  rw [abs_of_pos v0, abs_of_pos v0'] at hv1
  rw [abs_of_pos m0, abs_of_pos m0'] at hm1
  have hv2 := Err.mono h0 hu (show d + 1 ≤ 5 * d + 24 by omega) hv1
  have hm2 := Err.mono h0 hu (show d + 1 + 1 ≤ 5 * d + 24 by omega) hm1
  have oO := err_origin h hu hp
  have oN := err_origin h hu hp'
  have oS : ∀ i j, Err u (5 * d + 24) (p.inertiaOrigin i j - p'.inertiaOrigin i j).val (o.inertiaOrigin i j - n.inertiaOrigin i j)
      (o.sizes i j + n.sizes i j) := fun i j => Err.mono h0 hu (by omega) (err_sub h hu (oO i j) (oN i j))
  have hnum : ∀ i, Err u (5 * d + 24) (p.pos i * (p.density * p.solid.volume) - p'.pos i * (p'.density * p'.solid.volume)).val
      (o.pos i * (o.density * o.solid.volume) - n.pos i * (n.density * n.solid.volume))
      (|o.pos i| * (o.density * o.solid.volume) + |n.pos i| * (n.density * n.solid.volume)) := fun i => by
    have c1 := err_mul h hu (err_self (u := u) (p.pos i).val) (rel_err h0 hu rm)
    have c2 := err_mul h hu (err_self (u := u) (p'.pos i).val) (rel_err h0 hu rm')
    rw [← hp.pos, abs_of_pos m0] at c1
    rw [← hp'.pos, abs_of_pos m0'] at c2
    exact Err.mono h0 hu (by omega) (err_sub h hu c1 c2)
  have ug : u ≤ growth u (5 * d + 24) := by
    have e1 : (1 - u) ^ (5 * d + 24) ≤ (1 - u) ^ 1 := pow_le_pow_of_le_one (by linarith) (by linarith) (by omega)
    have e2 := inv_anti₀ (pow_pos (by linarith : 0 < 1 - u) _) e1
    have e3 : 1 + u ≤ ((1 - u) ^ 1)⁻¹ := by
      rw [pow_one, ← one_div, le_div_iff₀ (by linarith)]
      nlinarith only [sq_nonneg u]
    unfold growth
    linarith
  have g0 := growth_pos h0 hu (5 * d + 24)
  have hv3 := hv2.1
  have hm3 := hm2.1
  have oS1 := fun i j => (oS i j).1
  have oS2 := fun i j => (oS i j).2
  have hnum1 := fun i => (hnum i).1
  clear hv1 hm1 hv2 hm2 oO oN oS hnum
  generalize growth u (5 * d + 24) = g at *
  have κ1 : 1 ≤ κ := by
    by_contra hk
    have := mul_lt_mul_of_pos_right (not_le.1 hk) (sub_pos.2 hv)
    linarith
  have gη : g ≤ g * κ := le_mul_of_one_le_right g0 κ1
  have uη : u ≤ g * κ := ug.trans gη
  have V0 : 0 < o.solid.volume - n.solid.volume := sub_pos.2 hv
  have M0 : 0 < o.density * o.solid.volume - n.density * n.solid.volume := sub_pos.2 hm
  have cv : Clo (o.solid.volume - n.solid.volume) (1 * (g * κ)) (p.solid.volume - p'.solid.volume).val (o.solid.volume - n.solid.volume) := by
    refine ⟨(abs_of_pos V0).le, hv3.trans ?_⟩
    rw [one_mul, mul_assoc]
    exact mul_le_mul_of_nonneg_left hvκ g0
  have cm : Clo (o.density * o.solid.volume - n.density * n.solid.volume) (1 * (g * κ))
      (p.density * p.solid.volume - p'.density * p'.solid.volume).val (o.density * o.solid.volume - n.density * n.solid.volume) := by
    refine ⟨(abs_of_pos M0).le, hm3.trans ?_⟩
    rw [one_mul, mul_assoc]
    exact mul_le_mul_of_nonneg_left hmκ g0
  have posOf : ∀ {t x : ℝ}, 0 < t → Clo t (1 * (g * κ)) x t → 0 < x := fun {t x} ht hc => by
    have := (abs_le.1 hc.2).1
    nlinarith only [this, mul_le_mul_of_nonneg_right hκ ht.le, ht]
  have t1 : ¬ (p.solid.volume ≤ 0 ∨ p'.solid.volume ≤ 0) := by
    rintro (e | e)
    · exact absurd (show p.solid.volume.val ≤ 0 from e) (not_le.2 (hp.solid.vol.pos hu hp.solid.pos))
    · exact absurd (show p'.solid.volume.val ≤ 0 from e) (not_le.2 (hp'.solid.vol.pos hu hp'.solid.pos))
  have t2 : ¬ (p.density * p.solid.volume - p'.density * p'.solid.volume ≤ 0 ∨ p.solid.volume - p'.solid.volume ≤ 0) := by
    rintro (e | e)
    · exact absurd (show (p.density * p.solid.volume - p'.density * p'.solid.volume).val ≤ 0 from e) (not_le.2 (posOf M0 cm))
    · exact absurd (show (p.solid.volume - p'.solid.volume).val ≤ 0 from e) (not_le.2 (posOf V0 cv))
  have t3 : ¬ (o.solid.volume ≤ 0 ∨ n.solid.volume ≤ 0 ∨ o.density * o.solid.volume - n.density * n.solid.volume ≤ 0 ∨
      o.solid.volume - n.solid.volume ≤ 0) := by
    simp only [not_or, not_le]; exact ⟨v0, v0', M0, V0⟩
  have eP := (show p.sub p' = _ from if_neg t1).trans (if_neg t2)
  have eQ := (sub_eq o n).trans (if_neg t3)
  refine ⟨_, _, eP, eQ, by rw [← one_mul (g * κ)]; exact cv.2, by rw [← one_mul (g * κ)]; exact cm.2, (Clo.div' h uη hκ V0 cm cv).2,
    fun ℓ c hℓ hc ho hn hcom => ?_⟩
  dsimp only at hcom ⊢
  have coord : ∀ (w : Fin 3 → ℝ) (b : ℝ), 0 ≤ b → ∑ i, w i ^ 2 ≤ b ^ 2 → ∀ i, |w i| ≤ b := fun w b hb hw i => by
    refine abs_le_of_sq_le_sq ?_ hb
    exact (Finset.single_le_sum (f := fun i => w i ^ 2) (fun _ _ => sq_nonneg _) (Finset.mem_univ i)).trans hw
  have ccom : ∀ i, Clo (ℓ + c) (3.05 * (g * κ))
      (vquot (vscale p.pos (p.density * p.solid.volume) - vscale p'.pos (p'.density * p'.solid.volume))
        (p.density * p.solid.volume - p'.density * p'.solid.volume) i).val
      ((o.pos i * (o.density * o.solid.volume) - n.pos i * (n.density * n.solid.volume)) /
        (o.density * o.solid.volume - n.density * n.solid.volume)) := fun i => by
    have cn : Clo ((ℓ + c) * (o.density * o.solid.volume - n.density * n.solid.volume)) (1 * (g * κ))
        (p.pos i * (p.density * p.solid.volume) - p'.pos i * (p'.density * p'.solid.volume)).val
        (o.pos i * (o.density * o.solid.volume) - n.pos i * (n.density * n.solid.volume)) := by
      constructor
      · have := coord _ c hc hcom i
        rw [abs_div, abs_of_pos M0, div_le_iff₀ M0] at this
        nlinarith only [this, mul_nonneg hℓ M0.le]
      · refine (hnum1 i).trans ?_
        have a1 := mul_le_mul_of_nonneg_right (coord _ ℓ hℓ ho i) m0.le
        have a2 := mul_le_mul_of_nonneg_right (coord _ ℓ hℓ hn i) m0'.le
        have a3 := mul_le_mul_of_nonneg_left hmκ hℓ
        have a4 : |o.pos i| * (o.density * o.solid.volume) + |n.pos i| * (n.density * n.solid.volume) ≤
            κ * ((ℓ + c) * (o.density * o.solid.volume - n.density * n.solid.volume)) := by
          have := mul_nonneg (mul_nonneg (by linarith : (0 : ℝ) ≤ κ) hc) M0.le
          linarith
        have := mul_le_mul_of_nonneg_left a4 g0
        linarith
    have := Clo.div' h uη hκ M0 cn cm
    rw [mul_div_cancel_right₀ _ M0.ne'] at this
    exact this
  refine ⟨fun i => (ccom i).2, fun J J' hJ hJ' hR hR' i j => ?_⟩
  have cp := Clo.parallel h uη hκ cm ccom i j
  have s1 := sizes_le m0 rfl hℓ ho hJ (fun i => hp.solid.nonneg _ m0.le i) hR i j
  have s2 := sizes_le m0' rfl hℓ hn hJ' (fun i => hp'.solid.nonneg _ m0'.le i) hR' i j
  have iS1 := oS1 i j
  have iS2 := oS2 i j
  rw [(C23_entries _ _ (0 : Fl fl) (fun _ => 0) (fun _ => 0) i j).2.1, (C23_entries _ _ (0 : Fl fl) (fun _ => 0) (fun _ => 0) i j).2.1]
  refine last_step h ug gη hκ iS1 iS2 cp ?_ (g := g) (mul_nonneg M0.le (sq_nonneg (ℓ + c)))
  have q1 : g * (o.density * o.solid.volume + n.density * n.solid.volume) ≤ g * κ * (o.density * o.solid.volume - n.density * n.solid.volume) := by
    rw [mul_assoc]; exact mul_le_mul_of_nonneg_left hmκ g0
  have q2 := mul_le_mul_of_nonneg_right q1 (sq_nonneg ℓ)
  have q3 : ℓ ^ 2 ≤ (ℓ + c) ^ 2 := by nlinarith only [hℓ, hc]
  have q4 := mul_le_mul_of_nonneg_left q3 (mul_nonneg (g0.trans gη) M0.le)
  have q5 := mul_le_mul_of_nonneg_left (add_le_add s1 s2) g0
  linarith

-- The hypotheses are met: a block 1 × 2 × 3 of density 7, with a block 1/2 × 1 × 1 of the same density taken out of it, in double precision.
open Verif.Float in
example : ∃ p p' : Model (Fl (rnd 53)), ∃ o n : Model ℝ, Accurate (rnd 53) (2 ^ (-(53 : ℕ) : ℤ)) ∧ (2 : ℝ) ^ (-(53 : ℕ) : ℤ) < 1 ∧
    Model.Near (2 ^ (-(53 : ℕ) : ℤ)) 18 p o ∧ Model.Near (2 ^ (-(53 : ℕ) : ℤ)) 18 p' n ∧ n.solid.volume < o.solid.volume ∧
    o.solid.volume + n.solid.volume ≤ 2 * (o.solid.volume - n.solid.volume) ∧ n.density * n.solid.volume < o.density * o.solid.volume ∧
    o.density * o.solid.volume + n.density * n.solid.volume ≤ 2 * (o.density * o.solid.volume - n.density * n.solid.volume) ∧
    growth (2 ^ (-(53 : ℕ) : ℤ)) (5 * 18 + 24) * 2 ≤ 1 / 100 := by
  have h : Accurate (rnd 53) (2 ^ (-(53 : ℕ) : ℤ)) := (rnd_nearest (by norm_num)).accurate (by norm_num)
  have hu : (2 : ℝ) ^ (-(53 : ℕ) : ℤ) < 1 := by norm_num
  refine ⟨⟨prismOf ⟨1⟩ ⟨2⟩ ⟨3⟩, ⟨7⟩, identity 3, ![⟨1⟩, 0, 0]⟩, ⟨prismOf ⟨1 / 2⟩ ⟨1⟩ ⟨1⟩, ⟨7⟩, identity 3, ![⟨1⟩, 0, 0]⟩,
    ⟨prism 1 2 3, 7, identity 3, ![1, 0, 0]⟩, ⟨prism (1 / 2) 1 1, 7, identity 3, ![1, 0, 0]⟩, h, hu,
    ⟨(C173_shapes h hu (a := ⟨1⟩) (b := ⟨2⟩) (c := ⟨3⟩) (by norm_num) (by norm_num) (by norm_num)).1, rfl, fun i j => ?_, fun i => ?_, by norm_num⟩,
    ⟨(C173_shapes h hu (a := ⟨1 / 2⟩) (b := ⟨1⟩) (c := ⟨1⟩) (by norm_num) (by norm_num) (by norm_num)).1, rfl, fun i j => ?_, fun i => ?_, by norm_num⟩,
    ?_, ?_, ?_, ?_, ?_⟩
  · dsimp only; rw [identity_apply, identity_apply]
    split_ifs <;> rfl
  · fin_cases i <;> rfl
  · dsimp only; rw [identity_apply, identity_apply]
    split_ifs <;> rfl
  · fin_cases i <;> rfl
  · norm_num [prism, prismOf]
  · norm_num [prism, prismOf]
  · norm_num [prism, prismOf]
  · norm_num [prism, prismOf]
  · have b := one_add_mul_le_pow (show (-2 : ℝ) ≤ -(2 : ℝ) ^ (-(53 : ℕ) : ℤ) by norm_num) (5 * 18 + 24)
    have b1 : (999 / 1000 : ℝ) ≤ (1 - (2 : ℝ) ^ (-(53 : ℕ) : ℤ)) ^ (5 * 18 + 24) := by
      rw [sub_eq_add_neg]
      refine le_trans ?_ b
      norm_num
    have b2 := inv_anti₀ (by norm_num) b1
    unfold growth
    have : (999 / 1000 : ℝ)⁻¹ = 1000 / 999 := by norm_num
    linarith

end Verif.Shapes
