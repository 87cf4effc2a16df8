import Verif.Geom.Lemmas
import Mathlib.Analysis.SpecialFunctions.Trigonometric.Bounds

/-! # C126: integrating an attitude in rounded arithmetic -/

namespace Verif.Geom

open Verif.Simd (Fl Accurate)
open Verif.Round
open Verif.Att (Quat)

variable {fl : ℝ → ℝ} {u : ℝ} {m : Nat} {sn cs : ℝ → ℝ}

/-- The computed product of quaternions. -/
theorem mul_near (h : Accurate fl u) (hu : u < 1) (p q : Quat (Fl fl)) :
    qdist (qval (p.mul q)) ((qval p).mul (qval q)) ≤ 2 * (growth u 4 * (qlen (qval p) * qlen (qval q))) := by
  have c := cauchy4 (qval p) (qval q)
  have r : ∀ x : Fl fl, Near u 0 |x.val| x.val x.val := fun x => Near.refl x.val
  have m : ∀ x y : Fl fl, Near u 1 (|x.val| * |y.val|) (x * y).val (x.val * y.val) := fun x y => (r x).rmul h hu (r y)
  have g := growth_nonneg h hu 4
  have perm : ∀ q' : Quat ℝ, qlen q' = qlen (qval q) →
      |p.w.val| * |q'.w| + |p.i.val| * |q'.i| + |p.j.val| * |q'.j| + |p.k.val| * |q'.k| ≤ qlen (qval p) * qlen (qval q) :=
    fun q' hq => by
      have := cauchy4 (qval p) q'
      rwa [hq] at this
  have p1 := perm ⟨q.i.val, q.w.val, q.k.val, q.j.val⟩ (by unfold qlen qval; congr 1; ring)
  have p2 := perm ⟨q.j.val, q.k.val, q.w.val, q.i.val⟩ (by unfold qlen qval; congr 1; ring)
  have p3 := perm ⟨q.k.val, q.j.val, q.i.val, q.w.val⟩ (by unfold qlen qval; congr 1; ring)
  refine qdist_le ?_ ?_ ?_ ?_
  · exact ((((m p.w q.w).rsub h hu (m p.i q.i) le_rfl).rsub h hu (m p.j q.j) (by norm_num)).rsub h hu (m p.k q.k)
      (by norm_num)).2.trans (mul_le_mul_of_nonneg_left c g)
  · exact ((((m p.w q.i).radd h hu (m p.i q.w) le_rfl).radd h hu (m p.j q.k) (by norm_num)).rsub h hu (m p.k q.j)
      (by norm_num)).2.trans (mul_le_mul_of_nonneg_left p1 g)
  · exact ((((m p.w q.j).rsub h hu (m p.i q.k) le_rfl).radd h hu (m p.j q.w) (by norm_num)).radd h hu (m p.k q.i)
      (by norm_num)).2.trans (mul_le_mul_of_nonneg_left p2 g)
  · exact ((((m p.w q.k).radd h hu (m p.i q.j) le_rfl).rsub h hu (m p.j q.i) (by norm_num)).radd h hu (m p.k q.w)
      (by norm_num)).2.trans (mul_le_mul_of_nonneg_left p3 g)

/-- The functions of rounded arithmetic: square root, the library's sine and cosine, and the constant one half. -/
noncomputable def flFns (fl sn cs : ℝ → ℝ) : Fns (Fl fl) := ⟨rsqrt, lift sn, lift cs, ⟨1 / 2⟩⟩

/-- The relative error of one component of the increment of a step that turns by the angle `2 h`. -/
noncomputable def stepError (u : ℝ) (m : Nat) (h : ℝ) : ℝ := (1 + growth u 5) * (1 + growth u m + growth u 5 * |h|) - 1

/-- The factor by which one step may enlarge the error. -/
noncomputable def stepFactor (u : ℝ) (m : Nat) (h : ℝ) : ℝ := (1 + 2 * growth u 4) * (1 + 2 * stepError u m h)

/-- Half the angle turned in a step at the rate `w`. -/
noncomputable def halfAngle (s : (Fin 3 → Fl fl) × Fl fl) : ℝ := len (valV s.1) * s.2.val / 2

theorem mat_norm (w : Fin 3 → ℝ) : Mat.norm Real.sqrt w = len w := by
  unfold len
  rw [Fin.sum_univ_three]
  show √(0 + w 0 * w 0 + w 1 * w 1 + w 2 * w 2) = _
  congr 1
  ring

/-- A library function at a perturbed argument. -/
theorem library_near (h : Accurate fl u) (hu : u < 1) {f g : ℝ → ℝ} (hf : Library u m f g) (hg : ∀ x, |g x| ≤ 1)
    (hl : ∀ x y, |g x - g y| ≤ |x - y|) (x y : ℝ) : |f x - g y| ≤ growth u m + |x - y| := by
  have h1 := hf x
  have h2 := hg x
  have h3 := hl x y
  have h4 := growth_nonneg h hu m
  have h5 : |f x - g y| ≤ |f x - g x| + |g x - g y| := abs_sub_le _ _ _
  nlinarith

theorem stepError_nonneg (h : Accurate fl u) (hu : u < 1) (x : ℝ) : 0 ≤ stepError u m x := by
  have h1 := growth_nonneg h hu 5
  have h2 := growth_nonneg h hu m
  have h3 := abs_nonneg x
  unfold stepError
  nlinarith [mul_nonneg h1 h2, mul_nonneg h1 h3, mul_nonneg h1 (mul_nonneg h1 h3)]

/-- The computed increment of a step. -/
theorem increment_near (h : Accurate fl u) (hu : u < 1) (hs : Library u m sn Real.sin) (hc : Library u m cs Real.cos)
    (w : Fin 3 → Fl fl) (t : Fl fl) :
    qdist (qval (ofAngularVelocity (flFns fl sn cs) w t)) (Quat.ofAngularVelocity (valV w) t.val) ≤
      2 * stepError u m (halfAngle (w, t)) := by
  set E := stepError u m (halfAngle (w, t)) with hE
  have hE0 : 0 ≤ E := stepError_nonneg h hu _
  have hmag : Rel u 3 (Mat.norm rsqrt w).val (len (valV w)) := norm_rel h hu w
  unfold ofAngularVelocity Quat.ofAngularVelocity
  rw [mat_norm]
  by_cases h0 : len (valV w) = 0
  · have : Mat.norm (flFns fl sn cs).sqrt w = 0 := by
      obtain ⟨t, _, _, _, e⟩ := hmag
      rw [h0, zero_mul] at e
      have : ∀ a : Fl fl, a.val = 0 → a = 0 := fun a ha => by
        cases a
        exact congrArg _ ha
      exact this _ e
    rw [if_pos h0, if_pos this]
    have e : qdist (qval (Quat.identity : Quat (Fl fl))) Quat.identity = 0 := by
      simp [qdist, qlen, qval, Quat.identity]
    rw [e]
    linarith
  · have : ¬ Mat.norm (flFns fl sn cs).sqrt w = 0 := by
      intro hz
      obtain ⟨t, ht, _, _, e⟩ := hmag
      have hz' : (Mat.norm rsqrt w).val = 0 := congrArg Fl.val hz
      rw [hz'] at e
      exact (mul_ne_zero h0 ht.ne') e.symm
    rw [if_neg h0, if_neg this]
    have hang : Rel u 5 (Mat.norm rsqrt w * t * (⟨1 / 2⟩ : Fl fl)).val (len (valV w) * t.val * (1 / 2)) :=
      ((((hmag.mul hu (Rel.refl t.val)).round h hu).mul hu (Rel.refl (1 / 2))).round h hu)
    set a := (Mat.norm rsqrt w * t * (⟨1 / 2⟩ : Fl fl)).val with ha
    set b := len (valV w) * t.val * (1 / 2) with hb
    have hab : |a - b| ≤ growth u 5 * |b| := (hang.near h hu).2
    have hbh : b = halfAngle (w, t) := by rw [hb]; unfold halfAngle; ring
    have e1 : |sn a - Real.sin b| ≤ growth u m + growth u 5 * |b| :=
      (library_near h hu hs Real.abs_sin_le_one (fun x y => by
        simpa [Real.norm_eq_abs] using Real.abs_sin_sub_sin_le x y) a b).trans (by linarith)
    have e2 : |cs a - Real.cos b| ≤ growth u m + growth u 5 * |b| :=
      (library_near h hu hc Real.abs_cos_le_one (fun x y => by
        simpa [Real.norm_eq_abs] using Real.abs_cos_sub_cos_le x y) a b).trans (by linarith)
    have g5 := growth_nonneg h hu 5
    have gm := growth_nonneg h hu m
    have hEd : E = (1 + growth u 5) * (1 + growth u m + growth u 5 * |b|) - 1 := by rw [hE, ← hbh]; rfl
    have comp : ∀ i, |fl ((w i / Mat.norm rsqrt w).val * sn a) - valV w i / len (valV w) * Real.sin b| ≤ E := by
      intro i
      have hx : Rel u 4 (w i / Mat.norm rsqrt w).val (valV w i / len (valV w)) :=
        ((Rel.refl (w i).val).div hu hmag).round h hu
      set x := valV w i / len (valV w) with hxdef
      have hx1 : |x| ≤ 1 := by
        rw [hxdef, abs_div, abs_of_nonneg (len_nonneg _)]
        exact div_le_one_of_le₀ (abs_le_len _ _) (len_nonneg _)
      have n1 := (hx.mul hu (Rel.refl (sn a))).round h hu
      rw [show 4 + 0 + 1 = 5 from rfl] at n1
      have n2 := (n1.near h hu).2
      have n3 : |sn a| ≤ 1 + growth u m + growth u 5 * |b| := by
        have : |sn a| ≤ |sn a - Real.sin b| + |Real.sin b| := by
          calc |sn a| = abs ((sn a - Real.sin b) + Real.sin b) := by ring_nf
            _ ≤ _ := abs_add_le _ _
        linarith [Real.abs_sin_le_one b]
      have n4 : |x * sn a| ≤ 1 + growth u m + growth u 5 * |b| := by
        rw [abs_mul]
        exact (mul_le_of_le_one_left (abs_nonneg _) hx1).trans n3
      have n5 : |x * sn a - x * Real.sin b| ≤ growth u m + growth u 5 * |b| := by
        rw [← mul_sub, abs_mul]
        exact (mul_le_of_le_one_left (abs_nonneg _) hx1).trans e1
      have n6 : |fl ((w i / Mat.norm rsqrt w).val * sn a) - x * Real.sin b| ≤ _ :=
        abs_sub_le _ (x * sn a) _
      refine n6.trans ?_
      rw [hEd]
      nlinarith [mul_le_mul_of_nonneg_left n4 g5]
    have e3 : |cs a - Real.cos b| ≤ E := by
      refine e2.trans ?_
      rw [hEd]
      nlinarith [mul_nonneg g5 gm, mul_nonneg g5 (mul_nonneg g5 (abs_nonneg b))]
    exact qdist_le e3 (comp 0) (comp 1) (comp 2)

/-- Exact steps keep the length. -/
theorem increment_unit (w : Fin 3 → ℝ) (t : ℝ) : qlen (Quat.ofAngularVelocity w t) = 1 := by
  unfold Quat.ofAngularVelocity
  rw [mat_norm]
  by_cases h0 : len w = 0
  · rw [if_pos h0]
    simp [qlen, Quat.identity]
  · rw [if_neg h0]
    unfold qlen Verif.Mat.vdiv
    have hl := len_sq w
    rw [Fin.sum_univ_three] at hl
    have : ∀ x : ℝ, Real.cos x ^ 2 + (w 0 / len w * Real.sin x) ^ 2 + (w 1 / len w * Real.sin x) ^ 2 +
        (w 2 / len w * Real.sin x) ^ 2 = 1 := by
      intro x
      have e : (w 0 / len w) ^ 2 + (w 1 / len w) ^ 2 + (w 2 / len w) ^ 2 = 1 := by
        rw [div_pow, div_pow, div_pow, ← add_div, ← add_div, ← hl, div_self (by positivity)]
      linear_combination Real.sin x ^ 2 * e + Real.sin_sq_add_cos_sq x
    rw [this, Real.sqrt_one]

theorem mul_sub_left (p p' q : Quat ℝ) : qdist (p.mul q) (p'.mul q) = qdist p p' * qlen q := by
  unfold qdist
  rw [← qlen_mul]
  unfold qlen
  congr 1
  simp only [Quat.mul]
  ring

theorem mul_sub_right (p q q' : Quat ℝ) : qdist (p.mul q) (p.mul q') = qlen p * qdist q q' := by
  unfold qdist
  rw [← qlen_mul]
  unfold qlen
  congr 1
  simp only [Quat.mul]
  ring

/-- One step: the error with the length added grows by the step's factor. -/
theorem step_error (h : Accurate fl u) (hu : u < 1) (hs : Library u m sn Real.sin) (hc : Library u m cs Real.cos)
    (q : Quat (Fl fl)) (r : Quat ℝ) (s : (Fin 3 → Fl fl) × Fl fl) :
    qdist (qval (integrateRotation (flFns fl sn cs) q s.1 s.2)) (Att.integrateRotation r (valV s.1) s.2.val) + qlen r ≤
      stepFactor u m (halfAngle s) * (qdist (qval q) r + qlen r) := by
  have e1 := increment_near h hu hs hc s.1 s.2
  have un := increment_unit (valV s.1) s.2.val
  unfold integrateRotation Att.integrateRotation
  generalize hd : ofAngularVelocity (flFns fl sn cs) s.1 s.2 = d at e1
  generalize Quat.ofAngularVelocity (valV s.1) s.2.val = x at e1 un
  have e2 := mul_near h hu d q
  have e3 := mul_sub_left (qval d) x (qval q)
  have e4 := mul_sub_right x (qval q) r
  rw [un, one_mul] at e4
  have t1 := qdist_triangle (qval (d.mul q)) ((qval d).mul (qval q)) (x.mul r)
  have t2 := qdist_triangle ((qval d).mul (qval q)) (x.mul (qval q)) (x.mul r)
  have l1 : qlen (qval d) ≤ 1 + 2 * stepError u m (halfAngle (s.1, s.2)) := by
    have := (abs_le.1 (qlen_sub_le (qval d) x)).2
    linarith
  have l2 : qlen (qval q) ≤ qlen r + qdist (qval q) r := by
    have := (abs_le.1 (qlen_sub_le (qval q) r)).2
    linarith
  have g4 := growth_nonneg h hu 4
  have gE := stepError_nonneg (m := m) h hu (halfAngle (s.1, s.2))
  have q0 := qlen_nonneg (qval q)
  have m1 : qlen (qval d) * qlen (qval q) ≤ (1 + 2 * stepError u m (halfAngle (s.1, s.2))) * qlen (qval q) :=
    mul_le_mul_of_nonneg_right l1 q0
  have m2 := mul_le_mul_of_nonneg_left m1 g4
  have m3 := mul_le_mul_of_nonneg_right e1 q0
  have fac : stepFactor u m (halfAngle (s.1, s.2)) - 1 = 2 * growth u 4 * (1 + 2 * stepError u m (halfAngle (s.1, s.2))) +
      2 * stepError u m (halfAngle (s.1, s.2)) := by unfold stepFactor; ring
  have fac0 : 0 ≤ stepFactor u m (halfAngle (s.1, s.2)) - 1 := by rw [fac]; positivity
  have m4 := mul_le_mul_of_nonneg_left l2 fac0
  rw [fac] at m4
  change _ ≤ stepFactor u m (halfAngle (s.1, s.2)) * _
  nlinarith

/-- **C126**: after any history of rates and time steps the computed attitude is the exactly integrated one up to a
relative error that each step multiplies by `stepFactor`: about `2·4 + 2·(5 + m + 5 h)` roundings per step. -/
theorem C126_history (h : Accurate fl u) (hu : u < 1) (hs : Library u m sn Real.sin) (hc : Library u m cs Real.cos)
    (q : Quat (Fl fl)) (steps : List ((Fin 3 → Fl fl) × Fl fl)) :
    qdist (qval (steps.foldl (fun q s => integrateRotation (flFns fl sn cs) q s.1 s.2) q))
      (steps.foldl (fun r s => Att.integrateRotation r (valV s.1) s.2.val) (qval q)) ≤
      ((steps.map fun s => stepFactor u m (halfAngle s)).prod - 1) * qlen (qval q) := by
  have key : ∀ (steps : List ((Fin 3 → Fl fl) × Fl fl)) (q : Quat (Fl fl)) (r : Quat ℝ),
      qdist (qval (steps.foldl (fun q s => integrateRotation (flFns fl sn cs) q s.1 s.2) q))
        (steps.foldl (fun r s => Att.integrateRotation r (valV s.1) s.2.val) r) + qlen r ≤
        (steps.map fun s => stepFactor u m (halfAngle s)).prod * (qdist (qval q) r + qlen r) := by
    intro steps
    induction steps with
    | nil => intro q r; simp
    | cons s l ih =>
      intro q r
      rw [List.foldl_cons, List.foldl_cons, List.map_cons, List.prod_cons]
      have h1 := ih (integrateRotation (flFns fl sn cs) q s.1 s.2) (Att.integrateRotation r (valV s.1) s.2.val)
      have h2 := step_error h hu hs hc q r s
      have h3 : qlen (Att.integrateRotation r (valV s.1) s.2.val) = qlen r := by
        unfold Att.integrateRotation
        rw [qlen_mul, increment_unit, one_mul]
      rw [h3] at h1
      have pos : 0 ≤ (l.map fun s => stepFactor u m (halfAngle s)).prod := by
        refine List.prod_nonneg fun x hx => ?_
        obtain ⟨s, _, rfl⟩ := List.mem_map.1 hx
        have g4 := growth_nonneg h hu 4
        have gE := stepError_nonneg (m := m) h hu (halfAngle s)
        unfold stepFactor
        positivity
      calc _ ≤ _ := h1
        _ ≤ _ := mul_le_mul_of_nonneg_left h2 pos
        _ = _ := by ring
  have h1 := key steps q (qval q)
  have h2 : qdist (qval q) (qval q) = 0 := by simp [qdist, qlen]
  rw [h2, zero_add] at h1
  linarith

/-- **C126**: the length of the attitude drifts by no more. -/
theorem C126_drift (h : Accurate fl u) (hu : u < 1) (hs : Library u m sn Real.sin) (hc : Library u m cs Real.cos)
    (q : Quat (Fl fl)) (steps : List ((Fin 3 → Fl fl) × Fl fl)) :
    |qlen (qval (steps.foldl (fun q s => integrateRotation (flFns fl sn cs) q s.1 s.2) q)) - qlen (qval q)| ≤
      ((steps.map fun s => stepFactor u m (halfAngle s)).prod - 1) * qlen (qval q) := by
  have h1 := C126_history h hu hs hc q steps
  have h2 : ∀ (steps : List ((Fin 3 → Fl fl) × Fl fl)) (r : Quat ℝ),
      qlen (steps.foldl (fun r s => Att.integrateRotation r (valV s.1) s.2.val) r) = qlen r := by
    intro steps
    induction steps with
    | nil => intro r; rfl
    | cons s l ih =>
      intro r
      rw [List.foldl_cons, ih]
      unfold Att.integrateRotation
      rw [qlen_mul, increment_unit, one_mul]
  have h3 := qlen_sub_le (qval (steps.foldl (fun q s => integrateRotation (flFns fl sn cs) q s.1 s.2) q))
    (steps.foldl (fun r s => Att.integrateRotation r (valV s.1) s.2.val) (qval q))
  rw [h2] at h3
  exact h3.trans h1

/-- A case that meets the hypotheses: rounding that always overshoots by a thousandth, in the library too. -/
example : ∃ (fl sn cs : ℝ → ℝ) (u : ℝ), fl ≠ id ∧ Accurate fl u ∧ u < 1 ∧ Library u 1 sn Real.sin ∧ Library u 1 cs Real.cos := by
  have key : ∀ x : ℝ, |x * (1 + 1 / 1000) - x| ≤ 1 / 1000 * |x| := fun x => by
    rw [show x * (1 + 1 / 1000) - x = 1 / 1000 * x by ring, abs_mul]
    norm_num
  refine ⟨fun x => x * (1 + 1 / 1000), fun x => Real.sin x * (1 + 1 / 1000), fun x => Real.cos x * (1 + 1 / 1000), 1 / 1000,
    ?_, key, by norm_num, fun x => (key _).trans ?_, fun x => (key _).trans ?_⟩
  · intro hc
    have := congrFun hc 1
    norm_num at this
  · refine mul_le_mul_of_nonneg_right ?_ (abs_nonneg _)
    norm_num [growth]
  · refine mul_le_mul_of_nonneg_right ?_ (abs_nonneg _)
    norm_num [growth]

end Verif.Geom
