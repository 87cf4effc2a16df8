import Verif.Float.Lerp
import Verif.Stats.PropsDrawIeee

/-!
# Linear interpolation in machine arithmetic (C244)
-/

namespace Verif.Float.Ie

open Verif.Ieee Verif.Mat Verif.Stats.Ie

variable {fl : ℝ → ℝ}

/-- `f64::EPSILON`. -/
noncomputable def epsilon : IE binary64 fl := IE.num (2 ^ (-52 : ℤ))

theorem lerp_top : Finite binary64 (3 * 2 ^ (1022 : ℤ)) := by
  constructor
  · have := onGrid_of_le (F := binary64) (by decide) (m := 3) (e := 1022) (by decide) (by decide)
    simpa using this
  · rw [abs_of_pos (by positivity), show binary64.emax = 1022 + 2 by rfl, zpow_add₀ (by norm_num)]
    have : (0 : ℝ) < 2 ^ (1022 : ℤ) := by positivity
    generalize (2 : ℝ) ^ (1022 : ℤ) = B at this
    norm_num
    linarith

theorem fin_neg {F : Format} {x : ℝ} (h : Finite F x) : Finite F (-x) := ⟨h.1.neg, by rw [abs_neg]; exact h.2⟩

/-- A result of bounded size. -/
theorem lerp_step (h : Rounds binary64 fl) {c x : ℝ} (hc : Finite binary64 c) (hx : |x| ≤ c) :
    (IE.ofReal x : IE binary64 fl) = IE.num (fl x) ∧ Finite binary64 (fl x) ∧ |fl x| ≤ c := by
  obtain ⟨e, f, l, u⟩ := draw_range h (fin_neg hc) hc (abs_le.1 hx).1 (abs_le.1 hx).2
  exact ⟨e, f, abs_le.2 ⟨l, u⟩⟩

/-- The three roundings of an interpolation. -/
theorem lerp_value (h : Rounds binary64 fl) {a b t : ℝ} (ha : |a| ≤ 2 ^ (1022 : ℤ)) (hb : |b| ≤ 2 ^ (1022 : ℤ)) (h0 : 0 ≤ t) (h1 : t ≤ 1) :
    lerp (IE.num a) (IE.num b) (IE.num t : IE binary64 fl) = IE.num (fl (a + fl (fl (b + -a) * t))) ∧ Finite binary64 (fl (a + fl (fl (b + -a) * t))) := by
  have f1 : Finite binary64 (2 ^ (1023 : ℤ)) := pow_finite (by norm_num) (by norm_num)
  have e2 : (2 : ℝ) ^ (1023 : ℤ) = 2 * 2 ^ (1022 : ℤ) := by
    rw [show (1023 : ℤ) = 1 + 1022 by norm_num, zpow_add₀ (by norm_num), zpow_one]
  rw [e2] at f1
  clear e2
  have f3 := lerp_top
  generalize (2 : ℝ) ^ (1022 : ℤ) = B at *
  obtain ⟨q1, -, r1⟩ := lerp_step h f1 (x := b + -a) (by have := abs_add_le b (-a); rw [abs_neg] at this; linarith)
  obtain ⟨q2, -, r2⟩ := lerp_step h f1 (x := fl (b + -a) * t) (by
    rw [abs_mul, abs_of_nonneg h0]
    nlinarith [abs_nonneg (fl (b + -a))])
  obtain ⟨q3, g3, -⟩ := lerp_step h f3 (x := a + fl (fl (b + -a) * t)) (by have := abs_add_le a (fl (fl (b + -a) * t)); linarith)
  refine ⟨?_, g3⟩
  unfold lerp
  rw [sub_num, q1, mul_num, q2, add_num, q3]

/-! ## Properties -/

/-- **C244, interpolation**, the proved part: `f64`, end points of size at most `2 ^ 1022`, parameters from 0 to 1. `lerp` is a finite number, is exactly the first end point at 0, and
is monotone in the parameter: it rises if the second end point is the larger and falls if it is the smaller. Missing: larger end points, see `C244_fails`. -/
theorem C244_partial (h : Rounds binary64 fl) (a b : ℝ) (fa : Finite binary64 a) (ha : |a| ≤ 2 ^ (1022 : ℤ)) (hb : |b| ≤ 2 ^ (1022 : ℤ)) :
    (∀ t, 0 ≤ t → t ≤ 1 → ∃ r, lerp (IE.num a) (IE.num b) (IE.num t : IE binary64 fl) = IE.num r ∧ Finite binary64 r) ∧
    lerp (IE.num a) (IE.num b) (0 : IE binary64 fl) = IE.num a ∧
    ∀ s t, 0 ≤ s → s ≤ t → t ≤ 1 →
      (a ≤ b → lerp (IE.num a) (IE.num b) (IE.num s : IE binary64 fl) ≤ lerp (IE.num a) (IE.num b) (IE.num t)) ∧
      (b ≤ a → lerp (IE.num a) (IE.num b) (IE.num t : IE binary64 fl) ≤ lerp (IE.num a) (IE.num b) (IE.num s)) := by
  refine ⟨fun t h0 h1 => ⟨_, lerp_value h ha hb h0 h1⟩, ?_, fun s t h0 hst h1 => ⟨fun hab => ?_, fun hab => ?_⟩⟩
  · rw [ie_zero, (lerp_value h ha hb le_rfl zero_le_one).1, mul_zero, h.zero, add_zero, h.fix fa.1]
  · rw [(lerp_value h ha hb h0 (hst.trans h1)).1, (lerp_value h ha hb (h0.trans hst) h1).1, le_num]
    have hd : 0 ≤ fl (b + -a) := by rw [← h.zero]; exact h.mono (by linarith)
    exact h.mono (add_le_add_right (h.mono (mul_le_mul_of_nonneg_left hst hd)) a)
  · rw [(lerp_value h ha hb h0 (hst.trans h1)).1, (lerp_value h ha hb (h0.trans hst) h1).1, le_num]
    have hd : fl (b + -a) ≤ 0 := by rw [← h.zero]; exact h.mono (by linarith)
    exact h.mono (add_le_add_right (h.mono (mul_le_mul_of_nonpos_left hst hd)) a)

/-- End points near the limit. -/
example : Finite binary64 (-2 ^ (1022 : ℤ)) ∧ |(-2 ^ (1022 : ℤ) : ℝ)| ≤ 2 ^ (1022 : ℤ) := by
  refine ⟨fin_neg (pow_finite (by norm_num) (by norm_num)), ?_⟩
  rw [abs_neg, abs_of_pos (by positivity)]

/-- **C244, accuracy**, the proved part: `f64`, end points of size at most `2 ^ 1022`, parameters from 0 to 1. `lerp` is within `5 * 2 ^ -53` of the sum of the sizes of the end points (and
`2 ^ -1073` for underflow) of the point that it stands for; so at 1 it is that close to the second end point. Missing: larger end points. -/
theorem C244_error_partial (h : Rounds binary64 fl) (a b t : ℝ) (fa : Finite binary64 a) (fb : Finite binary64 b) (ha : |a| ≤ 2 ^ (1022 : ℤ)) (hb : |b| ≤ 2 ^ (1022 : ℤ))
    (h0 : 0 ≤ t) (h1 : t ≤ 1) : ∃ r, lerp (IE.num a) (IE.num b) (IE.num t : IE binary64 fl) = IE.num r ∧
      |r - ((1 - t) * a + t * b)| ≤ 5 * 2 ^ (-53 : ℤ) * (|a| + |b|) + 2 ^ (-1073 : ℤ) := by
  refine ⟨_, (lerp_value h ha hb h0 h1).1, ?_⟩
  have hu : unit binary64 = 2 ^ (-53 : ℤ) := rfl
  have hu' : unit binary64 ≤ 1 / 100 := by rw [hu]; norm_num
  have hu0 := unit_pos (F := binary64)
  have ht0 : 0 ≤ tiny binary64 := by unfold tiny; positivity
  have h4 : (2 : ℝ) ^ (-1073 : ℤ) = 4 * tiny binary64 := by
    unfold tiny
    rw [show (-1073 : ℤ) = 2 + (binary64.emin - 1) from rfl, zpow_add₀ (by norm_num)]
    norm_num
  rw [h4, ← hu]
  clear ha hb h4 hu
  have i1 := h.add (by decide) fb.1 fa.1.neg
  have i2 := h.err (by decide) (fl (b + -a) * t)
  have i3 := h.add (by decide) fa.1 (h (fl (b + -a) * t)).1
  generalize unit binary64 = u at *
  generalize tiny binary64 = e at *
  generalize fl (b + -a) = d at *
  generalize fl (d * t) = p at *
  generalize fl (a + p) = r at *
  have hs : |b + -a| ≤ |a| + |b| := by have := abs_add_le b (-a); rw [abs_neg] at this; linarith
  have hap := abs_add_le a p
  have ha0 := abs_nonneg a
  have hb0 := abs_nonneg b
  have hS : |a| ≤ |a| + |b| := by linarith
  generalize |a| + |b| = S at *
  have hS0 : 0 ≤ S := ha0.trans hS
  have j1 : |d - (b + -a)| ≤ u * S := i1.trans (mul_le_mul_of_nonneg_left hs hu0.le)
  have hd : |d| ≤ 101 / 100 * S := by
    have := abs_sub_abs_le_abs_sub d (b + -a)
    nlinarith
  have hdt : |d * t| ≤ 101 / 100 * S := by
    rw [abs_mul, abs_of_nonneg h0]
    nlinarith [abs_nonneg d]
  have j2 : |p - d * t| ≤ u * (101 / 100 * S) + e := i2.trans (by nlinarith)
  have hp : |p| ≤ 103 / 100 * S + e := by
    have := abs_sub_abs_le_abs_sub p (d * t)
    nlinarith
  have j3 : |r - (a + p)| ≤ u * (203 / 100 * S + e) := i3.trans (mul_le_mul_of_nonneg_left (by linarith) hu0.le)
  have j4 : |(d - (b + -a)) * t| ≤ u * S := by
    rw [abs_mul, abs_of_nonneg h0]
    nlinarith [abs_nonneg (d - (b + -a))]
  have k1 := abs_add_le (r - (a + p)) (p - d * t)
  have k2 := abs_add_le (r - (a + p) + (p - d * t)) ((d - (b + -a)) * t)
  rw [show r - (a + p) + (p - d * t) + (d - (b + -a)) * t = r - ((1 - t) * a + t * b) by ring] at k2
  nlinarith [mul_nonneg hu0.le hS0]

/-- From 1 to 3. -/
example : Finite binary64 1 ∧ Finite binary64 3 ∧ |(1 : ℝ)| ≤ 2 ^ (1022 : ℤ) ∧ |(3 : ℝ)| ≤ 2 ^ (1022 : ℤ) := by
  have f3 := draw_fin holds64 (m := 3) (e := 0) (by norm_num) (by norm_num) (by norm_num)
  have p : (2 : ℝ) ^ (2 : ℤ) ≤ 2 ^ (1022 : ℤ) := zpow_le_zpow_right₀ (by norm_num) (by norm_num)
  generalize (2 : ℝ) ^ (1022 : ℤ) = B at *
  norm_num at p f3
  refine ⟨draw_one holds64, f3, ?_, ?_⟩ <;> rw [abs_of_pos (by norm_num)] <;> linarith

/-- **C244, parameter**, the proved part: `f64`, end points of size at most `2 ^ 1022`, in either order. The parameter of a value between the end points is a finite number from 0 to 1, and
that of the first end point is 0. Missing: larger end points, see `C244_parameter_fails`. -/
theorem C244_parameter_partial (h : Rounds binary64 fl) (a b v : ℝ) (ha : |a| ≤ 2 ^ (1022 : ℤ)) (hb : |b| ≤ 2 ^ (1022 : ℤ)) (hv : a ≤ v ∧ v ≤ b ∨ b ≤ v ∧ v ≤ a) :
    (∃ t, inverseLerp epsilon (IE.num a) (IE.num b) (IE.num v : IE binary64 fl) = IE.num t ∧ Finite binary64 t ∧ 0 ≤ t ∧ t ≤ 1) ∧
    inverseLerp epsilon (IE.num a) (IE.num b) (IE.num a : IE binary64 fl) = 0 := by
  have f1 : Finite binary64 (2 ^ (1023 : ℤ)) := pow_finite (by norm_num) (by norm_num)
  have e2 : (2 : ℝ) ^ (1023 : ℤ) = 2 * 2 ^ (1022 : ℤ) := by
    rw [show (1023 : ℤ) = 1 + 1022 by norm_num, zpow_add₀ (by norm_num), zpow_one]
  rw [e2] at f1
  clear e2
  generalize (2 : ℝ) ^ (1022 : ℤ) = B at *
  have key : ∀ v, (a ≤ v ∧ v ≤ b ∨ b ≤ v ∧ v ≤ a) → ∃ t, inverseLerp epsilon (IE.num a) (IE.num b) (IE.num v : IE binary64 fl) = IE.num t ∧
      Finite binary64 t ∧ 0 ≤ t ∧ t ≤ 1 ∧ (v = a → t = 0) := by
    intro v hv
    have hw : |v + -a| ≤ |b + -a| := by
      rcases hv with ⟨p, q⟩ | ⟨p, q⟩
      · rw [abs_of_nonneg (by linarith), abs_of_nonneg (by linarith)]; linarith
      · rw [abs_of_nonpos (by linarith), abs_of_nonpos (by linarith)]; linarith
    have hs : |b + -a| ≤ 2 * B := by have := abs_add_le b (-a); rw [abs_neg] at this; linarith
    obtain ⟨q1, -, -⟩ := lerp_step h f1 (x := b + -a) hs
    obtain ⟨q2, -, -⟩ := lerp_step h f1 (x := v + -a) (hw.trans hs)
    unfold inverseLerp
    simp only [sub_num, q1, q2, absV_num, epsilon, le_num]
    split_ifs with he
    · exact ⟨0, ie_zero, draw_zero, le_rfl, zero_le_one, fun _ => rfl⟩
    · have hd : fl (b + -a) ≠ 0 := by
        intro h0
        rw [h0, abs_zero] at he
        exact he (by positivity)
      have hq : 0 ≤ fl (v + -a) / fl (b + -a) ∧ fl (v + -a) / fl (b + -a) ≤ 1 := by
        rcases hv with ⟨p, q⟩ | ⟨p, q⟩
        · have i1 : 0 ≤ fl (v + -a) := by rw [← h.zero]; exact h.mono (by linarith)
          have i2 : fl (v + -a) ≤ fl (b + -a) := h.mono (by linarith)
          exact ⟨div_nonneg i1 (i1.trans i2), div_le_one_of_le₀ i2 (i1.trans i2)⟩
        · have i1 : fl (v + -a) ≤ 0 := by rw [← h.zero]; exact h.mono (by linarith)
          have i2 : fl (b + -a) ≤ fl (v + -a) := h.mono (by linarith)
          exact ⟨div_nonneg_of_nonpos i1 (i2.trans i1), div_le_one_of_ge i2 (i2.trans i1)⟩
      obtain ⟨q3, g3, l3, u3⟩ := draw_range h draw_zero (draw_one holds64) hq.1 hq.2
      refine ⟨_, ?_, g3, l3, u3, ?_⟩
      · rw [div_num _ hd, q3]
      · rintro rfl
        rw [add_neg_cancel, h.zero, zero_div, h.zero]
  obtain ⟨t, e, g, l, u, -⟩ := key v hv
  have ha' : a ≤ a ∧ a ≤ b ∨ b ≤ a ∧ a ≤ a := (le_total a b).imp (fun q => ⟨le_rfl, q⟩) fun q => ⟨q, le_rfl⟩
  obtain ⟨t', e', -, -, -, z⟩ := key a ha'
  exact ⟨⟨t, e, g, l, u⟩, by rw [e', z rfl, ie_zero]⟩

/-- A value three quarters up a wide range, and one a quarter of the way from 4 down to 0. -/
example : (-2 ^ (1022 : ℤ) ≤ (2 ^ (1021 : ℤ) : ℝ) ∧ (2 ^ (1021 : ℤ) : ℝ) ≤ 2 ^ (1022 : ℤ)) ∧ |(4 : ℝ)| ≤ 2 ^ (1022 : ℤ) ∧ |(0 : ℝ)| ≤ 2 ^ (1022 : ℤ) ∧
    ((4 : ℝ) ≤ 3 ∧ (3 : ℝ) ≤ 0 ∨ (0 : ℝ) ≤ 3 ∧ (3 : ℝ) ≤ 4) := by
  have p1 : (0 : ℝ) < 2 ^ (1021 : ℤ) := by positivity
  have p2 : (0 : ℝ) < 2 ^ (1022 : ℤ) := by positivity
  refine ⟨⟨(neg_nonpos.2 p2.le).trans p1.le, zpow_le_zpow_right₀ (by norm_num) (by norm_num)⟩, ?_, by rw [abs_zero]; positivity, Or.inr (by norm_num)⟩
  rw [abs_of_pos (by norm_num), show (4 : ℝ) = 2 ^ (2 : ℤ) by norm_num]
  exact zpow_le_zpow_right₀ (by norm_num) (by norm_num)

/-- **C244, remapping**, the proved part: `f64`, end points of size at most `2 ^ 1022`. A value between the end points of the first range is mapped to a finite number, and the first end
point of the first range exactly to that of the second. Missing: larger end points. -/
theorem C244_remap_partial (h : Rounds binary64 fl) (a b c d v : ℝ) (ha : |a| ≤ 2 ^ (1022 : ℤ)) (hb : |b| ≤ 2 ^ (1022 : ℤ)) (fc : Finite binary64 c) (hc : |c| ≤ 2 ^ (1022 : ℤ))
    (hd : |d| ≤ 2 ^ (1022 : ℤ)) (hv : a ≤ v ∧ v ≤ b ∨ b ≤ v ∧ v ≤ a) :
    (∃ r, remap epsilon (IE.num v) (IE.num a) (IE.num b) (IE.num c) (IE.num d : IE binary64 fl) = IE.num r ∧ Finite binary64 r) ∧
    remap epsilon (IE.num a) (IE.num a) (IE.num b) (IE.num c) (IE.num d : IE binary64 fl) = IE.num c := by
  obtain ⟨⟨t, e, -, l, u⟩, z⟩ := C244_parameter_partial h a b v ha hb hv
  unfold remap
  rw [e, z]
  exact ⟨(C244_partial h c d fc hc hd).1 t l u, (C244_partial h c d fc hc hd).2.1⟩

/-- From a wide range to another. -/
example : Finite binary64 (2 ^ (1022 : ℤ)) ∧ |(2 ^ (1022 : ℤ) : ℝ)| ≤ 2 ^ (1022 : ℤ) ∧ -2 ^ (1022 : ℤ) ≤ (0 : ℝ) ∧ (0 : ℝ) ≤ 2 ^ (1022 : ℤ) := by
  have p2 : (0 : ℝ) < 2 ^ (1022 : ℤ) := by positivity
  exact ⟨pow_finite (by norm_num) (by norm_num), (abs_of_pos p2).le, neg_nonpos.2 p2.le, p2.le⟩

/-- The difference of `2 ^ 1023` and `-2 ^ 1023` overflows. -/
theorem lerp_over (h : Rounds binary64 fl) : (IE.num (2 ^ (1023 : ℤ)) - IE.num (-2 ^ (1023 : ℤ)) : IE binary64 fl) = IE.inf false := by
  rw [sub_num, neg_neg, show (2 : ℝ) ^ (1023 : ℤ) + 2 ^ (1023 : ℤ) = 2 ^ (1024 : ℤ) by
    rw [show (1024 : ℤ) = 1023 + 1 by norm_num, zpow_add₀ (by norm_num), zpow_one]; ring]
  unfold IE.ofReal
  rw [h.fix (onGrid_pow (by decide) (by decide)), if_neg, decide_eq_false (not_lt.2 (by positivity))]
  rw [not_lt, abs_of_pos (by positivity)]
  exact zpow_le_zpow_right₀ (by norm_num) (by decide)

/-- **C244** does not hold for all finite end points: between `-2 ^ 1023` and `2 ^ 1023` `lerp` is NaN at 0, where the documentation promises the first end point. -/
theorem C244_fails (h : Rounds binary64 fl) : Finite binary64 (-2 ^ (1023 : ℤ)) ∧ Finite binary64 (2 ^ (1023 : ℤ)) ∧
    lerp (IE.num (-2 ^ (1023 : ℤ))) (IE.num (2 ^ (1023 : ℤ))) (0 : IE binary64 fl) = IE.nan := by
  have f := pow_finite (e := 1023) (by norm_num) (by norm_num)
  refine ⟨fin_neg f, f, ?_⟩
  unfold lerp
  rw [lerp_over h]
  change _ + (if (0 : ℝ) = 0 then IE.nan else _) = _
  rw [if_pos rfl]
  rfl

/-- **C244** does not hold for the parameter either: between `-2 ^ 1023` and `2 ^ 1023` the parameter of the second end point is NaN, not 1. -/
theorem C244_parameter_fails (h : Rounds binary64 fl) :
    inverseLerp epsilon (IE.num (-2 ^ (1023 : ℤ))) (IE.num (2 ^ (1023 : ℤ))) (IE.num (2 ^ (1023 : ℤ)) : IE binary64 fl) = IE.nan := by
  unfold inverseLerp
  simp only [lerp_over h]
  rw [if_neg]
  · rfl
  · exact inf_le_num _

end Verif.Float.Ie
