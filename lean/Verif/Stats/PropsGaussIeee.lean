import Verif.Stats.GaussIeee
import Verif.ML.PropsLogisticIeee
import Verif.Opt.PropsIeee

/-!
# The normal distribution in machine arithmetic (C177)
-/

namespace Verif.Stats.Ie

open Verif.Ieee Verif.ML.Ie

variable {fl : ℝ → ℝ}

/-- A number that is not negative, or plus infinity. -/
def Up (a : IE binary64 fl) : Prop := a = IE.inf false ∨ ∃ x, a = IE.num x ∧ 0 ≤ x ∧ Finite binary64 x

theorem up_ofReal (h : Rounds binary64 fl) {x : ℝ} (hx : 0 ≤ x) : Up (IE.ofReal x : IE binary64 fl) := by
  rcases ofReal_nonneg h hx with e | ⟨e, -, h0⟩
  · exact Or.inl e
  · exact Or.inr ⟨_, e, h0, (ofReal_isNum h e).1⟩

theorem le_top {a : IE binary64 fl} (ha : Up a) : a ≤ IE.inf false := by
  rcases ha with rfl | ⟨x, rfl, -, -⟩
  · exact Or.inr rfl
  · exact (rfl : false = false)

theorem ofReal_le (h : Rounds binary64 fl) {x y : ℝ} (hx : 0 ≤ x) (hxy : x ≤ y) : (IE.ofReal x : IE binary64 fl) ≤ IE.ofReal y := by
  rcases ofReal_nonneg h (hx.trans hxy) with e | ⟨e, -, h0⟩
  · rw [e]; exact le_top (up_ofReal h hx)
  · obtain ⟨hf, -⟩ := ofReal_isNum h e
    have h1 : fl x ≤ fl y := h.mono hxy
    have h2 : 0 ≤ fl x := by rw [← h.zero]; exact h.mono hx
    rw [e, ofReal_num (by rw [abs_of_nonneg h2]; exact h1.trans_lt ((le_abs_self _).trans_lt hf.2))]
    exact h1

theorem half_num (h : Rounds binary64 fl) {d : ℝ} (hd : Finite binary64 d) : (IE.ofReal (1 / 2 * d) : IE binary64 fl) = IE.num (fl (1 / 2 * d)) := by
  refine ofReal_num ((?_ : |fl (1 / 2 * d)| ≤ |d|).trans_lt hd.2)
  have h0 := h.zero
  rcases le_total 0 d with hs | hs
  · have h1 : 0 ≤ fl (1 / 2 * d) := by rw [← h0]; exact h.mono (by linarith)
    have h2 : fl (1 / 2 * d) ≤ d := by have := h.mono (show 1 / 2 * d ≤ d by linarith); rwa [h.fix hd.1] at this
    rw [abs_of_nonneg h1, abs_of_nonneg hs]; exact h2
  · have h1 : fl (1 / 2 * d) ≤ 0 := by rw [← h0]; exact h.mono (by linarith)
    have h2 : d ≤ fl (1 / 2 * d) := by have := h.mono (show d ≤ 1 / 2 * d by linarith); rwa [h.fix hd.1] at this
    rw [abs_of_nonpos h1, abs_of_nonpos hs]; linarith

/-- The step `half * diff * diff` for a finite difference. -/
theorem square_num (h : Rounds binary64 fl) {d : ℝ} (hd : Finite binary64 d) :
    (IE.num (1 / 2) * IE.num d * IE.num d : IE binary64 fl) = IE.ofReal (fl (1 / 2 * d) * d) := by
  rw [mul_num, half_num h hd, mul_num]

/-- The step `half * diff * diff` for an infinite difference. -/
theorem square_inf (s : Bool) : (IE.num (1 / 2) * IE.inf s * IE.inf s : IE binary64 fl) = IE.inf false := by
  have e : (IE.num (1 / 2) * IE.inf s : IE binary64 fl) = IE.inf s := by
    change (if (1 / 2 : ℝ) = 0 then (IE.nan : IE binary64 fl) else IE.inf (xor (IE.isNeg (1 / 2)) s)) = _
    rw [if_neg (by norm_num)]
    have : IE.isNeg (1 / 2) = false := by unfold IE.isNeg; exact decide_eq_false (by norm_num)
    rw [this, Bool.false_xor]
  rw [e]
  change IE.inf (xor s s) = _
  rw [Bool.xor_self]

theorem ofReal_cases (h : Rounds binary64 fl) (x : ℝ) :
    (IE.ofReal x : IE binary64 fl) = IE.num (fl x) ∧ Finite binary64 (fl x) ∨ ∃ s, (IE.ofReal x : IE binary64 fl) = IE.inf s := by
  by_cases hf : |fl x| < 2 ^ binary64.emax
  · exact Or.inl ⟨ofReal_num hf, (h x).1, hf⟩
  · exact Or.inr (ofReal_inf hf)

theorem square_sign (h : Rounds binary64 fl) (d : ℝ) : 0 ≤ fl (1 / 2 * d) * d := by
  have h0 := h.zero
  rcases le_total 0 d with hs | hs
  · exact mul_nonneg (by rw [← h0]; exact h.mono (by linarith)) hs
  · exact mul_nonneg_of_nonpos_of_nonpos (by rw [← h0]; exact h.mono (by linarith)) hs

/-- The square of the computed difference. -/
theorem square_up (h : Rounds binary64 fl) (a : ℝ) : Up (IE.num (1 / 2) * IE.ofReal a * IE.ofReal a : IE binary64 fl) := by
  rcases ofReal_cases h a with ⟨e, hf⟩ | ⟨s, e⟩
  · rw [e, square_num h hf]; exact up_ofReal h (square_sign h _)
  · rw [e, square_inf]; exact Or.inl rfl

/-- It grows away from zero. -/
theorem square_le (h : Rounds binary64 fl) {a b : ℝ} (hab : 0 ≤ a ∧ a ≤ b ∨ b ≤ a ∧ a ≤ 0) :
    (IE.num (1 / 2) * IE.ofReal a * IE.ofReal a : IE binary64 fl) ≤ IE.num (1 / 2) * IE.ofReal b * IE.ofReal b := by
  rcases ofReal_cases h b with ⟨e, hf⟩ | ⟨s, e⟩
  · have hc : 0 ≤ fl a ∧ fl a ≤ fl b ∨ fl b ≤ fl a ∧ fl a ≤ 0 := by
      rw [← h.zero]
      exact hab.imp (fun ⟨p, q⟩ => ⟨h.mono p, h.mono q⟩) (fun ⟨p, q⟩ => ⟨h.mono p, h.mono q⟩)
    have hab' : |fl a| ≤ |fl b| := by
      rcases hc with ⟨p, q⟩ | ⟨p, q⟩
      · rw [abs_of_nonneg p, abs_of_nonneg (p.trans q)]; exact q
      · rw [abs_of_nonpos q, abs_of_nonpos (p.trans q)]; linarith
    have ea : (IE.ofReal a : IE binary64 fl) = IE.num (fl a) := ofReal_num (hab'.trans_lt hf.2)
    rw [e, ea, square_num h hf, square_num h ⟨(h a).1, hab'.trans_lt hf.2⟩]
    refine ofReal_le h (square_sign h _) ?_
    have h0 := h.zero
    rcases hc with ⟨p, q⟩ | ⟨p, q⟩
    · exact mul_le_mul (h.mono (by linarith)) q p (by rw [← h0]; exact h.mono (by linarith))
    · exact mul_le_mul_of_nonpos_of_nonpos (h.mono (by linarith)) p (by rw [← h0]; exact h.mono (by linarith)) q
  · rw [e, square_inf]; exact le_top (square_up h a)

theorem div_up (h : Rounds binary64 fl) {a : IE binary64 fl} {v : ℝ} (hv : 0 < v) (ha : Up a) : Up (a / IE.num v) := by
  rcases ha with rfl | ⟨x, rfl, h0, -⟩
  · left
    change IE.inf (xor false (IE.isNeg v)) = _
    have : IE.isNeg v = false := by unfold IE.isNeg; exact decide_eq_false hv.not_gt
    rw [this]; rfl
  · rw [div_num x hv.ne']; exact up_ofReal h (by positivity)

theorem div_le (h : Rounds binary64 fl) {a b : IE binary64 fl} {v : ℝ} (hv : 0 < v) (ha : Up a) (hb : Up b) (hab : a ≤ b) : a / IE.num v ≤ b / IE.num v := by
  rcases hb with rfl | ⟨y, rfl, hy, -⟩
  · have : (IE.inf false / IE.num v : IE binary64 fl) = IE.inf false := by
      change IE.inf (xor false (IE.isNeg v)) = _
      have : IE.isNeg v = false := by unfold IE.isNeg; exact decide_eq_false hv.not_gt
      rw [this]; rfl
    rw [this]; exact le_top (div_up h hv ha)
  · rcases ha with rfl | ⟨x, rfl, hx, -⟩
    · exact absurd hab (inf_le_num _)
    · rw [div_num x hv.ne', div_num y hv.ne']
      exact ofReal_le h (by positivity) (div_le_div_of_nonneg_right ((le_num x y).1 hab) hv.le)

theorem neg_le {a b : IE binary64 fl} (ha : Up a) (hb : Up b) (hab : a ≤ b) : -b ≤ -a := by
  rcases hb with rfl | ⟨y, rfl, hy, -⟩
  · rcases ha with rfl | ⟨x, rfl, hx, -⟩
    · exact Or.inl rfl
    · exact (rfl : true = true)
  · rcases ha with rfl | ⟨x, rfl, hx, -⟩
    · exact absurd hab (inf_le_num _)
    · exact (neg_le_neg ((le_num x y).1 hab) : -y ≤ -x)

/-- The exponential of a number that is not positive. -/
theorem exp_down {exp : IE binary64 fl → IE binary64 fl} (he : ExpOk exp) {a : IE binary64 fl} (ha : Up a) :
    ∃ y, exp (-a) = IE.num y ∧ Finite binary64 y ∧ 0 ≤ y ∧ y ≤ 2 ^ (1 : ℤ) := by
  rcases ha with rfl | ⟨x, rfl, hx, hf⟩
  · exact ⟨0, he.bot, fin_zero, le_refl _, by norm_num⟩
  · have h1 : Real.exp (-x) ≤ 1 := Real.exp_le_one_iff.2 (by linarith)
    rcases he.val (-x) ⟨hf.1.neg, by rw [abs_neg]; exact hf.2⟩ with ⟨y, e, hy, h0, hb⟩ | ⟨-, hb⟩
    · refine ⟨y, e, hy, h0, ?_⟩
      have h2 : (2 : ℝ) ^ (-52 : ℤ) ≤ 1 / 4 := by norm_num [zpow_neg]
      have h3 : (2 : ℝ) ^ (-1074 : ℤ) ≤ 1 / 4 := (zpow_le_zpow_right₀ (by norm_num) (by norm_num) : (2 : ℝ) ^ (-1074 : ℤ) ≤ 2 ^ (-2 : ℤ)).trans_eq (by norm_num [zpow_neg])
      have h4 := (abs_le.1 hb).2
      have h5 : (2 : ℝ) ^ (-52 : ℤ) * Real.exp (-x) ≤ 1 / 4 * 1 := mul_le_mul h2 h1 (Real.exp_pos _).le (by norm_num)
      rw [zpow_one]
      generalize (2 : ℝ) ^ (-1074 : ℤ) = u at *
      generalize (2 : ℝ) ^ (-52 : ℤ) * Real.exp (-x) = w at *
      linarith
    · have h2 : (2 : ℝ) ^ (0 : ℤ) < 2 ^ (1023 : ℤ) := zpow_lt_zpow_right₀ (by norm_num) (by norm_num)
      rw [zpow_zero] at h2
      exact absurd (hb.trans h1) (not_le.2 h2)

theorem two_num (h : Rounds binary64 fl) : (1 + 1 : IE binary64 fl) = IE.num 2 := by
  change IE.ofReal ((1 : ℝ) + 1) = _
  rw [show (1 : ℝ) + 1 = 2 by norm_num]
  exact ofReal_finite h (by simpa using pow_finite (e := 1) (by norm_num) (by norm_num))

theorem half_val (h : Rounds binary64 fl) : (1 / IE.num 2 : IE binary64 fl) = IE.num (1 / 2) := by
  change IE.num 1 / IE.num 2 = _
  rw [div_num 1 (by norm_num : (2 : ℝ) ≠ 0)]
  exact ofReal_finite h (by have := pow_finite (e := -1) (by norm_num) (by norm_num); rwa [zpow_neg_one, ← one_div] at this)

theorem fmax_zero {v : ℝ} (hv : 0 ≤ v) : IE.fmax (IE.num v : IE binary64 fl) 0 = IE.num v := by
  unfold IE.fmax
  rw [if_neg (by intro e; cases e), if_neg (by intro e; cases e), if_neg]
  exact fun hc => absurd ((lt_num v 0).1 hc) (not_lt.2 hv)

/-- The density in terms of the square of the difference. -/
theorem pdf_eq (h : Rounds binary64 fl) (exp : IE binary64 fl → IE binary64 fl) {m s : ℝ} (h1 : 2 ^ (-511 : ℤ) ≤ s) (h2 : s ≤ 2 ^ (509 : ℤ)) :
    ∃ v c, 0 < v ∧ Finite binary64 c ∧ 0 ≤ c ∧ c ≤ 2 ^ (510 : ℤ) ∧ ∀ x, Gauss.pdf exp ⟨IE.num m, IE.num s⟩ (IE.num x : IE binary64 fl) =
      IE.num c * exp (-(IE.num (1 / 2) * IE.ofReal (x + -m) * IE.ofReal (x + -m) / IE.num v)) := by
  have hp : ∀ e : ℤ, (0 : ℝ) < 2 ^ e := fun e => by positivity
  have ha : ∀ a b : ℤ, (2 : ℝ) ^ a * 2 ^ b = 2 ^ (a + b) := fun a b => (zpow_add₀ (by norm_num) a b).symm
  have s0 : 0 < s := (hp _).trans_le h1
  obtain ⟨v, ev, hvf, hv1, hv2⟩ := ofReal_between (fl := fl) h (lo := 2 ^ (-1022 : ℤ)) (hi := 2 ^ (1018 : ℤ)) (x := s * s)
    (pow_finite (by norm_num) (by norm_num)).1 (pow_finite (by norm_num) (by norm_num)) (hp _).le
    (by have := mul_le_mul h1 h1 (hp _).le s0.le; rwa [ha] at this) (by have := mul_le_mul h2 h2 s0.le (hp _).le; rwa [ha] at this)
  have v0 : 0 < v := (hp _).trans_le hv1
  obtain ⟨q, eq, hqf, hq1, hq2⟩ := ofReal_between (fl := fl) h (lo := 2 ^ (1 : ℤ)) (hi := 2 ^ (2 : ℤ)) (x := Real.pi)
    (pow_finite (by norm_num) (by norm_num)).1 (pow_finite (by norm_num) (by norm_num)) (hp _).le
    (by have := Real.pi_gt_three; norm_num; linarith) (by have := Real.pi_lt_four; norm_num; linarith)
  obtain ⟨w, ew, hwf, hw1, hw2⟩ := ofReal_between (fl := fl) h (lo := 2 ^ (2 : ℤ)) (hi := 2 ^ (3 : ℤ)) (x := 2 * q)
    (pow_finite (by norm_num) (by norm_num)).1 (pow_finite (by norm_num) (by norm_num)) (hp _).le
    (by norm_num at hq1 ⊢; linarith) (by norm_num at hq2 ⊢; linarith)
  obtain ⟨t, et, htf, ht1, ht2⟩ := ofReal_between (fl := fl) h (lo := 2 ^ (-1020 : ℤ)) (hi := 2 ^ (1021 : ℤ)) (x := w * v)
    (pow_finite (by norm_num) (by norm_num)).1 (pow_finite (by norm_num) (by norm_num)) (hp _).le
    (by have := mul_le_mul hw1 hv1 (hp _).le ((hp _).le.trans hw1); rwa [ha] at this)
    (by have := mul_le_mul hw2 hv2 v0.le (hp _).le; rwa [ha] at this)
  have t0 : 0 ≤ t := (hp _).le.trans ht1
  obtain ⟨r, er, hrf, hr1, hr2⟩ := ofReal_between (fl := fl) h (lo := 2 ^ (-510 : ℤ)) (hi := 2 ^ (511 : ℤ)) (x := √t)
    (pow_finite (by norm_num) (by norm_num)).1 (pow_finite (by norm_num) (by norm_num)) (hp _).le
    (Real.le_sqrt_of_sq_le (by rw [sq, ha]; exact ht1))
    (Real.sqrt_le_iff.2 ⟨(hp _).le, by rw [sq, ha]; exact ht2.trans (zpow_le_zpow_right₀ (by norm_num) (by norm_num))⟩)
  have r0 : 0 < r := (hp _).trans_le hr1
  obtain ⟨c, ec, hcf, hc1, hc2⟩ := ofReal_between (fl := fl) h (lo := 0) (hi := 2 ^ (510 : ℤ)) (x := 1 / r)
    onGrid_zero (pow_finite (by norm_num) (by norm_num)) (le_refl _) (by positivity)
    (by rw [div_le_iff₀ r0]; have := mul_le_mul_of_nonneg_left hr1 (hp 510).le; rw [ha] at this; simpa using this)
  refine ⟨v, c, v0, hcf, hc1, hc2, fun x => ?_⟩
  unfold Gauss.pdf
  simp only [two_num h, half_val h, mul_num, ev, fmax_zero v0.le, eq, ew, et, sqrt_num t0, er, sub_num]
  rw [show (1 : IE binary64 fl) / IE.num r = IE.num c from (div_num 1 r0.ne').trans ec]

/-- **C177** (partial): in `f64`, the density of a normal distribution whose standard deviation is neither minute nor huge is a number that is not
negative, at every finite point, and it does not grow away from the mean. What is missing: standard deviations below `2 ^ -511` or above `2 ^ 509`, for which
the claim fails. -/
theorem C177_partial (h : Rounds binary64 fl) {exp : IE binary64 fl → IE binary64 fl} (he : ExpOk exp) (hm : ExpMono exp) {m s : ℝ}
    (h1 : 2 ^ (-511 : ℤ) ≤ s) (h2 : s ≤ 2 ^ (509 : ℤ)) {x y : ℝ} (hxy : m ≤ x ∧ x ≤ y ∨ y ≤ x ∧ x ≤ m) :
    ∃ p q, Gauss.pdf exp ⟨IE.num m, IE.num s⟩ (IE.num x : IE binary64 fl) = IE.num p ∧ Gauss.pdf exp ⟨IE.num m, IE.num s⟩ (IE.num y : IE binary64 fl) = IE.num q ∧
      Finite binary64 p ∧ Finite binary64 q ∧ 0 ≤ q ∧ q ≤ p := by
  obtain ⟨v, c, v0, hcf, hc0, hc2, hpdf⟩ := pdf_eq h exp (m := m) h1 h2
  have hab : 0 ≤ x + -m ∧ x + -m ≤ y + -m ∨ y + -m ≤ x + -m ∧ x + -m ≤ 0 :=
    hxy.imp (fun ⟨p, q⟩ => ⟨by linarith, by linarith⟩) (fun ⟨p, q⟩ => ⟨by linarith, by linarith⟩)
  have ux := div_up h v0 (square_up h (x + -m))
  have uy := div_up h v0 (square_up h (y + -m))
  have hle := hm _ _ (neg_le ux uy (div_le h v0 (square_up h _) (square_up h _) (square_le h hab)))
  obtain ⟨a, ea, haf, ha0, ha2⟩ := exp_down he ux
  obtain ⟨b, eb, hbf, hb0, hb2⟩ := exp_down he uy
  rw [ea, eb, le_num] at hle
  have key : ∀ z, 0 ≤ z → z ≤ 2 ^ (1 : ℤ) → (IE.num c * IE.num z : IE binary64 fl) = IE.num (fl (c * z)) ∧ Finite binary64 (fl (c * z)) ∧ 0 ≤ fl (c * z) := by
    intro z hz0 hz2
    obtain ⟨w, ew, hwf, hw1, -⟩ := ofReal_between (fl := fl) h (lo := 0) (hi := 2 ^ (511 : ℤ)) (x := c * z)
      onGrid_zero (pow_finite (by norm_num) (by norm_num)) (le_refl _) (by positivity)
      (by have := mul_le_mul hc2 hz2 hz0 (by positivity); rwa [← zpow_add₀ (by norm_num : (2 : ℝ) ≠ 0)] at this)
    have := (ofReal_isNum h ew).2
    subst this
    exact ⟨ew, hwf, hw1⟩
  refine ⟨fl (c * a), fl (c * b), ?_, ?_, (key a ha0 ha2).2.1, (key b hb0 hb2).2.1, (key b hb0 hb2).2.2, h.mono (mul_le_mul_of_nonneg_left hle hc0)⟩
  · rw [hpdf, ea, (key a ha0 ha2).1]
  · rw [hpdf, eb, (key b hb0 hb2).1]

-- The standard normal distribution between one and two deviations.
example (h : Rounds binary64 fl) : ∃ p q, Gauss.pdf expR ⟨0, 1⟩ (IE.num 1 : IE binary64 fl) = IE.num p ∧
    Gauss.pdf expR ⟨0, 1⟩ (IE.num 2 : IE binary64 fl) = IE.num q ∧ Finite binary64 p ∧ Finite binary64 q ∧ 0 ≤ q ∧ q ≤ p :=
  C177_partial h (expR_ok h).1 (expR_ok h).2 (m := 0) (s := 1)
    (by simpa using (zpow_le_zpow_right₀ (by norm_num) (by norm_num) : (2 : ℝ) ^ (-511 : ℤ) ≤ 2 ^ (0 : ℤ)))
    (by simpa using (zpow_le_zpow_right₀ (by norm_num) (by norm_num) : (2 : ℝ) ^ (0 : ℤ) ≤ 2 ^ (509 : ℤ))) (Or.inl ⟨by norm_num, by norm_num⟩)

theorem sum_times (h : Rounds binary64 fl) {f : IE binary64 fl → IE binary64 fl} {c : ℕ} (hc : 53 + c < 1024) : ∀ (l : List (IE binary64 fl)) (j : ℕ) (s : IE binary64 fl),
    (∀ a ∈ l, Below c (f a)) → Times j c s → j + l.length ≤ 2 ^ 53 → Times (j + l.length) c (l.foldl (fun s a => s + f a) s) := by
  intro l
  induction l with
  | nil => intro j s _ hs _; exact hs
  | cons a t ih =>
    intro j s hl hs hj
    rw [List.length_cons] at hj ⊢
    have := ih (j + 1) (s + f a) (fun b hb => hl b (List.mem_cons_of_mem _ hb))
      (hs.add h (hl a List.mem_cons_self) (by omega) (times_bound (e := 53) (by omega) hc)) (by omega)
    rwa [List.foldl_cons, show j + (t.length + 1) = j + 1 + t.length by omega]

theorem div_count (h : Rounds binary64 fl) {c n : ℕ} (hc : c < 1024) (hn : n ≤ 2 ^ 53) (h0 : 0 < n) {a : IE binary64 fl} (ha : Times n c a) :
    Below c (a / IE.ofCount n) := by
  obtain ⟨x, rfl, -, hx⟩ := ha
  have n0 : (0 : ℝ) < n := by exact_mod_cast h0
  rw [count_exact h hn, div_num x n0.ne']
  refine ofReal_below (by decide) (by decide) h (by change (c : ℤ) < 1024; exact_mod_cast hc) ?_
  rw [abs_div, abs_of_pos n0, div_le_iff₀ n0]
  linarith

/-- **C177** (partial), fitted distributions: fitting to finite observations of size at most `2 ^ 480` gives a finite mean of size at most `2 ^ 480` and a finite
standard deviation of at least `2 ^ -52`, and the fitted density is a number at every finite point. What is missing: larger observations, for which the
claim fails. -/
theorem C177_fit_partial (h : Rounds binary64 fl) {exp : IE binary64 fl → IE binary64 fl} (he : ExpOk exp) (hm : ExpMono exp)
    {samples : List (IE binary64 fl)} (hlen : samples.length ≤ 2 ^ 53) (hs : ∀ a ∈ samples, Below 480 a) :
    ∃ m s, Gauss.fit samples = ⟨IE.num m, IE.num s⟩ ∧ Finite binary64 m ∧ Finite binary64 s ∧ |m| ≤ 2 ^ 480 ∧ 2 ^ (-52 : ℤ) ≤ s ∧ s ≤ 2 ^ (481 : ℤ) ∧
      ∀ x, ∃ p, (Gauss.fit samples).pdf exp (IE.num x) = IE.num p ∧ Finite binary64 p ∧ 0 ≤ p := by
  have hp : ∀ e : ℤ, (0 : ℝ) < 2 ^ e := fun e => by positivity
  suffices hmain : ∃ m s, Gauss.fit samples = ⟨IE.num m, IE.num s⟩ ∧ Finite binary64 m ∧ Finite binary64 s ∧ |m| ≤ 2 ^ 480 ∧ 2 ^ (-52 : ℤ) ≤ s ∧
      s ≤ 2 ^ (481 : ℤ) by
    obtain ⟨m, s, e, hmf, hsf, hmb, h1, h2⟩ := hmain
    refine ⟨m, s, e, hmf, hsf, hmb, h1, h2, fun x => ?_⟩
    have h1' : (2 : ℝ) ^ (-511 : ℤ) ≤ s := (zpow_le_zpow_right₀ (by norm_num) (by norm_num)).trans h1
    have h2' : s ≤ 2 ^ (509 : ℤ) := h2.trans (zpow_le_zpow_right₀ (by norm_num) (by norm_num))
    obtain ⟨-, q, -, eq, -, hq, h0, -⟩ := C177_partial h he hm (m := m) h1' h2' (x := m) (y := x)
      ((le_total m x).imp (fun p => ⟨le_refl _, p⟩) (fun p => ⟨p, le_refl _⟩))
    exact ⟨q, by rw [e, eq], hq, h0⟩
  unfold Gauss.fit
  by_cases hnil : samples = []
  · subst hnil
    refine ⟨0, 1, rfl, fin_zero, fin_one, by rw [abs_zero]; positivity, ?_, ?_⟩
    · simpa using (zpow_le_zpow_right₀ (by norm_num) (by norm_num) : (2 : ℝ) ^ (-52 : ℤ) ≤ 2 ^ (0 : ℤ))
    · simpa using (zpow_le_zpow_right₀ (by norm_num) (by norm_num) : (2 : ℝ) ^ (0 : ℤ) ≤ 2 ^ (481 : ℤ))
  · have hpos : 0 < samples.length := List.length_pos_iff.2 hnil
    rw [if_neg (by simpa using hnil)]
    have hsum : Times samples.length 480 (samples.foldl (fun sum s => sum + s) 0) := by
      have := sum_times h (f := id) (c := 480) (by norm_num) samples 0 0 hs (Times.zero 480) (by omega)
      rwa [Nat.zero_add] at this
    obtain ⟨m, em, hmf, hmb⟩ := div_count h (by norm_num) hlen hpos hsum
    simp only [em]
    have hsq : ∀ a ∈ samples, Below 962 ((a - IE.num m) * (a - IE.num m)) := by
      intro a ha
      have h1 := Below.sub (F := binary64) (by decide) (by decide) h (hs a ha) ⟨m, rfl, hmf, hmb⟩ (by decide)
      exact Below.mul (by decide) (by decide) h h1 h1 (by decide)
    have hsum2 : Times samples.length 962 (samples.foldl (fun s2 s => s2 + (s - IE.num m) * (s - IE.num m)) 0) := by
      have := sum_times h (f := fun a => (a - IE.num m) * (a - IE.num m)) (c := 962) (by norm_num) samples 0 0 hsq (Times.zero 962) (by omega)
      rwa [Nat.zero_add] at this
    have hpart : ∀ (l : List (IE binary64 fl)) (a : IE binary64 fl), Partial a → Partial (l.foldl (fun s2 s => s2 + (s - IE.num m) * (s - IE.num m)) a) := by
      intro l
      induction l with
      | nil => intro a ha; exact ha
      | cons b t ih => intro a ha; exact ih _ (Opt.add_partial h ha (square_partial h _)).1
    have hpt := hpart samples 0 (Or.inr (Or.inr ⟨0, rfl, onGrid_zero, le_rfl⟩))
    obtain ⟨v, evv, hvf, hvb⟩ := div_count h (by norm_num) hlen hpos hsum2
    have hv0 : 0 ≤ v := by
      obtain ⟨x, ex, -, -⟩ := hsum2
      rw [ex] at evv hpt
      rcases hpt with hc | hc | ⟨x', hc, -, hx0⟩
      · cases hc
      · cases hc
      · rw [num_inj] at hc
        subst hc
        have n0 : (0 : ℝ) < samples.length := by exact_mod_cast hpos
        rw [count_exact h hlen, div_num x n0.ne'] at evv
        rw [(ofReal_isNum h evv).2, ← h.zero]
        exact h.mono (by positivity)
    simp only [evv, sqrt_num hv0]
    obtain ⟨r, er, hrf, hr1, hr2⟩ := ofReal_between (fl := fl) h (lo := 0) (hi := 2 ^ (481 : ℤ)) (x := √v)
      onGrid_zero (pow_finite (by norm_num) (by norm_num)) (le_refl _) (Real.sqrt_nonneg _)
      (Real.sqrt_le_iff.2 ⟨(hp _).le, by
        rw [sq, ← zpow_add₀ (by norm_num : (2 : ℝ) ≠ 0)]
        refine (le_abs_self v).trans (hvb.trans_eq ?_)
        rw [← zpow_natCast]; norm_num⟩)
    simp only [er]
    have hmx : IE.fmax (IE.num r : IE binary64 fl) (IE.num (2 ^ (-52 : ℤ))) = IE.num (max r (2 ^ (-52 : ℤ))) := by
      unfold IE.fmax
      rw [if_neg (by intro e; cases e), if_neg (by intro e; cases e)]
      by_cases hc : r < 2 ^ (-52 : ℤ)
      · rw [if_pos ((lt_num _ _).2 hc), max_eq_right hc.le]
      · rw [if_neg (fun e => hc ((lt_num _ _).1 e)), max_eq_left (not_lt.1 hc)]
    refine ⟨m, max r (2 ^ (-52 : ℤ)), by rw [hmx], hmf, ?_, hmb, le_max_right _ _, max_le hr2 (zpow_le_zpow_right₀ (by norm_num) (by norm_num))⟩
    rcases max_cases r ((2 : ℝ) ^ (-52 : ℤ)) with ⟨e, -⟩ | ⟨e, -⟩
    · rw [e]; exact hrf
    · rw [e]; exact pow_finite (by norm_num) (by norm_num)

-- Three observations, two of them equal.
example (h : Rounds binary64 fl) : ∃ m s, Gauss.fit [0, IE.num 1, (0 : IE binary64 fl)] = ⟨IE.num m, IE.num s⟩ ∧ |m| ≤ 2 ^ 480 ∧ 2 ^ (-52 : ℤ) ≤ s := by
  obtain ⟨m, s, e, -, -, h1, h2, -, -⟩ := C177_fit_partial h (expR_ok h).1 (expR_ok h).2 (samples := [0, IE.num 1, (0 : IE binary64 fl)]) (by norm_num)
    (by
      intro a ha
      rcases List.mem_cons.1 ha with rfl | ha
      · exact ⟨0, rfl, fin_zero, by simp⟩
      rcases List.mem_cons.1 ha with rfl | ha
      · exact ⟨1, rfl, fin_one, by rw [abs_one]; exact one_le_pow₀ (by norm_num)⟩
      rcases List.mem_cons.1 ha with rfl | ha
      · exact ⟨0, rfl, fin_zero, by simp⟩
      · cases ha)
  exact ⟨m, s, e, h1, h2⟩

theorem huge (h : Rounds binary64 fl) {e : ℤ} (he : 1024 ≤ e) : (IE.ofReal (2 ^ e) : IE binary64 fl) = IE.inf false := by
  have hp : (0 : ℝ) < 2 ^ e := by positivity
  unfold IE.ofReal
  rw [h.fix (onGrid_pow (by decide) (by change (-1074 : ℤ) ≤ e; omega)), abs_of_pos hp, if_neg, decide_eq_false hp.not_gt]
  exact not_lt.2 (zpow_le_zpow_right₀ (by norm_num) he)

theorem minute (h : Rounds binary64 fl) {x : ℝ} (h0 : 0 ≤ x) (hx : x < 2 ^ (-1075 : ℤ)) : (IE.ofReal x : IE binary64 fl) = IE.num 0 := by
  have h1 : 0 ≤ fl x := by rw [← h.zero]; exact h.mono h0
  have h2 := (h x).2 0 onGrid_zero
  rw [zero_sub, abs_neg, abs_of_nonneg h0] at h2
  have h3 := (abs_le.1 h2).2
  obtain ⟨k, hk⟩ := (h x).1.multiple
  have hp : (0 : ℝ) < 2 ^ (-1074 : ℤ) := by positivity
  have h4 : (2 : ℝ) ^ (-1074 : ℤ) = 2 * 2 ^ (-1075 : ℤ) := by rw [show (-1074 : ℤ) = 1 + -1075 by norm_num, zpow_add₀ (by norm_num), zpow_one]
  have hk1 : k < 1 := by
    by_contra hc
    have hc1 : (1 : ℝ) ≤ k := by exact_mod_cast not_lt.1 hc
    have : (2 : ℝ) ^ (-1074 : ℤ) ≤ fl x := by rw [hk]; exact le_mul_of_one_le_left hp.le hc1
    rw [h4] at this
    generalize (2 : ℝ) ^ (-1075 : ℤ) = u at *
    linarith
  have hk0 : -1 < k := by
    by_contra hc
    have hc1 : (k : ℝ) ≤ -1 := by exact_mod_cast not_lt.1 hc
    have : fl x ≤ -1 * 2 ^ (-1074 : ℤ) := by rw [hk]; exact mul_le_mul_of_nonneg_right hc1 hp.le
    linarith
  have e0 : k = 0 := by omega
  have e1 : fl x = 0 := by rw [hk, e0]; simp
  rw [ofReal_num (by rw [e1, abs_zero]; positivity), e1]

theorem ofReal_zero' (h : Rounds binary64 fl) : (IE.ofReal 0 : IE binary64 fl) = IE.num 0 := ofReal_finite h fin_zero

/-- **C177** fails for minute standard deviations: with a standard deviation of `2 ^ -600`, the square of the deviation is zero in `f64`, and the density at
the mean is not a number. -/
theorem C177_fails (h : Rounds binary64 fl) {exp : IE binary64 fl → IE binary64 fl} (he : ExpOk exp) :
    Finite binary64 (2 ^ (-600 : ℤ)) ∧ Gauss.pdf exp ⟨0, IE.num (2 ^ (-600 : ℤ))⟩ (0 : IE binary64 fl) = IE.nan := by
  refine ⟨pow_finite (by norm_num) (by norm_num), ?_⟩
  have hv : (IE.num (2 ^ (-600 : ℤ)) * IE.num (2 ^ (-600 : ℤ)) : IE binary64 fl) = IE.num 0 := by
    rw [mul_num, ← zpow_add₀ (by norm_num : (2 : ℝ) ≠ 0)]
    exact minute h (by positivity) (zpow_lt_zpow_right₀ (by norm_num) (by norm_num))
  unfold Gauss.pdf
  simp only [two_num h, half_val h, hv, ie_zero, sub_num, neg_zero, add_zero, ofReal_zero' h, mul_num, mul_zero]
  have hn : (IE.num 0 / IE.num 0 : IE binary64 fl) = IE.nan := by
    change (if (0 : ℝ) = 0 then (if (0 : ℝ) = 0 then (IE.nan : IE binary64 fl) else IE.inf (IE.isNeg 0)) else IE.ofReal (0 / 0)) = _
    rw [if_pos rfl, if_pos rfl]
  rw [show IE.fmax (IE.num 0 : IE binary64 fl) (IE.num 0) = IE.num 0 from fmax_zero (le_refl 0), hn]
  change _ * exp IE.nan = _
  rw [he.nan, mul_nan]

/-- The density far from the mean when the variance has overflowed. -/
theorem pdf_top (h : Rounds binary64 fl) {exp : IE binary64 fl → IE binary64 fl} (he : ExpOk exp) {s : IE binary64 fl} (hs : s * s = IE.inf false) :
    Gauss.pdf exp ⟨0, s⟩ (IE.num (2 ^ (600 : ℤ)) : IE binary64 fl) = IE.nan := by
  have hd : (IE.num (2 ^ (600 : ℤ)) - 0 : IE binary64 fl) = IE.ofReal (2 ^ (600 : ℤ)) := by
    rw [ie_zero, sub_num, neg_zero, add_zero]
  have hf : Finite binary64 (2 ^ (600 : ℤ)) := pow_finite (by norm_num) (by norm_num)
  have hq : (IE.num (1 / 2) * IE.num (2 ^ (600 : ℤ)) * IE.num (2 ^ (600 : ℤ)) : IE binary64 fl) = IE.inf false := by
    rw [square_num h hf, show (1 / 2 : ℝ) * 2 ^ (600 : ℤ) = 2 ^ (599 : ℤ) by
        rw [show (600 : ℤ) = 1 + 599 by norm_num, zpow_add₀ (by norm_num), zpow_one]; ring,
      h.fix (onGrid_pow (by decide) (by decide)), ← zpow_add₀ (by norm_num : (2 : ℝ) ≠ 0)]
    exact huge h (by norm_num)
  have hv : IE.fmax (IE.inf false : IE binary64 fl) 0 = IE.inf false := by
    unfold IE.fmax
    rw [if_neg (by intro e; cases e), if_neg (by intro e; cases e), if_neg]
    exact fun hc => Bool.noConfusion (show false = true from hc)
  unfold Gauss.pdf
  simp only [two_num h, half_val h, hs, hv, hd, ofReal_finite h hf, hq]
  change _ * exp IE.nan = _
  rw [he.nan, mul_nan]

/-- **C177** fails for huge standard deviations: with a standard deviation of `2 ^ 600`, the density one deviation away from the mean is not a number. -/
theorem C177_large_fails (h : Rounds binary64 fl) {exp : IE binary64 fl → IE binary64 fl} (he : ExpOk exp) :
    Finite binary64 (2 ^ (600 : ℤ)) ∧ Gauss.pdf exp ⟨0, IE.num (2 ^ (600 : ℤ))⟩ (IE.num (2 ^ (600 : ℤ)) : IE binary64 fl) = IE.nan := by
  refine ⟨pow_finite (by norm_num) (by norm_num), pdf_top h he ?_⟩
  rw [mul_num, ← zpow_add₀ (by norm_num : (2 : ℝ) ≠ 0)]
  exact huge h (by norm_num)

/-- **C177** fails for fitted distributions: fitted to the two finite observations `2 ^ 600` and `-2 ^ 600`, the density at the first is not a number. -/
theorem C177_fit_fails (h : Rounds binary64 fl) {exp : IE binary64 fl → IE binary64 fl} (he : ExpOk exp) :
    (Gauss.fit [IE.num (2 ^ (600 : ℤ)), IE.num (-2 ^ (600 : ℤ))]).pdf exp (IE.num (2 ^ (600 : ℤ)) : IE binary64 fl) = IE.nan := by
  have hf : Finite binary64 (2 ^ (600 : ℤ)) := pow_finite (by norm_num) (by norm_num)
  have hsq : (2 : ℝ) ^ (600 : ℤ) * 2 ^ (600 : ℤ) = 2 ^ (1200 : ℤ) := by rw [← zpow_add₀ (by norm_num : (2 : ℝ) ≠ 0)]; norm_num
  have e2 : (IE.ofCount 2 : IE binary64 fl) = IE.num 2 := by simpa using count_exact h (j := 2) (by norm_num)
  have hfit : Gauss.fit [IE.num (2 ^ (600 : ℤ)), IE.num (-2 ^ (600 : ℤ))] = (⟨0, IE.inf false⟩ : Gauss fl) := by
    have hmu : (0 + IE.num (2 ^ (600 : ℤ)) + IE.num (-2 ^ (600 : ℤ)) : IE binary64 fl) / IE.num 2 = 0 := by
      rw [ie_zero, add_num, zero_add, ofReal_finite h hf, add_num, add_neg_cancel, ofReal_zero' h, div_num 0 (by norm_num), zero_div, ofReal_zero' h]
    have d1 : (IE.num (2 ^ (600 : ℤ)) - 0 : IE binary64 fl) = IE.num (2 ^ (600 : ℤ)) := by
      rw [ie_zero, sub_num, neg_zero, add_zero, ofReal_finite h hf]
    have d2 : (IE.num (-2 ^ (600 : ℤ)) - 0 : IE binary64 fl) = IE.num (-2 ^ (600 : ℤ)) := by
      rw [ie_zero, sub_num, neg_zero, add_zero, ofReal_finite h ⟨hf.1.neg, by rw [abs_neg]; exact hf.2⟩]
    have hs2 : (0 + (IE.num (2 ^ (600 : ℤ)) - 0) * (IE.num (2 ^ (600 : ℤ)) - 0) + (IE.num (-2 ^ (600 : ℤ)) - 0) * (IE.num (-2 ^ (600 : ℤ)) - 0) : IE binary64 fl) =
        IE.inf false := by
      rw [d1, d2, mul_num, mul_num, neg_mul_neg, hsq, huge h (by norm_num)]
      rfl
    unfold Gauss.fit
    simp only [List.isEmpty_cons, Bool.false_eq_true, if_false, List.length_cons, List.length_nil, List.foldl_cons, List.foldl_nil, zero_add, Nat.reduceAdd]
    rw [e2, hmu, hs2]
    have hi : (IE.inf false / IE.num 2 : IE binary64 fl) = IE.inf false := by
      change IE.inf (xor false (IE.isNeg 2)) = _
      have : IE.isNeg 2 = false := by unfold IE.isNeg; exact decide_eq_false (by norm_num)
      rw [this]; rfl
    have hr : IE.sqrt (IE.inf false : IE binary64 fl) = IE.inf false := rfl
    have hx : IE.fmax (IE.inf false : IE binary64 fl) (IE.num (2 ^ (-52 : ℤ))) = IE.inf false := by
      unfold IE.fmax
      rw [if_neg (by intro e; cases e), if_neg (by intro e; cases e), if_neg]
      exact fun hc => Bool.noConfusion (show false = true from hc)
    rw [hi, hr, hx]
  rw [hfit]
  exact pdf_top h he rfl

end Verif.Stats.Ie
