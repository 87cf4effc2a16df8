import Verif.ML.MarginIeee
import Verif.ML.PropsBayesIeee
import Verif.ML.PropsPercIeee
import Verif.Ieee.Special
import Verif.Ieee.PropsAngle
import Mathlib.Analysis.SpecialFunctions.Exp
import Mathlib.Analysis.Complex.ExponentialBounds

/-!
# Logistic regression in machine arithmetic (C167, C168, C169)
-/

namespace Verif.ML.Ie

open Verif.Mat Verif.Ieee

variable {fl : ℝ → ℝ} {n : ℕ}

/-- The exponential of the platform: special values as in IEEE 754, the value at zero exact, the others accurate to two units in the last place, and
overflow only for values of at least `2 ^ 1023`. -/
structure ExpOk (exp : IE binary64 fl → IE binary64 fl) : Prop where
  nan : exp IE.nan = IE.nan
  top : exp (IE.inf false) = IE.inf false
  bot : exp (IE.inf true) = IE.num 0
  zero : exp (IE.num 0) = IE.num 1
  val : ∀ x, Finite binary64 x →
    (∃ y, exp (IE.num x) = IE.num y ∧ Finite binary64 y ∧ 0 ≤ y ∧ |y - Real.exp x| ≤ 2 ^ (-52 : ℤ) * Real.exp x + 2 ^ (-1074 : ℤ)) ∨
      exp (IE.num x) = IE.inf false ∧ 2 ^ (1023 : ℤ) ≤ Real.exp x

/-- The exponential of the platform is monotone. -/
def ExpMono (exp : IE binary64 fl → IE binary64 fl) : Prop := ∀ a b, a ≤ b → exp a ≤ exp b

/-- The exact exponential, rounded. -/
noncomputable def expR (a : IE binary64 fl) : IE binary64 fl := match a.val with
  | .nan => IE.nan
  | .inf s => if s then IE.num 0 else IE.inf false
  | .num x => IE.ofReal (Real.exp x)

theorem fin_zero : Finite binary64 0 := ⟨onGrid_zero, by rw [abs_zero]; positivity⟩

theorem fin_one : Finite binary64 1 := by simpa using pow_finite (e := 0) (by norm_num) (by norm_num)

/-- The exact exponential, rounded, is as supposed. -/
theorem expR_ok (h : Rounds binary64 fl) : ExpOk (expR : IE binary64 fl → IE binary64 fl) ∧ ExpMono (expR : IE binary64 fl → IE binary64 fl) := by
  have hpos : ∀ x : ℝ, 0 ≤ fl (Real.exp x) := fun x => by rw [← h.zero]; exact h.mono (Real.exp_pos x).le
  have hcase : ∀ x : ℝ, (IE.ofReal (Real.exp x) : IE binary64 fl) = IE.num (fl (Real.exp x)) ∧ Finite binary64 (fl (Real.exp x)) ∨
      (IE.ofReal (Real.exp x) : IE binary64 fl) = IE.inf false ∧ 2 ^ (1024 : ℤ) ≤ fl (Real.exp x) := by
    intro x
    by_cases hf : |fl (Real.exp x)| < 2 ^ binary64.emax
    · exact Or.inl ⟨ofReal_num hf, (h _).1, hf⟩
    · right
      rcases ofReal_nonneg h (Real.exp_pos x).le with e | ⟨e, -, -⟩
      · refine ⟨e, ?_⟩
        rw [abs_of_nonneg (hpos x)] at hf
        exact not_lt.1 hf
      · have := (ofReal_isNum h e).1.2
        exact absurd this hf
  refine ⟨⟨rfl, rfl, rfl, ?_, fun x hx => ?_⟩, ?_⟩
  · change IE.ofReal (Real.exp 0) = _
    rw [Real.exp_zero, ofReal_finite h fin_one]
  · rcases hcase x with ⟨e, hf⟩ | ⟨e, hb⟩
    · refine Or.inl ⟨_, e, hf, hpos x, (h.err (by decide) _).trans ?_⟩
      rw [abs_of_pos (Real.exp_pos x)]
      have h1 : unit binary64 ≤ 2 ^ (-52 : ℤ) := zpow_le_zpow_right₀ (by norm_num) (by decide)
      have h2 : tiny binary64 ≤ 2 ^ (-1074 : ℤ) := zpow_le_zpow_right₀ (by norm_num) (by decide)
      have := mul_le_mul_of_nonneg_right h1 (Real.exp_pos x).le
      linarith
    · refine Or.inr ⟨e, ?_⟩
      by_contra hc
      have h1 := h.mono (not_le.1 hc).le
      rw [h.fix (pow_finite (e := 1023) (by norm_num) (by norm_num)).1] at h1
      have h2 : (2 : ℝ) ^ (1023 : ℤ) < 2 ^ (1024 : ℤ) := zpow_lt_zpow_right₀ (by norm_num) (by norm_num)
      exact absurd (hb.trans h1) (not_le.2 h2)
  · intro a b hab
    rcases a with ⟨_ | s | x⟩
    · exact absurd hab (nan_le _)
    · rcases b with ⟨_ | t | y⟩
      · exact absurd hab (le_nan _)
      · cases s <;> cases t
        · exact Or.inr rfl
        · rcases hab with h' | h' <;> cases h'
        · exact (show (IE.num 0 : IE binary64 fl) ≤ IE.inf false from rfl)
        · exact (le_num 0 0).2 le_rfl
      · have hs : s = true := hab
        subst hs
        change IE.num 0 ≤ IE.ofReal (Real.exp y)
        rcases hcase y with ⟨e, -⟩ | ⟨e, -⟩ <;> rw [e]
        · exact hpos y
        · rfl
    · rcases b with ⟨_ | t | y⟩
      · exact absurd hab (le_nan _)
      · have ht : t = false := hab
        subst ht
        change IE.ofReal (Real.exp x) ≤ IE.inf false
        rcases hcase x with ⟨e, -⟩ | ⟨e, -⟩ <;> rw [e]
        · rfl
        · exact Or.inr rfl
      · have hxy : x ≤ y := hab
        have hm := h.mono (Real.exp_le_exp.2 hxy)
        change IE.ofReal (Real.exp x) ≤ IE.ofReal (Real.exp y)
        rcases hcase x with ⟨e, -⟩ | ⟨e, hb⟩ <;> rcases hcase y with ⟨e', hf'⟩ | ⟨e', -⟩ <;> rw [e, e']
        · exact hm
        · rfl
        · have h1 := hb.trans hm
          have h2 := hf'.2
          rw [abs_of_nonneg (hpos y)] at h2
          exact absurd h2 (not_lt.2 h1)
        · exact Or.inr rfl

/-! ## The probability -/

/-- A value of the format: a finite one, if a number. -/
def Valid (a : IE binary64 fl) : Prop := ∀ x, a = IE.num x → Finite binary64 x

/-- What an exponential can be: a number that is not negative, or infinity. -/
def Expo (a : IE binary64 fl) : Prop := (∃ y, a = IE.num y ∧ Finite binary64 y ∧ 0 ≤ y) ∨ a = IE.inf false

theorem ie_one : (1 : IE binary64 fl) = IE.num 1 := rfl

/-- The values of `1 / (1 + a)`. -/
theorem recip_cases (h : Rounds binary64 fl) {a : IE binary64 fl} (ha : Expo a) :
    (∃ y, a = IE.num y ∧ Finite binary64 y ∧ 0 ≤ y ∧ Finite binary64 (fl (1 + y)) ∧ 1 ≤ fl (1 + y) ∧ 1 + a = IE.num (fl (1 + y)) ∧
        1 / (1 + a) = IE.num (fl (1 / fl (1 + y)))) ∨
      (∀ y, a = IE.num y → 2 ^ (1023 : ℤ) ≤ y) ∧ 1 + a = IE.inf false ∧ 1 / (1 + a) = IE.num 0 := by
  rcases ha with ⟨y, rfl, hf, hy⟩ | rfl
  · have h1 : 1 ≤ fl (1 + y) := by
      have := h.mono (show (1 : ℝ) ≤ 1 + y by linarith)
      rwa [h.fix fin_one.1] at this
    by_cases hb : |fl (1 + y)| < 2 ^ binary64.emax
    · left
      have e : (1 + IE.num y : IE binary64 fl) = IE.num (fl (1 + y)) := by rw [ie_one, add_num, ofReal_num hb]
      refine ⟨y, rfl, hf, hy, ⟨(h _).1, hb⟩, h1, e, ?_⟩
      have hle : 1 / fl (1 + y) ≤ 1 := by rw [div_le_one (by linarith)]; exact h1
      have hp : 0 ≤ 1 / fl (1 + y) := by positivity
      obtain ⟨z, ez, -, -, -⟩ := ofReal_between (fl := fl) h onGrid_zero fin_one le_rfl hp hle
      rw [e, ie_one, div_num _ (by linarith), ez, (ofReal_isNum h ez).2]
    · right
      have e : (1 + IE.num y : IE binary64 fl) = IE.inf false := by
        rw [ie_one, add_num]
        rcases ofReal_nonneg h (show 0 ≤ 1 + y by linarith) with e | ⟨e, -, -⟩
        · exact e
        · exact absurd (ofReal_isNum h e).1.2 hb
      refine ⟨fun y' ey => ?_, e, by rw [e]; rfl⟩
      rw [num_inj] at ey
      subst ey
      by_contra hc
      have hc := not_le.1 hc
      have h2 : (1 : ℝ) + y ≤ 2 ^ (1023 : ℤ) + 2 ^ (0 : ℤ) := by rw [zpow_zero]; linarith
      have h3 : (2 : ℝ) ^ (1023 : ℤ) + 2 ^ (0 : ℤ) ≤ 2 ^ (1023 : ℤ) + 2 ^ (1022 : ℤ) := by
        have : (2 : ℝ) ^ (0 : ℤ) ≤ 2 ^ (1022 : ℤ) := zpow_le_zpow_right₀ (by norm_num) (by norm_num)
        exact add_le_add le_rfl this
      have h4 : OnGrid binary64 (2 ^ (1023 : ℤ) + 2 ^ (1022 : ℤ)) := by
        have := onGrid_of_le (F := binary64) (by decide) (m := 3) (e := 1022) (by decide) (by decide)
        rwa [show ((3 : ℤ) : ℝ) * 2 ^ (1022 : ℤ) = 2 ^ (1023 : ℤ) + 2 ^ (1022 : ℤ) by
          rw [show (1023 : ℤ) = 1 + 1022 from rfl, zpow_add₀ (by norm_num)]; push_cast; ring] at this
      have h5 := h.mono (h2.trans h3)
      rw [h.fix h4] at h5
      have h6 : (2 : ℝ) ^ (1023 : ℤ) + 2 ^ (1022 : ℤ) < 2 ^ (1024 : ℤ) := by
        rw [show (1024 : ℤ) = 2 + 1022 from rfl, show (1023 : ℤ) = 1 + 1022 from rfl, zpow_add₀ (by norm_num), zpow_add₀ (by norm_num)]
        have : (0 : ℝ) < 2 ^ (1022 : ℤ) := by positivity
        generalize (2 : ℝ) ^ (1022 : ℤ) = t at *
        norm_num
        linarith
      rw [abs_of_nonneg (by linarith)] at hb
      exact hb (lt_of_le_of_lt h5 h6)
  · right
    exact ⟨fun y ey => (by cases ey), rfl, rfl⟩

theorem recip_unit (h : Rounds binary64 fl) {a : IE binary64 fl} (ha : Expo a) : ∃ p, 1 / (1 + a) = IE.num p ∧ Finite binary64 p ∧ 0 ≤ p ∧ p ≤ 1 := by
  rcases recip_cases h ha with ⟨y, -, -, -, -, h1, -, e⟩ | ⟨-, -, e⟩
  · refine ⟨_, e, ?_⟩
    have hle : 1 / fl (1 + y) ≤ 1 := by rw [div_le_one (by linarith)]; exact h1
    have hp : 0 ≤ 1 / fl (1 + y) := by positivity
    obtain ⟨z, ez, hz, h2, h3⟩ := ofReal_between (fl := fl) h onGrid_zero fin_one le_rfl hp hle
    have := (ofReal_isNum h ez).2
    subst this
    exact ⟨hz, h2, h3⟩
  · exact ⟨0, e, fin_zero, le_rfl, zero_le_one⟩

theorem recip_anti (h : Rounds binary64 fl) {a b : IE binary64 fl} (ha : Expo a) (hb : Expo b) (hab : a ≤ b) : 1 / (1 + b) ≤ 1 / (1 + a) := by
  rcases recip_cases h hb with ⟨y, ey, hy, hy0, hyf, hy1, ey1, e⟩ | ⟨-, -, e⟩
  · rcases recip_cases h ha with ⟨x, ex, hx, hx0, -, hx1, ex1, e'⟩ | ⟨hx, ex1, -⟩
    · rw [e, e', le_num]
      rw [ex, ey, le_num] at hab
      have h1 := h.mono (show 1 + x ≤ 1 + y by linarith)
      exact h.mono (one_div_le_one_div_of_le (by linarith) h1)
    · exfalso
      rcases ha with ⟨x, ex, -, hx0⟩ | ex
      · rw [ex, ey, le_num] at hab
        rw [ex] at ex1
        have h1 := h.mono (show 1 + x ≤ 1 + y by linarith)
        have hb : |fl (1 + x)| < 2 ^ binary64.emax := by
          have h0 : 0 ≤ fl (1 + x) := by rw [← h.zero]; exact h.mono (by linarith)
          rw [abs_of_nonneg h0]
          exact h1.trans_lt ((le_abs_self _).trans_lt hyf.2)
        rw [ie_one, add_num, ofReal_num hb] at ex1
        cases ex1
      · rw [ex, ey] at hab
        exact inf_le_num _ hab
  · obtain ⟨p, ep, -, hp, -⟩ := recip_unit h ha
    rw [e, ep, le_num]
    exact hp

theorem neg_num (x : ℝ) : (-(IE.num x) : IE binary64 fl) = IE.num (-x) := rfl

theorem fin_neg {x : ℝ} (hx : Finite binary64 x) : Finite binary64 (-x) := ⟨hx.1.neg, by rw [abs_neg]; exact hx.2⟩

theorem expo_of {exp : IE binary64 fl → IE binary64 fl} (hE : ExpOk exp) {s : IE binary64 fl} (hs : Valid s) (hn : s ≠ IE.nan) : Expo (exp s) := by
  rcases s with ⟨_ | t | x⟩
  · exact absurd rfl hn
  · cases t
    · exact Or.inr hE.top
    · exact Or.inl ⟨0, hE.bot, fin_zero, le_rfl⟩
  · rcases hE.val x (hs x rfl) with ⟨y, e, hf, hy, -⟩ | ⟨e, -⟩
    · exact Or.inl ⟨y, e, hf, hy⟩
    · exact Or.inr e

theorem neg_valid {s : IE binary64 fl} (hs : Valid s) (hn : s ≠ IE.nan) : Valid (-s) ∧ -s ≠ IE.nan := by
  rcases s with ⟨_ | t | x⟩
  · exact absurd rfl hn
  · exact ⟨fun x e => (by cases e), fun e => by cases e⟩
  · refine ⟨fun y e => ?_, fun e => by cases e⟩
    change IE.num (-x) = _ at e
    rw [num_inj] at e
    rw [← e]
    exact fin_neg (hs x rfl)

theorem neg_anti {a b : IE binary64 fl} (hab : a ≤ b) : -b ≤ -a := by
  rcases a with ⟨_ | s | x⟩
  · exact absurd hab (nan_le _)
  · rcases b with ⟨_ | t | y⟩
    · exact absurd hab (le_nan _)
    · change (!t) = true ∨ (!s) = false
      have : s = true ∨ t = false := hab
      cases s <;> cases t <;> simp_all
    · change (!s) = false
      have : s = true := hab
      simp [this]
  · rcases b with ⟨_ | t | y⟩
    · exact absurd hab (le_nan _)
    · change (!t) = true
      have : t = false := hab
      simp [this]
    · exact neg_le_neg (show x ≤ y from hab)

/-- The score is a value of the format. -/
theorem lscore_valid (h : Rounds binary64 fl) (w : Fin n → IE binary64 fl) {b : IE binary64 fl} (x : Fin n → IE binary64 fl) (hb : Valid b) :
    Valid (lscore w b x) := by
  have hadd : ∀ a c : IE binary64 fl, Valid (a + c) := by
    intro a c y e
    rcases a with ⟨_ | s | u⟩
    · change IE.nan + c = _ at e
      rw [nan_add] at e; cases e
    · rcases c with ⟨_ | t | v⟩
      · cases e
      · change (if s = t then IE.inf s else IE.nan) = _ at e
        split_ifs at e <;> cases e
      · cases e
    · rcases c with ⟨_ | t | v⟩
      · cases e
      · cases e
      · exact (ofReal_isNum h (show IE.ofReal (u + v) = IE.num y from e)).1
  unfold lscore
  generalize rng n 0 n = l
  induction l generalizing b with
  | nil => exact hb
  | cons i l ih => exact ih (hadd _ _)

/-- The error of the probability of a finite score. -/
theorem sigmoid_acc (h : Rounds binary64 fl) {exp : IE binary64 fl → IE binary64 fl} (hE : ExpOk exp) {s : ℝ} (hs : Finite binary64 s) :
    ∃ p, sigmoid exp (IE.num s) = IE.num p ∧ |p - 1 / (1 + Real.exp (-s))| ≤ 2 ^ (-50 : ℤ) := by
  have hexp := Real.exp_pos (-s)
  have hsig : 0 < 1 / (1 + Real.exp (-s)) := by positivity
  have hbig : ∀ y : ℝ, 2 ^ (1022 : ℤ) ≤ y → 1 / (1 + y) ≤ (2 : ℝ) ^ (-50 : ℤ) := by
    intro y hy
    have h1 : (2 : ℝ) ^ (50 : ℤ) ≤ 2 ^ (1022 : ℤ) := zpow_le_zpow_right₀ (by norm_num) (by norm_num)
    have h2 : (0 : ℝ) < 2 ^ (50 : ℤ) := by positivity
    rw [zpow_neg, ← one_div]
    exact one_div_le_one_div_of_le h2 (h1.trans (hy.trans (by linarith only)))
  unfold sigmoid
  rw [neg_num]
  have hX := expo_of hE (s := IE.num (-s)) (fun x e => by rw [num_inj] at e; rw [← e]; exact fin_neg hs) (fun e => by cases e)
  have hu : unit binary64 = 2 ^ (-53 : ℤ) := rfl
  have ht : tiny binary64 ≤ 2 ^ (-100 : ℤ) := zpow_le_zpow_right₀ (by norm_num) (by decide)
  have ht' : (2 : ℝ) ^ (-1074 : ℤ) ≤ 2 ^ (-100 : ℤ) := zpow_le_zpow_right₀ (by norm_num) (by norm_num)
  have h10 : (2 : ℝ) ^ (-1074 : ℤ) ≤ 1 := ht'.trans (by norm_num)
  rcases recip_cases h hX with ⟨y, ey, hyf, hy0, hdf, hd1, ed, e⟩ | ⟨hb, -, e⟩
  · refine ⟨_, e, ?_⟩
    rcases hE.val (-s) (fin_neg hs) with ⟨y', ey', -, -, hacc⟩ | ⟨ei, -⟩
    swap
    · rw [ei] at ey; cases ey
    rw [ey', num_inj] at ey
    subst ey
    set E := Real.exp (-s)
    set d := fl (1 + y')
    have hd : |d - (1 + y')| ≤ 2 ^ (-53 : ℤ) * (1 + y') := by
      have := h.normal (F := binary64) (by decide) (x := 1 + y') (by
        rw [abs_of_nonneg (by linarith)]
        have : (2 : ℝ) ^ (binary64.emin + binary64.p - 1) ≤ 2 ^ (0 : ℤ) := zpow_le_zpow_right₀ (by norm_num) (by decide)
        rw [zpow_zero] at this
        linarith)
      rwa [abs_of_nonneg (show 0 ≤ 1 + y' by linarith), hu] at this
    have hq : |fl (1 / d) - 1 / d| ≤ 2 ^ (-53 : ℤ) + 2 ^ (-100 : ℤ) := by
      have := h.err (F := binary64) (by decide) (1 / d)
      rw [hu, abs_of_nonneg (show 0 ≤ 1 / d by positivity)] at this
      have h1 : 1 / d ≤ 1 := by rw [div_le_one (by linarith)]; exact hd1
      have : (2 : ℝ) ^ (-53 : ℤ) * (1 / d) ≤ 2 ^ (-53 : ℤ) := mul_le_of_le_one_right (by positivity) h1
      generalize (2 : ℝ) ^ (-100 : ℤ) = t at *
      linarith
    have hdpos : 0 < d := by linarith
    have hy1 : 0 < 1 + y' := by linarith
    have hE1 : 0 < 1 + E := by linarith
    have e1 : |1 / d - 1 / (1 + y')| ≤ 2 ^ (-53 : ℤ) := by
      rw [div_sub_div _ _ hdpos.ne' hy1.ne', abs_div, abs_of_pos (mul_pos hdpos hy1), div_le_iff₀ (mul_pos hdpos hy1), one_mul, mul_one, abs_sub_comm]
      calc |d - (1 + y')| ≤ 2 ^ (-53 : ℤ) * (1 + y') := hd
        _ ≤ 2 ^ (-53 : ℤ) * (d * (1 + y')) := mul_le_mul_of_nonneg_left (le_mul_of_one_le_left hy1.le hd1) (by positivity)
    have e2 : |1 / (1 + y') - 1 / (1 + E)| ≤ 2 ^ (-52 : ℤ) + 2 ^ (-100 : ℤ) := by
      rw [div_sub_div _ _ hy1.ne' hE1.ne', abs_div, abs_of_pos (mul_pos hy1 hE1), div_le_iff₀ (mul_pos hy1 hE1), one_mul, mul_one,
        show 1 + E - (1 + y') = -(y' - E) by ring, abs_neg]
      refine hacc.trans ?_
      have a1 : E ≤ (1 + y') * (1 + E) := by nlinarith
      have a2 : 1 ≤ (1 + y') * (1 + E) := by nlinarith
      have b1 := mul_le_mul_of_nonneg_left a1 (show (0 : ℝ) ≤ 2 ^ (-52 : ℤ) by positivity)
      have b2 := mul_le_mul_of_nonneg_left a2 (show (0 : ℝ) ≤ 2 ^ (-100 : ℤ) by positivity)
      rw [add_mul]
      linarith
    have e3 : fl (1 / d) - 1 / (1 + E) = (fl (1 / d) - 1 / d) + (1 / d - 1 / (1 + y')) + (1 / (1 + y') - 1 / (1 + E)) := by ring
    rw [e3]
    refine (abs_add_three _ _ _).trans ((add_le_add (add_le_add hq e1) e2).trans ?_)
    norm_num
  · refine ⟨0, e, ?_⟩
    rw [zero_sub, abs_neg, abs_of_pos hsig]
    apply hbig
    rcases hE.val (-s) (fin_neg hs) with ⟨y', ey', -, -, hacc⟩ | ⟨-, hb'⟩
    · have hy' := hb y' ey'
      have h1 := (abs_le.1 hacc).2
      have e2 : (2 : ℝ) ^ (1023 : ℤ) = 2 * 2 ^ (1022 : ℤ) := by rw [show (1023 : ℤ) = 1 + 1022 from rfl, zpow_add₀ (by norm_num), zpow_one]
      have h4 : (4 : ℝ) ≤ 2 ^ (1022 : ℤ) := by
        have : (2 : ℝ) ^ (2 : ℤ) ≤ 2 ^ (1022 : ℤ) := zpow_le_zpow_right₀ (by norm_num) (by norm_num)
        rwa [show (2 : ℝ) ^ (2 : ℤ) = 4 by norm_num] at this
      have h5 : (2 : ℝ) ^ (-52 : ℤ) * Real.exp (-s) ≤ 1 / 4 * Real.exp (-s) := mul_le_mul_of_nonneg_right (by norm_num) hexp.le
      generalize (2 : ℝ) ^ (1022 : ℤ) = t at *
      generalize (2 : ℝ) ^ (1023 : ℤ) = t2 at *
      generalize (2 : ℝ) ^ (-1074 : ℤ) = t3 at *
      generalize (2 : ℝ) ^ (-52 : ℤ) * Real.exp (-s) = t4 at *
      generalize Real.exp (-s) = t5 at *
      linarith only [hy', h1, e2, h4, h5, h10]
    · exact le_trans (zpow_le_zpow_right₀ (by norm_num) (by norm_num)) hb'

/-- **C167.** The probability of a query is NaN exactly if its score is; otherwise it is a finite number between zero and one. -/
theorem C167_unit (h : Rounds binary64 fl) {exp : IE binary64 fl → IE binary64 fl} (hE : ExpOk exp) (o : Logistic binary64 fl n) (x : Fin n → IE binary64 fl)
    (hb : Valid o.bias) :
    (lscore o.weights o.bias x = IE.nan → o.prob exp x = IE.nan) ∧
      (lscore o.weights o.bias x ≠ IE.nan → ∃ p, o.prob exp x = IE.num p ∧ Finite binary64 p ∧ 0 ≤ p ∧ p ≤ 1) := by
  unfold Logistic.prob
  refine ⟨fun e => ?_, fun hn => ?_⟩
  · rw [e, sigmoid]
    change 1 / (1 + exp IE.nan) = _
    rw [hE.nan, add_nan, div_nan]
  · have hv := neg_valid (lscore_valid h o.weights x hb) hn
    exact recip_unit h (expo_of hE hv.1 hv.2)

theorem sigmoid_mono (h : Rounds binary64 fl) {exp : IE binary64 fl → IE binary64 fl} (hE : ExpOk exp) (hM : ExpMono exp) {a b : IE binary64 fl}
    (ha : Valid a) (hb : Valid b) (hab : a ≤ b) : sigmoid exp a ≤ sigmoid exp b := by
  have hn : a ≠ IE.nan := fun e => by rw [e] at hab; exact nan_le _ hab
  have hn' : b ≠ IE.nan := fun e => by rw [e] at hab; exact le_nan _ hab
  have v := neg_valid ha hn
  have v' := neg_valid hb hn'
  exact recip_anti h (expo_of hE v'.1 v'.2) (expo_of hE v.1 v.2) (hM _ _ (neg_anti hab))

/-- **C167.** A larger score has no smaller probability. -/
theorem C167_mono (h : Rounds binary64 fl) {exp : IE binary64 fl → IE binary64 fl} (hE : ExpOk exp) (hM : ExpMono exp) (o o' : Logistic binary64 fl n)
    (x x' : Fin n → IE binary64 fl) (hb : Valid o.bias) (hb' : Valid o'.bias)
    (hle : lscore o.weights o.bias x ≤ lscore o'.weights o'.bias x') : o.prob exp x ≤ o'.prob exp x' :=
  sigmoid_mono h hE hM (lscore_valid h o.weights x hb) (lscore_valid h o'.weights x' hb') hle

/-- **C167.** The probability is that of the logistic function at the score, up to `2 ^ -50`; infinite scores have probabilities zero and one. -/
theorem C167_accurate (h : Rounds binary64 fl) {exp : IE binary64 fl → IE binary64 fl} (hE : ExpOk exp) (o : Logistic binary64 fl n)
    (x : Fin n → IE binary64 fl) (hb : Valid o.bias) :
    (∀ s, lscore o.weights o.bias x = IE.num s → ∃ p, o.prob exp x = IE.num p ∧ |p - 1 / (1 + Real.exp (-s))| ≤ 2 ^ (-50 : ℤ)) ∧
      (lscore o.weights o.bias x = IE.inf false → o.prob exp x = 1) ∧ (lscore o.weights o.bias x = IE.inf true → o.prob exp x = 0) := by
  unfold Logistic.prob
  refine ⟨fun s e => ?_, fun e => ?_, fun e => ?_⟩
  · have := lscore_valid h o.weights x hb s e
    rw [e]
    exact sigmoid_acc h hE this
  · rw [e, sigmoid]
    change 1 / (1 + exp (IE.inf true)) = _
    rw [hE.bot, ie_one, add_num, add_zero, ofReal_finite h fin_one, div_num _ one_ne_zero, div_one, ofReal_finite h fin_one]
  · rw [e, sigmoid]
    change 1 / (1 + exp (IE.inf false)) = _
    rw [hE.top]
    rfl

/-- The classifier `x - 1/2` with a query: the hypotheses are met, and the score is a number. -/
example (h : Rounds binary64 fl) : Valid (IE.num (-(1 / 2)) : IE binary64 fl) ∧
    lscore (fun _ : Fin 1 => (IE.num 1 : IE binary64 fl)) (IE.num (-(1 / 2))) (fun _ => IE.num 1) = IE.num (1 / 2) := by
  have f2 : Finite binary64 (1 / 2) := by
    have := pow_finite (e := -1) (by norm_num) (by norm_num)
    rwa [show (2 : ℝ) ^ (-1 : ℤ) = 1 / 2 by norm_num] at this
  refine ⟨fun x e => ?_, ?_⟩
  · rw [num_inj] at e
    rw [← e]
    exact fin_neg f2
  · change (IE.num (-(1 / 2)) + IE.num 1 * IE.num 1 : IE binary64 fl) = _
    rw [mul_num, one_mul, ofReal_finite h fin_one, add_num, show (-(1 / 2) + 1 : ℝ) = 1 / 2 by norm_num, ofReal_finite h f2]

/-! ## Training -/

/-- `T` epochs over the same data. -/
noncomputable def lepochs (exp : IE binary64 fl → IE binary64 fl) (o : Logistic binary64 fl n) (xs : List (Fin n → IE binary64 fl)) (ys : List UInt8) :
    ℕ → Logistic binary64 fl n
  | 0 => o
  | t + 1 => (lepochs exp o xs ys t).trainEpoch exp xs ys

/-- The score of moderate parameters is a number. -/
theorem lscore_times (h : Rounds binary64 fl) {j e c : ℕ} {w x : Fin n → IE binary64 fl} {b : IE binary64 fl} (hj : j ≤ 2 ^ 53) (hn : n < 2 ^ 20)
    (he : 53 + e + c ≤ 1003) (hw : ∀ i, Times j e (w i)) (hb : Times j e b) (hx : ∀ i, Below c (x i)) : ∃ s, lscore w b x = IE.num s ∧ Finite binary64 s := by
  have ht : ∀ i, Below 1003 (w i * x i) := fun i =>
    (Below.mul (by decide) (by decide) h ((hw i).below hj) (hx i) (by change ((53 + e + c : ℕ) : ℤ) < 1024; omega)).mono he
  have hs0 : Times 1 1003 b := by
    obtain ⟨x, e, hf, hb⟩ := (hb.below hj).mono (show 53 + e ≤ 1003 by omega)
    exact ⟨x, e, hf, by simpa using hb⟩
  obtain ⟨s, es, hf, -⟩ := sum_below h ht (rng n 0 n) 1 _ hs0 (by simp [rng]; omega)
  exact ⟨s, es, hf⟩

/-- The gradient sums of moderate features. -/
theorem accum_times (h : Rounds binary64 fl) {exp : IE binary64 fl → IE binary64 fl} (hE : ExpOk exp) {j e c : ℕ} {o : Logistic binary64 fl n}
    (hj : j ≤ 2 ^ 53) (hn : n < 2 ^ 20) (he : 53 + e + c ≤ 1003) (hc : c ≤ 900) (hw : ∀ i, Times j e (o.weights i)) (hb : Times j e o.bias) :
    ∀ (l : List ((Fin n → IE binary64 fl) × UInt8)) (k : ℕ) (g : (Fin n → IE binary64 fl) × IE binary64 fl), (∀ d ∈ l, ∀ i, Below c (d.1 i)) →
      k + l.length ≤ 2 ^ 53 → (∀ i, Times k c (g.1 i)) → Times k 0 g.2 →
      (∀ i, Times (k + l.length) c ((l.foldl (o.accum exp) g).1 i)) ∧ Times (k + l.length) 0 (l.foldl (o.accum exp) g).2 := by
  intro l
  induction l with
  | nil => intro k g _ _ h1 h2; exact ⟨h1, h2⟩
  | cons d l ih =>
    intro k g hd hk h1 h2
    rw [List.length_cons] at hk ⊢
    rw [show k + (l.length + 1) = (k + 1) + l.length by omega, List.foldl_cons]
    obtain ⟨s, es, hs⟩ := lscore_times h hj hn he hw hb (hd d (by simp))
    have hv : Valid o.bias := by
      obtain ⟨b, eb, hf, -⟩ := hb
      intro x e
      rw [eb, num_inj] at e
      rw [← e]
      exact hf
    obtain ⟨p, ep, hpf, hp0, hp1⟩ := (C167_unit h hE o d.1 hv).2 (by rw [es]; intro e; cases e)
    have herr : Below 0 (o.prob exp d.1 - (if d.2 = 0 then 0 else 1)) := by
      rw [ep]
      split_ifs
      · rw [ie_zero, sub_num]
        refine ofReal_below (by decide) (by decide) h (by decide) ?_
        rw [neg_zero, add_zero, abs_of_nonneg hp0]; simpa using hp1
      · rw [ie_one, sub_num]
        refine ofReal_below (by decide) (by decide) h (by decide) ?_
        rw [abs_of_nonpos (by linarith)]; simpa using hp0
    refine ih (k + 1) _ (fun d' hd' => hd d' (List.mem_cons_of_mem _ hd')) (by omega) (fun i => ?_) ?_
    · have := Below.mul (by decide) (by decide) h herr (hd d (by simp) i) (by change ((0 + c : ℕ) : ℤ) < 1024; omega)
      rw [zero_add] at this
      exact (h1 i).add h this (by omega) (times_bound (e := 53) (by omega) (by omega))
    · exact h2.add h herr (by omega) (times_bound (e := 53) (by omega) (by omega))

theorem times_div (h : Rounds binary64 fl) {m k c : ℕ} {a : IE binary64 fl} (ha : Times k c a) (hk : k ≤ m) (hm : 0 < m) (hc : c < 1024) :
    Below c (a / IE.num m) := by
  obtain ⟨x, rfl, -, hx⟩ := ha
  have hpos : (0 : ℝ) < m := by exact_mod_cast hm
  rw [div_num _ hpos.ne']
  refine ofReal_below (by decide) (by decide) h (by change (c : ℤ) < 1024; omega) ?_
  rw [abs_div, abs_of_pos hpos, div_le_iff₀ hpos, mul_comm]
  exact hx.trans (mul_le_mul_of_nonneg_right (by exact_mod_cast hk) (by positivity))

theorem times_sub (h : Rounds binary64 fl) {j c : ℕ} {a b : IE binary64 fl} (ha : Times j c a) (hb : Below c b) (hj : j + 1 ≤ 2 ^ 53)
    (hc : ((j + 1 : ℕ) : ℝ) * 2 ^ c < 2 ^ (1024 : ℤ)) : Times (j + 1) c (a - b) := by
  obtain ⟨x, rfl, -, hx⟩ := ha
  obtain ⟨y, rfl, -, hy⟩ := hb
  rw [sub_num]
  refine ofReal_times h hj hc ((abs_add_le _ _).trans ?_)
  rw [abs_neg]
  push_cast
  linarith

/-- **C168**, moderate numbers: features of size at most `2 ^ c`, a learning rate of size at most `2 ^ l` and initial parameters of size at most
`2 ^ (l + c)`, where `l + 2 c ≤ 940`. After any number `T < 2 ^ 53` of epochs the parameters are finite numbers of size at most `(T + 1) 2 ^ (l + c)`,
and the probability of every query with features of size at most `2 ^ c` is a number between zero and one.
Missing: larger numbers (`C168_fails`). -/
theorem C168_partial (h : Rounds binary64 fl) {exp : IE binary64 fl → IE binary64 fl} (hE : ExpOk exp) {c l : ℕ} (hcl : l + 2 * c ≤ 940) (hn : n < 2 ^ 20)
    (o : Logistic binary64 fl n) (hw : ∀ i, Below (l + c) (o.weights i)) (hb : Below (l + c) o.bias) (hlr : Below l o.lr)
    (xs : List (Fin n → IE binary64 fl)) (ys : List UInt8) (hx : ∀ x ∈ xs, ∀ i, Below c (x i)) (hm : xs.length ≤ 2 ^ 53) (T : ℕ) (hT : T < 2 ^ 53) :
    (∀ i, ∃ w, (lepochs exp o xs ys T).weights i = IE.num w ∧ Finite binary64 w ∧ |w| ≤ (T + 1) * 2 ^ (l + c)) ∧
      (∃ b, (lepochs exp o xs ys T).bias = IE.num b ∧ Finite binary64 b ∧ |b| ≤ (T + 1) * 2 ^ (l + c)) ∧
      ∀ q : Fin n → IE binary64 fl, (∀ i, Below c (q i)) → ∃ p, (lepochs exp o xs ys T).prob exp q = IE.num p ∧ 0 ≤ p ∧ p ≤ 1 := by
  have key : ∀ T, T < 2 ^ 53 → (lepochs exp o xs ys T).lr = o.lr ∧ (∀ i, Times (T + 1) (l + c) ((lepochs exp o xs ys T).weights i)) ∧
      Times (T + 1) (l + c) (lepochs exp o xs ys T).bias := by
    intro T
    induction T with
    | zero =>
      have one : ∀ {a : IE binary64 fl}, Below (l + c) a → Times (0 + 1) (l + c) a := by
        rintro a ⟨x, e, hf, hx⟩
        exact ⟨x, e, hf, by simpa using hx⟩
      exact fun _ => ⟨rfl, fun i => one (hw i), one hb⟩
    | succ T ih =>
      intro hT
      obtain ⟨e0, h1, h2⟩ := ih (by omega)
      have up : ∀ {a : IE binary64 fl}, Times (T + 1) (l + c) a → Times (T + 1 + 1) (l + c) a := by
        rintro a ⟨x, e, hf, hx⟩
        exact ⟨x, e, hf, hx.trans (mul_le_mul_of_nonneg_right (by push_cast; linarith) (by positivity))⟩
      rw [lepochs]
      set o' := lepochs exp o xs ys T
      unfold Logistic.trainEpoch
      by_cases hl : xs.length = 0
      · rw [if_pos hl]
        exact ⟨e0, fun i => up (h1 i), up h2⟩
      · rw [if_neg hl]
        have hlen : (xs.zip ys).length ≤ xs.length := by rw [List.length_zip]; exact min_le_left _ _
        obtain ⟨g1, g2⟩ := accum_times h hE (o := o') (j := T + 1) (e := l + c) (c := c) (by omega) hn (by omega) (by omega) h1 h2 (xs.zip ys) 0
          (fun _ => 0, 0) (fun d hd => hx d.1 (List.of_mem_zip hd).1) (by omega) (fun _ => Times.zero c) (Times.zero 0)
        rw [zero_add] at g1 g2
        rw [count_exact h hm]
        refine ⟨e0, fun i => ?_, ?_⟩
        · have d1 := times_div h (g1 i) hlen (Nat.pos_of_ne_zero hl) (by omega)
          have d2 := Below.mul (by decide) (by decide) h hlr d1 (by change ((l + c : ℕ) : ℤ) < 1024; omega)
          rw [← e0] at d2
          exact times_sub h (h1 i) d2 (by omega) (times_bound (e := 53) (by omega) (by omega))
        · have d1 := times_div h g2 hlen (Nat.pos_of_ne_zero hl) (by omega)
          have d2 := Below.mul (by decide) (by decide) h hlr d1 (by change ((l + 0 : ℕ) : ℤ) < 1024; omega)
          rw [← e0] at d2
          exact times_sub h h2 (d2.mono (by omega)) (by omega) (times_bound (e := 53) (by omega) (by omega))
  obtain ⟨-, h1, h2⟩ := key T hT
  refine ⟨fun i => ?_, ?_, fun q hq => ?_⟩
  · obtain ⟨w, e, hf, hb⟩ := h1 i
    exact ⟨w, e, hf, by exact_mod_cast hb⟩
  · obtain ⟨w, e, hf, hb⟩ := h2
    exact ⟨w, e, hf, by exact_mod_cast hb⟩
  · obtain ⟨s, es, hs⟩ := lscore_times h (j := T + 1) (e := l + c) (c := c) (by omega) hn (by omega) h1 h2 hq
    obtain ⟨b, eb, hf, -⟩ := h2
    obtain ⟨p, ep, -, h0, h1⟩ := (C167_unit h hE (lepochs exp o xs ys T) q (fun x e => by
      rw [eb, num_inj] at e
      rw [← e]
      exact hf)).2 (by rw [es]; intro e; cases e)
    exact ⟨p, ep, h0, h1⟩

/-- A new classifier and two examples meet the hypotheses of `C168_partial`. -/
example : (0 + 2 * 1 ≤ 940) ∧ (∀ i, Below (0 + 1) ((Logistic.new binary64 fl 2).weights i)) ∧ Below (0 + 1) (Logistic.new binary64 fl 2).bias ∧
    Below 0 (Logistic.new binary64 fl 2).lr ∧ ∀ x ∈ [(fun _ : Fin 2 => (IE.num 1 : IE binary64 fl)), fun _ => IE.num (-1)], ∀ i, Below 1 (x i) := by
  have z : Below (0 + 1) (0 : IE binary64 fl) := ⟨0, rfl, fin_zero, by simp⟩
  refine ⟨by norm_num, fun _ => z, z, ⟨1, rfl, fin_one, by simp⟩, fun x hx i => ?_⟩
  simp only [List.mem_cons, List.not_mem_nil, or_false] at hx
  rcases hx with rfl | rfl
  · exact ⟨1, rfl, fin_one, by simp⟩
  · exact ⟨-1, rfl, fin_neg fin_one, by simp⟩

theorem half_finite : Finite binary64 (1 / 2) := by
  have := pow_finite (e := -1) (by norm_num) (by norm_num)
  rwa [show (2 : ℝ) ^ (-1 : ℤ) = 1 / 2 by norm_num] at this

theorem half_num (h : Rounds binary64 fl) : (1 / (1 + 1) : IE binary64 fl) = IE.num (1 / 2) := by
  have f2 : Finite binary64 2 := by simpa using pow_finite (e := 1) (by norm_num) (by norm_num)
  rw [ie_one, add_num, show (1 + 1 : ℝ) = 2 by norm_num, ofReal_finite h f2, div_num _ two_ne_zero, ofReal_finite h half_finite]

/-- **C168 fails** for large features: after one epoch over one example with finite features, the probability of a query with finite features is NaN. -/
theorem C168_fails (h : Rounds binary64 fl) {exp : IE binary64 fl → IE binary64 fl} (hE : ExpOk exp) :
    Finite binary64 (2 ^ (600 : ℤ)) ∧
      ((Logistic.new binary64 fl 2).trainEpoch exp [fun _ => IE.num (2 ^ (600 : ℤ))] [1]).prob exp
        ![IE.num (2 ^ (600 : ℤ)), -IE.num (2 ^ (600 : ℤ))] = IE.nan := by
  refine ⟨pow_finite (by norm_num) (by norm_num), ?_⟩
  have fW : Finite binary64 (2 ^ (600 : ℤ)) := pow_finite (by norm_num) (by norm_num)
  have fV : Finite binary64 (2 ^ (599 : ℤ)) := pow_finite (by norm_num) (by norm_num)
  have eW : (2 : ℝ) ^ (600 : ℤ) = 2 * 2 ^ (599 : ℤ) := by rw [show (600 : ℤ) = 1 + 599 from rfl, zpow_add₀ (by norm_num), zpow_one]
  have big : (IE.num (2 ^ (599 : ℤ)) * IE.num (2 ^ (600 : ℤ)) : IE binary64 fl) = IE.inf false := by
    rw [mul_num, ← zpow_add₀ (by norm_num)]
    exact ofReal_over h (by decide) (by decide) (zpow_le_zpow_right₀ (by norm_num) (by decide))
  have nbig : (IE.num (2 ^ (599 : ℤ)) * IE.num (-2 ^ (600 : ℤ)) : IE binary64 fl) = IE.inf true := by
    have := neg_mul_big (fl := fl) h (a := 600) (b := 599) (by norm_num)
    rw [mul_num] at this ⊢
    rw [mul_comm]
    exact this
  have z00 : (IE.num 0 + IE.num 0 : IE binary64 fl) = IE.num 0 := by rw [add_num, add_zero, ofReal_finite h fin_zero]
  have zW : (IE.num 0 * IE.num (2 ^ (600 : ℤ)) : IE binary64 fl) = IE.num 0 := by rw [mul_num, zero_mul, ofReal_finite h fin_zero]
  have er : rng 2 0 2 = [0, 1] := rfl
  have hsc : ∀ (w x : Fin 2 → IE binary64 fl) (b : IE binary64 fl), lscore w b x = b + w 0 * x 0 + w 1 * x 1 := by
    intro w x b
    unfold lscore
    rw [er]
    rfl
  have hs : lscore (Logistic.new binary64 fl 2).weights (Logistic.new binary64 fl 2).bias (fun _ => IE.num (2 ^ (600 : ℤ))) = IE.num 0 := by
    rw [hsc]
    change (IE.num 0 + IE.num 0 * IE.num (2 ^ (600 : ℤ)) + IE.num 0 * IE.num (2 ^ (600 : ℤ)) : IE binary64 fl) = _
    rw [zW, z00, z00]
  have hp : (Logistic.new binary64 fl 2).prob exp (fun _ => IE.num (2 ^ (600 : ℤ))) = IE.num (1 / 2) := by
    unfold Logistic.prob sigmoid
    rw [hs, neg_num, neg_zero, hE.zero]
    exact half_num h
  have herr : (IE.num (1 / 2) - 1 : IE binary64 fl) = IE.num (-(1 / 2)) := by
    rw [ie_one, sub_num, show (1 / 2 + -1 : ℝ) = -(1 / 2) by norm_num, ofReal_finite h (fin_neg half_finite)]
  have fmV : Finite binary64 (-2 ^ (599 : ℤ)) := fin_neg fV
  have hg : (0 + IE.num (-(1 / 2)) * IE.num (2 ^ (600 : ℤ)) : IE binary64 fl) = IE.num (-2 ^ (599 : ℤ)) := by
    rw [mul_num, show (-(1 / 2) * 2 ^ (600 : ℤ) : ℝ) = -2 ^ (599 : ℤ) by rw [eW]; ring, ofReal_finite h fmV, ie_zero, add_num, zero_add,
      ofReal_finite h fmV]
  have hgb : (0 + IE.num (-(1 / 2)) : IE binary64 fl) = IE.num (-(1 / 2)) := by
    rw [ie_zero, add_num, zero_add, ofReal_finite h (fin_neg half_finite)]
  have hstep : ∀ {g : ℝ}, Finite binary64 g → (0 - 1 * (IE.num g / IE.num ((1 : ℕ) : ℝ)) : IE binary64 fl) = IE.num (-g) := by
    intro g hg
    rw [Nat.cast_one, div_num _ one_ne_zero, div_one, ofReal_finite h hg, ie_one, mul_num, one_mul, ofReal_finite h hg, ie_zero, sub_num, zero_add,
      ofReal_finite h (fin_neg hg)]
  have ho : (Logistic.new binary64 fl 2).trainEpoch exp [fun _ => IE.num (2 ^ (600 : ℤ))] [1] = ⟨fun _ => IE.num (2 ^ (599 : ℤ)), IE.num (1 / 2), 1⟩ := by
    have hacc : ([(fun _ : Fin 2 => (IE.num (2 ^ (600 : ℤ)) : IE binary64 fl))].zip [(1 : UInt8)]).foldl ((Logistic.new binary64 fl 2).accum exp)
        (fun _ => 0, 0) = (fun _ => IE.num (-2 ^ (599 : ℤ)), IE.num (-(1 / 2))) := by
      change (Logistic.new binary64 fl 2).accum exp (fun _ => 0, 0) (fun _ => IE.num (2 ^ (600 : ℤ)), 1) = _
      unfold Logistic.accum
      dsimp only
      rw [if_neg (by decide), hp, herr, hg, hgb]
    unfold Logistic.trainEpoch
    rw [if_neg (by simp), hacc]
    dsimp only
    change (⟨fun _ => 0 - 1 * (IE.num (-2 ^ (599 : ℤ)) / IE.ofCount 1), 0 - 1 * (IE.num (-(1 / 2)) / IE.ofCount 1), 1⟩ : Logistic binary64 fl 2) = _
    rw [count_exact h (by norm_num), hstep fmV, hstep (fin_neg half_finite), neg_neg, neg_neg]
  rw [ho]
  refine (C167_unit h hE _ _ (fun x e => ?_)).1 ?_
  · rw [num_inj] at e
    rw [← e]
    exact half_finite
  · rw [hsc]
    change (IE.num (1 / 2) + IE.num (2 ^ (599 : ℤ)) * IE.num (2 ^ (600 : ℤ)) + IE.num (2 ^ (599 : ℤ)) * IE.num (-2 ^ (600 : ℤ)) : IE binary64 fl) = _
    rw [big, nbig]
    rfl

/-! ## The class -/

theorem sigmoid_zero (h : Rounds binary64 fl) {exp : IE binary64 fl → IE binary64 fl} (hE : ExpOk exp) : sigmoid exp (IE.num 0) = IE.num (1 / 2) := by
  unfold sigmoid
  rw [neg_num, neg_zero, hE.zero]
  exact half_num h

/-- **C169**, scores that are not tiny: class 1 is predicted only for a positive score, and for every score of at least `2 ^ -47`.
Missing: positive scores below that (`C169_fails`, `C169_boundary_partial`). -/
theorem C169_partial (h : Rounds binary64 fl) {exp : IE binary64 fl → IE binary64 fl} (hE : ExpOk exp) (hM : ExpMono exp) (o : Logistic binary64 fl n)
    (x : Fin n → IE binary64 fl) (hb : Valid o.bias) :
    (o.predict exp x = 1 → 0 < lscore o.weights o.bias x) ∧ (IE.num (2 ^ (-47 : ℤ)) ≤ lscore o.weights o.bias x → o.predict exp x = 1) := by
  have hv := lscore_valid h o.weights x hb
  unfold Logistic.predict
  rw [half_num h]
  constructor
  · intro hp
    by_contra hc
    split_ifs at hp with hgt
    -- the score is not a number, or at most zero
    by_cases hn : lscore o.weights o.bias x = IE.nan
    · rw [(C167_unit h hE o x hb).1 hn] at hgt
      exact lt_nan _ hgt
    · have hle : lscore o.weights o.bias x ≤ IE.num 0 := by
        generalize lscore o.weights o.bias x = s at *
        rcases s with ⟨_ | t | y⟩
        · exact absurd rfl hn
        · cases t
          · exact absurd rfl hc
          · exact rfl
        · exact not_lt.1 (show ¬ (0 : ℝ) < y from hc)
      have := sigmoid_mono h hE hM hv (fun y e => by rw [num_inj] at e; rw [← e]; exact fin_zero) hle
      rw [sigmoid_zero h hE] at this
      obtain ⟨p, ep, -, -, -⟩ := (C167_unit h hE o x hb).2 hn
      change o.prob exp x ≤ _ at this
      rw [ep] at this hgt
      exact absurd ((lt_num _ _).1 hgt) (not_lt.2 ((le_num _ _).1 this))
  · intro hle
    have fs : Finite binary64 (2 ^ (-47 : ℤ)) := pow_finite (by norm_num) (by norm_num)
    have hm := sigmoid_mono h hE hM (fun y e => by rw [num_inj] at e; rw [← e]; exact fs) hv hle
    obtain ⟨q, eq, hq⟩ := sigmoid_acc h hE fs
    have hn : lscore o.weights o.bias x ≠ IE.nan := fun e => by rw [e] at hle; exact le_nan _ hle
    obtain ⟨p, ep, -, -, -⟩ := (C167_unit h hE o x hb).2 hn
    change _ ≤ o.prob exp x at hm
    rw [eq, ep, le_num] at hm
    rw [ep, if_pos]
    refine (lt_num _ _).2 (lt_of_lt_of_le ?_ hm)
    set s : ℝ := 2 ^ (-47 : ℤ) with hsdef
    have hs0 : 0 < s := by positivity
    have hs1 : s ≤ 1 / 2 := by rw [hsdef]; norm_num
    have e1 : Real.exp (-s) ≤ 1 / (1 + s) := by
      rw [Real.exp_neg, ← one_div]
      exact one_div_le_one_div_of_le (by linarith) (by linarith [Real.add_one_le_exp s])
    have e2 : 1 / (1 + 1 / (1 + s)) ≤ 1 / (1 + Real.exp (-s)) := one_div_le_one_div_of_le (by positivity) (by linarith)
    have e3 : 1 / 2 + s / 5 ≤ 1 / (1 + 1 / (1 + s)) := by
      rw [show (1 : ℝ) / (1 + 1 / (1 + s)) = (1 + s) / (2 + s) by field_simp; ring, le_div_iff₀ (by linarith)]
      nlinarith
    have e4 : (2 : ℝ) ^ (-50 : ℤ) < s / 5 := by rw [hsdef]; norm_num
    have := (abs_le.1 hq).1
    linarith

/-- A number of the format below one is at most `1 - 2 ^ -53`. -/
theorem below_one {x : ℝ} (hx : OnGrid binary64 x) (h1 : x < 1) : x ≤ 1 - 2 ^ (-53 : ℤ) := by
  by_cases h2 : x ≤ 1 / 2
  · refine h2.trans ?_; norm_num
  obtain ⟨m, e, hm, -, rfl⟩ := hx
  have hm' : (m : ℝ) < 2 ^ (53 : ℤ) := by
    have := (le_abs_self m).trans_lt hm
    rw [show (53 : ℤ) = ((53 : ℕ) : ℤ) from rfl, zpow_natCast]
    exact_mod_cast this
  have he : -53 ≤ e := by
    by_contra hc
    have h3 : (2 : ℝ) ^ e ≤ 2 ^ (-54 : ℤ) := zpow_le_zpow_right₀ (by norm_num) (by omega)
    have h4 : (m : ℝ) * 2 ^ e ≤ 2 ^ (53 : ℤ) * 2 ^ (-54 : ℤ) := mul_le_mul hm'.le h3 (by positivity) (by positivity)
    rw [← zpow_add₀ (by norm_num)] at h4
    norm_num at h4 h2
    linarith
  obtain ⟨j, hj⟩ := Int.eq_ofNat_of_zero_le (show 0 ≤ e + 53 by omega)
  have ex : (m : ℝ) * 2 ^ e = ((m * 2 ^ j : ℤ) : ℝ) * 2 ^ (-53 : ℤ) := by
    rw [show e = j + -53 by omega, zpow_add₀ (by norm_num), zpow_natCast]
    push_cast
    ring
  rw [ex] at h1 ⊢
  have hlt : (m * 2 ^ j : ℤ) < 2 ^ 53 := by
    have h5 : ((m * 2 ^ j : ℤ) : ℝ) < 2 ^ 53 := by
      have := mul_lt_mul_of_pos_right h1 (show (0 : ℝ) < 2 ^ (53 : ℤ) by positivity)
      rw [mul_assoc, ← zpow_add₀ (by norm_num)] at this
      norm_num at this ⊢
      exact this
    exact_mod_cast h5
  have hle : ((m * 2 ^ j : ℤ) : ℝ) ≤ 2 ^ 53 - 1 := by
    have : (m * 2 ^ j : ℤ) ≤ 2 ^ 53 - 1 := by omega
    exact_mod_cast this
  have := mul_le_mul_of_nonneg_right hle (show (0 : ℝ) ≤ 2 ^ (-53 : ℤ) by positivity)
  refine this.trans (le_of_eq ?_)
  norm_num

/-- **C169 fails** for tiny positive scores, with the exponential rounded correctly: the score is `2 ^ -60`, and the class is 0. -/
theorem C169_fails (h : Rounds binary64 fl) :
    let o : Logistic binary64 fl 1 := ⟨fun _ => 1, 0, 1⟩
    lscore o.weights o.bias (fun _ => IE.num (2 ^ (-60 : ℤ))) = IE.num (2 ^ (-60 : ℤ)) ∧ o.predict expR (fun _ => IE.num (2 ^ (-60 : ℤ))) = 0 := by
  intro o
  have fs : Finite binary64 (2 ^ (-60 : ℤ)) := pow_finite (by norm_num) (by norm_num)
  have hs : lscore o.weights o.bias (fun _ => IE.num (2 ^ (-60 : ℤ))) = IE.num (2 ^ (-60 : ℤ)) := by
    change (IE.num 0 + IE.num 1 * IE.num (2 ^ (-60 : ℤ)) : IE binary64 fl) = _
    rw [mul_num, one_mul, ofReal_finite h fs, add_num, zero_add, ofReal_finite h fs]
  refine ⟨hs, ?_⟩
  have hexp : (expR (IE.num (-2 ^ (-60 : ℤ))) : IE binary64 fl) = IE.num 1 := by
    have h1 : Real.exp (-2 ^ (-60 : ℤ)) ≤ 1 := Real.exp_le_one_iff.2 (by norm_num)
    have h2 : 1 - 2 ^ (-60 : ℤ) ≤ Real.exp (-2 ^ (-60 : ℤ)) := by linarith [Real.add_one_le_exp (-(2 : ℝ) ^ (-60 : ℤ))]
    set y := Real.exp (-2 ^ (-60 : ℤ))
    have hfl : fl y = 1 := by
      have hle : fl y ≤ 1 := by
        have := h.mono h1
        rwa [h.fix fin_one.1] at this
      rcases hle.lt_or_eq with hlt | e
      · exfalso
        have h3 := below_one (h y).1 hlt
        have h4 := (h y).2 1 fin_one.1
        rw [abs_of_nonneg (show 0 ≤ 1 - y by linarith)] at h4
        have h5 := (abs_le.1 h4).1
        norm_num at h2 h3
        linarith
      · exact e
    change IE.ofReal y = _
    rw [ofReal_num (by rw [hfl]; exact fin_one.2), hfl]
  unfold Logistic.predict Logistic.prob sigmoid
  rw [hs, neg_num, hexp]
  change (if 1 / (1 + 1) > (1 / (1 + 1) : IE binary64 fl) then 1 else 0) = 0
  rw [half_num h, if_neg]
  exact fun hc => lt_irrefl _ ((lt_num _ _).1 hc)

/-- **C169** with the exponential rounded correctly: the boundary lies between the scores `2 ^ -54` and `2 ^ -51`; every score up to the first, and every
score that is not a number, gives class 0, and every score from the second on gives class 1. Missing: the positive scores up to the first (`C169_fails`). -/
theorem C169_boundary_partial (h : Rounds binary64 fl) (o : Logistic binary64 fl n) (x : Fin n → IE binary64 fl) (hb : Valid o.bias) :
    (IE.num (2 ^ (-51 : ℤ)) ≤ lscore o.weights o.bias x → o.predict expR x = 1) ∧
      (lscore o.weights o.bias x ≤ IE.num (2 ^ (-54 : ℤ)) → o.predict expR x = 0) ∧
      (lscore o.weights o.bias x = IE.nan → o.predict expR x = 0) := by
  obtain ⟨hE, hM⟩ := expR_ok h
  have hv := lscore_valid h o.weights x hb
  unfold Logistic.predict
  rw [half_num h]
  refine ⟨fun hle => ?_, fun hle => ?_, fun hn => ?_⟩
  · have fs : Finite binary64 (2 ^ (-51 : ℤ)) := pow_finite (by norm_num) (by norm_num)
    have hm := sigmoid_mono h hE hM (fun y e => by rw [num_inj] at e; rw [← e]; exact fs) hv hle
    have hn : lscore o.weights o.bias x ≠ IE.nan := fun e => by rw [e] at hle; exact le_nan _ hle
    obtain ⟨p, ep, -, -, -⟩ := (C167_unit h hE o x hb).2 hn
    change _ ≤ o.prob expR x at hm
    suffices hs : ∃ q : ℝ, sigmoid expR (IE.num (2 ^ (-51 : ℤ)) : IE binary64 fl) = IE.num q ∧ 1 / 2 < q by
      obtain ⟨q, eq, hq⟩ := hs
      rw [eq, ep, le_num] at hm
      rw [ep, if_pos]
      exact (lt_num _ _).2 (hq.trans_le hm)
    -- the exponential of the negative score
    have g1 : OnGrid binary64 (1 - 2 ^ (-52 : ℤ)) := by
      refine ⟨2 ^ 52 - 1, -52, ?_, by decide, ?_⟩
      · decide
      · norm_num
    have g2 : OnGrid binary64 (2 - 2 ^ (-52 : ℤ)) := by
      refine ⟨2 ^ 53 - 1, -52, ?_, by decide, ?_⟩
      · decide
      · norm_num
    have g3 : OnGrid binary64 (1 / 2 + 2 ^ (-53 : ℤ)) := by
      refine ⟨2 ^ 52 + 1, -53, ?_, by decide, ?_⟩
      · decide
      · norm_num
    have e1 : Real.exp (-2 ^ (-51 : ℤ)) ≤ 1 - 2 ^ (-52 : ℤ) := by
      have b := Real.add_one_le_exp ((2 : ℝ) ^ (-51 : ℤ))
      rw [Real.exp_neg]
      have b' := inv_anti₀ (by positivity) b
      refine b'.trans ?_
      rw [inv_le_comm₀ (by positivity) (by norm_num)]
      norm_num
    have e0 := Real.exp_pos (-(2 : ℝ) ^ (-51 : ℤ))
    set y := Real.exp (-2 ^ (-51 : ℤ)) with hy
    have y1 : fl y ≤ 1 - 2 ^ (-52 : ℤ) := by rw [← h.fix g1]; exact h.mono e1
    have y0 : 0 ≤ fl y := by rw [← h.zero]; exact h.mono e0.le
    have hexp : (expR (IE.num (-2 ^ (-51 : ℤ))) : IE binary64 fl) = IE.num (fl y) := by
      change IE.ofReal y = _
      refine ofReal_num ?_
      rw [abs_of_nonneg y0]
      refine (y1.trans (by norm_num : (1 : ℝ) - 2 ^ (-52 : ℤ) ≤ 1)).trans_lt ?_
      have := fin_one.2
      rwa [abs_one] at this
    have z1 : fl (1 + fl y) ≤ 2 - 2 ^ (-52 : ℤ) := by
      rw [← h.fix g2]; refine h.mono ?_; linarith
    have z0 : 1 ≤ fl (1 + fl y) := by
      have := h.mono (show (1 : ℝ) ≤ 1 + fl y by linarith)
      rwa [h.fix fin_one.1] at this
    have f4 : (2 : ℝ) < 2 ^ (1024 : ℤ) := by
      have : (2 : ℝ) ^ (1 : ℤ) < 2 ^ (1024 : ℤ) := zpow_lt_zpow_right₀ (by norm_num) (by norm_num)
      simpa using this
    have hz : (1 + IE.num (fl y) : IE binary64 fl) = IE.num (fl (1 + fl y)) := by
      rw [ie_one, add_num]
      refine ofReal_num ?_
      rw [abs_of_nonneg (by linarith)]
      refine lt_of_le_of_lt z1 (lt_of_le_of_lt ?_ f4)
      norm_num
    have q1 : 1 / 2 + 2 ^ (-54 : ℤ) < 1 / fl (1 + fl y) := by
      have : 1 / (2 - 2 ^ (-52 : ℤ)) ≤ 1 / fl (1 + fl y) := one_div_le_one_div_of_le (by linarith) z1
      refine lt_of_lt_of_le ?_ this
      rw [lt_div_iff₀ (by norm_num)]
      norm_num
    have q2 : 1 / fl (1 + fl y) ≤ 1 := by rw [div_le_iff₀ (by linarith)]; linarith
    have r1 : fl (1 / fl (1 + fl y)) ≤ 1 := by
      rw [← h.fix fin_one.1]; exact h.mono (by rw [h.fix fin_one.1]; exact q2)
    have r0 : 1 / 2 ≤ fl (1 / fl (1 + fl y)) := by
      rw [← h.fix half_finite.1]
      refine h.mono ?_
      refine le_trans ?_ q1.le
      norm_num
    refine ⟨fl (1 / fl (1 + fl y)), ?_, ?_⟩
    · unfold sigmoid
      rw [neg_num, hexp, hz, ie_one, div_num _ (by linarith)]
      refine ofReal_num ?_
      rw [abs_of_nonneg (by linarith)]
      refine lt_of_le_of_lt r1 (lt_of_le_of_lt ?_ f4)
      norm_num
    · rcases r0.lt_or_eq with hlt | e
      · exact hlt
      · exfalso
        have h4 := (h (1 / fl (1 + fl y))).2 _ g3
        rw [← e, abs_sub_comm, abs_of_nonneg (by norm_num at q1 ⊢; linarith)] at h4
        rcases abs_cases (1 / 2 + 2 ^ (-53 : ℤ) - 1 / fl (1 + fl y)) with ⟨ha, -⟩ | ⟨ha, -⟩ <;> rw [ha] at h4
        · norm_num at h4 q1
          linarith
        · norm_num at h4
          linarith
  · have fs : Finite binary64 (2 ^ (-54 : ℤ)) := pow_finite (by norm_num) (by norm_num)
    have hm := sigmoid_mono h hE hM hv (fun y e => by rw [num_inj] at e; rw [← e]; exact fs) hle
    have hn : lscore o.weights o.bias x ≠ IE.nan := fun e => by rw [e] at hle; exact nan_le _ hle
    obtain ⟨p, ep, -, -, -⟩ := (C167_unit h hE o x hb).2 hn
    change o.prob expR x ≤ _ at hm
    have hexp : (expR (IE.num (-2 ^ (-54 : ℤ))) : IE binary64 fl) = IE.num 1 := by
      have h1 : Real.exp (-2 ^ (-54 : ℤ)) ≤ 1 := Real.exp_le_one_iff.2 (by norm_num)
      have h2 : 1 - 2 ^ (-54 : ℤ) < Real.exp (-2 ^ (-54 : ℤ)) := by
        have := Real.add_one_lt_exp (x := -(2 : ℝ) ^ (-54 : ℤ)) (by norm_num)
        linarith
      set y := Real.exp (-2 ^ (-54 : ℤ))
      have hfl : fl y = 1 := by
        have hle : fl y ≤ 1 := by
          have := h.mono h1
          rwa [h.fix fin_one.1] at this
        rcases hle.lt_or_eq with hlt | e
        · exfalso
          have h3 := below_one (h y).1 hlt
          have h4 := (h y).2 1 fin_one.1
          rw [abs_of_nonneg (show 0 ≤ 1 - y by linarith)] at h4
          have h5 := (abs_le.1 h4).1
          norm_num at h2 h3
          linarith
        · exact e
      change IE.ofReal y = _
      rw [ofReal_num (by rw [hfl]; exact fin_one.2), hfl]
    have hs : sigmoid expR (IE.num (2 ^ (-54 : ℤ)) : IE binary64 fl) = IE.num (1 / 2) := by
      unfold sigmoid
      rw [neg_num, hexp]
      exact half_num h
    rw [hs, ep, le_num] at hm
    rw [ep, if_neg]
    exact fun hc => absurd ((lt_num _ _).1 hc) (not_lt.2 hm)
  · rw [(C167_unit h hE o x hb).1 hn, if_neg]
    exact fun hc => lt_nan _ hc

end Verif.ML.Ie
