import Verif.ML.BayesIeee
import Verif.Ieee.PropsCast
import Verif.Ieee.PropsLu
import Mathlib.Analysis.Complex.ExponentialBounds

/-!
# Naive Bayes in machine arithmetic (C165)
-/

namespace Verif.ML.Ie

open Verif.Ieee

variable {fl : ℝ → ℝ} {n k : ℕ}

/-- A finite number of size at most `j * 2 ^ c`. -/
def Times (j c : ℕ) (a : IE binary64 fl) : Prop := ∃ x, a = IE.num x ∧ Finite binary64 x ∧ |x| ≤ j * 2 ^ c

/-- The logarithm of the platform: that of a positive finite number is a number of size at most 1024. (The exact one is between -745 and 710.) -/
def LnOk (ln : IE binary64 fl → IE binary64 fl) : Prop := ∀ x, Finite binary64 x → 0 < x → Below 10 (ln (IE.num x))

theorem ofReal_times (h : Rounds binary64 fl) {j c : ℕ} (hj : j ≤ 2 ^ 53) (hc : (j : ℝ) * 2 ^ c < 2 ^ (1024 : ℤ)) {x : ℝ} (hx : |x| ≤ j * 2 ^ c) :
    Times j c (IE.ofReal x : IE binary64 fl) := by
  have g : OnGrid binary64 ((j : ℝ) * 2 ^ c) := by
    have := onGrid_of_le (F := binary64) (by decide) (m := (j : ℤ)) (e := (c : ℤ))
      (by rw [abs_of_nonneg (by omega)]; exact_mod_cast hj) (by change (-1074 : ℤ) ≤ c; omega)
    rw [zpow_natCast] at this
    exact_mod_cast this
  have h1 : fl x ≤ j * 2 ^ c := by
    have := h.mono ((le_abs_self x).trans hx)
    rwa [h.fix g] at this
  have h2 : -(j * 2 ^ c) ≤ fl x := by
    have := h.mono (neg_le_of_neg_le ((neg_le_abs x).trans hx))
    rwa [h.fix g.neg] at this
  have hb := abs_le.2 ⟨h2, h1⟩
  have hlt : |fl x| < 2 ^ binary64.emax := hb.trans_lt hc
  exact ⟨fl x, ofReal_num hlt, ⟨(h x).1, hlt⟩, hb⟩

theorem Times.add (h : Rounds binary64 fl) {j c : ℕ} {a b : IE binary64 fl} (ha : Times j c a) (hb : Below c b) (hj : j + 1 ≤ 2 ^ 53)
    (hc : ((j + 1 : ℕ) : ℝ) * 2 ^ c < 2 ^ (1024 : ℤ)) : Times (j + 1) c (a + b) := by
  obtain ⟨x, rfl, -, hx⟩ := ha
  obtain ⟨y, rfl, -, hy⟩ := hb
  rw [add_num]
  refine ofReal_times h hj hc ((abs_add_le _ _).trans ?_)
  push_cast
  linarith

theorem times_bound {j c e : ℕ} (hj : j ≤ 2 ^ e) (hc : e + c < 1024) : (j : ℝ) * 2 ^ c < 2 ^ (1024 : ℤ) := by
  have h1 : (j : ℝ) ≤ 2 ^ e := by exact_mod_cast hj
  calc (j : ℝ) * 2 ^ c ≤ 2 ^ e * 2 ^ c := mul_le_mul_of_nonneg_right h1 (by positivity)
    _ = 2 ^ ((e + c : ℕ) : ℤ) := by rw [← pow_add, zpow_natCast]
    _ < 2 ^ (1024 : ℤ) := zpow_lt_zpow_right₀ (by norm_num) (by exact_mod_cast hc)

theorem Times.below {j c e : ℕ} {a : IE binary64 fl} (ha : Times j c a) (hj : j ≤ 2 ^ e) : Below (e + c) a := by
  obtain ⟨x, e1, hf, hx⟩ := ha
  refine ⟨x, e1, hf, hx.trans ?_⟩
  have h1 : (j : ℝ) ≤ 2 ^ e := by exact_mod_cast hj
  rw [pow_add]
  exact mul_le_mul_of_nonneg_right h1 (by positivity)

theorem Times.zero (c : ℕ) : Times 0 c (0 : IE binary64 fl) :=
  ⟨0, rfl, ⟨onGrid_zero, by rw [abs_zero]; positivity⟩, by simp⟩

theorem count_exact (h : Rounds binary64 fl) {j : ℕ} (hj : j ≤ 2 ^ 53) : (IE.ofCount j : IE binary64 fl) = IE.num j := by
  obtain ⟨y, e, -, -, h2⟩ := C163_count (F := binary64) (by decide) (by decide) (by decide) h (n := j) (by omega)
  rw [e, h2 hj]

/-! ## Training -/

/-- The step of `sums`. -/
noncomputable def step (s : (Fin k → ℕ) × (Fin k → Fin n → IE binary64 fl)) (d : (Fin n → IE binary64 fl) × ℕ) :
    Option ((Fin k → ℕ) × (Fin k → Fin n → IE binary64 fl)) :=
  if h : d.2 < k then
    some (Function.update s.1 ⟨d.2, h⟩ (s.1 ⟨d.2, h⟩ + 1), Function.update s.2 ⟨d.2, h⟩ fun i => s.2 ⟨d.2, h⟩ i + d.1 i)
  else none

theorem sum_update (f : Fin k → ℕ) (c : Fin k) : ∑ i, Function.update f c (f c + 1) i = (∑ i, f i) + 1 := by
  rw [Finset.sum_update_of_mem (Finset.mem_univ c), ← Finset.sum_sdiff (Finset.subset_univ {c})]
  simp
  omega

theorem sums_times (h : Rounds binary64 fl) : ∀ (data : List ((Fin n → IE binary64 fl) × ℕ)) (s : (Fin k → ℕ) × (Fin k → Fin n → IE binary64 fl)),
    (∀ d ∈ data, d.2 < k ∧ ∀ i, Below 480 (d.1 i)) → (∀ c i, Times (s.1 c) 480 (s.2 c i)) → (∀ c, s.1 c + data.length ≤ 2 ^ 53) →
    ∃ s', data.foldlM step s = some s' ∧ (∀ c i, Times (s'.1 c) 480 (s'.2 c i)) ∧ (∑ c, s'.1 c = (∑ c, s.1 c) + data.length) ∧
      (∀ c, s'.1 c ≤ s.1 c + data.length) ∧ (∀ c, s.1 c ≤ s'.1 c) ∧ (∀ c, s'.1 c ≠ s.1 c ↔ ∃ d ∈ data, d.2 = c.1) := by
  intro data
  induction data with
  | nil => intro s _ hs _; exact ⟨s, rfl, hs, by simp, by simp, by simp, by simp⟩
  | cons d l ih =>
    intro s hd hs hn
    obtain ⟨hk, hx⟩ := hd d (by simp)
    have hn' : ∀ c, s.1 c + l.length + 1 ≤ 2 ^ 53 := fun c => by have := hn c; simp at this; omega
    rw [List.foldlM_cons]
    unfold step
    rw [dif_pos hk, Option.bind_eq_bind, Option.bind_some]
    set q : Fin k := ⟨d.2, hk⟩ with hq
    obtain ⟨s', e, h1, h2, h3, h4, h5⟩ := ih (Function.update s.1 q (s.1 q + 1), Function.update s.2 q fun i => s.2 q i + d.1 i)
      (fun d hd' => hd d (List.mem_cons_of_mem _ hd'))
      (fun c i => by
        by_cases hc : c = q
        · rw [hc]
          simp only [Function.update_self]
          have := hn' q
          exact (hs q i).add h (hx i) (by omega) (times_bound (e := 53) (by omega) (by omega))
        · simp only [Function.update_of_ne hc]
          exact hs c i)
      (fun c => by
        by_cases hc : c = q
        · rw [hc]
          simp only [Function.update_self]
          have := hn' q
          omega
        · simp only [Function.update_of_ne hc]
          have := hn' c
          omega)
    refine ⟨s', e, h1, ?_, fun c => ?_, fun c => ?_, fun c => ?_⟩
    · rw [h2]
      simp only [sum_update, List.length_cons]
      omega
    · have := h3 c
      by_cases hc : c = q
      · subst hc; simp at this ⊢; omega
      · simp only [Function.update_of_ne hc] at this; simp; omega
    · have := h4 c
      by_cases hc : c = q
      · subst hc; simp at this ⊢; omega
      · simp only [Function.update_of_ne hc] at this; omega
    · by_cases hc : c = q
      · subst hc
        have := h4 q
        simp at this
        exact ⟨fun _ => ⟨d, by simp, rfl⟩, fun _ => by omega⟩
      · have := h5 c
        simp only [Function.update_of_ne hc] at this
        rw [this]
        constructor
        · rintro ⟨d', hd', e'⟩
          exact ⟨d', List.mem_cons_of_mem _ hd', e'⟩
        · rintro ⟨d', hd', e'⟩
          rcases List.mem_cons.1 hd' with rfl | hm
          · exact absurd (Fin.ext e'.symm) hc
          · exact ⟨d', hm, e'⟩

theorem divCounts_below (h : Rounds binary64 fl) {count : Fin k → ℕ} {a : Fin k → Fin n → IE binary64 fl} {e : ℕ} (he : e < 1024)
    (hc : ∀ c, count c ≤ 2 ^ 53) (ha : ∀ c i, Times (count c) e (a c i)) (c : Fin k) (i : Fin n) : Below e (divCounts count a c i) := by
  obtain ⟨x, ex, hf, hx⟩ := ha c i
  unfold divCounts
  rw [ex]
  by_cases h0 : count c > 0
  · have hpos : (0 : ℝ) < count c := by exact_mod_cast h0
    rw [if_pos h0, count_exact h (hc c), div_num _ hpos.ne']
    refine ofReal_below (by decide) (by decide) h (by change (e : ℤ) < 1024; omega) ?_
    rw [abs_div, abs_of_pos hpos, div_le_iff₀ hpos]
    linarith
  · rw [if_neg h0]
    have : count c = 0 := by omega
    rw [this] at hx
    refine ⟨x, rfl, hf, hx.trans ?_⟩
    simp

theorem squares_times (h : Rounds binary64 fl) {mean : Fin k → Fin n → IE binary64 fl} (hm : ∀ c i, Below 480 (mean c i)) :
    ∀ (data : List ((Fin n → IE binary64 fl) × ℕ)) (j : ℕ) (v : Fin k → Fin n → IE binary64 fl), (∀ d ∈ data, ∀ i, Below 480 (d.1 i)) →
      (∀ c i, Times j 962 (v c i)) → j + data.length ≤ 2 ^ 53 →
      ∀ c i, Times (j + data.length) 962 (data.foldl (fun (v : Fin k → Fin n → IE binary64 fl) d =>
        if h : d.2 < k then
          Function.update v ⟨d.2, h⟩ fun i => v ⟨d.2, h⟩ i + (d.1 i - mean ⟨d.2, h⟩ i) * (d.1 i - mean ⟨d.2, h⟩ i)
        else v) v c i) := by
  intro data
  have wk : ∀ {j : ℕ} {a : IE binary64 fl}, Times j 962 a → Times (j + 1) 962 a := by
    rintro j a ⟨x, e, hf, hx⟩
    refine ⟨x, e, hf, hx.trans (mul_le_mul_of_nonneg_right (by push_cast; linarith) (by positivity))⟩
  induction data with
  | nil => intro j v _ hv _; simpa using hv
  | cons d l ih =>
    intro j v hd hv hn
    rw [List.length_cons] at hn ⊢
    rw [show j + (l.length + 1) = (j + 1) + l.length by omega, List.foldl_cons]
    refine ih (j + 1) _ (fun d hd' => hd d (List.mem_cons_of_mem _ hd')) (fun c i => ?_) (by omega)
    by_cases hk : d.2 < k
    · rw [dif_pos hk]
      by_cases hc : c = ⟨d.2, hk⟩
      · subst hc
        rw [Function.update_self]
        have hb := (Below.sub (by decide) (by decide) h (hd d (by simp) i) (hm ⟨d.2, hk⟩ i) (by decide))
        exact (hv _ i).add h (Below.mul (by decide) (by decide) h hb hb (by decide)) (by omega) (times_bound (e := 53) (by omega) (by omega))
      · rw [Function.update_of_ne hc]
        exact wk (hv c i)
    · rw [dif_neg hk]
      exact wk (hv c i)

/-! ## Scores -/

/-- Numbers between two numbers of the format stay there when rounded. -/
theorem ofReal_between (h : Rounds binary64 fl) {lo hi x : ℝ} (hlo : OnGrid binary64 lo) (hhi : Finite binary64 hi) (h0 : 0 ≤ lo) (h1 : lo ≤ x)
    (h2 : x ≤ hi) : ∃ y, (IE.ofReal x : IE binary64 fl) = IE.num y ∧ Finite binary64 y ∧ lo ≤ y ∧ y ≤ hi := by
  have a1 : lo ≤ fl x := by rw [← h.fix hlo]; exact h.mono h1
  have a2 : fl x ≤ hi := by rw [← h.fix hhi.1]; exact h.mono h2
  have hb : |fl x| < 2 ^ binary64.emax := by
    rw [abs_of_nonneg (h0.trans a1)]
    exact a2.trans_lt ((le_abs_self hi).trans_lt hhi.2)
  exact ⟨fl x, ofReal_num hb, ⟨(h x).1, hb⟩, a1, a2⟩

theorem Below.add' (h : Rounds binary64 fl) {c d : ℕ} {a b : IE binary64 fl} (ha : Below c a) (hb : Below c b) (hd : c + 1 = d) (hc : d < 1024) :
    Below d (a + b) := by
  obtain ⟨x, rfl, -, hx⟩ := ha
  obtain ⟨y, rfl, -, hy⟩ := hb
  subst hd
  rw [add_num]
  refine ofReal_below (by decide) (by decide) h (by change ((c + 1 : ℕ) : ℤ) < 1024; omega) ?_
  rw [pow_succ]
  have := abs_add_le x y
  linarith

theorem term_below (h : Rounds binary64 fl) {ln : IE binary64 fl → IE binary64 fl} (hln : LnOk ln) {var mean x : IE binary64 fl}
    (hv : Below 1015 var) (hm : Below 480 mean) (hx : Below 480 x) : Below 1003 (term ln var mean x) := by
  obtain ⟨v, rfl, hvf, hvb⟩ := hv
  obtain ⟨f, ef, hff, hf1, hf2⟩ := ofReal_between (fl := fl) h (lo := 2 ^ (-40 : ℤ)) (hi := 2 ^ (0 : ℤ)) (x := 1 / 10 ^ 12)
    (pow_finite (by norm_num) (by norm_num)).1 (pow_finite (by norm_num) (by norm_num)) (by positivity) (by norm_num [zpow_neg]) (by norm_num)
  -- the floored variance
  obtain ⟨w, ew, hwf, hw1, hw2⟩ : ∃ w, IE.fmax (IE.num v : IE binary64 fl) (IE.num f) = IE.num w ∧ Finite binary64 w ∧
      2 ^ (-40 : ℤ) ≤ w ∧ w ≤ 2 ^ (1015 : ℤ) := by
    unfold IE.fmax
    rw [if_neg (by simp [IE.num]), if_neg (by simp [IE.num])]
    by_cases hl : v < f
    · refine ⟨f, if_pos hl, hff, hf1, hf2.trans (zpow_le_zpow_right₀ (by norm_num) (by norm_num))⟩
    · refine ⟨v, if_neg hl, hvf, hf1.trans (not_lt.1 hl), (le_abs_self v).trans (hvb.trans_eq ?_)⟩
      exact (zpow_natCast (2 : ℝ) 1015).symm
  have hwpos : 0 < w := lt_of_lt_of_le (by positivity) hw1
  -- the argument of the logarithm
  obtain ⟨p, ep, -, hp1, hp2⟩ := ofReal_between (fl := fl) h (lo := 2 ^ (1 : ℤ)) (hi := 2 ^ (2 : ℤ)) (x := Real.pi)
    (pow_finite (by norm_num) (by norm_num)).1 (pow_finite (by norm_num) (by norm_num)) (by positivity)
    (by have := Real.pi_gt_three; norm_num; linarith) (by have := Real.pi_lt_four; norm_num; linarith)
  have e2 : (IE.ofReal 2 : IE binary64 fl) = IE.num 2 := by
    have := ofReal_finite h (pow_finite (e := 1) (by norm_num) (by norm_num))
    norm_num at this
    exact this
  obtain ⟨q, eq, -, hq1, hq2⟩ := ofReal_between (fl := fl) h (lo := 2 ^ (2 : ℤ)) (hi := 2 ^ (3 : ℤ)) (x := 2 * p)
    (pow_finite (by norm_num) (by norm_num)).1 (pow_finite (by norm_num) (by norm_num)) (by positivity)
    (by norm_num at hp1 ⊢; linarith) (by norm_num at hp2 ⊢; linarith)
  obtain ⟨r, er, hrf, hr1, -⟩ := ofReal_between (fl := fl) h (lo := 2 ^ (-40 : ℤ)) (hi := 2 ^ (1018 : ℤ)) (x := q * w)
    (pow_finite (by norm_num) (by norm_num)).1 (pow_finite (by norm_num) (by norm_num)) (by positivity)
    (by norm_num at hq1; exact hw1.trans (by nlinarith))
    (by
      rw [show (1018 : ℤ) = 3 + 1015 by norm_num, zpow_add₀ (by norm_num)]
      exact mul_le_mul hq2 hw2 hwpos.le (by positivity))
  have hrpos : 0 < r := lt_of_lt_of_le (by positivity) hr1
  have hL := hln r hrf hrpos
  -- the quotient
  have hd := Below.sub (by decide) (by decide) h hx hm (by decide)
  have hdd := Below.mul (by decide) (by decide) h hd hd (by decide)
  have hQ := Below.div (m := 40) (y := w) (by decide) (by decide) h hdd (by rw [abs_of_pos hwpos]; exact_mod_cast hw1) (by decide)
  have hS := Below.add' h (hL.mono (show 10 ≤ 1002 by norm_num)) hQ (d := 1003) (by norm_num) (by norm_num)
  have hhalf : Below 0 (IE.ofReal (-1 / 2) : IE binary64 fl) := ofReal_below (by decide) (by decide) h (by decide) (by norm_num [abs_div])
  have hfin := Below.mul (by decide) (by decide) h hhalf hS (by decide)
  have : term ln (IE.num v) mean x = IE.ofReal (-1 / 2) * (ln (IE.num r) + (x - mean) * (x - mean) / IE.num w) := by
    unfold term
    simp only
    rw [ef, ew, e2, ep, mul_num, eq, mul_num, er]
  rw [this]
  exact hfin

theorem sum_below (h : Rounds binary64 fl) {t : Fin n → IE binary64 fl} (ht : ∀ i, Below 1003 (t i)) : ∀ (l : List (Fin n)) (j : ℕ) (s : IE binary64 fl),
    Times j 1003 s → j + l.length ≤ 2 ^ 20 → Times (j + l.length) 1003 (l.foldl (fun s i => s + t i) s) := by
  intro l
  induction l with
  | nil => intro j s hs _; simpa using hs
  | cons a l ih =>
    intro j s hs hn
    rw [List.length_cons] at hn ⊢
    rw [show j + (l.length + 1) = (j + 1) + l.length by omega, List.foldl_cons]
    exact ih (j + 1) _ (hs.add h (ht a) (by omega) (times_bound (e := 20) (by omega) (by omega))) (by omega)

/-! ## The search for the best class -/

theorem search_spec {seen : Fin k → Prop} [DecidablePred seen] {w : Fin k → IE binary64 fl} (hw : ∀ c, seen c → IE.IsNum (w c)) :
    ∀ (l : List (Fin k)) (s : ℕ × IE binary64 fl) (old : Fin k → Prop),
      ((s.2 = IE.inf true ∧ ∀ c, old c → ¬ seen c) ∨ ∃ r : Fin k, seen r ∧ s = (r.1, w r) ∧ ∀ c, old c → seen c → w c ≤ w r) →
      (let s' := l.foldl (fun s c => if seen c then (if s.2 < w c then (c.1, w c) else s) else s) s
       (s'.2 = IE.inf true ∧ ∀ c, (old c ∨ c ∈ l) → ¬ seen c) ∨
        ∃ r : Fin k, seen r ∧ s' = (r.1, w r) ∧ ∀ c, (old c ∨ c ∈ l) → seen c → w c ≤ w r) := by
  intro l
  induction l with
  | nil => intro s old hs; simpa using hs
  | cons a l ih =>
    intro s old hs
    have key := ih (if seen a then (if s.2 < w a then (a.1, w a) else s) else s) (fun c => old c ∨ c = a) (by
      by_cases ha : seen a
      · rw [if_pos ha]
        obtain ⟨x, ex, -⟩ := hw a ha
        rcases hs with ⟨e, hs⟩ | ⟨r, hr, e, hs⟩
        · rw [e, ex, if_pos (show (IE.inf true : IE binary64 fl) < IE.num x from rfl)]
          refine Or.inr ⟨a, ha, by rw [ex], fun c hc hsc => ?_⟩
          rcases hc with hc | rfl
          · exact absurd hsc (hs c hc)
          · rw [ex]; exact (le_num x x).2 le_rfl
        · obtain ⟨y, ey, -⟩ := hw r hr
          rw [e]
          by_cases hl : y < x
          · rw [if_pos (show (r.1, w r).2 < w a by rw [ex, ey]; exact hl)]
            refine Or.inr ⟨a, ha, rfl, fun c hc hsc => ?_⟩
            rcases hc with hc | rfl
            · obtain ⟨z, ez, -⟩ := hw c hsc
              have := hs c hc hsc
              rw [ez, ey] at this
              rw [ez, ex]
              exact (le_num _ _).2 (((le_num _ _).1 this).trans hl.le)
            · rw [ex]; exact (le_num x x).2 le_rfl
          · rw [if_neg (show ¬ (r.1, w r).2 < w a by rw [ex, ey]; exact hl)]
            refine Or.inr ⟨r, hr, rfl, fun c hc hsc => ?_⟩
            rcases hc with hc | rfl
            · exact hs c hc hsc
            · rw [ex, ey]; exact (le_num _ _).2 (not_lt.1 hl)
      · rw [if_neg ha]
        rcases hs with ⟨e, hs⟩ | ⟨r, hr, e, hs⟩
        · refine Or.inl ⟨e, fun c hc => ?_⟩
          rcases hc with hc | rfl
          · exact hs c hc
          · exact ha
        · refine Or.inr ⟨r, hr, e, fun c hc hsc => ?_⟩
          rcases hc with hc | rfl
          · exact hs c hc hsc
          · exact absurd hsc ha)
    simp only [List.foldl_cons, List.mem_cons, or_assoc] at key ⊢
    exact key

/-- **C165**, features and query of size at most `2 ^ 480`: the class predicted is one of those seen in training, and none of these has a larger score.
Missing: larger numbers (`C165_fails`). -/
theorem C165_partial (h : Rounds binary64 fl) {ln : IE binary64 fl → IE binary64 fl} (hln : LnOk ln) (hn : n < 2 ^ 20)
    {xs : List (Fin n → IE binary64 fl)} {ys : List ℕ} (hy : ∀ y ∈ ys, y < k) (h0 : xs.zip ys ≠ []) (hlen : xs.length ≤ 2 ^ 53)
    (hx : ∀ x ∈ xs, ∀ i, Below 480 (x i)) {q : Fin n → IE binary64 fl} (hq : ∀ i, Below 480 (q i)) :
    ∃ o, fit k xs ys = some o ∧ ∃ c : Fin k, predict ln o q = c.1 ∧ (∃ d ∈ xs.zip ys, d.2 = c.1) ∧
      ∀ c' : Fin k, (∃ d ∈ xs.zip ys, d.2 = c'.1) → score ln o q c' ≤ score ln o q c := by
  have hl : (xs.zip ys).length ≤ 2 ^ 53 := by rw [List.length_zip]; omega
  have hdata : ∀ d ∈ xs.zip ys, d.2 < k ∧ ∀ i, Below 480 (d.1 i) := fun d hd =>
    ⟨hy _ (List.of_mem_zip hd).2, hx _ (List.of_mem_zip hd).1⟩
  obtain ⟨s, es, h1, h2, h3, -, h5⟩ := sums_times h (xs.zip ys) ((fun _ => 0 : Fin k → ℕ), fun _ _ => 0) hdata
    (fun c i => Times.zero 480) (fun c => by simpa using hl)
  simp only [Finset.sum_const_zero, zero_add] at h2 h3 h5
  have hc : ∀ c, s.1 c ≤ 2 ^ 53 := fun c => (h3 c).trans hl
  have hmean := divCounts_below h (e := 480) (by norm_num) hc h1
  have hsq := squares_times h hmean (xs.zip ys) 0 (fun _ _ => 0) (fun d hd => (hdata d hd).2) (fun c i => Times.zero 962) (by omega)
  rw [zero_add] at hsq
  have hvar : ∀ c i, s.1 c ≠ 0 → Below 1015 (divCounts s.1 (squares (divCounts s.1 s.2) (xs.zip ys)) c i) := by
    intro c i hne
    have hpos : s.1 c > 0 := Nat.pos_of_ne_zero hne
    unfold divCounts
    rw [if_pos hpos, count_exact h (hc c)]
    refine Below.div (m := 0) (by decide) (by decide) h ((hsq c i).below hl) ?_ (by decide)
    rw [abs_of_nonneg (Nat.cast_nonneg _)]
    simp
    omega
  set o : NB fl k n := ⟨s.1, fun c => IE.ofCount (s.1 c) / IE.ofCount ((List.finRange k).map s.1).sum, divCounts s.1 s.2,
    divCounts s.1 (squares (divCounts s.1 s.2) (xs.zip ys))⟩ with ho
  have efit : fit k xs ys = some o := by
    unfold fit sums
    change (List.foldlM step _ _ >>= _) = _
    rw [es]
    rfl
  have hscore : ∀ c : Fin k, ¬ s.1 c = 0 → IE.IsNum (score ln o q c) := by
    intro c hne
    have etot : ((List.finRange k).map s.1).sum = (xs.zip ys).length := by
      rw [← h2, Fin.sum_univ_def]
    have hprior : Below 10 (ln (o.prior c)) := by
      change Below 10 (ln (IE.ofCount (s.1 c) / IE.ofCount ((List.finRange k).map s.1).sum))
      rw [etot, count_exact h hl, count_exact h (hc c)]
      have hp1 : (1 : ℝ) ≤ s.1 c := by exact_mod_cast Nat.pos_of_ne_zero hne
      have hp2 : ((s.1 c : ℕ) : ℝ) ≤ (xs.zip ys).length := by exact_mod_cast h3 c
      have hp3 : ((xs.zip ys).length : ℝ) ≤ 2 ^ 53 := by exact_mod_cast hl
      have hT : (0 : ℝ) < (xs.zip ys).length := by linarith
      rw [div_num _ hT.ne']
      obtain ⟨y, ey, hyf, hy1, -⟩ := ofReal_between (fl := fl) h (lo := 2 ^ (-53 : ℤ)) (hi := 2 ^ (0 : ℤ)) (x := s.1 c / (xs.zip ys).length)
        (pow_finite (by norm_num) (by norm_num)).1 (pow_finite (by norm_num) (by norm_num)) (by positivity)
        (by
          rw [le_div_iff₀ hT]
          calc (2 : ℝ) ^ (-53 : ℤ) * (xs.zip ys).length ≤ 2 ^ (-53 : ℤ) * 2 ^ 53 := mul_le_mul_of_nonneg_left hp3 (by positivity)
            _ = 1 := by norm_num [zpow_neg]
            _ ≤ s.1 c := hp1)
        (by rw [zpow_zero]; exact div_le_one_of_le₀ hp2 hT.le)
      rw [ey]
      exact hln y hyf (lt_of_lt_of_le (by positivity) hy1)
    have ht : ∀ i, Below 1003 (term ln (o.var c i) (o.mean c i) (q i)) := fun i =>
      term_below h hln (hvar c i hne) (hmean c i) (hq i)
    have hs0 : Times 1 1003 (ln (o.prior c)) := by
      obtain ⟨x, e, hf, hb⟩ := hprior.mono (show 10 ≤ 1003 by norm_num)
      exact ⟨x, e, hf, by simpa using hb⟩
    obtain ⟨x, e, hf, -⟩ := sum_below h ht (List.finRange n) 1 _ hs0 (by rw [List.length_finRange]; omega)
    exact ⟨x, e, hf⟩
  refine ⟨o, efit, ?_⟩
  have key := search_spec (seen := fun c => ¬ s.1 c = 0) hscore (List.finRange k) (0, IE.inf true) (fun _ => False) (Or.inl ⟨rfl, fun _ hc => hc.elim⟩)
  have epred : predict ln o q = ((List.finRange k).foldl (fun (s' : ℕ × IE binary64 fl) c =>
      if ¬ s.1 c = 0 then (if s'.2 < score ln o q c then (c.1, score ln o q c) else s') else s') (0, IE.inf true)).1 := by
    unfold predict
    congr 2
    funext s' c
    simp only [ite_not]
    rfl
  simp only [List.mem_finRange, or_true, forall_const] at key
  rw [epred]
  rcases key with ⟨-, hno⟩ | ⟨r, hr, e, hbest⟩
  · exfalso
    obtain ⟨d, hd⟩ := List.exists_mem_of_ne_nil _ h0
    exact hno ⟨d.2, (hdata d hd).1⟩ ((h5 ⟨d.2, (hdata d hd).1⟩).2 ⟨d, hd, rfl⟩)
  · refine ⟨r, by rw [e], (h5 r).1 hr, fun c' hc' => hbest c' ((h5 c').2 hc')⟩

/-- Data that satisfy the hypotheses: one feature, two classes. -/
example : (∀ y ∈ [0, 1], y < 2) ∧ ([fun _ => 0, fun _ => IE.num 1] : List (Fin 1 → IE binary64 fl)).zip [0, 1] ≠ [] ∧
    (∀ x ∈ ([fun _ => 0, fun _ => IE.num 1] : List (Fin 1 → IE binary64 fl)), ∀ i, Below 480 (x i)) := by
  refine ⟨by decide, by simp, ?_⟩
  have f1 : Finite binary64 1 := by simpa using pow_finite (e := 0) (by norm_num) (by norm_num)
  have b1 : Below 480 (IE.num 1 : IE binary64 fl) := ⟨1, rfl, f1, by rw [abs_one]; exact one_le_pow₀ (by norm_num)⟩
  have b0 : Below 480 (0 : IE binary64 fl) := ((Times.zero 480).below (e := 0) (by norm_num)).mono (by norm_num)
  intro x hx i
  simp only [List.mem_cons, List.not_mem_nil, or_false] at hx
  rcases hx with rfl | rfl
  · exact b0
  · exact b1

/-- The machine has such a logarithm: the exact one, rounded. -/
theorem lnOk_exact (h : Rounds binary64 fl) : LnOk (fun a : IE binary64 fl => IE.ofReal (Real.log a.real)) := by
  intro x hx hpos
  refine ofReal_below (by decide) (by decide) h (by decide) ?_
  change |Real.log x| ≤ 2 ^ 10
  have hl2 : Real.log 2 ≤ 0.7 := by have := Real.log_two_lt_d9; linarith
  have hl0 : 0 < Real.log 2 := Real.log_pos (by norm_num)
  have hup : x ≤ 2 ^ (1024 : ℤ) := (le_abs_self x).trans hx.2.le
  have hlow : (2 : ℝ) ^ (-1074 : ℤ) ≤ x := by
    obtain ⟨j, hj⟩ := hx.1.multiple
    have e : x = j * 2 ^ (-1074 : ℤ) := hj
    have hq : (0 : ℝ) < 2 ^ (-1074 : ℤ) := by positivity
    have : (0 : ℝ) < j := by
      by_contra hc
      have := mul_nonpos_of_nonpos_of_nonneg (not_lt.1 hc) hq.le
      linarith
    have h1 : (1 : ℝ) ≤ j := by exact_mod_cast this
    rw [e]
    nlinarith
  have a1 := Real.log_le_log hpos hup
  have a2 := Real.log_le_log (by positivity) hlow
  rw [Real.log_zpow] at a1 a2
  rw [abs_le]
  push_cast at a1 a2
  constructor <;> norm_num <;> linarith

/-- The floored variance of a class with variance zero. -/
theorem floor_zero (h : Rounds binary64 fl) :
    ∃ f, IE.fmax (IE.num 0 : IE binary64 fl) (IE.ofReal (1 / 10 ^ 12)) = IE.num f ∧ Finite binary64 f ∧ 2 ^ (-40 : ℤ) ≤ f ∧ f ≤ 1 := by
  obtain ⟨f, ef, hff, hf1, hf2⟩ := ofReal_between (fl := fl) h (lo := 2 ^ (-40 : ℤ)) (hi := 2 ^ (0 : ℤ)) (x := 1 / 10 ^ 12)
    (pow_finite (by norm_num) (by norm_num)).1 (pow_finite (by norm_num) (by norm_num)) (by positivity) (by norm_num [zpow_neg]) (by norm_num)
  refine ⟨f, ?_, hff, hf1, by simpa using hf2⟩
  unfold IE.fmax
  rw [ef, if_neg (by simp [IE.num]), if_neg (by simp [IE.num])]
  exact if_pos (show (0 : ℝ) < f from lt_of_lt_of_le (by positivity) hf1)

/-- **C165 fails** for a query far away from the data: all examples are of class 1, and the class predicted is 0. -/
theorem C165_fails (h : Rounds binary64 fl) {ln : IE binary64 fl → IE binary64 fl} (hln : LnOk ln) :
    Finite binary64 (2 ^ (600 : ℤ)) ∧ ∃ o, fit 2 [fun _ : Fin 1 => (0 : IE binary64 fl)] [1] = some o ∧ predict ln o (fun _ => IE.num (2 ^ (600 : ℤ))) = 0 := by
  have hone : Finite binary64 1 := by simpa using pow_finite (e := 0) (by norm_num) (by norm_num)
  have hz : Finite binary64 0 := ⟨onGrid_zero, by rw [abs_zero]; positivity⟩
  have e0 : (IE.ofReal 0 : IE binary64 fl) = IE.num 0 := ofReal_finite h hz
  have e00 : (IE.num 0 + IE.num 0 : IE binary64 fl) = IE.num 0 := by rw [add_num, add_zero, e0]
  have ec : (IE.ofCount 1 : IE binary64 fl) = IE.num 1 := by rw [count_exact h (by norm_num), Nat.cast_one]
  have ed0 : (IE.num 0 / IE.num 1 : IE binary64 fl) = IE.num 0 := by rw [div_num _ one_ne_zero, zero_div, e0]
  have es0 : (IE.num 0 - IE.num 0 : IE binary64 fl) = IE.num 0 := by rw [sub_num, neg_zero, add_zero, e0]
  have em0 : (IE.num 0 * IE.num 0 : IE binary64 fl) = IE.num 0 := by rw [mul_num, mul_zero, e0]
  refine ⟨pow_finite (by norm_num) (by norm_num), ?_⟩
  obtain ⟨o, eo, hc0, hc1, hmean, hvar, hprior⟩ : ∃ o : NB fl 2 1, fit 2 [fun _ : Fin 1 => (0 : IE binary64 fl)] [1] = some o ∧ o.count 0 = 0 ∧
      o.count 1 = 1 ∧ o.mean 1 0 = IE.num 0 ∧ o.var 1 0 = IE.num 0 ∧ o.prior 1 = IE.num 1 := by
    have m0 : (divCounts (fun c : Fin 2 => Function.update (fun _ => 0) 1 1 c) (Function.update (fun _ _ => (0 : IE binary64 fl)) 1
        fun i : Fin 1 => 0 + 0)) 1 0 = IE.num 0 := by
      unfold divCounts
      simp only [Function.update_self]
      rw [if_pos (by norm_num), ec]
      change (IE.num 0 + IE.num 0) / IE.num 1 = _
      rw [e00, ed0]
    refine ⟨_, rfl, rfl, rfl, m0, ?_, ?_⟩
    · change divCounts (fun c : Fin 2 => Function.update (fun _ => 0) 1 1 c) (Function.update (fun _ _ => (0 : IE binary64 fl)) 1
        fun i : Fin 1 => 0 + (0 - (divCounts (fun c : Fin 2 => Function.update (fun _ => 0) 1 1 c) (Function.update (fun _ _ => (0 : IE binary64 fl)) 1
        fun i : Fin 1 => 0 + 0)) 1 i) * (0 - (divCounts (fun c : Fin 2 => Function.update (fun _ => 0) 1 1 c)
          (Function.update (fun _ _ => (0 : IE binary64 fl)) 1 fun i : Fin 1 => 0 + 0)) 1 i)) 1 0 = _
      rw [divCounts]
      simp only [Function.update_self]
      rw [if_pos (by norm_num), ec, m0]
      change (IE.num 0 + (IE.num 0 - IE.num 0) * (IE.num 0 - IE.num 0)) / IE.num 1 = _
      rw [es0, em0, e00, ed0]
    · change (IE.ofCount 1 / IE.ofCount 1 : IE binary64 fl) = _
      rw [ec, div_num _ one_ne_zero, div_one, ofReal_finite h hone]
  refine ⟨o, eo, ?_⟩
  -- the score of class 1 is negative infinity
  have hs : score ln o (fun _ => IE.num (2 ^ (600 : ℤ))) 1 = IE.inf true := by
    obtain ⟨f, ef, hff, hf1, hf2⟩ := floor_zero h
    have hfpos : 0 < f := lt_of_lt_of_le (by positivity) hf1
    obtain ⟨a, ea, -, -⟩ := hln 1 hone one_pos
    have hL : ∃ b, ln (IE.ofReal 2 * IE.ofReal Real.pi * IE.num f) = IE.num b := by
      obtain ⟨p, ep, -, hp1, hp2⟩ := ofReal_between (fl := fl) h (lo := 2 ^ (1 : ℤ)) (hi := 2 ^ (2 : ℤ)) (x := Real.pi)
        (pow_finite (by norm_num) (by norm_num)).1 (pow_finite (by norm_num) (by norm_num)) (by positivity)
        (by have := Real.pi_gt_three; norm_num; linarith) (by have := Real.pi_lt_four; norm_num; linarith)
      have e2 : (IE.ofReal 2 : IE binary64 fl) = IE.num 2 := by
        have := ofReal_finite h (pow_finite (e := 1) (by norm_num) (by norm_num))
        norm_num at this
        exact this
      obtain ⟨q, eq, -, hq1, hq2⟩ := ofReal_between (fl := fl) h (lo := 2 ^ (2 : ℤ)) (hi := 2 ^ (3 : ℤ)) (x := 2 * p)
        (pow_finite (by norm_num) (by norm_num)).1 (pow_finite (by norm_num) (by norm_num)) (by positivity)
        (by norm_num at hp1 ⊢; linarith) (by norm_num at hp2 ⊢; linarith)
      obtain ⟨r, er, hrf, hr1, -⟩ := ofReal_between (fl := fl) h (lo := 2 ^ (-40 : ℤ)) (hi := 2 ^ (3 : ℤ)) (x := q * f)
        (pow_finite (by norm_num) (by norm_num)).1 (pow_finite (by norm_num) (by norm_num)) (by positivity)
        (by norm_num at hq1; exact hf1.trans (by nlinarith)) (by nlinarith)
      obtain ⟨b, eb, -⟩ := hln r hrf (lt_of_lt_of_le (by positivity) hr1)
      exact ⟨b, by rw [e2, ep, mul_num, eq, mul_num, er, eb]⟩
    obtain ⟨b, eb⟩ := hL
    have eh : (IE.ofReal (-1 / 2) : IE binary64 fl) = IE.num (-1 / 2) := by
      have := (pow_finite (e := -1) (by norm_num) (by norm_num))
      have hn : Finite binary64 (-1 / 2) := by
        refine ⟨?_, ?_⟩
        · have := this.1.neg
          rwa [show -(2 : ℝ) ^ (-1 : ℤ) = -1 / 2 by norm_num] at this
        · have h2 := this.2
          rwa [show (-1 / 2 : ℝ) = -(2 : ℝ) ^ (-1 : ℤ) by norm_num, abs_neg]
      exact ofReal_finite h hn
    have et : term ln (IE.num 0) (IE.num 0) (IE.num (2 ^ (600 : ℤ))) = IE.inf true := by
      unfold term
      simp only
      rw [ef, eb, eh, sub_num, neg_zero, add_zero, ofReal_finite h (pow_finite (by norm_num) (by norm_num)), square_big h]
      have e1 : (IE.inf false / IE.num f : IE binary64 fl) = IE.inf false := by
        change IE.inf (xor false (IE.isNeg f)) = _
        rw [IE.isNeg, decide_eq_false (not_lt.2 hfpos.le)]; rfl
      rw [e1]
      change (IE.num (-1 / 2) * IE.inf false : IE binary64 fl) = _
      change (open Classical in if (-1 / 2 : ℝ) = 0 then IE.nan else IE.inf (xor (IE.isNeg (-1 / 2)) false)) = (IE.inf true : IE binary64 fl)
      rw [if_neg (by norm_num), IE.isNeg, decide_eq_true (by norm_num)]; rfl
    change (ln (o.prior 1) + term ln (o.var 1 0) (o.mean 1 0) (IE.num (2 ^ (600 : ℤ)))) = _
    rw [hprior, hvar, hmean, et, ea]
    rfl
  unfold predict
  rw [show List.finRange 2 = [0, 1] from rfl, List.foldl_cons, if_pos hc0, List.foldl_cons, hs, if_neg (by rw [hc1]; norm_num)]
  rw [if_neg (fun hc => by have : true = true ∧ true = false := hc; exact absurd this.2 (by decide))]
  rfl

end Verif.ML.Ie
