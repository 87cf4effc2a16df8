import Verif.Viz.Poll
import Verif.Ieee.PropsCast
import Verif.Ieee.PropsLu

/-!
# Polling intervals (C164)
-/

namespace Verif.Viz.Poll

open Verif.Ieee

variable {fl : ℝ → ℝ}

theorem fin_pow {e : ℤ} (h1 : -1074 ≤ e) (h2 : e < 1024) : Finite binary64 (2 ^ e) := pow_finite h1 h2

/-- The number 0.1 of the program is a little more than 1/10. -/
theorem tenth (h : Rounds binary64 fl) : 1 / 10 ≤ fl (1 / 10) ∧ fl (1 / 10) ≤ 1 / 8 := by
  have hy : OnGrid binary64 (7205759403792794 / 2 ^ 56) :=
    ⟨7205759403792794, -56, by decide, by decide, by norm_num [zpow_neg]⟩
  have h8 : fl (1 / 10) ≤ 1 / 8 := by
    have := h.mono (show (1 / 10 : ℝ) ≤ 2 ^ (-3 : ℤ) by norm_num [zpow_neg])
    rw [h.fix (fin_pow (by norm_num) (by norm_num)).1] at this
    refine this.trans (by norm_num [zpow_neg])
  have h16 : 1 / 16 ≤ fl (1 / 10) := by
    have := h.mono (show (2 : ℝ) ^ (-4 : ℤ) ≤ 1 / 10 by norm_num [zpow_neg])
    rw [h.fix (fin_pow (by norm_num) (by norm_num)).1] at this
    refine le_trans (by norm_num [zpow_neg]) this
  refine ⟨?_, h8⟩
  obtain ⟨m, e, hm, he, hv⟩ := (h (1 / 10)).1
  have hpe : (0 : ℝ) < 2 ^ e := by positivity
  -- the exponent of the number is at least -56
  have hE : -57 < e := by
    by_contra hc
    have hle : (2 : ℝ) ^ e ≤ 2 ^ (-57 : ℤ) := zpow_le_zpow_right₀ (by norm_num) (by omega)
    have hm' : (m : ℝ) < 2 ^ 53 := by exact_mod_cast (abs_lt.1 hm).2
    have : fl (1 / 10) < 1 / 16 := by
      rw [hv]
      calc (m : ℝ) * 2 ^ e < 2 ^ 53 * 2 ^ e := mul_lt_mul_of_pos_right hm' hpe
        _ ≤ 2 ^ 53 * 2 ^ (-57 : ℤ) := mul_le_mul_of_nonneg_left hle (by positivity)
        _ = 1 / 16 := by norm_num [zpow_neg]
    linarith
  obtain ⟨j, hj⟩ := Int.eq_ofNat_of_zero_le (show 0 ≤ e + 56 by omega)
  have hv2 : fl (1 / 10) = ((m * 2 ^ j : ℤ) : ℝ) / 2 ^ 56 := by
    rw [hv, show e = j + -56 by omega, zpow_add₀ (by norm_num), zpow_natCast]
    push_cast
    rw [zpow_neg, ← zpow_natCast (2 : ℝ) 56]
    field_simp
    norm_num
  have hd := (h (1 / 10)).2 _ hy
  rw [hv2] at hd ⊢
  generalize m * 2 ^ j = k at hd ⊢
  rw [abs_of_pos (show (0 : ℝ) < 7205759403792794 / 2 ^ 56 - 1 / 10 by norm_num)] at hd
  have hk : (7205759403792793 : ℝ) < k := by
    have := neg_abs_le ((k : ℝ) / 2 ^ 56 - 1 / 10)
    have : (1 / 10 : ℝ) - (7205759403792794 / 2 ^ 56 - 1 / 10) ≤ k / 2 ^ 56 := by linarith
    rw [le_div_iff₀ (by norm_num)] at this
    norm_num at this
    linarith
  have hk' : (7205759403792794 : ℤ) ≤ k := by
    have : (7205759403792793 : ℤ) < k := by exact_mod_cast hk
    omega
  have : (7205759403792794 : ℝ) ≤ k := by exact_mod_cast hk'
  rw [le_div_iff₀ (by norm_num)]
  norm_num
  linarith

/-- One over a positive number of at least `c`: a number from 0 to the rounding of `1 / c`. -/
theorem recip (h : Rounds binary64 fl) {x c B : ℝ} (hc : 0 < c) (hx : c ≤ x) (hB : Finite binary64 B) (hcB : 1 / c ≤ B) :
    ∃ y, (1 / IE.num x : IE binary64 fl) = IE.num y ∧ 0 ≤ y ∧ y ≤ B ∧ Finite binary64 y := by
  have hxp : 0 < x := hc.trans_le hx
  have h0 : 0 ≤ fl (1 / x) := by rw [← h.zero]; exact h.mono (by positivity)
  have h1 : fl (1 / x) ≤ B := by
    rw [← h.fix hB.1]
    exact h.mono ((one_div_le_one_div_of_le hc hx).trans hcB)
  have hb : |fl (1 / x)| < 2 ^ binary64.emax := by
    rw [abs_of_nonneg h0]
    exact h1.trans_lt ((le_abs_self B).trans_lt hB.2)
  refine ⟨fl (1 / x), ?_, h0, h1, (h _).1, hb⟩
  rw [← ofReal_num hb]
  exact div_num 1 hxp.ne'

theorem fromSecs_num {x : ℝ} (h0 : 0 ≤ x) (h1 : x < 2 ^ 64) : fromSecs (IE.num x : IE binary64 fl) = some x :=
  if_pos ⟨h0, h1⟩

theorem ten_finite : Finite binary64 10 := by
  refine ⟨⟨10, 0, by decide, by decide, by norm_num⟩, ?_⟩
  rw [abs_of_pos (by norm_num)]
  calc (10 : ℝ) < 2 ^ (4 : ℤ) := by norm_num
    _ ≤ 2 ^ binary64.emax := zpow_le_zpow_right₀ (by norm_num) (by decide)

theorem small_finite {x : ℝ} (hx : OnGrid binary64 x) (h : |x| ≤ 2 ^ (4 : ℤ)) : Finite binary64 x :=
  ⟨hx, h.trans_lt (zpow_lt_zpow_right₀ (by norm_num) (by decide))⟩

/-- The rate of the viewer is positive infinity or a number of at least 1/10. -/
theorem viewHz_cases (h : Rounds binary64 fl) (hz : IE binary64 fl) : viewHz hz = IE.inf false ∨ ∃ x, viewHz hz = IE.num x ∧ 1 / 10 ≤ x := by
  obtain ⟨t1, t2⟩ := tenth h
  have hf : (IE.ofReal (1 / 10) : IE binary64 fl) = IE.num (fl (1 / 10)) :=
    ofReal_num (small_finite (h _).1 (by rw [abs_of_nonneg (by linarith)]; norm_num; linarith)).2
  unfold viewHz IE.fmax
  rw [hf]
  rcases hz with ⟨_ | s | x⟩
  · exact Or.inr ⟨_, if_pos rfl, t1⟩
  · rw [if_neg (by simp), if_neg (by simp [IE.num])]
    by_cases hl : (⟨.inf s⟩ : IE binary64 fl) < IE.num (fl (1 / 10))
    · exact Or.inr ⟨_, if_pos hl, t1⟩
    · rw [if_neg hl]
      cases s
      · exact Or.inl rfl
      · exact absurd (show true = true from rfl) hl
  · rw [if_neg (by simp), if_neg (by simp [IE.num])]
    by_cases hl : (⟨.num x⟩ : IE binary64 fl) < IE.num (fl (1 / 10))
    · exact Or.inr ⟨_, if_pos hl, t1⟩
    · refine Or.inr ⟨x, if_neg hl, ?_⟩
      have : ¬ x < fl (1 / 10) := hl
      linarith

/-- **C164**: whatever rate is given to the viewer — zero, negative, infinite, NaN — the interval between two polls is at most ten seconds and the
interval between two searches for files is from one second to ten. -/
theorem C164_viewer (h : Rounds binary64 fl) (hz : IE binary64 fl) :
    (∃ t, viewInterval hz = some t ∧ 0 ≤ t ∧ t ≤ 10) ∧ ∃ t, viewRefresh hz = some t ∧ 1 ≤ t ∧ t ≤ 10 := by
  have hone : (1 : IE binary64 fl) = IE.num 1 := rfl
  have key : ∃ t, (1 / viewHz hz : IE binary64 fl) = IE.num t ∧ 0 ≤ t ∧ t ≤ 10 := by
    rcases viewHz_cases h hz with e | ⟨x, e, hx⟩
    · exact ⟨0, by rw [e]; rfl, le_rfl, by norm_num⟩
    · obtain ⟨y, h1, h2, h3, -⟩ := recip h (by norm_num) hx ten_finite (by norm_num)
      exact ⟨y, by rw [e, h1], h2, h3⟩
  obtain ⟨t, e, h0, h1⟩ := key
  refine ⟨⟨t, by unfold viewInterval; rw [e]; exact fromSecs_num h0 (by linarith), h0, h1⟩, ?_⟩
  unfold viewRefresh
  rw [e]
  by_cases hl : t < 1
  · refine ⟨1, ?_, le_rfl, by norm_num⟩
    have : IE.fmax (IE.num t : IE binary64 fl) 1 = IE.num 1 := by
      unfold IE.fmax
      rw [if_neg (by simp [IE.num]), if_neg (by rw [hone]; simp [IE.num])]
      exact if_pos hl
    rw [this]
    exact fromSecs_num (by norm_num) (by norm_num)
  · refine ⟨t, ?_, not_lt.1 hl, h1⟩
    have : IE.fmax (IE.num t : IE binary64 fl) 1 = IE.num t := by
      unfold IE.fmax
      rw [if_neg (by simp [IE.num]), if_neg (by rw [hone]; simp [IE.num])]
      exact if_neg hl
    rw [this]
    exact fromSecs_num h0 (by linarith)

/-- **C164**, rates of at least `2 ^ (-63)`: an interval exists, and if the rate is zero, negative or NaN it is that of five polls a second.
Missing: smaller positive rates, for which the program panics (`C164_fails`). -/
theorem C164_partial (h : Rounds binary64 fl) (hz : IE binary64 fl) :
    (¬ 0 < hz → runInterval hz = some (fl (1 / 5))) ∧
      (∀ x, hz = IE.num x → 2 ^ (-63 : ℤ) ≤ x → ∃ t, runInterval hz = some t ∧ 0 ≤ t ∧ t ≤ 2 ^ (63 : ℤ) ∧ t = fl (1 / x)) ∧
      (hz = IE.inf false → runInterval hz = some 0) := by
  refine ⟨fun hn => ?_, fun x e hx => ?_, fun e => ?_⟩
  · have h5 : OnGrid binary64 5 := ⟨5, 0, by decide, by decide, by norm_num⟩
    have e5 : (IE.ofReal 5 : IE binary64 fl) = IE.num 5 :=
      finite_ofReal h (small_finite h5 (by rw [abs_of_pos (by norm_num)]; norm_num))
    obtain ⟨y, h1, h2, h3, -⟩ := recip h (x := 5) (c := 5) (by norm_num) le_rfl ten_finite (by norm_num)
    unfold runInterval runHz
    rw [if_neg hn, e5, h1, fromSecs_num h2 (by linarith)]
    have : (IE.ofReal (1 / 5) : IE binary64 fl) = IE.num y := by rw [← h1]; exact (div_num 1 (by norm_num)).symm
    have hb : |fl (1 / 5)| < 2 ^ binary64.emax := by
      by_contra hb
      obtain ⟨s, e⟩ := ofReal_inf (F := binary64) hb
      rw [e] at this
      exact absurd (congrArg IE.val this) (by simp [IE.inf, IE.num])
    rw [ofReal_num hb] at this
    rw [num_inj.1 this]
  · subst e
    have hxp : 0 < x := lt_of_lt_of_le (by positivity) hx
    obtain ⟨y, h1, h2, h3, -⟩ := recip h (c := 2 ^ (-63 : ℤ)) (B := 2 ^ (63 : ℤ)) (by positivity) hx (fin_pow (by norm_num) (by norm_num))
      (by rw [zpow_neg, one_div, inv_inv])
    refine ⟨y, ?_, h2, h3, ?_⟩
    · unfold runInterval runHz
      rw [if_pos (show (0 : IE binary64 fl) < IE.num x from hxp), h1]
      refine fromSecs_num h2 (h3.trans_lt ?_)
      rw [← zpow_natCast]
      exact zpow_lt_zpow_right₀ (by norm_num) (by norm_num)
    · have : (IE.ofReal (1 / x) : IE binary64 fl) = IE.num y := by rw [← h1]; exact (div_num 1 hxp.ne').symm
      have hb : |fl (1 / x)| < 2 ^ binary64.emax := by
        by_contra hb
        obtain ⟨s, e⟩ := ofReal_inf (F := binary64) hb
        rw [e] at this
        exact absurd (congrArg IE.val this) (by simp [IE.inf, IE.num])
      rw [ofReal_num hb] at this
      exact (num_inj.1 this).symm
  · subst e
    unfold runInterval runHz
    rw [if_pos (show (0 : IE binary64 fl) < IE.inf false from rfl)]
    change fromSecs (IE.num 0 : IE binary64 fl) = _
    exact fromSecs_num le_rfl (by norm_num)

/-- A rate of 30 is large enough; zero is not above zero. -/
example : (2 : ℝ) ^ (-63 : ℤ) ≤ 30 ∧ ¬ (0 : IE binary64 fl) < 0 := by
  refine ⟨by norm_num [zpow_neg], fun h => ?_⟩
  have : (0 : ℝ) < 0 := h
  exact lt_irrefl _ this

/-- **C164 fails** for a rate of `2 ^ (-64)` polls a second: the loop panics, after the first picture. -/
theorem C164_fails (h : Rounds binary64 fl) :
    Finite binary64 (2 ^ (-64 : ℤ)) ∧ (0 : IE binary64 fl) < IE.num (2 ^ (-64 : ℤ)) ∧ runInterval (IE.num (2 ^ (-64 : ℤ)) : IE binary64 fl) = none := by
  have hpos : (0 : ℝ) < 2 ^ (-64 : ℤ) := by positivity
  refine ⟨fin_pow (by norm_num) (by norm_num), hpos, ?_⟩
  have e : (1 / IE.num (2 ^ (-64 : ℤ)) : IE binary64 fl) = IE.num (2 ^ (64 : ℤ)) := by
    rw [← finite_ofReal h (fin_pow (e := 64) (by norm_num) (by norm_num))]
    refine (div_num 1 hpos.ne').trans ?_
    rw [zpow_neg, one_div, inv_inv]
  unfold runInterval runHz
  rw [if_pos (show (0 : IE binary64 fl) < IE.num (2 ^ (-64 : ℤ)) from hpos), e]
  refine if_neg fun hc => ?_
  have := hc.2
  norm_num at this

end Verif.Viz.Poll
