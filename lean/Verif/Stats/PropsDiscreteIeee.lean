import Verif.Stats.DiscreteIeee
import Verif.Stats.PropsDist
import Verif.Ieee.PropsCast
import Verif.Ieee.PropsDot

/-!
# Fitted discrete distributions in machine arithmetic (C235)
-/

namespace Verif.Stats.Ie

open Verif.Ieee

variable {F : Format} {fl : ℝ → ℝ}

/-- Formats that hold every count and the quotients of counts without underflow. -/
structure Holds (F : Format) : Prop where
  bits : 24 ≤ F.p
  low : F.emin + F.p ≤ -66
  high : 64 < F.emax

/-- Both formats of the crate. -/
example : Holds binary32 ∧ Holds binary64 := ⟨⟨by decide, by decide, by decide⟩, ⟨by decide, by decide, by decide⟩⟩

theorem count_fl (hF : Holds F) (h : Rounds F fl) {n : ℕ} (hn : n < 2 ^ 64) :
    (IE.ofCount n : IE F fl) = IE.num (fl n) ∧ |fl n - n| ≤ unit F * n := by
  have := hF.bits
  have := hF.low
  obtain ⟨y, e, hf, he, -⟩ := C163_count (F := F) (by omega) (by omega) hF.high h hn
  by_cases hlt : |fl (n : ℝ)| < 2 ^ F.emax
  · have e' : (IE.ofCount n : IE F fl) = IE.num (fl n) := ofReal_num hlt
    rw [e] at e'
    have : y = fl n := by simpa [IE.num] using e'
    rw [e, this]
    exact ⟨rfl, by rw [← this]; exact he⟩
  · obtain ⟨s, es⟩ := ofReal_inf (F := F) hlt
    have e' : (IE.ofCount n : IE F fl) = IE.inf s := es
    rw [e] at e'
    cases e'

/-- The error of a quotient of two rounded numbers. -/
theorem quotient_error {u c t y z p : ℝ} (hu0 : 0 ≤ u) (hu : u ≤ 1 / 100) (hc : 0 ≤ c) (ht : 0 < t) (hy : |y - c| ≤ u * c) (hz : |z - t| ≤ u * t)
    (hp : |p - y / z| ≤ u * (y / z)) : |p - c / t| ≤ 4 * u * (c / t) := by
  obtain ⟨y1, y2⟩ := abs_le.1 hy
  obtain ⟨z1, z2⟩ := abs_le.1 hz
  obtain ⟨p1, p2⟩ := abs_le.1 hp
  have hz0 : 0 < z := by nlinarith
  have hq : 0 ≤ c / t := by positivity
  have hy0 : 0 ≤ y := by nlinarith
  have eq : c = c / t * t := by field_simp
  have hup : y / z * (1 - u) ≤ (1 + u) * (c / t) := by
    have : y / z * ((1 - u) * t) ≤ (1 + u) * (c / t) * t := by
      calc y / z * ((1 - u) * t) ≤ y / z * z := mul_le_mul_of_nonneg_left (by linarith) (by positivity)
        _ = y := by field_simp
        _ ≤ (1 + u) * c := by linarith
        _ = (1 + u) * (c / t) * t := by rw [mul_assoc, ← eq]
    nlinarith
  have hlo : (1 - u) * (c / t) ≤ y / z * (1 + u) := by
    have : (1 - u) * (c / t) * t ≤ y / z * ((1 + u) * t) := by
      calc (1 - u) * (c / t) * t = (1 - u) * c := by rw [mul_assoc, ← eq]
        _ ≤ y := by linarith
        _ = y / z * z := by field_simp
        _ ≤ y / z * ((1 + u) * t) := mul_le_mul_of_nonneg_left (by linarith) (by positivity)
    nlinarith
  rw [abs_le]
  constructor
  · have h1 : (1 - u) * (y / z) ≤ p := by linarith
    have h2 : (1 - u) * ((1 - u) * (c / t)) ≤ (1 - u) * (y / z * (1 + u)) := mul_le_mul_of_nonneg_left hlo (by linarith)
    have h3 : (1 - u) * (y / z * (1 + u)) ≤ p * (1 + u) := by nlinarith
    have h4 : (1 - 4 * u) * (1 + u) * (c / t) ≤ (1 - u) * (1 - u) * (c / t) := mul_le_mul_of_nonneg_right (by nlinarith) hq
    nlinarith
  · have h1 : p ≤ (1 + u) * (y / z) := by linarith
    have h2 : (1 + u) * (y / z * (1 - u)) ≤ (1 + u) * ((1 + u) * (c / t)) := mul_le_mul_of_nonneg_left hup (by linarith)
    have h3 : p * (1 - u) ≤ (1 + u) * (y / z * (1 - u)) := by nlinarith
    have h4 : (1 + u) * (1 + u) * (c / t) ≤ (1 + 4 * u) * (1 - u) * (c / t) := mul_le_mul_of_nonneg_right (by nlinarith) hq
    nlinarith

theorem unit_small (hF : Holds F) : unit F ≤ 1 / 100 := by
  unfold unit
  calc (2 : ℝ) ^ (-(F.p : ℤ)) ≤ 2 ^ (-7 : ℤ) := zpow_le_zpow_right₀ (by norm_num) (by have := hF.bits; omega)
    _ ≤ 1 / 100 := by norm_num [zpow_neg]

theorem grid_one (hF : Holds F) : OnGrid F 1 := by
  have := onGrid_pow (F := F) (by have := hF.bits; omega) (e := 0) (by have := hF.low; omega)
  simpa using this

/-- The computed frequency of `c` in `t`. -/
theorem frequency (hF : Holds F) (h : Rounds F fl) {c t : ℕ} (hc : c ≤ t) (ht : 0 < t) (ht2 : t < 2 ^ 64) :
    (IE.ofCount c / IE.ofCount t : IE F fl) = IE.num (fl (fl c / fl t)) ∧ Finite F (fl (fl c / fl t)) ∧ 0 ≤ fl (fl c / fl t) ∧ fl (fl c / fl t) ≤ 1 ∧
      |fl (fl (c : ℝ) / fl t) - c / t| ≤ 4 * unit F * (c / t) := by
  obtain ⟨ec, hec⟩ := count_fl hF h (show c < 2 ^ 64 by omega)
  obtain ⟨et, het⟩ := count_fl hF h ht2
  have hp1 : 1 ≤ F.p := by have := hF.bits; omega
  have f1 : fl 1 = 1 := h.fix (grid_one hF)
  have hc0 : 0 ≤ fl (c : ℝ) := by rw [← h.zero]; exact h.mono (Nat.cast_nonneg c)
  have ht1 : 1 ≤ fl (t : ℝ) := by rw [← f1]; exact h.mono (by exact_mod_cast ht)
  have hct : fl (c : ℝ) ≤ fl t := h.mono (by exact_mod_cast hc)
  have hq0 : 0 ≤ fl (c : ℝ) / fl t := by positivity
  have hq1 : fl (c : ℝ) / fl t ≤ 1 := div_le_one_of_le₀ hct (by linarith)
  have hp0 : 0 ≤ fl (fl (c : ℝ) / fl t) := by rw [← h.zero]; exact h.mono hq0
  have hpu : fl (fl (c : ℝ) / fl t) ≤ 1 := by
    have := h.mono hq1
    rwa [f1] at this
  have hlt : |fl (fl (c : ℝ) / fl t)| < 2 ^ F.emax := by
    rw [abs_of_nonneg hp0]
    refine lt_of_le_of_lt hpu (one_lt_zpow₀ (by norm_num) ?_)
    have := hF.high
    omega
  refine ⟨?_, ⟨(h _).1, hlt⟩, hp0, hpu, ?_⟩
  · rw [ec, et, div_num _ (by linarith : fl (t : ℝ) ≠ 0), ofReal_num hlt]
  · refine quotient_error unit_pos.le (unit_small hF) (Nat.cast_nonneg c) (by exact_mod_cast ht) hec het ?_
    rcases Nat.eq_zero_or_pos c with rfl | hcp
    · simp [h.zero]
    · have hc1 : 1 ≤ fl (c : ℝ) := by rw [← f1]; exact h.mono (by exact_mod_cast hcp)
      have h64 : fl (t : ℝ) ≤ 2 ^ (64 : ℤ) := by
        rw [← h.fix (onGrid_pow hp1 (e := 64) (by have := hF.low; omega))]
        exact h.mono (by exact_mod_cast ht2.le)
      have hbig : (2 : ℝ) ^ (F.emin + F.p - 1) ≤ |fl (c : ℝ) / fl t| := by
        rw [abs_of_nonneg hq0, le_div_iff₀ (by linarith)]
        calc (2 : ℝ) ^ (F.emin + F.p - 1) * fl t ≤ 2 ^ (-64 : ℤ) * 2 ^ (64 : ℤ) :=
              mul_le_mul (zpow_le_zpow_right₀ (by norm_num) (by have := hF.low; omega)) h64 (by linarith) (by positivity)
          _ = 1 := by norm_num [zpow_neg]
          _ ≤ fl c := hc1
      have := h.normal hp1 hbig
      rwa [abs_of_nonneg hq0] at this

theorem list_sum_error {α : Type*} (f g : α → ℝ) (e : ℝ) : ∀ l : List α, (∀ a ∈ l, |f a - g a| ≤ e * g a) → |(l.map f).sum - (l.map g).sum| ≤ e * (l.map g).sum := by
  intro l
  induction l with
  | nil => intro _; simp
  | cons a l ih =>
    intro hl
    simp only [List.map_cons, List.sum_cons]
    have h1 := hl a (by simp)
    have h2 := ih fun b hb => hl b (by simp [hb])
    calc |f a + (l.map f).sum - (g a + (l.map g).sum)| = |(f a - g a) + ((l.map f).sum - (l.map g).sum)| := by ring_nf
      _ ≤ _ := abs_add_le _ _
      _ ≤ e * (g a + (l.map g).sum) := by linarith

/-! ## Properties -/

/-- **C235, categorical**, any counts whose sum fits `usize`, at least one observation: the computed probabilities are finite numbers of `[0, 1]`, one for each category,
each within a relative error of four roundings of the frequency, zero exactly for a category that was not observed, and not smaller for a larger count;
their exact sum is 1 up to four roundings. The probability of anything else is zero. -/
theorem C235_categorical (hF : Holds F) (h : Rounds F fl) (counts : List ℕ) (hov : counts.sum < 2 ^ 64) (hne : 0 < counts.sum) :
    ∃ (probs : List (IE F fl)) (q : ℕ → ℝ), catFit counts = some probs ∧ probs.length = counts.length ∧
      (∀ (k : ℕ) (hk : k < counts.length), catPmf probs k = IE.num (q k) ∧ Finite F (q k) ∧ 0 ≤ q k ∧ q k ≤ 1 ∧
        |q k - (counts[k] : ℝ) / counts.sum| ≤ 4 * unit F * ((counts[k] : ℝ) / counts.sum) ∧ (q k = 0 ↔ counts[k] = 0) ∧
        ∀ (j : ℕ) (hj : j < counts.length), counts[j] ≤ counts[k] → q j ≤ q k) ∧
      |((List.range counts.length).map q).sum - 1| ≤ 4 * unit F ∧ ∀ k, counts.length ≤ k → catPmf probs k = 0 := by
  have hS : (0 : ℝ) < counts.sum := by exact_mod_cast hne
  have hle : ∀ (k : ℕ) (hk : k < counts.length), counts[k] ≤ counts.sum := fun k hk => List.le_sum_of_mem (List.getElem_mem hk)
  set q : ℕ → ℝ := fun k => if hk : k < counts.length then fl (fl (counts[k] : ℝ) / fl counts.sum) else 0 with hq
  have eq : ∀ (k : ℕ) (hk : k < counts.length), q k = fl (fl (counts[k] : ℝ) / fl counts.sum) := fun k hk => by rw [hq]; exact dif_pos hk
  have hu := unit_small hF
  have hup := unit_pos (F := F)
  have herr : ∀ (k : ℕ) (hk : k < counts.length), |q k - (counts[k] : ℝ) / counts.sum| ≤ 4 * unit F * ((counts[k] : ℝ) / counts.sum) := by
    intro k hk
    rw [eq k hk]
    exact (frequency hF h (hle k hk) hne hov).2.2.2.2
  refine ⟨counts.map fun c => IE.ofCount c / IE.ofCount (max counts.sum 1), q, ?_, by simp, fun k hk => ?_, ?_, fun k hk => ?_⟩
  · unfold catFit
    rw [checkedSum counts 0 (by omega), zero_add]
    rfl
  · obtain ⟨h1, h2, h3, h4, h5⟩ := frequency hF h (hle k hk) hne hov
    refine ⟨?_, ?_, ?_, ?_, herr k hk, ?_, fun j hj hjk => ?_⟩
    · unfold catPmf
      rw [dif_pos (by simpa using hk), List.getElem_map, show max counts.sum 1 = counts.sum by omega, h1, eq k hk]
    · rw [eq k hk]; exact h2
    · rw [eq k hk]; exact h3
    · rw [eq k hk]; exact h4
    · constructor
      · intro e
        have := herr k hk
        rw [e, zero_sub, abs_neg] at this
        by_contra hc
        have hpos : (0 : ℝ) < (counts[k] : ℝ) / counts.sum := by
          have : (0 : ℝ) < counts[k] := by exact_mod_cast Nat.pos_of_ne_zero hc
          positivity
        rw [abs_of_pos hpos] at this
        nlinarith
      · intro e
        rw [eq k hk, e, Nat.cast_zero, h.zero, zero_div, h.zero]
    · rw [eq k hk, eq j hj]
      refine h.mono (div_le_div_of_nonneg_right (h.mono (by exact_mod_cast hjk)) ?_)
      rw [← h.zero]
      exact h.mono hS.le
  · have hsum := list_sum_error q (fun k => if hk : k < counts.length then (counts[k] : ℝ) / counts.sum else 0) (4 * unit F) (List.range counts.length) (by
      intro k hk
      have hk' := List.mem_range.1 hk
      rw [dif_pos hk']
      exact herr k hk')
    have e1 : ((List.range counts.length).map fun k => if hk : k < counts.length then (counts[k] : ℝ) / counts.sum else 0).sum = 1 := by
      have e2 : ((List.range counts.length).map fun k => if hk : k < counts.length then (counts[k] : ℝ) / counts.sum else 0) =
          counts.map fun c : ℕ => (c : ℝ) / counts.sum := by
        apply List.ext_getElem
        · simp
        · intro i h1 h2
          have hi : i < counts.length := by simpa using h2
          simp [hi]
      rw [e2]
      have e3 : ∀ (l : List ℕ) (s : ℝ), (l.map fun c : ℕ => (c : ℝ) / s).sum = (l.sum : ℝ) / s := by
        intro l s
        induction l with
        | nil => simp
        | cons a l ih => rw [List.map_cons, List.sum_cons, ih, List.sum_cons, Nat.cast_add, add_div]
      rw [e3, div_self hS.ne']
    rw [e1, mul_one] at hsum
    exact hsum
  · unfold catPmf
    rw [dif_neg (by simpa using hk)]

/-- The data of the unit test. -/
example : ([2, 3, 5] : List ℕ).sum < 2 ^ 64 ∧ 0 < ([2, 3, 5] : List ℕ).sum := by decide

/-- **C235, Bernoulli**, samples of zeros and ones: the probabilities of 1 and 0 are finite numbers of `[0, 1]`, that of 1 is within a relative error of four roundings of
the frequency, the two sum to 1 up to two roundings, and anything else has probability zero. -/
theorem C235_bernoulli (hF : Holds F) (h : Rounds F fl) (xs : List UInt8) (hx : ∀ x ∈ xs, x = 0 ∨ x = 1) (hne : xs ≠ []) (hlen : xs.length < 2 ^ 64) :
    ∃ p0 p1, (Bernoulli.fit xs : Bernoulli F fl).pmf 0 = IE.num p0 ∧ (Bernoulli.fit xs : Bernoulli F fl).pmf 1 = IE.num p1 ∧ Finite F p0 ∧ Finite F p1 ∧
      0 ≤ p0 ∧ p0 ≤ 1 ∧ 0 ≤ p1 ∧ p1 ≤ 1 ∧ |p1 - (xs.count 1 : ℝ) / xs.length| ≤ 4 * unit F * ((xs.count 1 : ℝ) / xs.length) ∧
      |p0 + p1 - 1| ≤ 2 * unit F ∧ ∀ x, x ≠ 0 → x ≠ 1 → (Bernoulli.fit xs : Bernoulli F fl).pmf x = 0 := by
  have hpos : 0 < xs.length := List.length_pos_iff.2 hne
  have hcl : xs.count 1 ≤ xs.length := List.count_le_length
  obtain ⟨h1, h2, h3, h4, h5⟩ := frequency hF h hcl hpos hlen
  set p := fl (fl (xs.count 1 : ℝ) / fl xs.length) with hp
  have ep : (Bernoulli.fit xs : Bernoulli F fl).p = IE.num p := by
    unfold Bernoulli.fit
    dsimp only
    rw [byteSum xs hx, zero_add, show max xs.length 1 = xs.length by omega, h1]
  have f1 : fl 1 = 1 := h.fix (grid_one hF)
  have hr0 : 0 ≤ fl (1 + -p) := by rw [← h.zero]; exact h.mono (by linarith)
  have hr1 : fl (1 + -p) ≤ 1 := by
    have := h.mono (show 1 + -p ≤ 1 by linarith)
    rwa [f1] at this
  have hlt : |fl (1 + -p)| < 2 ^ F.emax := by
    rw [abs_of_nonneg hr0]
    refine lt_of_le_of_lt hr1 (one_lt_zpow₀ (by norm_num) ?_)
    have := hF.high
    omega
  refine ⟨fl (1 + -p), p, ?_, ?_, ⟨(h _).1, hlt⟩, h2, hr0, hr1, h3, h4, h5, ?_, fun x hx0 hx1 => ?_⟩
  · unfold Bernoulli.pmf
    rw [if_pos rfl, ep]
    change IE.num 1 - IE.num p = _
    rw [sub_num, ofReal_num hlt]
  · unfold Bernoulli.pmf
    rw [if_neg (by decide), if_pos rfl, ep]
  · have he := h.err (by have := hF.bits; omega) (1 + -p)
    have ht : tiny F ≤ unit F := zpow_le_zpow_right₀ (by norm_num) (by have := hF.low; omega)
    rw [abs_of_nonneg (show 0 ≤ 1 + -p by linarith)] at he
    have hu := unit_pos (F := F)
    have : unit F * (1 + -p) ≤ unit F := mul_le_of_le_one_right hu.le (by linarith)
    calc |fl (1 + -p) + p - 1| = |fl (1 + -p) - (1 + -p)| := by ring_nf
      _ ≤ _ := he
      _ ≤ _ := by linarith
  · unfold Bernoulli.pmf
    rw [if_neg hx0, if_neg hx1]

example : (∀ x ∈ ([1, 0, 1, 1, 0] : List UInt8), x = 0 ∨ x = 1) ∧ ([1, 0, 1, 1, 0] : List UInt8) ≠ [] := by decide

end Verif.Stats.Ie
