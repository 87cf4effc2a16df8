import Verif.Tools.GridIeee
import Verif.ML.PropsPercIeee
import Verif.Stats.PropsMeanIeee

/-!
# The grid of the magnetic field table in machine arithmetic (C179)
-/

namespace Verif.Tools.Ie

open Verif.Ieee Verif.ML.Ie

variable {fl : ℝ → ℝ}

theorem pow_add' (a b : ℤ) : (2 : ℝ) ^ a * 2 ^ b = 2 ^ (a + b) := (zpow_add₀ (by norm_num) a b).symm

/-- The bound of the loop. -/
theorem bound_num (h : Rounds binary64 fl) {M : ℝ} (h0 : 0 ≤ M) (hM : M ≤ 180) (hf : Finite binary64 M) :
    ∃ B, (IE.num M + IE.ofReal (1 / 10 ^ 9) : IE binary64 fl) = IE.num B ∧ M ≤ B ∧ B ≤ 2 ^ (8 : ℤ) - 60 := by
  obtain ⟨d, ed, -, hd0, hd1⟩ := ofReal_between (fl := fl) h (lo := 0) (hi := 2 ^ (0 : ℤ)) (x := 1 / 10 ^ 9) onGrid_zero
    (pow_finite (by norm_num) (by norm_num)) (le_refl _) (by norm_num) (by norm_num)
  have g : Finite binary64 (196 : ℝ) := by simpa using int_finite (F := binary64) ⟨by decide, by decide, by decide⟩ (z := 196) (by decide)
  rw [ed, add_num]
  rw [zpow_zero] at hd1
  obtain ⟨B, eB, -, hB0, hB1⟩ := ofReal_between (fl := fl) h (lo := M) (hi := 196) (x := M + d) hf.1 g h0 (by linarith) (by linarith)
  exact ⟨B, eB, hB0, hB1.trans (by norm_num)⟩

/-- A turn moves the value up. -/
theorem turn (h : Rounds binary64 fl) {v s : ℝ} (hv : Finite binary64 v) (hs : Finite binary64 s) (h1 : 2 ^ (-44 : ℤ) ≤ s) (hv1 : -2 ^ (8 : ℤ) ≤ v) (hv2 : v ≤ 2 ^ (8 : ℤ) - 60) :
    (IE.num v + IE.num s : IE binary64 fl) = IE.inf false ∨
      ∃ w, (IE.num v + IE.num s : IE binary64 fl) = IE.num w ∧ Finite binary64 w ∧ v + 2 ^ (-45 : ℤ) ≤ w := by
  have hp : (0 : ℝ) < 2 ^ (-44 : ℤ) := by positivity
  have e44 : (2 : ℝ) ^ (-44 : ℤ) = 2 * 2 ^ (-45 : ℤ) := by rw [show (-44 : ℤ) = 1 + -45 by norm_num, ← pow_add', zpow_one]
  have g60 : Finite binary64 (60 : ℝ) := by simpa using int_finite (F := binary64) ⟨by decide, by decide, by decide⟩ (z := 60) (by decide)
  -- the sum with the step, cut to 60
  have hlow : v + 2 ^ (-45 : ℤ) ≤ fl (v + s) := by
    have hm : ∀ r, Finite binary64 r → 2 ^ (-44 : ℤ) ≤ r → r ≤ 60 → v + 2 ^ (-45 : ℤ) ≤ fl (v + r) := by
      intro r hr r1 r2
      have e := h.add (by decide) hv.1 hr.1
      have hb : |v + r| ≤ 2 ^ (8 : ℤ) := abs_le.2 ⟨by linarith, by linarith⟩
      have hu : unit binary64 * |v + r| ≤ 2 ^ (-45 : ℤ) := by
        have : unit binary64 * |v + r| ≤ 2 ^ (-53 : ℤ) * 2 ^ (8 : ℤ) := mul_le_mul_of_nonneg_left hb (by unfold unit; positivity)
        rwa [pow_add'] at this
      have := (abs_le.1 (e.trans hu)).1
      rw [e44] at r1
      generalize (2 : ℝ) ^ (-45 : ℤ) = u at *
      linarith
    rcases le_total s 60 with hc | hc
    · exact hm s hs h1 hc
    · refine (hm 60 g60 ?_ (le_refl _)).trans (h.mono (by linarith))
      exact (zpow_le_zpow_right₀ (by norm_num) (by norm_num) : (2 : ℝ) ^ (-44 : ℤ) ≤ 2 ^ (0 : ℤ)).trans (by norm_num)
  rw [add_num]
  by_cases hf : |fl (v + s)| < 2 ^ binary64.emax
  · exact Or.inr ⟨_, ofReal_num hf, ⟨(h _).1, hf⟩, hlow⟩
  · left
    have hn : ¬ v + s < 0 := by
      intro hc
      apply hf
      have h2 : fl (v + s) ≤ 0 := by rw [← h.zero]; exact h.mono hc.le
      rw [abs_of_nonpos h2]
      have h3 : (2 : ℝ) ^ (8 : ℤ) < 2 ^ binary64.emax := zpow_lt_zpow_right₀ (by norm_num) (by decide)
      have h4 : (0 : ℝ) < 2 ^ (-45 : ℤ) := by positivity
      linarith
    unfold IE.ofReal
    rw [if_neg hf, decide_eq_false hn]

/-- The loop ends. -/
theorem loop_ends (h : Rounds binary64 fl) {M s : ℝ} (hs : Finite binary64 s) (h1 : 2 ^ (-44 : ℤ) ≤ s)
    {B : ℝ} (eB : (IE.num M + IE.ofReal (1 / 10 ^ 9) : IE binary64 fl) = IE.num B) (hB : B ≤ 2 ^ (8 : ℤ) - 60) :
    ∀ (k : ℕ) (v : ℝ), Finite binary64 v → -2 ^ (8 : ℤ) ≤ v → B - v < k * 2 ^ (-45 : ℤ) → ∀ fuel, k + 1 ≤ fuel →
      ∃ l, gridLoop (IE.num M) (IE.num s) fuel (IE.num v : IE binary64 fl) = some l ∧ (v ≤ B → l ≠ []) := by
  intro k
  induction k with
  | zero =>
    intro v _ _ hlt fuel hfuel
    obtain ⟨f, rfl⟩ : ∃ f, fuel = f + 1 := ⟨fuel - 1, by omega⟩
    have hc : ¬ v ≤ B := by push_cast at hlt; linarith
    refine ⟨[], ?_, fun hc' => absurd hc' hc⟩
    rw [gridLoop, eB, if_neg (fun e => hc ((le_num _ _).1 e))]
  | succ k ih =>
    intro v hv hv1 hlt fuel hfuel
    obtain ⟨f, rfl⟩ : ∃ f, fuel = f + 1 := ⟨fuel - 1, by omega⟩
    by_cases hc : v ≤ B
    · rw [gridLoop, eB, if_pos ((le_num _ _).2 hc)]
      rcases turn h hv hs h1 hv1 (hc.trans hB) with e | ⟨w, e, hw, hvw⟩
      · rw [e]
        obtain ⟨f', rfl⟩ : ∃ f', f = f' + 1 := ⟨f - 1, by omega⟩
        rw [gridLoop, eB, if_neg (inf_le_num _)]
        exact ⟨_, rfl, fun _ => by simp⟩
      · have hp : (0 : ℝ) < 2 ^ (-45 : ℤ) := by positivity
        obtain ⟨l, el, -⟩ := ih w hw (by linarith) (by push_cast at hlt; linarith) f (by omega)
        rw [e, el]
        exact ⟨_, rfl, fun _ => by simp⟩
    · refine ⟨[], ?_, fun hc' => absurd hc' hc⟩
      rw [gridLoop, eB, if_neg (fun e => hc ((le_num _ _).1 e))]

theorem values_end (h : Rounds binary64 fl) {M s : ℝ} (h0 : 0 ≤ M) (hM : M ≤ 180) (hf : Finite binary64 M) (hs : Finite binary64 s) (h1 : 2 ^ (-44 : ℤ) ≤ s) :
    ∃ n, ∀ fuel, n ≤ fuel → ∃ l, gridValues fuel (-IE.num M) (IE.num M) (IE.num s : IE binary64 fl) = some l ∧ l.getLast? = some (IE.num M) := by
  obtain ⟨B, eB, hMB, hB⟩ := bound_num (fl := fl) h h0 hM hf
  have hp : (0 : ℝ) < 2 ^ (-45 : ℤ) := by positivity
  obtain ⟨k, hk⟩ := exists_nat_gt ((B - -M) / 2 ^ (-45 : ℤ))
  rw [div_lt_iff₀ hp] at hk
  refine ⟨k + 1, fun fuel hfuel => ?_⟩
  obtain ⟨l, el, hne⟩ := loop_ends h hs h1 eB hB k (-M) ⟨hf.1.neg, by rw [abs_neg]; exact hf.2⟩
    (by norm_num; linarith) hk fuel hfuel
  have hl := hne (by linarith)
  unfold gridValues
  change ∃ l', (gridLoop (IE.num M) (IE.num s) fuel (IE.num (-M) : IE binary64 fl)).map _ = some l' ∧ _
  rw [el, Option.map_some]
  refine ⟨_, rfl, ?_⟩
  rw [List.getLast?_eq_some_getLast hl]
  simp only
  split <;> simp

/-- **C179** (partial): for accepted finite arguments with steps of at least `2 ^ -44` degrees, the grid of the table is computed in a finite number of turns, and
both axes end at their upper ends. What is missing: smaller steps, for which the program does not end. -/
theorem C179_partial (h : Rounds binary64 fl) {latStep lonStep maxLat : ℝ} (h1 : Finite binary64 latStep) (h2 : Finite binary64 lonStep)
    (h3 : Finite binary64 maxLat) (hacc : Accepts (IE.num latStep) (IE.num lonStep) (IE.num maxLat : IE binary64 fl))
    (hs1 : 2 ^ (-44 : ℤ) ≤ latStep) (hs2 : 2 ^ (-44 : ℤ) ≤ lonStep) :
    ∃ n, ∀ fuel, n ≤ fuel → ∃ lats lons, axes fuel (IE.num latStep) (IE.num lonStep) (IE.num maxLat : IE binary64 fl) = some (lats, lons) ∧
      lats.getLast? = some (IE.num maxLat) ∧ lons.getLast? = some (IE.num 180) := by
  obtain ⟨-, -, hm⟩ := hacc
  rw [not_not] at hm
  have hm0 : 0 ≤ maxLat := (le_num _ _).1 hm.1
  have hm1 : maxLat < 90 := (lt_num _ _).1 hm.2
  have g180 : Finite binary64 (180 : ℝ) := by simpa using int_finite (F := binary64) ⟨by decide, by decide, by decide⟩ (z := 180) (by decide)
  obtain ⟨n1, k1⟩ := values_end (fl := fl) h hm0 (by linarith) h3 h1 hs1
  obtain ⟨n2, k2⟩ := values_end (fl := fl) h (by norm_num) (le_refl _) g180 h2 hs2
  refine ⟨max n1 n2, fun fuel hf => ?_⟩
  obtain ⟨l1, e1, j1⟩ := k1 fuel ((le_max_left _ _).trans hf)
  obtain ⟨l2, e2, j2⟩ := k2 fuel ((le_max_right _ _).trans hf)
  refine ⟨l1, l2, ?_, j1, j2⟩
  unfold axes
  rw [e1, e2]
  rfl

-- The default arguments.
example (h : Rounds binary64 fl) : ∃ n, ∀ fuel, n ≤ fuel → ∃ lats lons, axes fuel (IE.num 5) (IE.num 5) (IE.num 89 : IE binary64 fl) = some (lats, lons) ∧
    lats.getLast? = some (IE.num 89) ∧ lons.getLast? = some (IE.num 180) := by
  have g : ∀ z : ℤ, |z| ≤ 2 ^ 53 → Finite binary64 (z : ℝ) := fun z hz => int_finite (F := binary64) ⟨by decide, by decide, by decide⟩ hz
  have g5 := g 5 (by decide)
  have g89 := g 89 (by decide)
  have h44 : (2 : ℝ) ^ (-44 : ℤ) ≤ 5 := (zpow_le_zpow_right₀ (by norm_num) (by norm_num) : (2 : ℝ) ^ (-44 : ℤ) ≤ 2 ^ (0 : ℤ)).trans (by norm_num)
  push_cast at g5 g89
  refine C179_partial h g5 g5 g89 ⟨?_, ?_, ?_⟩ h44 h44
  · rw [le_num]; norm_num
  · rw [le_num]; norm_num
  · rw [not_not, le_num, lt_num]; norm_num

/-- A step below half the distance of neighbouring numbers is lost. -/
theorem stuck (h : Rounds binary64 fl) : (IE.num (-180) + IE.num (2 ^ (-47 : ℤ)) : IE binary64 fl) = IE.num (-180) := by
  have hw : (0 : ℝ) < 2 ^ (-47 : ℤ) := by positivity
  have g : Finite binary64 (-180 : ℝ) := by simpa using int_finite (F := binary64) ⟨by decide, by decide, by decide⟩ (z := -180) (by decide)
  have h1 := (h (-180 + 2 ^ (-47 : ℤ))).2 _ g.1
  rw [show (-180 : ℝ) - (-180 + 2 ^ (-47 : ℤ)) = -2 ^ (-47 : ℤ) by ring, abs_neg, abs_of_pos hw] at h1
  have h2 := abs_le.1 h1
  obtain ⟨m, e, hm, he, hv⟩ := (h (-180 + 2 ^ (-47 : ℤ))).1
  have hw1 : (2 : ℝ) ^ (-47 : ℤ) ≤ 2 ^ (0 : ℤ) := zpow_le_zpow_right₀ (by norm_num) (by norm_num)
  rw [zpow_zero] at hw1
  have hee : -45 ≤ e := by
    by_contra hc
    have h5 : (2 : ℝ) ^ e ≤ 2 ^ (-46 : ℤ) := zpow_le_zpow_right₀ (by norm_num) (by omega)
    have h4 : (-m : ℝ) ≤ 2 ^ (53 : ℤ) := by
      have : -m ≤ 2 ^ 53 := (neg_le_abs m).trans (le_of_lt hm)
      exact_mod_cast this
    have h6 : (-m : ℝ) * 2 ^ e ≤ 2 ^ (53 : ℤ) * 2 ^ (-46 : ℤ) := mul_le_mul h4 h5 (by positivity) (by positivity)
    rw [pow_add'] at h6
    norm_num at h6
    rw [hv] at h2
    linarith [h2.2]
  obtain ⟨d, rfl⟩ : ∃ d : ℕ, e = -45 + d := ⟨(e + 45).toNat, by omega⟩
  have h7 : (m : ℝ) * 2 ^ (-45 + d : ℤ) = ((m * 2 ^ d : ℤ) : ℝ) * (4 * 2 ^ (-47 : ℤ)) := by
    rw [show (-45 + d : ℤ) = -47 + 2 + d by ring, ← pow_add', ← pow_add', zpow_natCast]; push_cast; norm_num; ring
  rw [h7] at hv
  have h180 : (180 : ℝ) = 6333186975989760 * (4 * 2 ^ (-47 : ℤ)) := by norm_num [zpow_neg]
  have hk : m * 2 ^ d = -6333186975989760 := by
    generalize m * 2 ^ d = k at *
    rw [hv] at h2
    have k1 : (-6333186975989760 - 1 : ℝ) < k := by
      by_contra hc
      nlinarith [h2.1, mul_nonneg hw.le (sub_nonneg.2 (not_lt.1 hc))]
    have k2 : (k : ℝ) < -6333186975989760 + 1 := by
      by_contra hc
      nlinarith [h2.2, mul_nonneg hw.le (sub_nonneg.2 (not_lt.1 hc))]
    have k3 : (-6333186975989760 - 1 : ℤ) < k := by exact_mod_cast k1
    have k4 : k < (-6333186975989760 + 1 : ℤ) := by exact_mod_cast k2
    omega
  have e1 : fl (-180 + 2 ^ (-47 : ℤ)) = -180 := by
    rw [hv, hk, h180]; push_cast; ring
  rw [add_num, ofReal_num (by rw [e1]; exact g.2), e1]

theorem g180 : Finite binary64 (180 : ℝ) := by simpa using int_finite (F := binary64) ⟨by decide, by decide, by decide⟩ (z := 180) (by decide)

/-- **C179** fails: a step of `2 ^ -47` degrees in longitude is accepted, and the program never ends. -/
theorem C179_fails (h : Rounds binary64 fl) : Accepts (IE.num 5) (IE.num (2 ^ (-47 : ℤ))) (IE.num 89 : IE binary64 fl) ∧
    ∀ fuel, axes fuel (IE.num 5) (IE.num (2 ^ (-47 : ℤ))) (IE.num 89 : IE binary64 fl) = none := by
  constructor
  · refine ⟨?_, ?_, ?_⟩
    · rw [le_num]; norm_num
    · rw [le_num]; exact not_le.2 (by positivity)
    · rw [not_not, le_num, lt_num]; norm_num
  · intro fuel
    have hloop : ∀ f, gridLoop (IE.num 180) (IE.num (2 ^ (-47 : ℤ))) f (IE.num (-180) : IE binary64 fl) = none := by
      obtain ⟨B, eB, hMB, -⟩ := bound_num (fl := fl) h (by norm_num) (le_refl _) g180
      intro f
      induction f with
      | zero => rfl
      | succ f ih => rw [gridLoop, eB, if_pos ((le_num _ _).2 (by linarith)), stuck h, ih]; rfl
    have hv : gridValues fuel (-IE.num 180) (IE.num 180) (IE.num (2 ^ (-47 : ℤ)) : IE binary64 fl) = none := by
      unfold gridValues
      change (gridLoop (IE.num 180) (IE.num (2 ^ (-47 : ℤ))) fuel (IE.num (-180) : IE binary64 fl)).map _ = none
      rw [hloop]; rfl
    unfold axes
    rw [hv]
    cases gridValues fuel (-IE.num 89) (IE.num 89 : IE binary64 fl) (IE.num 5) <;> rfl

/-- **C179** fails: a step that is not a number is accepted as if it were positive; the axis then consists of its two ends. -/
theorem C179_nan_fails (h : Rounds binary64 fl) : Accepts (IE.num 5) IE.nan (IE.num 89 : IE binary64 fl) ∧
    gridValues 2 (-IE.num 180) (IE.num 180) (IE.nan : IE binary64 fl) = some [IE.num (-180), IE.num 180] := by
  constructor
  · refine ⟨?_, nan_le _, ?_⟩
    · rw [le_num]; norm_num
    · rw [not_not, le_num, lt_num]; norm_num
  · obtain ⟨B, eB, hMB, -⟩ := bound_num (fl := fl) h (by norm_num) (le_refl _) g180
    have gi : ∀ z : ℤ, |z| ≤ 2 ^ 53 → Finite binary64 (z : ℝ) := fun z hz => int_finite (F := binary64) ⟨by decide, by decide, by decide⟩ hz
    have g1 := gi (-180000000) (by decide)
    have g2 := gi (-180) (by decide)
    have g3 := gi (-360) (by decide)
    push_cast at g1 g2 g3
    have er : round (IE.num (-180) * IE.num (10 ^ 6) : IE binary64 fl) / IE.num (10 ^ 6) = IE.num (-180) := by
      rw [mul_num, show (-180 : ℝ) * 10 ^ 6 = -180000000 by norm_num, ofReal_finite h g1]
      change IE.num ((roundAway (-180000000 : ℝ) : ℤ) : ℝ) / IE.num (10 ^ 6) = _
      have : roundAway (-180000000 : ℝ) = -180000000 := by
        unfold roundAway
        rw [if_neg (by norm_num)]
        have : ⌊-(-180000000 : ℝ) + 1 / 2⌋ = 180000000 := by rw [Int.floor_eq_iff]; norm_num
        rw [this]
      rw [this, div_num _ (by norm_num)]
      push_cast
      rw [show (-180000000 : ℝ) / 10 ^ 6 = -180 by norm_num, ofReal_finite h g2]
    obtain ⟨d, ed, -, hd0, hd1⟩ := ofReal_between (fl := fl) h (lo := 0) (hi := 2 ^ (0 : ℤ)) (x := 1 / 10 ^ 9) onGrid_zero
      (pow_finite (by norm_num) (by norm_num)) (le_refl _) (by norm_num) (by norm_num)
    rw [zpow_zero] at hd1
    have el : gridLoop (IE.num 180) IE.nan 2 (IE.num (-180) : IE binary64 fl) = some [IE.num (-180)] := by
      rw [gridLoop, eB, if_pos ((le_num _ _).2 (by linarith)), er, add_nan, gridLoop, if_neg (nan_le _)]
      rfl
    unfold gridValues
    change (gridLoop (IE.num 180) IE.nan 2 (IE.num (-180) : IE binary64 fl)).map _ = _
    rw [el, Option.map_some]
    simp only [List.getLast?_singleton]
    rw [sub_num, show (-180 : ℝ) + -180 = -360 by norm_num, ofReal_finite h g3, ed, if_pos]
    · rfl
    · change d < |(-360 : ℝ)|
      norm_num
      linarith

end Verif.Tools.Ie
