import Verif.Stats.PropsGaussIeee

/-!
# The fitted mean against the range of the observations (C178)
-/

namespace Verif.Stats.Ie

open Verif.Ieee Verif.ML.Ie

variable {fl : ℝ → ℝ}

/-- Sums of numbers that do not overflow. -/
theorem sum_error (h : Rounds binary64 fl) (l : List ℝ) (hf : ∀ x ∈ l, Finite binary64 x) (hb : ∀ x ∈ l, |x| ≤ 2 ^ 480) (hlen : l.length ≤ 2 ^ 53) :
    ∃ t, (l.map IE.num).foldl (fun (sum s : IE binary64 fl) => sum + s) 0 = IE.num t ∧ Finite binary64 t ∧
      |t - l.sum| ≤ ((1 + unit binary64) ^ l.length - 1) * (l.map abs).sum := by
  induction l using List.reverseRecOn with
  | nil => exact ⟨0, rfl, fin_zero, by simp⟩
  | append_singleton l x ih =>
    rw [List.length_append, List.length_singleton] at hlen
    obtain ⟨t, et, htf, ht⟩ := ih (fun y hy => hf y (List.mem_append_left _ hy)) (fun y hy => hb y (List.mem_append_left _ hy)) (by omega)
    have hx := hf x (List.mem_append_right _ List.mem_cons_self)
    have hT : Times (l.length + 1) 480 (((l ++ [x]).map IE.num).foldl (fun (sum s : IE binary64 fl) => sum + s) 0) := by
      have := sum_times h (f := id) (c := 480) (by norm_num) ((l ++ [x]).map IE.num) 0 0 (by
        intro a ha
        obtain ⟨y, hy, rfl⟩ := List.mem_map.1 ha
        exact ⟨y, rfl, hf y hy, hb y hy⟩) (Times.zero 480) (by simp; omega)
      simpa using this
    obtain ⟨r, er, hrf, -⟩ := hT
    refine ⟨r, er, hrf, ?_⟩
    rw [List.map_append, List.foldl_append, et] at er
    change IE.ofReal (t + x) = _ at er
    rw [(ofReal_isNum h er).2]
    have e1 := h.add (by decide) htf.1 hx.1
    have hu : 0 ≤ unit binary64 := by unfold unit; positivity
    rw [List.sum_append, List.sum_singleton, List.map_append, List.sum_append, List.length_append, List.length_singleton, List.map_singleton, List.sum_singleton,
      pow_succ]
    have hS : |l.sum| ≤ (l.map abs).sum := by
      clear ht et ih hf hb hlen er e1
      induction l with
      | nil => simp
      | cons a l ih => rw [List.sum_cons, List.map_cons, List.sum_cons]; exact (abs_add_le _ _).trans (by linarith)
    have hp : 1 ≤ (1 + unit binary64) ^ l.length := one_le_pow₀ (by linarith)
    generalize unit binary64 = u at *
    generalize (1 + u) ^ l.length = q at *
    generalize (l.map abs).sum = A at *
    generalize l.sum = S at *
    have hA : 0 ≤ A := (abs_nonneg _).trans hS
    have e2 : |t + x| ≤ A + |x| + (q - 1) * A := by
      calc |t + x| = |(t - S) + S + x| := by ring_nf
        _ ≤ |t - S| + |S| + |x| := (abs_add_le _ _).trans (by linarith [abs_add_le (t - S) S])
        _ ≤ _ := by linarith
    have e3 : |fl (t + x) - (S + x)| ≤ |fl (t + x) - (t + x)| + |t - S| := by
      calc |fl (t + x) - (S + x)| = |(fl (t + x) - (t + x)) + (t - S)| := by ring_nf
        _ ≤ _ := abs_add_le _ _
    have e4 := mul_le_mul_of_nonneg_left e2 hu
    have e5 : 0 ≤ (q - 1) * |x| * (1 + u) := by have := abs_nonneg x; have : 0 ≤ q - 1 := by linarith
                                                positivity
    nlinarith [e1, e3, e4, e5]

theorem one_lt_top : (1 : ℝ) < 2 ^ binary64.emax := by
  have : (2 : ℝ) ^ (0 : ℤ) < 2 ^ (1024 : ℤ) := zpow_lt_zpow_right₀ (by norm_num) (by norm_num)
  rw [zpow_zero] at this
  exact this

theorem fit_mu (l : List (IE binary64 fl)) (hl : l ≠ []) : (Gauss.fit l).mu = l.foldl (fun sum s => sum + s) 0 / IE.ofCount l.length := by
  unfold Gauss.fit
  rw [if_neg (by simpa using hl)]

/-- **C178** (partial): the fitted mean leaves the range of the observations by at most the rounding errors of the sum and the quotient, in proportion to the
largest size `M` of an observation. What is missing: that it does not leave the range at all, which fails. -/
theorem C178_partial (h : Rounds binary64 fl) {l : List ℝ} (hne : l ≠ []) (hlen : l.length ≤ 2 ^ 53) (hf : ∀ x ∈ l, Finite binary64 x) {lo hi M : ℝ}
    (hM : M ≤ 2 ^ 480) (hx : ∀ x ∈ l, lo ≤ x ∧ x ≤ hi ∧ |x| ≤ M) :
    ∃ m, (Gauss.fit (l.map IE.num : List (IE binary64 fl))).mu = IE.num m ∧ Finite binary64 m ∧
      lo - (((1 + 2 ^ (-53 : ℤ)) ^ (l.length + 1) - 1) * M + 2 ^ (-1075 : ℤ)) ≤ m ∧
      m ≤ hi + (((1 + 2 ^ (-53 : ℤ)) ^ (l.length + 1) - 1) * M + 2 ^ (-1075 : ℤ)) := by
  have hb : ∀ x ∈ l, |x| ≤ 2 ^ 480 := fun x h => (hx x h).2.2.trans hM
  obtain ⟨t, et, htf, ht⟩ := sum_error h l hf hb hlen
  have hpos : 0 < l.length := List.length_pos_iff.2 hne
  have n0 : (0 : ℝ) < l.length := by exact_mod_cast hpos
  have hA : (l.map abs).sum ≤ l.length * M := by
    have := List.sum_le_card_nsmul (l.map abs) M (by
      intro y hy
      obtain ⟨x, hx', rfl⟩ := List.mem_map.1 hy
      exact (hx x hx').2.2)
    simpa using this
  have hlo : l.length * lo ≤ l.sum := by
    have := List.card_nsmul_le_sum l lo (fun x h => (hx x h).1)
    simpa using this
  have hhi : l.sum ≤ l.length * hi := by
    have := List.sum_le_card_nsmul l hi (fun x h => (hx x h).2.1)
    simpa using this
  have hS : |l.sum| ≤ (l.map abs).sum := by
    clear ht et hf hb hlen hx hne hpos n0 hA hlo hhi
    induction l with
    | nil => simp
    | cons a l ih => rw [List.sum_cons, List.map_cons, List.sum_cons]; exact (abs_add_le _ _).trans (by linarith)
  have hT : Times l.length 480 (IE.num t : IE binary64 fl) := by
    rw [← et]
    have := sum_times h (f := id) (c := 480) (by norm_num) (l.map IE.num) 0 0 (by
      intro a ha
      obtain ⟨y, hy, rfl⟩ := List.mem_map.1 ha
      exact ⟨y, rfl, hf y hy, hb y hy⟩) (Times.zero 480) (by simp; omega)
    simpa using this
  obtain ⟨m, em, hmf, -⟩ := div_count h (by norm_num) hlen hpos hT
  refine ⟨m, by rw [fit_mu _ (by simpa using hne), et, List.length_map, em], hmf, ?_⟩
  rw [count_exact h hlen, div_num t n0.ne'] at em
  have e1 := h.err (by decide) (t / l.length)
  rw [← (ofReal_isNum h em).2] at e1
  have hu : unit binary64 = 2 ^ (-53 : ℤ) := rfl
  have htiny : tiny binary64 = 2 ^ (-1075 : ℤ) := rfl
  rw [hu, htiny] at e1
  rw [hu] at ht
  have hu0 : (0 : ℝ) ≤ 2 ^ (-53 : ℤ) := by positivity
  have hq : 1 ≤ (1 + (2 : ℝ) ^ (-53 : ℤ)) ^ l.length := one_le_pow₀ (by linarith)
  rw [pow_succ]
  generalize (2 : ℝ) ^ (-53 : ℤ) = u at *
  generalize (2 : ℝ) ^ (-1075 : ℤ) = w at *
  generalize (1 + u) ^ l.length = q at *
  generalize (l.map abs).sum = A at *
  generalize l.sum = S at *
  generalize (l.length : ℝ) = n at *
  have hd : |t / n - S / n| ≤ (q - 1) * M := by
    rw [← sub_div, abs_div, abs_of_pos n0, div_le_iff₀ n0]
    refine ht.trans ?_
    calc (q - 1) * A ≤ (q - 1) * (n * M) := mul_le_mul_of_nonneg_left hA (by linarith)
      _ = _ := by ring
  have hSn : |S / n| ≤ M := by
    rw [abs_div, abs_of_pos n0, div_le_iff₀ n0]; linarith
  have h1 : lo ≤ S / n := by rw [le_div_iff₀ n0]; linarith
  have h2 : S / n ≤ hi := by rw [div_le_iff₀ n0]; linarith
  have htn : |t / n| ≤ q * M := by
    calc |t / n| = |(t / n - S / n) + S / n| := by ring_nf
      _ ≤ _ := (abs_add_le _ _).trans (by linarith)
  have e2 := mul_le_mul_of_nonneg_left htn hu0
  have e3 := abs_le.1 e1
  have e4 := abs_le.1 hd
  constructor <;> nlinarith only [e2, e3.1, e3.2, e4.1, e4.2, h1, h2]

/-- **C178**, two observations: the fitted mean of two observations lies between them. -/
theorem C178_two_partial (h : Rounds binary64 fl) {a b : ℝ} (ha : Finite binary64 a) (hb : Finite binary64 b) (hab : a ≤ b) (hA : |a| ≤ 2 ^ 480) (hB : |b| ≤ 2 ^ 480) :
    (∃ m, (Gauss.fit [IE.num a, (IE.num b : IE binary64 fl)]).mu = IE.num m ∧ a ≤ m ∧ m ≤ b) ∧
      ∃ m, (Gauss.fit [IE.num b, (IE.num a : IE binary64 fl)]).mu = IE.num m ∧ a ≤ m ∧ m ≤ b := by
  have e2 : (IE.ofCount 2 : IE binary64 fl) = IE.num 2 := by simpa using count_exact h (j := 2) (by norm_num)
  have dbl : ∀ {x : ℝ}, Finite binary64 x → OnGrid binary64 (2 * x) := by
    rintro x ⟨⟨k, e, hk, he, rfl⟩, -⟩
    exact ⟨k, e + 1, hk, by omega, by rw [zpow_add_one₀ (by norm_num)]; ring⟩
  have key : ∀ {x y : ℝ}, Finite binary64 x → |x| ≤ 2 ^ 480 → |y| ≤ 2 ^ 480 → x + y = a + b →
      ∃ m, (Gauss.fit [IE.num x, (IE.num y : IE binary64 fl)]).mu = IE.num m ∧ a ≤ m ∧ m ≤ b := by
    intro x y hx hX hY hxy
    obtain ⟨t, et, htf, htb⟩ : Below 481 (IE.ofReal (a + b) : IE binary64 fl) := by
      refine ofReal_below (by decide) (by decide) h (by decide) ?_
      rw [← hxy, pow_succ]
      exact (abs_add_le _ _).trans (by linarith)
    have t1 : 2 * a ≤ t := by rw [(ofReal_isNum h et).2, ← h.fix (dbl ha)]; exact h.mono (by linarith)
    have t2 : t ≤ 2 * b := by rw [(ofReal_isNum h et).2, ← h.fix (dbl hb)]; exact h.mono (by linarith)
    obtain ⟨m, em, hmf, -⟩ : Below 480 (IE.ofReal (t / 2) : IE binary64 fl) := by
      refine ofReal_below (by decide) (by decide) h (by decide) ?_
      rw [abs_div, abs_of_pos (by norm_num : (0 : ℝ) < 2), div_le_iff₀ (by norm_num), ← pow_succ]
      exact htb
    refine ⟨m, ?_, ?_, ?_⟩
    · rw [fit_mu _ (by simp)]
      change (IE.num 0 + IE.num x + IE.num y) / IE.ofCount 2 = _
      rw [add_num, zero_add, ofReal_finite h hx, add_num, hxy, et, e2, div_num t (by norm_num), em]
    · rw [(ofReal_isNum h em).2, ← h.fix ha.1]; exact h.mono (by linarith)
    · rw [(ofReal_isNum h em).2, ← h.fix hb.1]; exact h.mono (by linarith)
  exact ⟨key ha hA hB rfl, key hb hB hA (add_comm _ _)⟩

theorem one_le_big : (1 : ℝ) ≤ 2 ^ 480 := one_le_pow₀ (by norm_num)

-- Three observations between zero and one.
example (h : Rounds binary64 fl) : ∃ m, (Gauss.fit ([0, 1, 1].map IE.num : List (IE binary64 fl))).mu = IE.num m ∧
    m ≤ 1 + (((1 + 2 ^ (-53 : ℤ)) ^ 4 - 1) * 1 + 2 ^ (-1075 : ℤ)) := by
  obtain ⟨m, e, -, -, h1⟩ := C178_partial h (l := [0, 1, 1]) (by simp) (by norm_num)
    (by intro x hx; simp at hx; rcases hx with rfl | rfl; exacts [fin_zero, fin_one]) (lo := 0) (hi := 1) (M := 1) one_le_big
    (by intro x hx; simp at hx; rcases hx with rfl | rfl <;> norm_num)
  exact ⟨m, e, h1⟩

/-- The `f64` number nearest to 0.1. -/
noncomputable def tenth : ℝ := 7205759403792794 * 2 ^ (-56 : ℤ)

/-- **C178** fails: the fitted mean of three observations, all equal to the `f64` number 0.1, is not that number. -/
theorem C178_fails (h : Rounds binary64 fl) : Finite binary64 tenth ∧ |tenth - 1 / 10| ≤ 2 ^ (-57 : ℤ) ∧
    ∃ m, (Gauss.fit [IE.num tenth, IE.num tenth, (IE.num tenth : IE binary64 fl)]).mu = IE.num m ∧ m ≠ tenth := by
  have hw : (0 : ℝ) < 2 ^ (-56 : ℤ) := by positivity
  have hw1 : (2 : ℝ) ^ (-56 : ℤ) * 2 ^ (56 : ℕ) = 1 := by norm_num [zpow_neg]
  have fin : ∀ k : ℤ, |k| ≤ 2 ^ 53 → Finite binary64 (k * 2 ^ (-56 : ℤ)) := by
    intro k hk
    refine ⟨onGrid_of_le (by decide) (by exact_mod_cast hk) (by decide), ?_⟩
    rw [abs_mul, abs_of_pos hw]
    have h1 : |(k : ℝ)| ≤ 2 ^ 53 := by exact_mod_cast hk
    have h2 : |(k : ℝ)| * 2 ^ (-56 : ℤ) ≤ 1 := by norm_num [zpow_neg] at hw ⊢; linarith
    exact h2.trans_lt one_lt_top
  have fx : Finite binary64 tenth := by have := fin 7205759403792794 (by norm_num); push_cast at this; exact this
  have f2 : Finite binary64 (tenth + tenth) := by
    have g := onGrid_of_le (F := binary64) (by decide) (m := 7205759403792794) (e := -55) (by decide) (by decide)
    have e : tenth + tenth = ((7205759403792794 : ℤ) : ℝ) * 2 ^ (-55 : ℤ) := by
      unfold tenth
      rw [show (-55 : ℤ) = -56 + 1 by norm_num, zpow_add_one₀ (by norm_num)]; push_cast; ring
    refine ⟨e ▸ g, ?_⟩
    rw [e, abs_of_pos (by positivity)]
    refine lt_trans (b := 1) ?_ one_lt_top
    norm_num [zpow_neg]
  refine ⟨fx, by unfold tenth; norm_num [zpow_neg, abs_le], ?_⟩
  -- the sum of three
  obtain ⟨k, hk, ek⟩ : ∃ k : ℤ, (k = 5404319552844595 ∨ k = 5404319552844596) ∧ fl (tenth + tenth + tenth) = k * (4 * 2 ^ (-56 : ℤ)) := by
    have e3 : tenth + tenth + tenth = 21617278211378382 * 2 ^ (-56 : ℤ) := by unfold tenth; ring
    have g : OnGrid binary64 (5404319552844595 * (4 * 2 ^ (-56 : ℤ))) := by
      have := onGrid_of_le (F := binary64) (by decide) (m := 5404319552844595) (e := -54) (by decide) (by decide)
      rw [show (-54 : ℤ) = -56 + 2 by norm_num, zpow_add₀ (by norm_num)] at this
      push_cast at this
      convert this using 1
      norm_num
    have h1 := (h (tenth + tenth + tenth)).2 _ g
    have h2 : |fl (tenth + tenth + tenth) - 21617278211378382 * 2 ^ (-56 : ℤ)| ≤ 2 * 2 ^ (-56 : ℤ) := by
      rw [e3] at h1 ⊢
      refine h1.trans ?_
      rw [show 5404319552844595 * (4 * 2 ^ (-56 : ℤ)) - 21617278211378382 * (2 : ℝ) ^ (-56 : ℤ) = -(2 * 2 ^ (-56 : ℤ)) by ring, abs_neg, abs_of_pos (by positivity)]
    obtain ⟨m, e, hm, he, hv⟩ := (h (tenth + tenth + tenth)).1
    have h3 := abs_le.1 h2
    -- the exponent is at least -54
    have hee : -54 ≤ e := by
      by_contra hc
      have hc : e ≤ -55 := by omega
      have h4 : (m : ℝ) ≤ 2 ^ 53 := by
        have : m ≤ 2 ^ 53 := (le_abs_self m).trans (le_of_lt hm)
        exact_mod_cast this
      have h5 : (2 : ℝ) ^ e ≤ 2 ^ (-55 : ℤ) := zpow_le_zpow_right₀ (by norm_num) hc
      have h6 : (m : ℝ) * 2 ^ e ≤ 2 ^ 53 * 2 ^ (-55 : ℤ) := mul_le_mul h4 h5 (by positivity) (by positivity)
      rw [hv, show (-55 : ℤ) = -56 + 1 by norm_num, zpow_add_one₀ (by norm_num)] at *
      linarith [h3.1]
    obtain ⟨d, rfl⟩ : ∃ d : ℕ, e = -54 + d := ⟨(e + 54).toNat, by omega⟩
    refine ⟨m * 2 ^ d, ?_, ?_⟩
    · have h7 : (m : ℝ) * 2 ^ (-54 + d : ℤ) = ((m * 2 ^ d : ℤ) : ℝ) * (4 * 2 ^ (-56 : ℤ)) := by
        rw [show (-54 + d : ℤ) = -56 + 2 + d by ring, zpow_add₀ (by norm_num), zpow_add₀ (by norm_num), zpow_natCast]; push_cast; norm_num; ring
      rw [hv, h7] at h3
      generalize m * 2 ^ d = k at *
      have k1 : (21617278211378380 : ℝ) ≤ 4 * k := by
        by_contra hc
        nlinarith [h3.1, mul_pos hw (sub_pos.2 (not_le.1 hc))]
      have k2 : 4 * (k : ℝ) ≤ 21617278211378384 := by
        by_contra hc
        nlinarith [h3.2, mul_pos hw (sub_pos.2 (not_le.1 hc))]
      have k3 : (21617278211378380 : ℤ) ≤ 4 * k := by exact_mod_cast k1
      have k4 : 4 * k ≤ (21617278211378384 : ℤ) := by exact_mod_cast k2
      omega
    · rw [hv, show (-54 + d : ℤ) = -56 + 2 + d by ring, zpow_add₀ (by norm_num), zpow_add₀ (by norm_num), zpow_natCast]; push_cast; norm_num; ring
  have b3 : Below 480 (IE.ofReal (tenth + tenth + tenth) : IE binary64 fl) := by
    refine ofReal_below (by decide) (by decide) h (by decide) ?_
    refine le_trans ?_ (one_le_pow₀ (by norm_num))
    unfold tenth
    norm_num [zpow_neg, abs_le]
  obtain ⟨t, et, -, htb⟩ := b3
  have ht := (ofReal_isNum h et).2
  obtain ⟨m, em, hmf, -⟩ : Below 480 (IE.ofReal (t / 3) : IE binary64 fl) := by
    refine ofReal_below (by decide) (by decide) h (by decide) ?_
    rw [abs_div, abs_of_pos (by norm_num : (0 : ℝ) < 3)]
    exact (div_le_self (abs_nonneg t) (by norm_num)).trans htb
  have e3 : (IE.ofCount 3 : IE binary64 fl) = IE.num 3 := by simpa using count_exact h (j := 3) (by norm_num)
  refine ⟨m, ?_, ?_⟩
  · rw [fit_mu _ (by simp)]
    change (IE.num 0 + IE.num tenth + IE.num tenth + IE.num tenth) / IE.ofCount 3 = _
    rw [add_num, zero_add, ofReal_finite h fx, add_num, ofReal_finite h f2, add_num, et, e3, div_num t (by norm_num), em]
  · intro hc
    have hm := (ofReal_isNum h em).2
    rw [hc, ht, ek] at hm
    rcases hk with rfl | rfl
    · have h1 := (h (((5404319552844595 : ℤ) : ℝ) * (4 * 2 ^ (-56 : ℤ)) / 3)).2 _ (fin 7205759403792793 (by norm_num)).1
      rw [← hm] at h1
      unfold tenth at h1
      push_cast at h1
      rw [show (7205759403792794 : ℝ) * 2 ^ (-56 : ℤ) - 5404319552844595 * (4 * 2 ^ (-56 : ℤ)) / 3 = 2 / 3 * 2 ^ (-56 : ℤ) by ring,
        show (7205759403792793 : ℝ) * 2 ^ (-56 : ℤ) - 5404319552844595 * (4 * 2 ^ (-56 : ℤ)) / 3 = -(1 / 3 * 2 ^ (-56 : ℤ)) by ring,
        abs_neg, abs_of_pos (by positivity), abs_of_pos (by positivity)] at h1
      linarith
    · have h1 := (h (((5404319552844596 : ℤ) : ℝ) * (4 * 2 ^ (-56 : ℤ)) / 3)).2 _ (fin 7205759403792795 (by norm_num)).1
      rw [← hm] at h1
      unfold tenth at h1
      push_cast at h1
      rw [show (7205759403792794 : ℝ) * 2 ^ (-56 : ℤ) - 5404319552844596 * (4 * 2 ^ (-56 : ℤ)) / 3 = -(2 / 3 * 2 ^ (-56 : ℤ)) by ring,
        show (7205759403792795 : ℝ) * 2 ^ (-56 : ℤ) - 5404319552844596 * (4 * 2 ^ (-56 : ℤ)) / 3 = 1 / 3 * 2 ^ (-56 : ℤ) by ring,
        abs_neg, abs_of_pos (by positivity), abs_of_pos (by positivity)] at h1
      linarith

end Verif.Stats.Ie
