import Verif.ML.DiscrIeee
import Verif.ML.PropsBayesIeee

/-!
# Discriminant analysis in machine arithmetic (C232, C233)
-/

namespace Verif.ML.Ie

open Verif.Ieee Verif.Mat

variable {fl : ℝ → ℝ} {n k : ℕ}

theorem lt_of_lt_of_le_ie {a b c : IE binary64 fl} (h1 : a < b) (h2 : b ≤ c) : a < c := by
  rcases a with ⟨_ | _ | _⟩ <;> rcases b with ⟨_ | _ | _⟩ <;> rcases c with ⟨_ | _ | _⟩ <;>
    first
    | exact h1.elim
    | exact h2.elim
    | exact (lt_of_lt_of_le (α := ℝ) h1 h2 : _ < (_ : ℝ))
    | (simp only [LT.lt, LE.le, IE.lt, IE.le] at h1 h2 ⊢; simp_all)

theorem le_of_lt_ie {a b : IE binary64 fl} (h : a < b) : a ≤ b := by
  rcases a with ⟨_ | _ | _⟩ <;> rcases b with ⟨_ | _ | _⟩ <;>
    first
    | exact h.elim
    | exact (le_of_lt (α := ℝ) h : _ ≤ (_ : ℝ))
    | (simp only [LT.lt, LE.le, IE.lt, IE.le] at h ⊢; simp_all)

/-- The search: a class of greatest score, the first of them, or class 0 when no score is above negative infinity. -/
theorem search_ieee (score : Fin k → Option (IE binary64 fl)) :
    (search k score = 0 ∧ ∀ c v, score c = some v → ¬ IE.inf true < v) ∨
      ∃ r v, search k score = r.1 ∧ score r = some v ∧ IE.inf true < v ∧ ∀ c v', score c = some v' → ¬ v < v' ∧ (c < r → ¬ v ≤ v') := by
  have key : ∀ l : List (Fin k), l.Pairwise (· < ·) →
      (let s := l.foldl (fun (s : ℕ × IE binary64 fl) c =>
        match score c with
        | none => s
        | some v => if v > s.2 then (c.1, v) else s) (0, IE.inf true)
      (s = (0, IE.inf true) ∧ ∀ c ∈ l, ∀ v, score c = some v → ¬ IE.inf true < v) ∨
        ∃ r ∈ l, ∃ v, s = (r.1, v) ∧ score r = some v ∧ IE.inf true < v ∧
          ∀ c ∈ l, ∀ v', score c = some v' → ¬ v < v' ∧ (c < r → ¬ v ≤ v')) := by
    intro l
    induction l using List.reverseRecOn with
    | nil => intro _; exact Or.inl ⟨rfl, by simp⟩
    | append_singleton l a ih =>
      intro hp
      rw [List.pairwise_append] at hp
      have hlt : ∀ c ∈ l, c < a := fun c hc => hp.2.2 c hc a (by simp)
      have := ih hp.1
      dsimp only at this ⊢
      rw [List.foldl_append]
      simp only [List.foldl_cons, List.foldl_nil]
      generalize l.foldl (fun (s : ℕ × IE binary64 fl) c =>
        match score c with
        | none => s
        | some v => if v > s.2 then (c.1, v) else s) (0, IE.inf true) = s at this ⊢
      have irr : ∀ v : IE binary64 fl, ¬ v < v := by
        intro v
        rcases v with ⟨_ | (_ | _) | x⟩
        · exact id
        · exact fun h => Bool.noConfusion h.1
        · exact fun h => Bool.noConfusion h.2
        · exact lt_irrefl x
      rcases hs : score a with _ | w
      · dsimp only
        rcases this with ⟨rfl, h⟩ | ⟨r, hr, v, rfl, e, hv, h⟩
        · refine Or.inl ⟨rfl, fun c hc v e => ?_⟩
          rcases List.mem_append.1 hc with hc | hc
          · exact h c hc v e
          · rw [List.mem_singleton.1 hc, hs] at e
            cases e
        · refine Or.inr ⟨r, List.mem_append_left _ hr, v, rfl, e, hv, fun c hc v' e' => ?_⟩
          rcases List.mem_append.1 hc with hc | hc
          · exact h c hc v' e'
          · rw [List.mem_singleton.1 hc, hs] at e'
            cases e'
      · dsimp only
        rcases this with ⟨rfl, h⟩ | ⟨r, hr, v, rfl, e, hv, h⟩
        · by_cases hw : w > IE.inf true
          · rw [if_pos hw]
            refine Or.inr ⟨a, by simp, w, rfl, hs, hw, fun c hc v' e' => ?_⟩
            rcases List.mem_append.1 hc with hc | hc
            · have := h c hc v' e'
              refine ⟨fun h' => this (lt_of_lt_of_le_ie hw (le_of_lt_ie h')), fun _ h' => this (lt_of_lt_of_le_ie hw h')⟩
            · rw [List.mem_singleton.1 hc] at e' ⊢
              rw [hs] at e'
              cases e'
              exact ⟨irr w, fun h' => absurd h' (lt_irrefl a)⟩
          · rw [if_neg hw]
            refine Or.inl ⟨rfl, fun c hc v e => ?_⟩
            rcases List.mem_append.1 hc with hc | hc
            · exact h c hc v e
            · rw [List.mem_singleton.1 hc, hs] at e
              cases e
              exact hw
        · by_cases hw : w > v
          · rw [if_pos hw]
            refine Or.inr ⟨a, by simp, w, rfl, hs, lt_of_lt_of_le_ie hv (le_of_lt_ie hw), fun c hc v' e' => ?_⟩
            rcases List.mem_append.1 hc with hc | hc
            · have := (h c hc v' e').1
              refine ⟨fun h' => this (lt_of_lt_of_le_ie hw (le_of_lt_ie h')), fun _ h' => this (lt_of_lt_of_le_ie hw h')⟩
            · rw [List.mem_singleton.1 hc] at e' ⊢
              rw [hs] at e'
              cases e'
              exact ⟨irr w, fun h' => absurd h' (lt_irrefl a)⟩
          · rw [if_neg hw]
            refine Or.inr ⟨r, List.mem_append_left _ hr, v, rfl, e, hv, fun c hc v' e' => ?_⟩
            rcases List.mem_append.1 hc with hc | hc
            · exact h c hc v' e'
            · rw [List.mem_singleton.1 hc] at e' ⊢
              rw [hs] at e'
              cases e'
              exact ⟨hw, fun h' => absurd (hlt r hr) (lt_asymm h')⟩
  have := key (List.finRange k) (List.pairwise_lt_finRange k)
  unfold search
  dsimp only at this
  rcases this with ⟨e, h⟩ | ⟨r, -, v, e, e', hv, h⟩
  · exact Or.inl ⟨congrArg Prod.fst e, fun c v => h c (List.mem_finRange c) v⟩
  · exact Or.inr ⟨r, v, congrArg Prod.fst e, e', hv, fun c v' => h c (List.mem_finRange c) v'⟩

/-! ## Classes without examples -/

theorem classSum_count (c : ℕ) : ∀ (data : List ((Fin n → IE binary64 fl) × ℕ)) (s : (Fin n → IE binary64 fl) × ℕ), (∀ d ∈ data, d.2 ≠ c) →
    (data.foldl (fun (s : (Fin n → IE binary64 fl) × ℕ) d => if d.2 = c then (fun i => s.1 i + d.1 i, s.2 + 1) else s) s) = s := by
  intro data
  induction data with
  | nil => intro s _; rfl
  | cons d l ih =>
    intro s h
    rw [List.foldl_cons, if_neg (h d (by simp))]
    exact ih s fun d hd => h d (List.mem_cons_of_mem _ hd)

theorem zero_over_count (h : Rounds binary64 fl) {m : ℕ} (hm : m < 2 ^ 64) :
    (IE.ofCount 0 / IE.ofCount m : IE binary64 fl) = IE.nan ∨ (IE.ofCount 0 / IE.ofCount m : IE binary64 fl) = IE.num 0 := by
  obtain ⟨y, e, -⟩ := C163_count (F := binary64) (by decide) (by decide) (by decide) h hm
  rw [count_exact h (by norm_num), e, Nat.cast_zero]
  by_cases hy : y = 0
  · left
    rw [hy]
    change IE.div _ _ = _
    simp [IE.div, IE.num]
  · right
    rw [div_num _ hy, zero_div, ofReal_finite h ⟨onGrid_zero, by rw [abs_zero]; positivity⟩]

/-- What is asked of the logarithm: that of zero is negative infinity, that of NaN is NaN. -/
def LnZero (ln : IE binary64 fl → IE binary64 fl) : Prop := ln (IE.num 0) = IE.inf true ∧ ln IE.nan = IE.nan

theorem add_bottom (a : IE binary64 fl) : ¬ IE.inf true < a + IE.inf true := by
  rcases a with ⟨_ | (_ | _) | _⟩ <;> exact fun h => by simp [HAdd.hAdd, Add.add, IE.add, LT.lt, IE.lt, IE.inf, IE.nan] at h

theorem unseen_score {ln : IE binary64 fl → IE binary64 fl} (hln : LnZero ln) (a : IE binary64 fl) {p : IE binary64 fl} (hp : p = IE.nan ∨ p = IE.num 0) :
    ¬ IE.inf true < a + ln p := by
  rcases hp with rfl | rfl
  · rw [hln.2, add_nan]
    exact lt_nan _
  · rw [hln.1]
    exact add_bottom a

/-! ## An example -/

theorem halves_finite {m : ℤ} (hm : |m| ≤ 100) : Finite binary64 ((m : ℝ) / 2) := by
  refine ⟨⟨m, -1, lt_of_le_of_lt hm (by norm_num [binary64]), by norm_num [binary64], by rw [zpow_neg, zpow_one]; rfl⟩, ?_⟩
  have h1 : |(m : ℝ)| ≤ 100 := by exact_mod_cast hm
  rw [abs_div, abs_two]
  calc |(m : ℝ)| / 2 ≤ 2 ^ (6 : ℤ) := by norm_num; linarith
    _ < 2 ^ binary64.emax := zpow_lt_zpow_right₀ (by norm_num) (by norm_num [binary64])

theorem ofReal_halves (h : Rounds binary64 fl) (m : ℤ) (hm : |m| ≤ 100) {x : ℝ} (hx : x = m / 2) : (IE.ofReal x : IE binary64 fl) = IE.num x := by
  rw [hx]
  exact ofReal_finite h (halves_finite hm)

/-- Two examples, both of class 1. -/
def two : List (Fin 1 → IE binary64 fl) := [fun _ => IE.num 3, fun _ => IE.num 5]

theorem two_count (h : Rounds binary64 fl) : (IE.ofCount 2 : IE binary64 fl) = IE.num 2 := by
  rw [count_exact h (by norm_num)]
  norm_num

theorem two_sum (h : Rounds binary64 fl) : classSum ((two (fl := fl)).zip [1, 1]) 1 = (fun _ => IE.num 8, 2) := by
  change ((fun _ => IE.num 0 + IE.num 3 + IE.num 5 : Fin 1 → IE binary64 fl), 2) = _
  congr 1
  funext i
  rw [add_num, ofReal_halves h 6 (by norm_num) (by norm_num), add_num, ofReal_halves h 16 (by norm_num) (by norm_num)]
  norm_num

theorem two_mean (h : Rounds binary64 fl) : classMean ((two (fl := fl)).zip [1, 1]) 1 = fun _ => IE.num 4 := by
  unfold classMean
  rw [two_sum h]
  dsimp only
  rw [if_neg (by norm_num), two_count h]
  funext i
  rw [div_num _ (by norm_num), ofReal_halves h 8 (by norm_num) (by norm_num)]
  norm_num

theorem two_cov (h : Rounds binary64 fl) : classCov ((two (fl := fl)).zip [1, 1]) 1 = fun _ _ => IE.num 2 := by
  unfold classCov
  rw [two_sum h, two_mean h]
  dsimp only
  rw [if_pos (by norm_num), two_count h]
  funext i j
  change (IE.num 0 + (IE.num 3 - IE.num 4) * (IE.num 3 - IE.num 4) + (IE.num 5 - IE.num 4) * (IE.num 5 - IE.num 4)) / (IE.num 2 - IE.num 1) = _
  rw [sub_num, ofReal_halves h (-2) (by norm_num) (by norm_num), sub_num, ofReal_halves h 2 (by norm_num) (by norm_num), sub_num,
    ofReal_halves h 2 (by norm_num) (by norm_num), mul_num, ofReal_halves h 2 (by norm_num) (by norm_num), mul_num,
    ofReal_halves h 2 (by norm_num) (by norm_num), add_num, ofReal_halves h 2 (by norm_num) (by norm_num), add_num,
    ofReal_halves h 4 (by norm_num) (by norm_num), div_num _ (by norm_num), ofReal_halves h 4 (by norm_num) (by norm_num)]
  norm_num

theorem two_prior (h : Rounds binary64 fl) : (Lda.fit 2 (two (fl := fl)) [1, 1]).priors 1 = IE.num 1 := by
  change IE.ofCount (classSum ((two (fl := fl)).zip [1, 1]) 1).2 / IE.ofCount 2 = _
  rw [two_sum h]
  dsimp only
  rw [two_count h, div_num _ (by norm_num), ofReal_halves h 2 (by norm_num) (by norm_num)]
  norm_num

theorem two_pooled (h : Rounds binary64 fl) : (Lda.fit 2 (two (fl := fl)) [1, 1]).pooled = fun _ _ => IE.num 2 := by
  have hp := two_prior h
  change IE.ofCount (classSum ((two (fl := fl)).zip [1, 1]) 1).2 / IE.ofCount 2 = IE.num 1 at hp
  change (if (classSum ((two (fl := fl)).zip [1, 1]) 1).2 = 0 then fun _ _ => IE.num 0 else
    fun i j => IE.num 0 + classCov ((two (fl := fl)).zip [1, 1]) 1 i j * (IE.ofCount (classSum ((two (fl := fl)).zip [1, 1]) 1).2 / IE.ofCount 2)) = _
  rw [hp, two_sum h, two_cov h]
  dsimp only
  rw [if_neg (by norm_num)]
  funext i j
  rw [mul_num, ofReal_halves h 4 (by norm_num) (by norm_num), add_num, ofReal_halves h 4 (by norm_num) (by norm_num)]
  norm_num

theorem inverse_two (h : Rounds binary64 fl) : inverse (fun _ _ : Fin 1 => (IE.num 2 : IE binary64 fl)) = some fun _ _ => IE.num (1 / 2) := by
  obtain ⟨e, ee, -, -, he⟩ := ofReal_between (fl := fl) h (lo := 2 ^ (-40 : ℤ)) (hi := 2 ^ (0 : ℤ)) (x := 1 / 10 ^ 12)
    (pow_finite (by norm_num) (by norm_num)).1 (pow_finite (by norm_num) (by norm_num)) (by positivity) (by norm_num [zpow_neg]) (by norm_num)
  rw [zpow_zero] at he
  unfold inverse
  rw [ee]
  have er : rng 1 0 1 = [0] := rfl
  rw [er, List.foldlM_cons]
  simp only [List.foldlM_nil, bind_pure]
  change (gjStep (IE.num e) ((fun _ _ : Fin 1 => (IE.num 2 : IE binary64 fl)), identity 1) 0).map (·.2) = _
  unfold gjStep
  have hpv : pivot (fun _ _ : Fin 1 => (IE.num 2 : IE binary64 fl)) 0 = (0, IE.num 2) := by
    change (0, IE.num |2|) = _
    norm_num
  dsimp only
  rw [hpv]
  dsimp only
  rw [if_neg (by rw [le_num]; linarith), if_neg (by simp)]
  change some (fun i j => (gjElim _ (0 : Fin 1)).2 i j) = _
  congr 1
  funext i j
  fin_cases i; fin_cases j
  change IE.num 1 * (IE.num 1 / IE.num 2) = _
  rw [div_num _ (by norm_num), ofReal_halves h 1 (by norm_num) (by norm_num), mul_num, ofReal_halves h 1 (by norm_num) (by norm_num)]
  norm_num

theorem two_score (h : Rounds binary64 fl) (ln : IE binary64 fl → IE binary64 fl) (q : IE binary64 fl) :
    (Lda.fit 2 (two (fl := fl)) [1, 1]).score ln (fun _ => q) 1 = some (IE.num 0 + q * IE.num 2 - IE.num 4 + ln (IE.num 1)) := by
  have em : (Lda.fit 2 (two (fl := fl)) [1, 1]).means 1 = fun _ => IE.num 4 := two_mean h
  unfold Lda.score
  rw [two_pooled h, inverse_two h, two_prior h, em]
  have et : Mat.mulVec (fun _ _ : Fin 1 => (IE.num (1 / 2) : IE binary64 fl)) (fun _ => IE.num 4) = fun _ => IE.num 2 := by
    funext i
    fin_cases i
    change IE.num 0 + IE.num (1 / 2) * IE.num 4 = _
    rw [mul_num, ofReal_halves h 4 (by norm_num) (by norm_num), add_num, ofReal_halves h 4 (by norm_num) (by norm_num)]
    norm_num
  change some _ = _
  rw [et]
  change some (IE.num 0 + q * IE.num 2 - IE.ofReal (1 / 2) * (IE.num 0 + IE.num 4 * IE.num 2) + _) = _
  rw [mul_num 4 2, ofReal_halves h (x := 4 * 2) 16 (by norm_num) (by norm_num), add_num 0 (4 * 2), ofReal_halves h (x := 0 + 4 * 2) 16 (by norm_num) (by norm_num),
    ofReal_halves h (x := 1 / 2) 1 (by norm_num) (by norm_num), mul_num (1 / 2), ofReal_halves h (x := 1 / 2 * (0 + 4 * 2)) 8 (by norm_num) (by norm_num)]
  norm_num

/-! ## Properties -/

/-- The class `c` is the first of greatest score, its score is above negative infinity and it has an example. -/
def Chosen (xs : List (Fin n → IE binary64 fl)) (ys : List ℕ) (score : Fin k → Option (IE binary64 fl)) (c : Fin k) : Prop :=
  (∃ d ∈ xs.zip ys, d.2 = c.1) ∧ ∃ v, score c = some v ∧ IE.inf true < v ∧ ∀ c' v', score c' = some v' → ¬ v < v' ∧ (c' < c → ¬ v ≤ v')

/-- **C232, LDA**: whatever the examples and the query are, NaN and infinities included, the class predicted is the first of those with the greatest
computed score and it has an example; or no class has a score above negative infinity and the class predicted is 0. -/
theorem C232_lda (h : Rounds binary64 fl) {ln : IE binary64 fl → IE binary64 fl} (hln : LnZero ln) {xs : List (Fin n → IE binary64 fl)}
    {ys : List ℕ} (hlen : xs.length < 2 ^ 64) (x : Fin n → IE binary64 fl) :
    (∃ c : Fin k, (Lda.fit k xs ys).predict ln x = c.1 ∧ Chosen xs ys ((Lda.fit k xs ys).score ln x) c) ∨
      (Lda.fit k xs ys).predict ln x = 0 ∧ ∀ c v, (Lda.fit k xs ys).score ln x c = some v → ¬ IE.inf true < v := by
  rcases search_ieee ((Lda.fit k xs ys).score ln x) with hs | ⟨r, v, e, e', hv, hbest⟩
  · exact Or.inr hs
  · refine Or.inl ⟨r, e, ?_, v, e', hv, hbest⟩
    by_contra hno
    push Not at hno
    have hz : (classSum (xs.zip ys) r.1).2 = 0 := by
      unfold classSum
      rw [classSum_count _ _ _ hno]
    unfold Lda.score at e'
    rcases hi : inverse (Lda.fit k xs ys).pooled with _ | sinv
    · rw [hi] at e'
      cases e'
    · rw [hi] at e'
      have e'' := Option.some.inj e'
      rw [← e''] at hv
      refine unseen_score hln _ ?_ hv
      have ep : (Lda.fit k xs ys).priors r = IE.ofCount (classSum (xs.zip ys) r.1).2 / IE.ofCount xs.length := rfl
      rw [ep, hz]
      exact zero_over_count h hlen

/-- **C232, QDA**: as for LDA, for any number of examples. -/
theorem C232_qda {ln : IE binary64 fl → IE binary64 fl} (hln : LnZero ln) {xs : List (Fin n → IE binary64 fl)} {ys : List ℕ} (x : Fin n → IE binary64 fl) :
    (∃ c : Fin k, (Qda.fit k xs ys).predict ln x = c.1 ∧ Chosen xs ys ((Qda.fit k xs ys).score ln x) c) ∨
      (Qda.fit k xs ys).predict ln x = 0 ∧ ∀ c v, (Qda.fit k xs ys).score ln x c = some v → ¬ IE.inf true < v := by
  rcases search_ieee ((Qda.fit k xs ys).score ln x) with hs | ⟨r, v, e, e', hv, hbest⟩
  · exact Or.inr hs
  · refine Or.inl ⟨r, e, ?_, v, e', hv, hbest⟩
    by_contra hno
    push Not at hno
    have hz : (classSum (xs.zip ys) r.1).2 = 0 := by
      unfold classSum
      rw [classSum_count _ _ _ hno]
    unfold Qda.score at e'
    rcases hi : inverse ((Qda.fit k xs ys).covs r) with _ | sinv
    · rw [hi] at e'
      cases e'
    · rw [hi] at e'
      have e'' := Option.some.inj e'
      rw [← e''] at hv
      refine unseen_score hln _ (Or.inr ?_) hv
      change (if (classSum (xs.zip ys) r.1).2 = 0 then 0 else _) = _
      rw [if_pos hz]
      rfl

/-- **C233, LDA**, when some class has a score above negative infinity: the class predicted has an example. Missing: otherwise (`C233_fails`). -/
theorem C233_lda_partial (h : Rounds binary64 fl) {ln : IE binary64 fl → IE binary64 fl} (hln : LnZero ln) {xs : List (Fin n → IE binary64 fl)}
    {ys : List ℕ} (hlen : xs.length < 2 ^ 64) {x : Fin n → IE binary64 fl} {c : Fin k} {v : IE binary64 fl}
    (hc : (Lda.fit k xs ys).score ln x c = some v) (hv : IE.inf true < v) : ∃ d ∈ xs.zip ys, d.2 = (Lda.fit k xs ys).predict ln x := by
  rcases C232_lda (k := k) h hln (ys := ys) hlen x with ⟨r, e, hr, -⟩ | ⟨-, hno⟩
  · rw [e]
    exact hr
  · exact absurd hv (hno c v hc)

/-- **C233, QDA**, when some class has a score above negative infinity. Missing: otherwise. -/
theorem C233_qda_partial {ln : IE binary64 fl → IE binary64 fl} (hln : LnZero ln) {xs : List (Fin n → IE binary64 fl)}
    {ys : List ℕ} {x : Fin n → IE binary64 fl} {c : Fin k} {v : IE binary64 fl}
    (hc : (Qda.fit k xs ys).score ln x c = some v) (hv : IE.inf true < v) : ∃ d ∈ xs.zip ys, d.2 = (Qda.fit k xs ys).predict ln x := by
  rcases C232_qda (k := k) hln (xs := xs) (ys := ys) x with ⟨r, e, hr, -⟩ | ⟨-, hno⟩
  · rw [e]
    exact hr
  · exact absurd hv (hno c v hc)

/-- A query between the examples: the class predicted is theirs, whatever the logarithm gives for 1. -/
theorem two_predict (h : Rounds binary64 fl) {ln : IE binary64 fl → IE binary64 fl} (hz : LnZero ln) (hln : LnOk ln) :
    (Lda.fit 2 (two (fl := fl)) [1, 1]).predict ln (fun _ => IE.num 4) = 1 := by
  obtain ⟨a, ea, -, hb⟩ := hln 1 (by simpa using pow_finite (e := 0) (by norm_num) (by norm_num)) one_pos
  have es : (Lda.fit 2 (two (fl := fl)) [1, 1]).score ln (fun _ => IE.num 4) 1 = some (IE.ofReal (4 + a)) := by
    rw [two_score h, mul_num, ofReal_halves h 16 (by norm_num) (by norm_num), add_num, ofReal_halves h 16 (by norm_num) (by norm_num), sub_num,
      ofReal_halves h 8 (by norm_num) (by norm_num), ea, add_num]
    norm_num
  obtain ⟨v, ev, -⟩ := ofReal_below (F := binary64) (by decide) (by decide) h (c := 11) (by decide) (x := 4 + a)
    ((abs_add_le _ _).trans (by norm_num at hb ⊢; linarith))
  rw [ev] at es
  rcases C232_lda (k := 2) h hz (xs := two) (ys := [1, 1]) (by norm_num [two]) (fun _ => IE.num 4) with ⟨c, e, ⟨d, hd, hdc⟩, -⟩ | ⟨-, hno⟩
  · rw [e, ← hdc]
    simp only [two, List.zip_cons_cons, List.zip_nil_right, List.mem_cons, List.not_mem_nil, or_false] at hd
    rcases hd with rfl | rfl <;> rfl
  · exact absurd (show IE.inf true < IE.num v from rfl) (hno 1 _ es)

/-- **C233 fails** for a query far away from the data: all examples are of class 1, their covariance has an inverse, and the class predicted is 0. -/
theorem C233_fails (h : Rounds binary64 fl) {ln : IE binary64 fl → IE binary64 fl} (hz : LnZero ln) (hln : LnOk ln) :
    Finite binary64 (-2 ^ (1023 : ℤ)) ∧ (inverse (Lda.fit 2 (two (fl := fl)) [1, 1]).pooled).isSome ∧
      (Lda.fit 2 (two (fl := fl)) [1, 1]).predict ln (fun _ => IE.num (-2 ^ (1023 : ℤ))) = 0 := by
  have hf := pow_finite (e := 1023) (by norm_num) (by norm_num)
  refine ⟨⟨hf.1.neg, by rw [abs_neg]; exact hf.2⟩, by rw [two_pooled h, inverse_two h]; rfl, ?_⟩
  obtain ⟨a, ea, -, hb⟩ := hln 1 (by simpa using pow_finite (e := 0) (by norm_num) (by norm_num)) one_pos
  have eo : (IE.ofReal (-2 ^ (1023 : ℤ) * 2) : IE binary64 fl) = IE.inf true := by
    have e2 : (-2 ^ (1023 : ℤ) * 2 : ℝ) = -2 ^ (1024 : ℤ) := by
      rw [show (1024 : ℤ) = 1023 + 1 by norm_num, zpow_add_one₀ (by norm_num)]
      ring
    have g : OnGrid binary64 (-2 ^ (1024 : ℤ)) := (onGrid_pow (F := binary64) (by decide) (by decide)).neg
    have hpos : (0 : ℝ) < 2 ^ (1024 : ℤ) := zpow_pos (by norm_num) _
    rw [e2]
    unfold IE.ofReal
    rw [h.fix g, if_neg (by rw [abs_neg, abs_of_pos hpos]; exact lt_irrefl _), decide_eq_true (neg_neg_of_pos hpos)]
  have es : (Lda.fit 2 (two (fl := fl)) [1, 1]).score ln (fun _ => IE.num (-2 ^ (1023 : ℤ))) 1 = some (IE.inf true) := by
    rw [two_score h, mul_num, eo, ea]
    rfl
  rcases C232_lda (k := 2) h hz (xs := two) (ys := [1, 1]) (by norm_num [two]) (fun _ => IE.num (-2 ^ (1023 : ℤ))) with ⟨c, e, ⟨d, hd, hdc⟩, v, ev, hv, -⟩ | ⟨e, -⟩
  · exfalso
    have hc : c = 1 := by
      apply Fin.ext
      rw [← hdc]
      simp only [two, List.zip_cons_cons, List.zip_nil_right, List.mem_cons, List.not_mem_nil, or_false] at hd
      rcases hd with rfl | rfl <;> rfl
    rw [hc, es] at ev
    cases ev
    exact Bool.noConfusion hv.2
  · exact e

/-- The exact logarithm, rounded, with the two special values, is one the theorems are about. -/
example (h : Rounds binary64 fl) : ∃ ln : IE binary64 fl → IE binary64 fl, LnZero ln ∧ LnOk ln := by
  classical
  refine ⟨fun a => if a = IE.num 0 then IE.inf true else if a = IE.nan then IE.nan else IE.ofReal (Real.log a.real), ⟨if_pos rfl, ?_⟩, ?_⟩
  · dsimp only
    rw [if_neg (by simp [IE.nan, IE.num]), if_pos rfl]
  · intro x hx hpos
    dsimp only
    rw [if_neg (by simp [IE.num, hpos.ne']), if_neg (by simp [IE.nan, IE.num])]
    exact lnOk_exact h x hx hpos

end Verif.ML.Ie
