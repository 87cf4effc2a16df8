import Verif.Float.Eval
import Verif.Float.Interp

/-!
# C127: the cubic spline in floating point
-/

namespace Verif.Float

open Classical

variable {fl : ℝ → ℝ} {lib : Libm} {p : ℕ}

/-! ## Segment spl_search -/

theorem spl_rd_num {n : ℕ} (xs : ℕ → ℝ) {i : ℕ} (h : i < n) :
    rd n (fun i => (CF.num (xs i) : CF fl lib)) i = some (CF.num (xs i)) := if_pos h

theorem spl_search (n : ℕ) (xs : ℕ → ℝ) (x : ℝ) : ∀ (d lo hi : ℕ), hi - lo ≤ d → lo < hi → hi < n →
    (∃ k, searchLoop n (fun i => (CF.num (xs i) : CF fl lib)) (CF.num x) lo hi = some k ∧ lo ≤ k ∧ k < hi ∧
      (k = lo ∨ xs k ≤ x) ∧ (k + 1 = hi ∨ x < xs (k + 1)))
  | 0, lo, hi, hd, h, _ => by omega
  | d + 1, lo, hi, hd, h, hn => by
    rw [searchLoop]
    by_cases hl : lo + 1 < hi
    · rw [dif_pos hl]
      have hm : (lo + hi) / 2 < n := by omega
      rw [spl_rd_num xs hm]
      simp only [Option.bind_eq_bind, Option.bind_some]
      rw [cf_le]
      by_cases hv : xs ((lo + hi) / 2) ≤ x
      · rw [if_pos hv]
        obtain ⟨k, e, h1, h2, h3, h4⟩ := spl_search n xs x d ((lo + hi) / 2) hi (by omega) (by omega) hn
        refine ⟨k, e, by omega, h2, ?_, h4⟩
        rcases h3 with h3 | h3
        · exact Or.inr (h3 ▸ hv)
        · exact Or.inr h3
      · rw [if_neg hv]
        obtain ⟨k, e, h1, h2, h3, h4⟩ := spl_search n xs x d lo ((lo + hi) / 2) (by omega) (by omega) (by omega)
        refine ⟨k, e, h1, by omega, h3, ?_⟩
        rcases h4 with h4 | h4
        · exact Or.inr (h4 ▸ not_le.1 hv)
        · exact Or.inr h4
    · rw [dif_neg hl]
      exact ⟨lo, rfl, le_rfl, h, Or.inl rfl, Or.inl (by omega)⟩

theorem spl_segment {n : ℕ} {xs : ℕ → ℝ} (hn : 2 ≤ n) (hx : ∀ i j, i < j → j < n → xs i < xs j) (x : ℝ) :
    ∃ k, segmentIndex n (fun i => (CF.num (xs i) : CF fl lib)) (CF.num x) = some k ∧ k + 1 < n ∧
      (∀ i, i < n → x = xs i → i = k ∨ (i = k + 1 ∧ k + 2 = n)) := by
  unfold segmentIndex
  have h0 : 0 < n := by omega
  have h1 : n - 1 < n := by omega
  rw [spl_rd_num xs h0, spl_rd_num xs h1]
  simp only [Option.bind_eq_bind, Option.bind_some]
  rw [cf_le]
  have inj : ∀ i j, i < n → j < n → xs i ≤ xs j → i ≤ j := by
    intro i j hi hj h
    by_contra hc
    exact absurd (hx j i (by omega) hi) (not_lt.2 h)
  by_cases ha : x ≤ xs 0
  · rw [if_pos ha]
    refine ⟨0, rfl, by omega, fun i hi e => Or.inl ?_⟩
    have := inj i 0 hi h0 (e ▸ ha)
    omega
  · rw [if_neg ha]
    simp only [cf_le]
    by_cases hb : xs (n - 1) ≤ x
    · rw [if_pos hb]
      refine ⟨n - 2, rfl, by omega, fun i hi e => Or.inr ?_⟩
      have := inj (n - 1) i h1 hi (e ▸ hb)
      omega
    · rw [if_neg hb]
      obtain ⟨k, e, h2, h3, h4, h5⟩ := spl_search (fl := fl) (lib := lib) n xs x n 0 (n - 1) (by omega) (by omega) (by omega)
      refine ⟨k, e, by omega, fun i hi e => Or.inl ?_⟩
      subst e
      have i1 : k ≤ i := by
        rcases h4 with h4 | h4
        · omega
        · exact inj k i (by omega) hi h4
      have i2 : i < n - 1 := by
        by_contra hc
        have : i = n - 1 := by omega
        exact hb (this ▸ le_rfl)
      rcases h5 with h5 | h5
      · omega
      · by_contra hc
        exact absurd h5 (not_lt.2 (by
          rcases Nat.lt_or_ge (k + 1) i with h6 | h6
          · exact (hx _ _ h6 hi).le
          · have : k + 1 = i := by omega
            rw [this]))

/-! ## The spl_sweep -/

theorem spl_lit_num (x : ℝ) : (Lit.lit x : CF fl lib) = CF.num (fl x) := rfl

theorem spl_update_all {α : Type*} (P : α → Prop) {f : ℕ → α} {i : ℕ} {v : α} (hf : ∀ j, P (f j)) (hv : P v) :
    ∀ j, P (Function.update f i v j) := by
  intro j
  rw [Function.update_apply]
  by_cases h : j = i
  · rw [if_pos h]; exact hv
  · rw [if_neg h]; exact hf j

theorem spl_isFloat_two (hp : 1 ≤ p) : IsFloat p 2 := by
  have := isFloat_zpow hp 1
  simpa using this

theorem spl_step (h : Nearest p fl) (hp : 1 ≤ p) {n : ℕ} {xs ys : ℕ → ℝ}
    (hx : ∀ i j, i < j → j < n → xs i < xs j) {s : (ℕ → CF fl lib) × (ℕ → CF fl lib)}
    (h1 : ∀ i, ∃ r, s.1 i = CF.num r ∧ -1 ≤ r ∧ r ≤ 0) (h2 : ∀ i, ∃ r, s.2 i = CF.num r) {i : ℕ} (hi0 : 0 < i)
    (hi : i + 1 < n) :
    (∀ j, ∃ r, (forwardStep (fun i => CF.num (xs i)) (fun i => CF.num (ys i)) s i).1 j = CF.num r ∧ -1 ≤ r ∧ r ≤ 0) ∧
      ∀ j, ∃ r, (forwardStep (fun i => CF.num (xs i)) (fun i => CF.num (ys i)) s i).2 j = CF.num r := by
  have d1 : 0 < xs i - xs (i - 1) := sub_pos.2 (hx _ _ (by omega) (by omega))
  have d2 : 0 < xs (i + 1) - xs (i - 1) := sub_pos.2 (hx _ _ (by omega) (by omega))
  have d3 : 0 < xs (i + 1) - xs i := sub_pos.2 (hx _ _ (by omega) (by omega))
  have f1 := h.pos hp d1
  have f2 := h.pos hp d2
  have f3 := h.pos hp d3
  obtain ⟨r, hr, r1, r2⟩ := h1 (i - 1)
  obtain ⟨v, hv⟩ := h2 (i - 1)
  have le12 : fl (xs i - xs (i - 1)) ≤ fl (xs (i + 1) - xs (i - 1)) := h.mono (by linarith)
  set sg := fl (fl (xs i - xs (i - 1)) / fl (xs (i + 1) - xs (i - 1))) with hsg
  have s0 : 0 ≤ sg := h.nonneg (div_nonneg f1.le f2.le)
  have s1 : sg ≤ 1 := h.le_float (isFloat_one hp) ((div_le_one f2).2 le12)
  have e2 : fl 2 = 2 := h.fix (spl_isFloat_two hp)
  have e1 : fl 1 = 1 := h.fix (isFloat_one hp)
  set pp := fl (fl (sg * r) + 2) with hpp
  have p1 : 1 ≤ pp := by
    refine h.float_le (isFloat_one hp) ?_
    have : -1 ≤ fl (sg * r) := h.float_le (isFloat_one hp).neg (by nlinarith)
    linarith
  have q1 : -1 ≤ fl (sg - 1) := h.float_le (isFloat_one hp).neg (by linarith)
  have q2 : fl (sg - 1) ≤ 0 := h.le_float isFloat_zero (by linarith)
  have hfs : forwardStep (fun i => (CF.num (xs i) : CF fl lib)) (fun i => CF.num (ys i)) s i =
      (Function.update s.1 i (CF.num (fl (fl (sg - 1) / pp))), Function.update s.2 i (CF.num (fl
        (fl (fl (fl (fl 6 * fl (fl (fl (ys (i + 1) - ys i) / fl (xs (i + 1) - xs i)) -
          fl (fl (ys i - ys (i - 1)) / fl (xs i - xs (i - 1))))) / fl (xs (i + 1) - xs (i - 1))) - fl (sg * v)) / pp)))) := by
    unfold forwardStep
    dsimp only
    simp only [hr, hv, cf_sub, spl_lit_num, e1, e2]
    rw [cf_div _ f2.ne', cf_div _ f3.ne', cf_div _ f1.ne']
    simp only [cf_sub, cf_mul]
    rw [cf_div _ f2.ne']
    simp only [cf_sub, cf_add, ← hsg, ← hpp]
    rw [cf_div _ (by linarith), cf_div _ (by linarith)]
  rw [hfs]
  constructor
  · refine spl_update_all (fun v => ∃ r, v = CF.num r ∧ -1 ≤ r ∧ r ≤ 0) h1 ⟨_, rfl, ?_, ?_⟩
    · refine h.float_le (isFloat_one hp).neg ?_
      rw [le_div_iff₀ (by linarith)]
      linarith
    · exact h.le_float isFloat_zero (div_nonpos_of_nonpos_of_nonneg q2 (by linarith))
  · exact spl_update_all (fun v => ∃ r, v = CF.num r) h2 ⟨_, rfl⟩

theorem spl_sweep (h : Nearest p fl) (hp : 1 ≤ p) {n : ℕ} {xs ys : ℕ → ℝ}
    (hx : ∀ i j, i < j → j < n → xs i < xs j) : ∀ l : List ℕ, (∀ i ∈ l, 0 < i ∧ i + 1 < n) →
    ∀ s : (ℕ → CF fl lib) × (ℕ → CF fl lib),
    (∀ i, ∃ r, s.1 i = CF.num r ∧ -1 ≤ r ∧ r ≤ 0) → (∀ i, ∃ r, s.2 i = CF.num r) →
    (∀ j, ∃ r, (l.foldl (forwardStep (fun i => CF.num (xs i)) (fun i => CF.num (ys i))) s).1 j = CF.num r) ∧
      ∀ j, ∃ r, (l.foldl (forwardStep (fun i => CF.num (xs i)) (fun i => CF.num (ys i))) s).2 j = CF.num r
  | [], _, s, h1, h2 => ⟨fun j => (h1 j).imp fun _ h => h.1, h2⟩
  | i :: l, hl, s, h1, h2 => by
    have := spl_step (ys := ys) h hp hx h1 h2 (hl i (by simp)).1 (hl i (by simp)).2
    exact spl_sweep h hp hx l (fun j hj => hl j (by simp [hj])) _ this.1 this.2

theorem spl_backward {u : ℕ → CF fl lib} (hu : ∀ i, ∃ r, u i = CF.num r) : ∀ (l : List ℕ) (sd : ℕ → CF fl lib),
    (∀ i, ∃ r, sd i = CF.num r) → ∀ i, ∃ r, l.foldl (backwardStep u) sd i = CF.num r
  | [], _, h => h
  | k :: l, sd, h => by
    refine spl_backward hu l _ (spl_update_all (fun v => ∃ r, v = CF.num r) h ?_)
    obtain ⟨a, ha⟩ := h k
    obtain ⟨b, hb⟩ := h (k + 1)
    obtain ⟨c, hc⟩ := hu k
    rw [ha, hb, hc, cf_mul, cf_add]
    exact ⟨_, rfl⟩

theorem spl_new_num (h : Nearest p fl) (hp : 1 ≤ p) {n : ℕ} (hn : 2 ≤ n) {xs ys : ℕ → ℝ}
    (hx : ∀ i j, i < j → j < n → xs i < xs j) :
    ∃ m : ℕ → ℝ, Spline.new n (fun i => (CF.num (xs i) : CF fl lib)) (fun i => CF.num (ys i)) =
      some ⟨fun i => CF.num (xs i), fun i => CF.num (ys i), fun i => CF.num (m i)⟩ := by
  unfold Spline.new
  rw [if_neg (by omega), if_neg]
  · have hf := spl_sweep (lib := lib) (ys := ys) h hp hx (List.range' 1 (n - 2)) (by
      intro i hi
      rw [List.mem_range'_1] at hi
      omega) (fun _ => 0, fun _ => 0) (fun _ => ⟨0, rfl, by norm_num, le_rfl⟩) (fun _ => ⟨0, rfl⟩)
    choose m hm using spl_backward hf.2 (List.range (n - 1)).reverse _ hf.1
    refine ⟨m, ?_⟩
    dsimp only
    congr 2
    funext i
    exact hm i
  · intro hc
    rw [List.any_eq_true] at hc
    obtain ⟨i, hi, hd⟩ := hc
    rw [List.mem_range] at hi
    have := (cf_le _ _).1 (of_decide_eq_true hd)
    exact absurd (hx i (i + 1) (by omega) (by omega)) (not_lt.2 this)

theorem spl_piece_num (h : Nearest p fl) (hp : 1 ≤ p) (xs ys m : ℕ → ℝ) (k : ℕ) (hk : xs k < xs (k + 1)) (x : ℝ) :
    (⟨fun i => CF.num (xs i), fun i => CF.num (ys i), fun i => CF.num (m i)⟩ : Spline (CF fl lib)).piece k (CF.num x) =
      let d := fl (xs (k + 1) - xs k)
      let a := fl (fl (xs (k + 1) - x) / d)
      let b := fl (fl (x - xs k) / d)
      CF.num (fl (fl (fl (a * ys k) + fl (b * ys (k + 1))) + fl (fl (fl (fl (fl (fl (a * a) * a) - a) * m k) +
        fl (fl (fl (fl (b * b) * b) - b) * m (k + 1))) * fl (fl (d * d) / fl 6)))) := by
  have hd := (h.pos hp (sub_pos.2 hk)).ne'
  have h6 : fl 6 ≠ 0 := (h.pos hp (by norm_num)).ne'
  unfold Spline.piece
  dsimp only
  simp only [cf_sub]
  rw [cf_div _ hd, cf_div _ hd]
  simp only [cf_sub, cf_mul, cf_add, spl_lit_num]
  rw [cf_div _ h6]
  simp only [cf_mul, cf_add]

theorem spl_eval_num {n : ℕ} (hn : 2 ≤ n) {xs : ℕ → ℝ} (hx : ∀ i j, i < j → j < n → xs i < xs j)
    (ys m : ℕ → CF fl lib) (x : ℝ) :
    ∃ k, k + 1 < n ∧ (∀ i, i < n → x = xs i → i = k ∨ (i = k + 1 ∧ k + 2 = n)) ∧
      Spline.evaluate n ⟨fun i => (CF.num (xs i) : CF fl lib), ys, m⟩ (CF.num x) =
        some (Spline.piece ⟨fun i => (CF.num (xs i) : CF fl lib), ys, m⟩ k (CF.num x)) := by
  obtain ⟨k, e, h1, h2⟩ := spl_segment (fl := fl) (lib := lib) hn hx x
  refine ⟨k, h1, h2, ?_⟩
  unfold Spline.evaluate
  dsimp only
  rw [e]
  simp only [Option.bind_eq_bind, Option.bind_some]
  rw [spl_rd_num xs (show k < n by omega), spl_rd_num xs h1]
  rfl

theorem spl_increasing {n : ℕ} {xs : ℕ → ℝ} (hx : ∀ i, i + 1 < n → xs i < xs (i + 1)) :
    ∀ i j, i < j → j < n → xs i < xs j := by
  intro i j hij
  induction j with
  | zero => omega
  | succ j ih =>
    intro hj
    rcases Nat.lt_succ_iff_lt_or_eq.1 hij with h3 | rfl
    · exact (ih h3 (by omega)).trans (hx j hj)
    · exact hx i hj

/-- **C127**: through at least two points with strictly spl_increasing first coordinates a spline can be built, and for
every number `x` its value is a number: no division by zero, for any rounding to nearest. -/
theorem C127_number (h : Nearest p fl) (hp : 1 ≤ p) {n : ℕ} (hn : 2 ≤ n) {xs ys : ℕ → ℝ}
    (hx : ∀ i, i + 1 < n → xs i < xs (i + 1)) :
    ∃ s, Spline.new n (fun i => (CF.num (xs i) : CF fl lib)) (fun i => CF.num (ys i)) = some s ∧
      ∀ x : ℝ, ∃ y : ℝ, s.evaluate n (CF.num x) = some (CF.num y) := by
  have hx' := spl_increasing hx
  obtain ⟨m, e⟩ := spl_new_num (lib := lib) (ys := ys) h hp hn hx'
  refine ⟨_, e, fun x => ?_⟩
  obtain ⟨k, h1, -, h3⟩ := spl_eval_num (fl := fl) (lib := lib) hn hx' (fun i => CF.num (ys i)) (fun i => CF.num (m i)) x
  rw [h3, spl_piece_num h hp xs ys m k (hx k h1) x]
  exact ⟨_, rfl⟩

/-- **C127**: at every knot the value of the spline is the given one, without any rounding error. -/
theorem C127_knots (h : Nearest p fl) (hp : 1 ≤ p) {n : ℕ} (hn : 2 ≤ n) {xs ys : ℕ → ℝ}
    (hx : ∀ i, i + 1 < n → xs i < xs (i + 1)) (hy : ∀ i, i < n → IsFloat p (ys i)) :
    ∃ s, Spline.new n (fun i => (CF.num (xs i) : CF fl lib)) (fun i => CF.num (ys i)) = some s ∧
      ∀ i, i < n → s.evaluate n (CF.num (xs i)) = some (CF.num (ys i)) := by
  have hx' := spl_increasing hx
  obtain ⟨m, e⟩ := spl_new_num (lib := lib) (ys := ys) h hp hn hx'
  refine ⟨_, e, fun i hi => ?_⟩
  obtain ⟨k, h1, h2, h3⟩ := spl_eval_num (fl := fl) (lib := lib) hn hx' (fun i => CF.num (ys i)) (fun i => CF.num (m i)) (xs i)
  have hd := (h.pos hp (sub_pos.2 (hx k h1))).ne'
  have f0 : fl 0 = 0 := h.fix isFloat_zero
  have f1 : fl 1 = 1 := h.fix (isFloat_one hp)
  rw [h3, spl_piece_num h hp xs ys m k (hx k h1) (xs i)]
  dsimp only
  rcases h2 i hi rfl with e | ⟨e, -⟩
  · subst e
    rw [sub_self, f0, zero_div, f0, div_self hd, f1]
    simp only [mul_one, zero_mul, one_mul, f0, f1, sub_self, add_zero, h.fix (hy i hi)]
  · subst e
    rw [sub_self, f0, zero_div, f0, div_self hd, f1]
    simp only [mul_one, zero_mul, one_mul, f0, f1, sub_self, add_zero, zero_add, h.fix (hy _ hi)]

/-- Three unevenly spaced knots and values, in double precision. -/
example : (2 : ℕ) ≤ 3 ∧ (∀ i, i + 1 < 3 → (fun i : ℕ => ((i : ℝ) ^ 2)) i < (fun i : ℕ => ((i : ℝ) ^ 2)) (i + 1)) ∧
    Nearest 53 (rnd 53) ∧ ∀ i, i < 3 → IsFloat 53 ((fun i : ℕ => (2 : ℝ) ^ (i : ℤ)) i) := by
  refine ⟨by norm_num, fun i hi => ?_, rnd_nearest (by norm_num), fun i _ => isFloat_zpow (by norm_num) _⟩
  push_cast
  nlinarith [(Nat.cast_nonneg i : (0 : ℝ) ≤ i)]

end Verif.Float
