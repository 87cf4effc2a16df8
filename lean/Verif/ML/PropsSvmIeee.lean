import Verif.ML.SvmIeee
import Verif.ML.PropsLogisticIeee

/-!
# The linear support vector machine in machine arithmetic (C234)
-/

namespace Verif.ML.Ie

open Verif.Ieee

variable {fl : ℝ → ℝ} {n : ℕ}

theorem ofReal_fl (h : Rounds binary64 fl) {c : ℕ} (hc : c < 1024) {x : ℝ} (hx : |x| ≤ 2 ^ c) :
    (IE.ofReal x : IE binary64 fl) = IE.num (fl x) ∧ Finite binary64 (fl x) ∧ |fl x| ≤ 2 ^ c := by
  obtain ⟨y, e, hf, hb⟩ := ofReal_below (F := binary64) (by decide) (by decide) h (c := c) (by change (c : ℤ) < 1024; omega) hx
  by_cases hlt : |fl x| < 2 ^ binary64.emax
  · rw [ofReal_num hlt, num_inj] at e
    rw [ofReal_num hlt, e]
    exact ⟨rfl, hf, hb⟩
  · obtain ⟨s, es⟩ := ofReal_inf (F := binary64) hlt
    rw [es] at e
    cases e

/-- The size of the update, in real numbers. -/
theorem update_size {u t G E κ η a r s p : ℝ} (_hu0 : 0 ≤ u) (hu : u ≤ 1 / 1000) (ht : 0 ≤ t) (hG : 0 ≤ G) (hη : 0 ≤ η) (hκ : 0 ≤ κ) (ha : 0 ≤ a)
    (hηκ : η * κ ≤ 3 / 2) (hηG : η * G ≤ E) (hηt : η * t ≤ E / 1000) (htE : t ≤ E / 1000)
    (hr : r ≤ (1 + u) * (κ * a) + t) (hs : s ≤ (1 + u) * (G + r) + t) (hp : p ≤ (1 + u) * (η * s) + t) (hr0 : 0 ≤ r) (hs0 : 0 ≤ s) :
    p ≤ 101 / 100 * E + 76 / 50 * a := by
  have h1 : η * r ≤ 1001 / 1000 * (3 / 2 * a) + E / 1000 := by
    have e1 := mul_le_mul_of_nonneg_left hr hη
    have e2 : η * κ * a ≤ 3 / 2 * a := mul_le_mul_of_nonneg_right hηκ ha
    have e3 : (1 + u) * (η * κ * a) ≤ 1001 / 1000 * (3 / 2 * a) :=
      mul_le_mul (by linarith) e2 (by positivity) (by norm_num)
    calc η * r ≤ η * ((1 + u) * (κ * a) + t) := e1
      _ = (1 + u) * (η * κ * a) + η * t := by ring
      _ ≤ _ := by linarith
  have hE : 0 ≤ E := le_trans (mul_nonneg hη hG) hηG
  have h2 : η * s ≤ 1001 / 1000 * (E + (1001 / 1000 * (3 / 2 * a) + E / 1000)) + E / 1000 := by
    have e1 := mul_le_mul_of_nonneg_left hs hη
    have e3 : (1 + u) * (η * G + η * r) ≤ 1001 / 1000 * (E + (1001 / 1000 * (3 / 2 * a) + E / 1000)) :=
      mul_le_mul (by linarith) (by linarith) (by positivity) (by norm_num)
    calc η * s ≤ η * ((1 + u) * (G + r) + t) := e1
      _ = (1 + u) * (η * G + η * r) + η * t := by ring
      _ ≤ _ := by linarith
  have h3 : (1 + u) * (η * s) ≤ 1001 / 1000 * (1001 / 1000 * (E + (1001 / 1000 * (3 / 2 * a) + E / 1000)) + E / 1000) :=
    mul_le_mul (by linarith) h2 (by positivity) (by norm_num)
  linarith

theorem round_size (h : Rounds binary64 fl) (x : ℝ) : |fl x| ≤ (1 + unit binary64) * |x| + tiny binary64 := by
  have := h.err (by decide) x
  have e : fl x = (fl x - x) + x := by ring
  calc |fl x| ≤ |fl x - x| + |x| := by
        conv_lhs => rw [e]
        exact abs_add_le _ _
    _ ≤ _ := by linarith

/-- One update of a weight. -/
theorem weight_step (h : Rounds binary64 fl) {j l c r : ℕ} (hj1 : 1 ≤ j) (hj : j + 1 ≤ 2 ^ 53) (hr : 2 * l + c + r ≤ 960) {η κ : ℝ} (hη : 0 ≤ η)
    (hηl : η ≤ 2 ^ l) (hκ : 0 ≤ κ) (hκr : κ ≤ 2 ^ r) (hηκ : η * κ ≤ 3 / 2) {w g : IE binary64 fl} (hw : Times j (l + c) w) (hg : Below c g) :
    Times (j + 1) (l + c) (w - IE.num η * (g + IE.num κ * w)) := by
  have hwb := hw.below (show j ≤ 2 ^ 53 by omega)
  obtain ⟨w, rfl, -, hw⟩ := hw
  obtain ⟨w', e, -, hwb⟩ := hwb
  rw [num_inj] at e
  subst e
  obtain ⟨g, rfl, -, hg⟩ := hg
  rw [mul_num]
  obtain ⟨e1, -, b1⟩ := ofReal_fl (fl := fl) h (c := r + (53 + (l + c))) (x := κ * w) (by omega) (by
    rw [abs_mul, abs_of_nonneg hκ, pow_add]
    exact mul_le_mul hκr hwb (abs_nonneg _) (by positivity))
  rw [e1, add_num]
  obtain ⟨e2, -, b2⟩ := ofReal_fl (fl := fl) h (c := r + (53 + (l + c)) + 1) (x := g + fl (κ * w)) (by omega) (by
    refine (abs_add_le _ _).trans ?_
    have : (2 : ℝ) ^ c ≤ 2 ^ (r + (53 + (l + c))) := pow_le_pow_right₀ (by norm_num) (by omega)
    rw [pow_succ]
    linarith)
  rw [e2, mul_num]
  obtain ⟨e3, -, b3⟩ := ofReal_fl (fl := fl) h (c := l + (r + (53 + (l + c)) + 1)) (x := η * fl (g + fl (κ * w))) (by omega) (by
    rw [abs_mul, abs_of_nonneg hη, pow_add (2 : ℝ) l]
    exact mul_le_mul hηl b2 (abs_nonneg _) (by positivity))
  rw [e3, sub_num]
  set s := fl (g + fl (κ * w)) with hs
  set p := fl (η * s) with hp
  have hE1 : (1 : ℝ) ≤ 2 ^ (l + c) := one_le_pow₀ (by norm_num)
  have hjW : (2 : ℝ) ^ (l + c) ≤ j * 2 ^ (l + c) := le_mul_of_one_le_left (by positivity) (by exact_mod_cast hj1)
  have ht : tiny binary64 ≤ 1 / 1000 := by
    unfold tiny
    calc (2 : ℝ) ^ (binary64.emin - 1) ≤ 2 ^ (-10 : ℤ) := zpow_le_zpow_right₀ (by norm_num) (by decide)
      _ ≤ 1 / 1000 := by norm_num [zpow_neg]
  have hu : unit binary64 ≤ 1 / 1000 := by
    unfold unit
    calc (2 : ℝ) ^ (-(binary64.p : ℤ)) ≤ 2 ^ (-10 : ℤ) := zpow_le_zpow_right₀ (by norm_num) (by decide)
      _ ≤ 1 / 1000 := by norm_num [zpow_neg]
  have hηE : η * 2 ^ c ≤ 2 ^ (l + c) := by
    rw [pow_add]
    exact mul_le_mul_of_nonneg_right hηl (by positivity)
  have hsize : |p| ≤ 101 / 100 * 2 ^ (l + c) + 76 / 50 * |w| := by
    refine update_size (u := unit binary64) (t := tiny binary64) (G := 2 ^ c) (κ := κ) (η := η) (r := |fl (κ * w)|) (s := |s|) unit_pos.le hu
      tiny_pos.le (by positivity) hη hκ (abs_nonneg _) hηκ hηE ?_ ?_ ?_ ?_ ?_ (abs_nonneg _) (abs_nonneg _)
    · have h1 : η * tiny binary64 ≤ 2 ^ l * (1 / 1000) := mul_le_mul hηl ht tiny_pos.le (by positivity)
      have h2 : (2 : ℝ) ^ l ≤ 2 ^ (l + c) := pow_le_pow_right₀ (by norm_num) (by omega)
      linarith
    · linarith
    · have := round_size h (κ * w)
      rwa [abs_mul, abs_of_nonneg hκ] at this
    · refine (round_size h _).trans ?_
      have h1 : |g + fl (κ * w)| ≤ 2 ^ c + |fl (κ * w)| := (abs_add_le _ _).trans (by linarith)
      have := mul_le_mul_of_nonneg_left h1 (show 0 ≤ 1 + unit binary64 by have := unit_pos (F := binary64); linarith)
      linarith
    · have := round_size h (η * s)
      rwa [abs_mul, abs_of_nonneg hη] at this
  have gc : OnGrid binary64 ((2 : ℝ) ^ c) := by
    have := onGrid_pow (F := binary64) (by decide) (e := (c : ℤ)) (by change (-1074 : ℤ) ≤ c; omega)
    rwa [zpow_natCast] at this
  have ge : OnGrid binary64 ((2 : ℝ) ^ (l + c)) := by
    have := onGrid_pow (F := binary64) (by decide) (e := ((l + c : ℕ) : ℤ)) (by change (-1074 : ℤ) ≤ ((l + c : ℕ) : ℤ); omega)
    rwa [zpow_natCast] at this
  have hg' := abs_le.1 hg
  have hw' := abs_le.1 hw
  have fz : fl 0 = 0 := h.fix onGrid_zero
  refine ofReal_times h hj (times_bound (e := 53) hj (by omega)) ?_
  push_cast
  rw [add_mul, one_mul, abs_le]
  rcases le_total 0 w with h0 | h0
  · rw [abs_of_nonneg h0] at hsize
    have hr0 : 0 ≤ fl (κ * w) := by
      have := h.mono (mul_nonneg hκ h0)
      rwa [fz] at this
    have hs0 : -2 ^ c ≤ s := by
      have := h.mono (show -2 ^ c ≤ g + fl (κ * w) by linarith)
      rwa [h.fix gc.neg] at this
    have hp0 : -2 ^ (l + c) ≤ p := by
      have h1 : -2 ^ (l + c) ≤ η * s := by nlinarith
      have := h.mono h1
      rwa [h.fix ge.neg] at this
    have := (abs_le.1 hsize).2
    constructor <;> linarith
  · rw [abs_of_nonpos h0] at hsize
    have hr0 : fl (κ * w) ≤ 0 := by
      have := h.mono (mul_nonpos_of_nonneg_of_nonpos hκ h0)
      rwa [fz] at this
    have hs0 : s ≤ 2 ^ c := by
      have := h.mono (show g + fl (κ * w) ≤ 2 ^ c by linarith)
      rwa [h.fix gc] at this
    have hp0 : p ≤ 2 ^ (l + c) := by
      have h1 : η * s ≤ 2 ^ (l + c) := by nlinarith
      have := h.mono h1
      rwa [h.fix ge] at this
    have := (abs_le.1 hsize).1
    constructor <;> linarith

/-- The gradient sums, whatever the margins are. -/
theorem svm_accum (h : Rounds binary64 fl) {c : ℕ} (hc : c ≤ 960) (o : Svm fl n) : ∀ (data : List ((Fin n → IE binary64 fl) × ℤ)) (k : ℕ)
    (g : (Fin n → IE binary64 fl) × IE binary64 fl), (∀ d ∈ data, ∀ i, Below c (d.1 i)) → k + data.length ≤ 2 ^ 53 → (∀ i, Times k c (g.1 i)) → Times k 0 g.2 →
    (∀ i, Times (k + data.length) c ((data.foldl o.accum g).1 i)) ∧ Times (k + data.length) 0 (data.foldl o.accum g).2 := by
  intro data
  induction data with
  | nil => intro k g _ _ h1 h2; exact ⟨h1, h2⟩
  | cons d t ih =>
    intro k g hd hk h1 h2
    rw [List.length_cons] at hk ⊢
    rw [List.foldl_cons, show k + (t.length + 1) = k + 1 + t.length by omega]
    have z : ∀ c, Below c (0 : IE binary64 fl) := fun c => ⟨0, rfl, fin_zero, by simp⟩
    have hy : Below 0 (-(if d.2 ≥ 0 then 1 else -1) : IE binary64 fl) := by
      split_ifs
      · exact ⟨-1, rfl, fin_neg fin_one, by simp⟩
      · exact ⟨- -1, rfl, by rw [neg_neg]; exact fin_one, by simp⟩
    refine ih (k + 1) _ (fun d' hd' => hd d' (List.mem_cons_of_mem _ hd')) (by omega) (fun i => ?_) ?_
    · unfold Svm.accum
      dsimp only
      generalize (if d.2 ≥ 0 then 1 else -1 : IE binary64 fl) = y at hy ⊢
      split_ifs with hm
      · exact (h1 i).add h (z c) (by omega) (times_bound (e := 53) (by omega) (by omega))
      · have := Below.mul (by decide) (by decide) h hy (hd d (by simp) i) (by change ((0 + c : ℕ) : ℤ) < 1024; omega)
        rw [zero_add] at this
        exact (h1 i).add h this (by omega) (times_bound (e := 53) (by omega) (by omega))
    · unfold Svm.accum
      dsimp only
      generalize (if d.2 ≥ 0 then 1 else -1 : IE binary64 fl) = y at hy ⊢
      split_ifs with hm
      · exact h2.add h (z 0) (by omega) (times_bound (e := 53) (by omega) (by omega))
      · exact h2.add h hy (by omega) (times_bound (e := 53) (by omega) (by omega))

/-- `T` epochs over the same data. -/
noncomputable def svmEpochs (o : Svm fl n) (xs : List (Fin n → IE binary64 fl)) (ys : List ℤ) (T : ℕ) : Svm fl n := (fun o => o.trainEpoch xs ys)^[T] o

/-! ## Property -/

/-- **C234**, moderate numbers: features of size at most `2 ^ c`, a learning rate between 0 and `2 ^ l`, initial parameters of size at most `2 ^ (l + c)` and
a regularisation factor `2 / (C m)`, as computed, between 0 and `2 ^ r`, where `2 l + c + r ≤ 960` and the rate times this factor is at most 3/2. After any
number `T` of epochs, as far as `T + 2 ≤ 2 ^ 53`, the parameters are finite numbers of size at most `(T + 1) 2 ^ (l + c)`.
Missing: larger numbers and factors (`C234_fails`). -/
theorem C234_partial (h : Rounds binary64 fl) {l c r : ℕ} (hr : 2 * l + c + r ≤ 960) (o : Svm fl n) {η κ : ℝ} (hlr : o.lr = IE.num η) (hη : 0 ≤ η)
    (hηl : η ≤ 2 ^ l) (xs : List (Fin n → IE binary64 fl)) (ys : List ℤ) (hx : ∀ x ∈ xs, ∀ i, Below c (x i)) (hm : xs.length ≤ 2 ^ 53)
    (hreg : (1 + 1) / (o.c * IE.ofCount xs.length) = IE.num κ) (hκ : 0 ≤ κ) (hκr : κ ≤ 2 ^ r) (hηκ : η * κ ≤ 3 / 2) (hηf : Finite binary64 η)
    (hw : ∀ i, Below (l + c) (o.weights i)) (hb : Below (l + c) o.bias) (T : ℕ) (hT : T + 2 ≤ 2 ^ 53) :
    (∀ i, ∃ w, (svmEpochs o xs ys T).weights i = IE.num w ∧ Finite binary64 w ∧ |w| ≤ (T + 1) * 2 ^ (l + c)) ∧
      ∃ b, (svmEpochs o xs ys T).bias = IE.num b ∧ Finite binary64 b ∧ |b| ≤ (T + 1) * 2 ^ (l + c) := by
  have one : ∀ {a : IE binary64 fl}, Below (l + c) a → Times (0 + 1) (l + c) a := by
    rintro a ⟨x, e, hf, hx⟩
    exact ⟨x, e, hf, by simpa using hx⟩
  have key : ∀ T, T + 2 ≤ 2 ^ 53 → (svmEpochs o xs ys T).lr = o.lr ∧ (svmEpochs o xs ys T).c = o.c ∧
      (∀ i, Times (T + 1) (l + c) ((svmEpochs o xs ys T).weights i)) ∧ Times (T + 1) (l + c) (svmEpochs o xs ys T).bias := by
    intro T
    induction T with
    | zero => exact fun _ => ⟨rfl, rfl, fun i => one (hw i), one hb⟩
    | succ T ih =>
      intro hT
      obtain ⟨i1, i2, i3, i4⟩ := ih (by omega)
      have es : svmEpochs o xs ys (T + 1) = (svmEpochs o xs ys T).trainEpoch xs ys := by
        unfold svmEpochs
        rw [Function.iterate_succ_apply']
      rw [es]
      set q := svmEpochs o xs ys T with hq
      unfold Svm.trainEpoch
      by_cases hl : xs.length = 0
      · rw [if_pos hl]
        have up : ∀ {a : IE binary64 fl}, Times (T + 1) (l + c) a → Times (T + 1 + 1) (l + c) a := by
          rintro a ⟨x, e, hf, hx⟩
          refine ⟨x, e, hf, hx.trans ?_⟩
          push_cast
          have : (0 : ℝ) < 2 ^ (l + c) := by positivity
          nlinarith
        exact ⟨i1, i2, fun i => up (i3 i), up i4⟩
      · rw [if_neg hl]
        have hzl : (xs.zip ys).length ≤ xs.length := by simp
        have hacc := svm_accum h (c := c) (by omega) q (xs.zip ys) 0 (fun _ => 0, 0) (fun d hd => hx d.1 (List.of_mem_zip hd).1) (by omega)
          (fun i => Times.zero c) (Times.zero 0)
        rw [zero_add] at hacc
        refine ⟨i1, i2, fun i => ?_, ?_⟩
        · dsimp only
          rw [i2, hreg, i1, hlr, count_exact h hm]
          exact weight_step h (by omega) (by omega) hr hη hηl hκ hκr hηκ (i3 i) (times_div h (hacc.1 i) hzl (by omega) (by omega))
        · dsimp only
          rw [i1, count_exact h hm]
          have h1 := times_div h hacc.2 hzl (by omega) (by omega)
          have h2 : Below l o.lr := ⟨η, hlr, hηf, by rw [abs_of_nonneg hη]; exact hηl⟩
          have h3 := (Below.mul (by decide) (by decide) h h2 h1 (by change ((l + 0 : ℕ) : ℤ) < 1024; omega)).mono (show l + 0 ≤ l + c by omega)
          exact times_sub h i4 h3 (by omega) (times_bound (e := 53) (by omega) (by omega))
  obtain ⟨-, -, h3, h4⟩ := key T hT
  have conv : ∀ {a : IE binary64 fl}, Times (T + 1) (l + c) a → ∃ x, a = IE.num x ∧ Finite binary64 x ∧ |x| ≤ (T + 1) * 2 ^ (l + c) := by
    rintro a ⟨x, e, hf, hx⟩
    exact ⟨x, e, hf, by exact_mod_cast hx⟩
  exact ⟨fun i => conv (h3 i), conv h4⟩

/-- The model `new()` with two or more examples of features up to 16 in size: the hypotheses are met. -/
example (h : Rounds binary64 fl) (x y : Fin 3 → IE binary64 fl) (hx : ∀ i, Below 4 (x i)) (hy : ∀ i, Below 4 (y i)) :
    ∀ i, IE.IsNum ((svmEpochs (Svm.new fl 3) [x, y] [1, -1] (2 ^ 52)).weights i) := by
  have f2 : Finite binary64 2 := by simpa using pow_finite (e := 1) (by norm_num) (by norm_num)
  have z : Below (0 + 4) (0 : IE binary64 fl) := ⟨0, rfl, fin_zero, by simp⟩
  have hreg : ((1 + 1) / ((Svm.new fl 3).c * IE.ofCount [x, y].length) : IE binary64 fl) = IE.num 1 := by
    change (IE.num 1 + IE.num 1) / (IE.num 1 * IE.ofCount 2) = _
    rw [count_exact h (by norm_num), mul_num, one_mul, add_num, Nat.cast_ofNat, one_add_one_eq_two, ofReal_finite h f2, div_num _ two_ne_zero,
      div_self two_ne_zero, ofReal_finite h fin_one]
  have := C234_partial h (l := 0) (c := 4) (r := 0) (by norm_num) (Svm.new fl 3) (η := 1) (κ := 1) rfl (by norm_num) (by norm_num) [x, y] [1, -1]
    (by
      intro v hv
      simp only [List.mem_cons, List.not_mem_nil, or_false] at hv
      rcases hv with rfl | rfl
      · exact hx
      · exact hy) (by norm_num) hreg (by norm_num) (by norm_num) (by norm_num) fin_one (fun _ => z) z (2 ^ 52) (by norm_num)
  intro i
  obtain ⟨w, e, hf, -⟩ := this.1 i
  exact ⟨w, e, hf⟩

/-! ## Strong regularisation -/

/-- A new model with strong regularisation. -/
noncomputable def strong (fl : ℝ → ℝ) : Svm fl 1 := { Svm.new fl 1 with c := IE.num (2 ^ (-1000 : ℤ)) }

theorem num_mul_one (h : Rounds binary64 fl) {x : ℝ} (hx : Finite binary64 x) : (IE.num 1 * IE.num x : IE binary64 fl) = IE.num x := by
  rw [mul_num, one_mul, ofReal_finite h hx]

theorem strong_reg (h : Rounds binary64 fl) : ((1 + 1) / (IE.num (2 ^ (-1000 : ℤ)) * IE.ofCount 1) : IE binary64 fl) = IE.num (2 ^ (1001 : ℤ)) := by
  have f2 : Finite binary64 2 := by simpa using pow_finite (e := 1) (by norm_num) (by norm_num)
  change (IE.num 1 + IE.num 1) / (IE.num (2 ^ (-1000 : ℤ)) * IE.ofCount 1) = _
  have hne : ((2 : ℝ) ^ (-1000 : ℤ)) ≠ 0 := (zpow_pos (by norm_num) _).ne'
  rw [count_exact h (by norm_num), mul_num, Nat.cast_one, mul_one, add_num, one_add_one_eq_two, ofReal_finite h f2,
    ofReal_finite h (pow_finite (by norm_num) (by norm_num)), div_num _ hne]
  have e : (2 : ℝ) / 2 ^ (-1000 : ℤ) = 2 ^ (1001 : ℤ) := by
    rw [zpow_neg, div_inv_eq_mul, show (1001 : ℤ) = 1 + 1000 by norm_num, zpow_add₀ (by norm_num), zpow_one]
  rw [e, ofReal_finite h (pow_finite (by norm_num) (by norm_num))]

theorem doubled {a b : ℝ} (ha : 1 ≤ a) (hb : b = a * 2) : 1 + -b ≤ -a ∧ -b ≤ 1 + -b ∧ 1 + -b ≤ b := by
  refine ⟨?_, ?_, ?_⟩ <;> linarith

/-- **C234 fails** for strong regularisation: one example with feature 1, rate 1 and `C = 2 ^ -1000`; after three epochs the weight is infinite. -/
theorem C234_fails (h : Rounds binary64 fl) : Finite binary64 (2 ^ (-1000 : ℤ)) ∧
    (svmEpochs (strong fl) [fun _ => 1] [1] 3).weights 0 = IE.inf false := by
  refine ⟨pow_finite (by norm_num) (by norm_num), ?_⟩
  have f2 : Finite binary64 2 := by simpa using pow_finite (e := 1) (by norm_num) (by norm_num)
  have e0 : (IE.ofReal 0 : IE binary64 fl) = IE.num 0 := ofReal_finite h fin_zero
  have e1 : (IE.ofReal 1 : IE binary64 fl) = IE.num 1 := ofReal_finite h fin_one
  have en : (IE.ofReal (-1) : IE binary64 fl) = IE.num (-1) := ofReal_finite h (fin_neg fin_one)
  have ec : (IE.ofCount 1 : IE binary64 fl) = IE.num 1 := by rw [count_exact h (by norm_num), Nat.cast_one]
  have fK : Finite binary64 (2 ^ (1001 : ℤ)) := pow_finite (by norm_num) (by norm_num)
  -- one epoch
  have step : ∀ q : Svm fl 1, q.lr = IE.num 1 → q.c = IE.num (2 ^ (-1000 : ℤ)) →
      (q.trainEpoch [fun _ => 1] [1]).lr = IE.num 1 ∧ (q.trainEpoch [fun _ => 1] [1]).c = IE.num (2 ^ (-1000 : ℤ)) ∧
      (q.trainEpoch [fun _ => 1] [1]).weights 0 = q.weights 0 - IE.num 1 * ((q.accum (fun _ => 0, 0) (fun _ => 1, 1)).1 0 / IE.num 1
        + IE.num (2 ^ (1001 : ℤ)) * q.weights 0) ∧
      (q.trainEpoch [fun _ => 1] [1]).bias = q.bias - IE.num 1 * ((q.accum (fun _ => 0, 0) (fun _ => 1, 1)).2 / IE.num 1) := by
    intro q h1 h2
    refine ⟨h1, h2, ?_, ?_⟩
    · change q.weights 0 - q.lr * ((q.accum (fun _ => 0, 0) (fun _ => 1, 1)).1 0 / IE.ofCount 1 + (1 + 1) / (q.c * IE.ofCount 1) * q.weights 0) = _
      rw [h1, h2, strong_reg h, ec]
    · change q.bias - q.lr * ((q.accum (fun _ => 0, 0) (fun _ => 1, 1)).2 / IE.ofCount 1) = _
      rw [h1, ec]
  have acc : ∀ q : Svm fl 1, q.accum (fun _ => 0, 0) (fun _ => 1, 1) =
      if IE.num 1 * (q.bias + q.weights 0 * IE.num 1) ≥ 1 then (fun _ => IE.num 0 + IE.num 0, IE.num 0 + IE.num 0)
      else (fun _ => IE.num 0 + IE.num (-1) * IE.num 1, IE.num 0 + IE.num (-1)) := by
    intro q
    unfold Svm.accum
    dsimp only
    rw [if_pos (by norm_num : (1 : ℤ) ≥ 0)]
    rfl
  have s00 : (IE.num 0 + IE.num 0 : IE binary64 fl) = IE.num 0 := by rw [add_num, add_zero, e0]
  have d0 : (IE.num 0 / IE.num 1 : IE binary64 fl) = IE.num 0 := by rw [div_num _ one_ne_zero, zero_div, e0]
  have dn : (IE.num (-1) / IE.num 1 : IE binary64 fl) = IE.num (-1) := by rw [div_num _ one_ne_zero, div_one, en]
  set q1 := (strong fl).trainEpoch [fun _ => 1] [1] with hq1
  set q2 := q1.trainEpoch [fun _ => 1] [1] with hq2
  have ee : svmEpochs (strong fl) [fun _ => 1] [1] 3 = q2.trainEpoch [fun _ => 1] [1] := rfl
  rw [ee]
  obtain ⟨l1, c1, w1, b1⟩ := step (strong fl) rfl rfl
  rw [← hq1] at l1 c1 w1 b1
  obtain ⟨l2, c2, w2, -⟩ := step q1 l1 c1
  rw [← hq2] at l2 c2 w2
  obtain ⟨-, -, w3, -⟩ := step q2 l2 c2
  -- first epoch
  have a1 : (strong fl).accum (fun _ => 0, 0) (fun _ => 1, 1) = (fun _ => IE.num (-1), IE.num (-1)) := by
    rw [acc]
    change (if IE.num 1 * (IE.num 0 + IE.num 0 * IE.num 1) ≥ IE.num 1 then _ else _) = _
    rw [mul_num 0 1, zero_mul, e0, s00, num_mul_one h fin_zero, if_neg (by change ¬ (1 : ℝ) ≤ 0; norm_num), mul_num, mul_one, en, add_num, zero_add, en]
  have w1' : q1.weights 0 = IE.num 1 := by
    rw [w1, a1]
    change IE.num 0 - IE.num 1 * (IE.num (-1) / IE.num 1 + IE.num (2 ^ (1001 : ℤ)) * IE.num 0) = _
    rw [dn, mul_num (2 ^ (1001 : ℤ)), mul_zero, e0, add_num, add_zero, en, num_mul_one h (fin_neg fin_one), sub_num, neg_neg, zero_add, e1]
  have b1' : q1.bias = IE.num 1 := by
    rw [b1, a1]
    change IE.num 0 - IE.num 1 * (IE.num (-1) / IE.num 1) = _
    rw [dn, num_mul_one h (fin_neg fin_one), sub_num, neg_neg, zero_add, e1]
  -- second epoch
  have a2 : q1.accum (fun _ => 0, 0) (fun _ => 1, 1) = (fun _ => IE.num 0, IE.num 0) := by
    rw [acc, w1', b1', num_mul_one h fin_one, add_num, one_add_one_eq_two, ofReal_finite h f2, num_mul_one h f2,
      if_pos (by change (1 : ℝ) ≤ 2; norm_num), s00]
  obtain ⟨v, ev, hv⟩ : ∃ v, q2.weights 0 = IE.num v ∧ v ≤ -2 ^ (1000 : ℤ) := by
    have g : OnGrid binary64 (-2 ^ (1000 : ℤ)) := (pow_finite (by norm_num) (by norm_num)).1.neg
    have hlt : (1 : ℝ) ≤ 2 ^ (1000 : ℤ) := one_le_zpow₀ (by norm_num) (by norm_num)
    have e1001 : (2 : ℝ) ^ (1001 : ℤ) = 2 ^ (1000 : ℤ) * 2 := by
      rw [show (1001 : ℤ) = 1000 + 1 by norm_num, zpow_add_one₀ (by norm_num)]
    have hf : (IE.ofReal (1 + -2 ^ (1001 : ℤ)) : IE binary64 fl) = IE.num (fl (1 + -2 ^ (1001 : ℤ))) := by
      refine (ofReal_fl h (c := 1001) (by norm_num) ?_).1
      rw [abs_le, ← zpow_natCast (2 : ℝ) 1001, Nat.cast_ofNat]
      exact (doubled hlt e1001).2
    refine ⟨fl (1 + -2 ^ (1001 : ℤ)), ?_, ?_⟩
    · rw [w2, a2, w1']
      change IE.num 1 - IE.num 1 * (IE.num 0 / IE.num 1 + IE.num (2 ^ (1001 : ℤ)) * IE.num 1) = _
      rw [d0, mul_num (2 ^ (1001 : ℤ)), mul_one, ofReal_finite h fK, add_num, zero_add, ofReal_finite h fK, num_mul_one h fK, sub_num, hf]
    · have := h.mono (show 1 + -2 ^ (1001 : ℤ) ≤ -2 ^ (1000 : ℤ) from (doubled hlt e1001).1)
      rwa [h.fix g] at this
  -- third epoch
  have eo : (IE.num (2 ^ (1001 : ℤ)) * IE.num v : IE binary64 fl) = IE.inf true := by
    have g : OnGrid binary64 (-2 ^ (1024 : ℤ)) := (onGrid_pow (F := binary64) (by decide) (by decide)).neg
    have hpos : (0 : ℝ) < 2 ^ (1024 : ℤ) := zpow_pos (by norm_num) _
    have hp1 : (0 : ℝ) < 2 ^ (1001 : ℤ) := zpow_pos (by norm_num) _
    have hle : 2 ^ (1001 : ℤ) * v ≤ -2 ^ (1024 : ℤ) := by
      have h1 := mul_le_mul_of_nonneg_left hv hp1.le
      have h2 : (2 : ℝ) ^ (1001 : ℤ) * 2 ^ (1000 : ℤ) = 2 ^ (2001 : ℤ) := by
        rw [← zpow_add₀ (by norm_num)]
        norm_num
      have h3 : (2 : ℝ) ^ (1024 : ℤ) ≤ 2 ^ (2001 : ℤ) := zpow_le_zpow_right₀ (by norm_num) (by norm_num)
      have h4 : (2 : ℝ) ^ (1001 : ℤ) * -2 ^ (1000 : ℤ) = -2 ^ (2001 : ℤ) := by rw [mul_neg, h2]
      exact (h1.trans_eq h4).trans (neg_le_neg h3)
    have hfl := h.mono hle
    rw [h.fix g] at hfl
    rw [mul_num]
    unfold IE.ofReal
    rw [if_neg (by
      rw [abs_of_nonpos (hfl.trans (neg_nonpos.2 hpos.le)), not_lt]
      exact le_neg_of_le_neg hfl), decide_eq_true (lt_of_le_of_lt hle (neg_neg_of_pos hpos))]
  rw [w3, ev, eo]
  have hg : ∃ g, (q2.accum (fun _ => 0, 0) (fun _ => 1, 1)).1 0 / IE.num 1 = IE.num g := by
    rw [acc]
    split_ifs
    · exact ⟨0, by dsimp only; rw [s00, d0]⟩
    · exact ⟨-1, by dsimp only; rw [mul_num, mul_one, en, add_num, zero_add, en, dn]⟩
  obtain ⟨g, eg⟩ := hg
  rw [eg]
  change IE.num v - (IE.num 1 * IE.inf true) = _
  have em : (IE.num 1 * IE.inf true : IE binary64 fl) = IE.inf true := by
    change IE.mul _ _ = _
    simp [IE.mul, IE.num, IE.inf, IE.isNeg]
  rw [em]
  rfl

end Verif.ML.Ie
