import Verif.ML.PropsTrainFloat
import Verif.ML.PropsLogisticIeee

/-!
# Linear regression in machine arithmetic (C189)

`IE binary64 fl` are the 64-bit numbers with infinities and NaN; `Rounds binary64 fl`: `fl` rounds to nearest.  `Below c a`: `a` is a number of size at most
`2 ^ c`.
-/

namespace Verif.ML.Ie

open Verif.Mat Verif.Ieee

variable {fl : ℝ → ℝ} {n : ℕ}

/-- The model after `T` epochs. -/
noncomputable def linEpochs (o : Gen.Linear (IE binary64 fl) n) (xs : List (Fin n → IE binary64 fl)) (ys : List (IE binary64 fl)) (T : ℕ) :
    Gen.Linear (IE binary64 fl) n := (fun o => Gen.Linear.trainEpoch IE.ofCount o xs ys)^[T] o

/-! ## Finite for a bounded number of epochs -/

theorem sum_times {P : Type*} (h : Rounds binary64 fl) {c e : ℕ} (hc : e + c < 1024) (he : e ≤ 53) (t : P → IE binary64 fl) :
    ∀ (l : List P) (j : ℕ) (s : IE binary64 fl), (∀ i ∈ l, Below c (t i)) → Times j c s → j + l.length ≤ 2 ^ e →
      Times (j + l.length) c (l.foldl (fun s i => s + t i) s) := by
  have h53 : (2 : ℕ) ^ e ≤ 2 ^ 53 := Nat.pow_le_pow_right (by norm_num) he
  intro l
  induction l with
  | nil => intro j s _ hs _; simpa using hs
  | cons a l ih =>
    intro j s ht hs hn
    rw [List.length_cons] at hn ⊢
    rw [List.foldl_cons, show j + (l.length + 1) = j + 1 + l.length by omega]
    exact ih (j + 1) _ (fun i hi => ht i (by simp [hi])) (hs.add h (ht a (by simp)) (by omega) (times_bound (e := e) (by omega) hc)) (by omega)

theorem two_num (h : Rounds binary64 fl) : (1 + 1 : IE binary64 fl) = IE.num 2 := by
  rw [ie_one, add_num, show (1 + 1 : ℝ) = 2 by norm_num]
  exact ofReal_finite h (by simpa using pow_finite (e := 1) (by norm_num) (by norm_num))

theorem two_times (h : Rounds binary64 fl) {k c : ℕ} {a : IE binary64 fl} (ha : Times k c a) (hk : k ≤ 2 ^ 53) (hc : 53 + (c + 1) < 1024) :
    Times k (c + 1) ((1 + 1) * a) := by
  obtain ⟨x, rfl, -, hx⟩ := ha
  rw [two_num h, mul_num]
  refine ofReal_times h hk (times_bound hk hc) ?_
  rw [abs_mul, abs_of_pos (by norm_num : (0 : ℝ) < 2), pow_succ]
  linarith

theorem one_times {c : ℕ} {a : IE binary64 fl} (ha : Below c a) : Times 1 c a := by
  obtain ⟨x, e, f, b⟩ := ha
  exact ⟨x, e, f, by simpa using b⟩

/-- One epoch multiplies the size of the parameters by at most `2 ^ (l + 2 c + 23)`. -/
theorem linear_epoch_below (h : Rounds binary64 fl) {c l e : ℕ} (he : e + 2 * c + 75 < 1024) (he2 : l + 2 * c + 23 + e < 1024) (hn : n < 2 ^ 20)
    (o : Gen.Linear (IE binary64 fl) n) (hw : ∀ i, Below e (o.weights i)) (hb : Below e o.bias) (hlr : Below l o.lr)
    (xs : List (Fin n → IE binary64 fl)) (ys : List (IE binary64 fl)) (hx : ∀ x ∈ xs, ∀ i, Below c (x i)) (hy : ∀ y ∈ ys, Below e y)
    (hm : xs.length ≤ 2 ^ 53) :
    (∀ i, Below (l + 2 * c + 23 + e) ((o.trainEpoch IE.ofCount xs ys).weights i)) ∧ Below (l + 2 * c + 23 + e) (o.trainEpoch IE.ofCount xs ys).bias ∧
      (o.trainEpoch IE.ofCount xs ys).lr = o.lr := by
  by_cases hl : xs.length = 0
  · unfold Gen.Linear.trainEpoch
    rw [if_pos hl]
    exact ⟨fun i => (hw i).mono (by omega), hb.mono (by omega), rfl⟩
  have hzl : (xs.zip ys).length ≤ xs.length := by simp
  have herr : ∀ d ∈ xs.zip ys, Below (21 + e + c) (Gen.score o.weights o.bias d.1 - d.2) := by
    intro d hd
    have hx' := hx d.1 (List.of_mem_zip hd).1
    have hy' := hy d.2 (List.of_mem_zip hd).2
    have h1 : Times (1 + (rng n 0 n).length) (e + c) (Gen.score o.weights o.bias d.1) :=
      sum_times h (e := 20) (by omega) (by norm_num) (fun i => o.weights i * d.1 i) (rng n 0 n) 1 _
        (fun i _ => Below.mul (by decide) (by decide) h (hw i) (hx' i) (by change ((e + c : ℕ) : ℤ) < 1024; omega))
        (one_times (hb.mono (by omega))) (by simp [rng]; omega)
    have h2 := h1.below (e := 20) (by simp [rng]; omega)
    exact (Below.sub (by decide) (by decide) h h2 (hy'.mono (show e ≤ 20 + (e + c) by omega)) (by
      change ((20 + (e + c) + 1 : ℕ) : ℤ) < 1024; omega)).mono (by omega)
  have htail : ∀ (z g : IE binary64 fl) (k : ℕ), Below e z → Times k (21 + e + 2 * c) g → k ≤ xs.length →
      Below (l + 2 * c + 23 + e) (z - o.lr * ((1 + 1) * g / IE.ofCount xs.length)) := by
    intro z g k hz hg hk
    rw [count_exact h hm]
    have h1 := times_div h (two_times h hg (hk.trans hm) (by omega)) hk (by omega) (by omega)
    have h2 := Below.mul (by decide) (by decide) h hlr h1 (by change ((l + (21 + e + 2 * c + 1) : ℕ) : ℤ) < 1024; omega)
    exact (Below.sub (by decide) (by decide) h (hz.mono (show e ≤ l + (21 + e + 2 * c + 1) by omega)) h2 (by
      change ((l + (21 + e + 2 * c + 1) + 1 : ℕ) : ℤ) < 1024; omega)).mono (by omega)
  unfold Gen.Linear.trainEpoch
  rw [if_neg hl, gen_sums]
  dsimp only
  rw [gen_mapLoop (fun i w => w - o.lr * ((1 + 1) * (xs.zip ys).foldl (fun a d => a + (Gen.score o.weights o.bias d.1 - d.2) * d.1 i) 0
    / IE.ofCount xs.length))]
  refine ⟨fun i => ?_, ?_, rfl⟩
  · refine htail _ _ _ (hw i) (sum_times h (e := 53) (by omega) le_rfl (fun d : (Fin n → IE binary64 fl) × IE binary64 fl =>
      (Gen.score o.weights o.bias d.1 - d.2) * d.1 i) (xs.zip ys) 0 0 (fun d hd => ?_) (Times.zero _) (by omega)) (by omega)
    exact (Below.mul (by decide) (by decide) h (herr d hd) (hx d.1 (List.of_mem_zip hd).1 i) (by
      change ((21 + e + c + c : ℕ) : ℤ) < 1024; omega)).mono (by omega)
  · exact htail _ _ _ hb (sum_times h (e := 53) (by omega) le_rfl (fun d : (Fin n → IE binary64 fl) × IE binary64 fl =>
      (Gen.score o.weights o.bias d.1 - d.2)) (xs.zip ys) 0 0 (fun d hd => (herr d hd).mono (by omega)) (Times.zero _) (by omega)) (by omega)

/-- C189, partial: features of size at most `2 ^ c`, labels and starting parameters of size at most `2 ^ e` and a rate of at most `2 ^ l`: the parameters are
finite numbers after `T` epochs as long as `e + T (l + 2 c + 23) + 52 < 1024`. Missing: more epochs, see `C189_fails` (and C188 for rates below the bound
from the data). -/
theorem C189_partial (h : Rounds binary64 fl) {c l e : ℕ} (hn : n < 2 ^ 20) (o : Gen.Linear (IE binary64 fl) n) (hw : ∀ i, Below e (o.weights i))
    (hb : Below e o.bias) (hlr : Below l o.lr) (xs : List (Fin n → IE binary64 fl)) (ys : List (IE binary64 fl)) (hx : ∀ x ∈ xs, ∀ i, Below c (x i))
    (hy : ∀ y ∈ ys, Below e y) (hm : xs.length ≤ 2 ^ 53) (T : ℕ) (hT : e + T * (l + 2 * c + 23) + 52 < 1024) :
    (∀ i, Below (e + T * (l + 2 * c + 23)) ((linEpochs o xs ys T).weights i)) ∧ Below (e + T * (l + 2 * c + 23)) (linEpochs o xs ys T).bias := by
  suffices H : (∀ i, Below (e + T * (l + 2 * c + 23)) ((linEpochs o xs ys T).weights i)) ∧ Below (e + T * (l + 2 * c + 23)) (linEpochs o xs ys T).bias ∧
      (linEpochs o xs ys T).lr = o.lr from ⟨H.1, H.2.1⟩
  induction T with
  | zero => exact ⟨fun i => Below.mono (a := (linEpochs o xs ys 0).weights i) (hw i) (by omega), Below.mono (a := (linEpochs o xs ys 0).bias) hb (by omega), rfl⟩
  | succ T ih =>
    have e1 : (T + 1) * (l + 2 * c + 23) = T * (l + 2 * c + 23) + (l + 2 * c + 23) := by ring
    obtain ⟨h1, h2, h3⟩ := ih (by omega)
    have e2 : linEpochs o xs ys (T + 1) = (linEpochs o xs ys T).trainEpoch IE.ofCount xs ys := by
      unfold linEpochs; rw [Function.iterate_succ_apply']
    have := linear_epoch_below h (c := c) (l := l) (e := e + T * (l + 2 * c + 23)) (by omega) (by omega) hn _ h1 h2 (by rw [h3]; exact hlr) xs ys hx
      (fun y hy' => (hy y hy').mono (by omega)) hm
    rw [e2, show e + (T + 1) * (l + 2 * c + 23) = l + 2 * c + 23 + (e + T * (l + 2 * c + 23)) by omega]
    exact ⟨this.1, this.2.1, this.2.2.trans h3⟩

/-- A new model and features and labels of size at most 16 stay finite for 31 epochs. -/
example (h : Rounds binary64 fl) (xs : List (Fin 3 → IE binary64 fl)) (ys : List (IE binary64 fl)) (hx : ∀ x ∈ xs, ∀ i, Below 4 (x i))
    (hy : ∀ y ∈ ys, Below 4 y) (hm : xs.length ≤ 2 ^ 53) :
    ∀ i, IE.IsNum ((linEpochs (Gen.Linear.new (IE binary64 fl) 3) xs ys 31).weights i) := by
  have z : Below 4 (0 : IE binary64 fl) := ⟨0, rfl, fin_zero, by simp⟩
  have o : Below 0 (1 : IE binary64 fl) := ⟨1, rfl, fin_one, by simp⟩
  have := C189_partial h (c := 4) (l := 0) (e := 4) (by norm_num) (Gen.Linear.new (IE binary64 fl) 3) (fun _ => z) z o xs ys hx hy hm 31 (by norm_num)
  exact fun i => (this.1 i).isNum

/-! ## Overflow of a new model -/

theorem sub_isNum (h : Rounds binary64 fl) {a b : IE binary64 fl} {x : ℝ} (e : a - b = IE.num x) :
    ∃ y z, a = IE.num y ∧ b = IE.num z ∧ Finite binary64 x ∧ x = fl (y - z) := by
  rcases a with ⟨_ | s | y⟩
  · change IE.nan - b = _ at e
    rw [nan_sub] at e; cases e
  · rcases b with ⟨_ | t | z⟩
    · cases e
    · cases s <;> cases t <;> cases e
    · cases e
  · rcases b with ⟨_ | t | z⟩
    · cases e
    · cases e
    · exact ⟨y, z, rfl, rfl, ofReal_isNum h (e : IE.ofReal (y + -z) = _)⟩

theorem add_isNum (h : Rounds binary64 fl) {a b : IE binary64 fl} {x : ℝ} (e : a + b = IE.num x) :
    ∃ y z, a = IE.num y ∧ b = IE.num z ∧ Finite binary64 x ∧ x = fl (y + z) := by
  rcases a with ⟨_ | s | y⟩
  · change IE.nan + b = _ at e
    rw [nan_add] at e; cases e
  · rcases b with ⟨_ | t | z⟩
    · cases e
    · cases s <;> cases t <;> cases e
    · cases e
  · rcases b with ⟨_ | t | z⟩
    · cases e
    · cases e
    · exact ⟨y, z, rfl, rfl, ofReal_isNum h (e : IE.ofReal (y + z) = _)⟩

theorem mul_isNum (h : Rounds binary64 fl) {a b : IE binary64 fl} {x : ℝ} (e : a * b = IE.num x) :
    ∃ y z, a = IE.num y ∧ b = IE.num z ∧ Finite binary64 x ∧ x = fl (y * z) := by
  rcases a with ⟨_ | s | y⟩
  · change IE.nan * b = _ at e
    rw [nan_mul] at e; cases e
  · rcases b with ⟨_ | t | z⟩
    · cases e
    · cases e
    · change (if z = 0 then IE.nan else _) = _ at e
      split_ifs at e <;> cases e
  · rcases b with ⟨_ | t | z⟩
    · cases e
    · change (if y = 0 then IE.nan else _) = _ at e
      split_ifs at e <;> cases e
    · exact ⟨y, z, rfl, rfl, ofReal_isNum h (e : IE.ofReal (y * z) = _)⟩

theorem div_one_isNum (h : Rounds binary64 fl) {a : IE binary64 fl} {x : ℝ} (e : a / IE.num 1 = IE.num x) :
    ∃ y, a = IE.num y ∧ Finite binary64 x ∧ x = fl y := by
  rcases a with ⟨_ | s | y⟩
  · cases e
  · cases e
  · change IE.num y / IE.num 1 = _ at e
    rw [div_num _ one_ne_zero, div_one] at e
    exact ⟨y, rfl, ofReal_isNum h e⟩

/-- A crude bound on the rounding of numbers that are not small. -/
theorem crude (h : Rounds binary64 fl) {x : ℝ} (hx : 1 ≤ |x|) : 7 / 8 * |x| ≤ |fl x| ∧ |fl x| ≤ 9 / 8 * |x| := by
  have h1 : (2 : ℝ) ^ (binary64.emin + binary64.p - 1) ≤ 1 := by
    rw [show (1 : ℝ) = 2 ^ (0 : ℤ) by norm_num]
    exact zpow_le_zpow_right₀ (by norm_num) (by decide)
  have h2 := h.normal (by decide) (h1.trans hx)
  have h3 : unit binary64 ≤ 1 / 8 := by
    rw [show (1 / 8 : ℝ) = 2 ^ (-3 : ℤ) by norm_num]
    exact zpow_le_zpow_right₀ (by norm_num) (by decide)
  have h4 := mul_le_mul_of_nonneg_right h3 (abs_nonneg x)
  have h5 := abs_abs_sub_abs_le_abs_sub (fl x) x
  have := abs_le.1 (h5.trans (h2.trans h4))
  constructor <;> linarith

/-- The data set: one example with the feature 1024 and the label 1. -/
noncomputable def oneX : List (Fin 1 → IE binary64 fl) := [fun _ => IE.num 1024]
/-- Its label. -/
noncomputable def oneY : List (IE binary64 fl) := [1]

theorem one_epoch (h : Rounds binary64 fl) (o : Gen.Linear (IE binary64 fl) 1) :
    let e := o.bias + o.weights 0 * IE.num 1024 - 1
    let o' := o.trainEpoch IE.ofCount oneX oneY
    o'.weights 0 = o.weights 0 - o.lr * ((1 + 1) * (0 + e * IE.num 1024) / IE.num 1) ∧ o'.bias = o.bias - o.lr * ((1 + 1) * (0 + e) / IE.num 1) ∧
      o'.lr = o.lr := by
  intro e o'
  have hc : (IE.ofCount 1 : IE binary64 fl) = IE.num 1 := by rw [count_exact h (by norm_num)]; norm_num
  have er : rng 1 0 1 = [0] := rfl
  simp only [o', Gen.Linear.trainEpoch, oneX, oneY, List.length_cons, List.length_nil, List.zip_cons_cons, List.zip_nil_right, List.foldl_cons,
    List.foldl_nil, Gen.accum, Gen.score, er, Function.update_self, zero_add]
  rw [if_neg (by norm_num), hc]
  refine ⟨?_, rfl, rfl⟩
  dsimp only
  rw [Function.update_self]

/-- A step away from the optimum multiplies the error by the curvature. -/
theorem blow_up (h : Rounds binary64 fl) {o : Gen.Linear (IE binary64 fl) 1} (hlr : o.lr = 1) {w' : ℝ}
    (hw' : (o.trainEpoch IE.ofCount oneX oneY).weights 0 = IE.num w') :
    ∃ w b e, o.weights 0 = IE.num w ∧ o.bias = IE.num b ∧ e = fl (fl (b + fl (w * 1024)) - 1) ∧
      (1 ≤ |e| → |w| ≤ |e| / 2 → |b| ≤ |e| / 2 → 512 * |e| ≤ |w'| ∧
        ∀ b', (o.trainEpoch IE.ofCount oneX oneY).bias = IE.num b' → |b'| ≤ |w'|) := by
  obtain ⟨h1, h2, -⟩ := one_epoch h o
  rw [hlr] at h1 h2
  rw [h1] at hw'
  obtain ⟨w, z, ew, ez, -, rw'⟩ := sub_isNum h hw'
  obtain ⟨y1, z1, e1, e2, -, r1⟩ := mul_isNum h ez
  rw [ie_one, num_inj] at e1
  subst e1
  obtain ⟨z2, e3, -, r2⟩ := div_one_isNum h e2
  rw [two_num h] at e3
  obtain ⟨y3, z3, e4, e5, -, r3⟩ := mul_isNum h e3
  rw [num_inj] at e4
  subst e4
  obtain ⟨y4, z4, e6, e7, -, r4⟩ := add_isNum h e5
  rw [ie_zero, num_inj] at e6
  subst e6
  obtain ⟨e, y5, e8, e9, -, r5⟩ := mul_isNum h e7
  rw [num_inj] at e9
  subst e9
  obtain ⟨s, y6, e10, e11, -, r6⟩ := sub_isNum h e8
  rw [ie_one, num_inj] at e11
  subst e11
  obtain ⟨b, t, eb, e12, -, r7⟩ := add_isNum h e10
  obtain ⟨w0, y7, e13, e14, -, r8⟩ := mul_isNum h e12
  rw [ew, num_inj] at e13
  subst e13
  rw [num_inj] at e14
  subst e14
  refine ⟨w, b, e, ew, eb, by rw [r6, r7, r8], fun he hwe hbe => ?_⟩
  rw [zero_add] at r4
  rw [one_mul] at r1
  -- the weight
  have a1 : |e * 1024| = 1024 * |e| := by rw [abs_mul, abs_of_pos (by norm_num : (0 : ℝ) < 1024), mul_comm]
  have c1 := crude h (x := e * 1024) (by rw [a1]; linarith)
  rw [← r5, a1] at c1
  have c2 := crude h (x := z4) (by linarith)
  rw [← r4] at c2
  have a2 : |2 * z3| = 2 * |z3| := by rw [abs_mul, abs_of_pos (by norm_num : (0 : ℝ) < 2)]
  have c3 := crude h (x := 2 * z3) (by rw [a2]; linarith)
  rw [← r3, a2] at c3
  have c4 := crude h (x := z2) (by linarith)
  rw [← r2] at c4
  have c5 := crude h (x := z1) (by linarith)
  rw [← r1] at c5
  have a3 : |z| - |w| ≤ |w - z| := by rw [abs_sub_comm]; exact abs_sub_abs_le_abs_sub z w
  have c6 := crude h (x := w - z) (by linarith)
  rw [← rw'] at c6
  refine ⟨by linarith, fun b' hb' => ?_⟩
  -- the bias
  rw [h2, e8, eb] at hb'
  obtain ⟨b0, v, eb0, ev, -, rb⟩ := sub_isNum h hb'
  rw [num_inj] at eb0
  subst eb0
  obtain ⟨y1, v1, f1, f2, -, q1⟩ := mul_isNum h ev
  rw [ie_one, num_inj] at f1
  subst f1
  obtain ⟨v2, f3, -, q2⟩ := div_one_isNum h f2
  rw [two_num h] at f3
  obtain ⟨y3, v3, f4, f5, -, q3⟩ := mul_isNum h f3
  rw [num_inj] at f4
  subst f4
  obtain ⟨y4, v4, f6, f7, -, q4⟩ := add_isNum h f5
  rw [ie_zero, num_inj] at f6
  subst f6
  rw [num_inj] at f7
  subst f7
  rw [zero_add] at q4
  rw [one_mul] at q1
  have d2 := crude h (x := e) he
  rw [← q4] at d2
  have a4 : |2 * v3| = 2 * |v3| := by rw [abs_mul, abs_of_pos (by norm_num : (0 : ℝ) < 2)]
  have d3 := crude h (x := 2 * v3) (by rw [a4]; linarith)
  rw [← q3, a4] at d3
  have d4 := crude h (x := v2) (by linarith)
  rw [← q2] at d4
  have d5 := crude h (x := v1) (by linarith)
  rw [← q1] at d5
  have a5 : |v| - |b| ≤ |b - v| := by rw [abs_sub_comm]; exact abs_sub_abs_le_abs_sub v b
  have a6 : |b - v| ≤ |b| + |v| := abs_sub _ _
  by_cases hs : 1 ≤ |b - v|
  · have d6 := crude h hs
    rw [← rb] at d6
    linarith
  · have h1' : |b'| ≤ 1 := by
      have hb1 := abs_le.1 (not_le.1 hs).le
      have u1 := h.mono hb1.1
      have u2 := h.mono hb1.2
      rw [h.fix fin_one.1.neg] at u1
      rw [h.fix fin_one.1] at u2
      rw [rb]
      exact abs_le.2 ⟨u1, u2⟩
    linarith

/-- From the first epoch on the weight, while it is a number, grows by a factor of `2 ^ 18` per epoch. -/
theorem blow_up_iter (h : Rounds binary64 fl) (k : ℕ) : ∀ w, (linEpochs (Gen.Linear.new (IE binary64 fl) 1) oneX oneY (k + 1)).weights 0 = IE.num w →
    (2 : ℝ) ^ (9 + 18 * k) ≤ |w| ∧ ∀ b, (linEpochs (Gen.Linear.new (IE binary64 fl) 1) oneX oneY (k + 1)).bias = IE.num b → |b| ≤ |w| := by
  have hlr : ∀ k, (linEpochs (Gen.Linear.new (IE binary64 fl) 1) oneX oneY k).lr = 1 := by
    intro k
    induction k with
    | zero => rfl
    | succ k ih =>
      rw [← ih]
      unfold linEpochs
      rw [Function.iterate_succ_apply']
      exact (one_epoch h _).2.2
  have hs : ∀ k, linEpochs (Gen.Linear.new (IE binary64 fl) 1) oneX oneY (k + 1) =
      (linEpochs (Gen.Linear.new (IE binary64 fl) 1) oneX oneY k).trainEpoch IE.ofCount oneX oneY := by
    intro k; unfold linEpochs; rw [Function.iterate_succ_apply']
  induction k with
  | zero =>
    intro w hw
    rw [hs] at hw ⊢
    obtain ⟨w0, b0, e, ew, eb, he, H⟩ := blow_up h (hlr 0) hw
    have z1 : w0 = 0 := (num_inj.1 (ew.symm.trans (rfl : _ = IE.num 0)))
    have z2 : b0 = 0 := (num_inj.1 (eb.symm.trans (rfl : _ = IE.num 0)))
    subst z1 z2
    rw [zero_mul, h.zero, add_zero, h.zero, zero_sub, h.fix fin_one.1.neg] at he
    subst he
    have := H (by norm_num) (by norm_num) (by norm_num)
    norm_num at this ⊢
    exact this
  | succ k ih =>
    intro w' hw'
    rw [hs] at hw' ⊢
    obtain ⟨w, b, e, ew, eb, he, H⟩ := blow_up h (hlr (k + 1)) hw'
    obtain ⟨i1, i2⟩ := ih w ew
    have i2 := i2 b eb
    have big : (512 : ℝ) ≤ |w| := by
      refine le_trans ?_ i1
      rw [show (512 : ℝ) = 2 ^ 9 by norm_num]
      exact pow_le_pow_right₀ (by norm_num) (by omega)
    have a1 : |w * 1024| = 1024 * |w| := by rw [abs_mul, abs_of_pos (by norm_num : (0 : ℝ) < 1024), mul_comm]
    have c1 := crude h (x := w * 1024) (by rw [a1]; linarith)
    rw [a1] at c1
    have a2 : |fl (w * 1024)| - |b| ≤ |b + fl (w * 1024)| := by
      have := abs_sub_abs_le_abs_sub (fl (w * 1024)) (-b)
      rw [abs_neg, sub_neg_eq_add, add_comm (fl (w * 1024)) b] at this
      exact this
    have c2 := crude h (x := b + fl (w * 1024)) (by linarith)
    have a3 : |fl (b + fl (w * 1024))| - 1 ≤ |fl (b + fl (w * 1024)) - 1| := by
      have := abs_sub_abs_le_abs_sub (fl (b + fl (w * 1024))) 1
      rwa [abs_one] at this
    have c3 := crude h (x := fl (b + fl (w * 1024)) - 1) (by linarith)
    rw [← he] at c3
    have he5 : 512 * |w| ≤ |e| := by linarith
    obtain ⟨H1, H2⟩ := H (by linarith) (by linarith) (by linarith)
    refine ⟨?_, H2⟩
    have : (2 : ℝ) ^ (9 + 18 * (k + 1)) = 512 * (512 * 2 ^ (9 + 18 * k)) := by
      rw [show 9 + 18 * (k + 1) = 9 + 18 * k + 18 by ring, pow_add]; norm_num; ring
    rw [this]
    linarith

/-- C189, refuted for the default rate: a new model with one feature, trained on the single example with the feature 1024 and the label 1, has no finite
weight after 58 epochs, nor after any larger number. -/
theorem C189_fails (h : Rounds binary64 fl) (T : ℕ) (hT : 58 ≤ T) :
    ¬ IE.IsNum ((linEpochs (Gen.Linear.new (IE binary64 fl) 1) oneX oneY T).weights 0) := by
  rintro ⟨w, ew, hf⟩
  obtain ⟨k, rfl⟩ : ∃ k, T = k + 1 := ⟨T - 1, by omega⟩
  have h1 := (blow_up_iter h k w ew).1
  have h2 : |w| < 2 ^ (1024 : ℕ) := by
    have := hf.2
    rwa [show binary64.emax = ((1024 : ℕ) : ℤ) from rfl, zpow_natCast] at this
  have h3 : (2 : ℝ) ^ 1024 ≤ 2 ^ (9 + 18 * k) := pow_le_pow_right₀ (by norm_num) (by omega)
  exact absurd (h3.trans h1) (not_le.2 h2)

end Verif.ML.Ie
