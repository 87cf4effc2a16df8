import Verif.Stats.PropsCov
import Verif.ML.PropsLogisticIeee

/-!
# Sample covariances in machine arithmetic (C238)

The functions of `covariance.rs` are generic in the scalar type; here it is a binary format with subnormal numbers, infinities and NaN.
-/

namespace Verif.Stats.Ie

open Verif.Ieee Verif.Mat Verif.ML.Ie

variable {F : Format} {fl : ℝ → ℝ} {n : ℕ}

/-- `covariance.rs:23`, `39`: `T::from_usize`. -/
noncomputable scoped instance : NatCast (IE F fl) := ⟨IE.ofCount⟩

/-- The entries of the computed covariance, in any arithmetic. -/
theorem cov_entry {α : Type} [Zero α] [One α] [Add α] [Sub α] [Mul α] [Div α] [NatCast α] (xs : List (Fin n → α)) (h2 : 2 ≤ xs.length) :
    ∃ mu S, mean xs = .ok mu ∧ sampleCovariance xs = .ok S ∧ (∀ i, mu i = xs.foldl (fun s x => s + x i) 0 / (xs.length : α)) ∧
      ∀ i j, S i j = xs.foldl (fun acc x => acc + (x i - mu i) * (x j - mu j)) 0 * (1 / ((xs.length - 1 : ℕ) : α)) := by
  have hne : ¬ xs.isEmpty := by
    rw [List.isEmpty_iff]
    rintro rfl
    simp at h2
  have e1 : mean xs = .ok fun i => xs.foldl (fun mean sample => mean + sample) (fun _ => 0) i / (xs.length : α) := by
    unfold mean
    rw [if_neg hne]
  refine ⟨_, _, e1, by unfold sampleCovariance; rw [if_neg hne, if_neg (by omega), e1]; rfl, fun i => ?_, fun i j => ?_⟩
  · have : ∀ (l : List (Fin n → α)) (v : Fin n → α), l.foldl (fun mean sample => mean + sample) v i = l.foldl (fun s x => s + x i) (v i) := by
      intro l
      induction l with
      | nil => intro v; rfl
      | cons x l ih => intro v; rw [List.foldl_cons, ih]; rfl
    rw [this]
  · unfold mulS
    rw [fillLoop_apply]
    congr 1
    have : ∀ (mu : Fin n → α) (l : List (Fin n → α)) (c : Mat α n n), l.foldl (fun cov sample => addOuter cov (sample - mu) (sample - mu)) c i j =
        l.foldl (fun acc x => acc + (x i - mu i) * (x j - mu j)) (c i j) := by
      intro mu l
      induction l with
      | nil => intro c; rfl
      | cons x l ih => intro c; rw [List.foldl_cons, ih, addOuter_apply]; rfl
    rw [this]
    rfl

theorem ie_mul_comm (a b : IE F fl) : a * b = b * a := by
  rcases a with ⟨_ | s | x⟩ <;> rcases b with ⟨_ | t | y⟩ <;> try rfl
  · change IE.inf (xor s t) = IE.inf (xor t s)
    rw [Bool.xor_comm]
  · change (if y = 0 then IE.nan else IE.inf (xor s (IE.isNeg y))) = (if y = 0 then IE.nan else IE.inf (xor (IE.isNeg y) s))
    rw [Bool.xor_comm]
  · change (if x = 0 then IE.nan else IE.inf (xor (IE.isNeg x) t)) = (if x = 0 then IE.nan else IE.inf (xor t (IE.isNeg x)))
    rw [Bool.xor_comm]
  · change IE.ofReal (x * y) = IE.ofReal (y * x)
    rw [mul_comm]

/-- NaN, positive infinity or a number that is not negative. -/
def NotNegative (a : IE F fl) : Prop := a = IE.nan ∨ a = IE.inf false ∨ ∃ x, a = IE.num x ∧ 0 ≤ x

theorem notNegative_ofReal (h : Rounds F fl) {x : ℝ} (hx : 0 ≤ x) : NotNegative (IE.ofReal x : IE F fl) := by
  unfold IE.ofReal
  split_ifs
  · exact .inr (.inr ⟨_, rfl, by rw [← h.zero]; exact h.mono hx⟩)
  · exact .inr (.inl (by rw [decide_eq_false (not_lt.2 hx)]))

theorem notNegative_square (h : Rounds F fl) (a : IE F fl) : NotNegative (a * a) := by
  rcases a with ⟨_ | s | x⟩
  · exact .inl rfl
  · exact .inr (.inl (by change IE.inf (xor s s) = _; rw [Bool.xor_self]))
  · exact notNegative_ofReal h (mul_self_nonneg x)

theorem NotNegative.add (h : Rounds F fl) {a b : IE F fl} (ha : NotNegative a) (hb : NotNegative b) : NotNegative (a + b) := by
  rcases ha with rfl | rfl | ⟨x, rfl, hx⟩ <;> rcases hb with rfl | rfl | ⟨y, rfl, hy⟩
  · exact .inl rfl
  · exact .inl rfl
  · exact .inl rfl
  · exact .inl rfl
  · exact .inr (.inl rfl)
  · exact .inr (.inl rfl)
  · exact .inl rfl
  · exact .inr (.inl rfl)
  · exact notNegative_ofReal h (add_nonneg hx hy)

theorem NotNegative.mul (h : Rounds F fl) {a b : IE F fl} (ha : NotNegative a) (hb : NotNegative b) : NotNegative (a * b) := by
  have key : ∀ y : ℝ, 0 ≤ y → NotNegative (if y = 0 then IE.nan else IE.inf (xor false (IE.isNeg y)) : IE F fl) := by
    intro y hy
    split_ifs
    · exact .inl rfl
    · refine .inr (.inl ?_)
      unfold IE.isNeg
      rw [decide_eq_false (not_lt.2 hy)]
      rfl
  rcases ha with rfl | rfl | ⟨x, rfl, hx⟩ <;> rcases hb with rfl | rfl | ⟨y, rfl, hy⟩
  · exact .inl rfl
  · exact .inl rfl
  · exact .inl rfl
  · exact .inl rfl
  · exact .inr (.inl rfl)
  · exact key y hy
  · exact .inl rfl
  · rw [ie_mul_comm]; exact key x hx
  · exact notNegative_ofReal h (mul_nonneg hx hy)

theorem NotNegative.inv_count (h : Rounds F fl) (k : ℕ) : NotNegative (1 / (k : IE F fl)) := by
  have hk := notNegative_ofReal (F := F) h (Nat.cast_nonneg k)
  change NotNegative (1 / IE.ofReal (k : ℝ))
  rcases hk with e | e | ⟨x, e, hx⟩
  · rw [e]; exact .inl rfl
  · rw [e]; exact .inr (.inr ⟨0, rfl, le_rfl⟩)
  · rw [e]
    change NotNegative (if x = 0 then (if (1 : ℝ) = 0 then IE.nan else IE.inf (IE.isNeg 1)) else IE.ofReal (1 / x) : IE F fl)
    split_ifs with h0 h1
    · exact .inl rfl
    · refine .inr (.inl ?_)
      unfold IE.isNeg
      rw [decide_eq_false (by norm_num)]
    · exact notNegative_ofReal h (by positivity)

/-- A sum of fewer than `2 ^ 53` terms of bounded size. -/
theorem fold_times (h : Rounds binary64 fl) {P : Type*} (f : P → IE binary64 fl) {c : ℕ} (hc : 53 + c < 1024) : ∀ (l : List P) (j : ℕ) (a : IE binary64 fl),
    Times j c a → j + l.length ≤ 2 ^ 53 → (∀ p ∈ l, Below c (f p)) → Times (j + l.length) c (l.foldl (fun s p => s + f p) a)
  | [], j, a, ha, _, _ => ha
  | p :: l, j, a, ha, hj, hl => by
    rw [List.length_cons] at hj ⊢
    rw [List.foldl_cons, show j + (l.length + 1) = j + 1 + l.length by ring]
    exact fold_times h f hc l (j + 1) _ (ha.add h (hl p (by simp)) (by omega) (times_bound (e := 53) (by omega) hc)) (by omega) fun q hq => hl q (by simp [hq])

/-! ## Properties -/

/-- **C238, shape**: two or more samples of any values, also infinite ones and NaN, in any format. The call succeeds, the computed covariance is exactly symmetric, and no
variance is negative. -/
theorem C238_symmetric (h : Rounds F fl) (xs : List (Fin n → IE F fl)) (h2 : 2 ≤ xs.length) :
    ∃ S, sampleCovariance xs = .ok S ∧ (∀ i j, S i j = S j i) ∧ ∀ i, ¬ S i i < 0 := by
  obtain ⟨mu, S, -, eS, -, e⟩ := cov_entry xs h2
  refine ⟨S, eS, fun i j => ?_, fun i => ?_⟩
  · rw [e, e]
    congr 2
    funext acc x
    rw [ie_mul_comm]
  · have key : ∀ (l : List (Fin n → IE F fl)) (a : IE F fl), NotNegative a → NotNegative (l.foldl (fun acc x => acc + (x i - mu i) * (x i - mu i)) a) := by
      intro l
      induction l with
      | nil => intro a ha; exact ha
      | cons x l ih => intro a ha; exact ih _ (ha.add h (notNegative_square h _))
    have hn : NotNegative (S i i) := by
      rw [e]
      exact (key xs 0 (.inr (.inr ⟨0, rfl, le_rfl⟩))).mul h (NotNegative.inv_count h _)
    rcases hn with e | e | ⟨x, e, hx⟩
    · rw [e]; exact fun hc => hc
    · rw [e]; exact fun hc => by cases hc
    · rw [e]; exact not_lt.2 hx

/-- **C238, correlations**: whatever the square root, the correlations computed from a symmetric matrix are exactly symmetric. -/
theorem C238_correlation (sqrt : IE F fl → IE F fl) (eps : IE F fl) (cov R : Mat (IE F fl) n n) (hs : ∀ i j, cov i j = cov j i)
    (hR : correlation sqrt eps cov = .ok R) : ∀ i j, R i j = R j i := by
  unfold correlation at hR
  cases hsd : standardDeviations sqrt eps cov with
  | error e => rw [hsd] at hR; cases hR
  | ok sd =>
    rw [hsd] at hR
    cases hR
    intro i j
    rw [fillLoop_apply, fillLoop_apply, hs, ie_mul_comm]

/-- **C238, range**: two to `2 ^ 53` samples of `f64` numbers of size at most `2 ^ 480`. Mean and covariance consist of finite numbers. -/
theorem C238_finite (h : Rounds binary64 fl) (xs : List (Fin n → ℝ)) (h2 : 2 ≤ xs.length) (hl : xs.length ≤ 2 ^ 53) (hf : ∀ x ∈ xs, ∀ i, Finite binary64 (x i))
    (hb : ∀ x ∈ xs, ∀ i, |x i| ≤ 2 ^ 480) :
    ∃ mu S, mean (xs.map fun x i => (IE.num (x i) : IE binary64 fl)) = .ok mu ∧ sampleCovariance (xs.map fun x i => (IE.num (x i) : IE binary64 fl)) = .ok S ∧
      (∀ i, Below 480 (mu i)) ∧ ∀ i j, Below 1015 (S i j) := by
  obtain ⟨mu, S, em, eS, hmu, hS⟩ := cov_entry (xs.map fun x i => (IE.num (x i) : IE binary64 fl)) (by simpa using h2)
  have hB : ∀ x ∈ xs.map fun x i => (IE.num (x i) : IE binary64 fl), ∀ i, Below 480 (x i) := by
    intro y hy i
    obtain ⟨x, hx, rfl⟩ := List.mem_map.1 hy
    exact ⟨_, rfl, hf x hx i, hb x hx i⟩
  have hlen : (xs.map fun x i => (IE.num (x i) : IE binary64 fl)).length = xs.length := by simp
  rw [hlen] at hmu hS
  generalize (xs.map fun x i => (IE.num (x i) : IE binary64 fl)) = ys at *
  have hm : ∀ i, Below 480 (mu i) := by
    intro i
    rw [hmu]
    have := fold_times h (fun x : Fin n → IE binary64 fl => x i) (by norm_num) ys 0 0 (Times.zero 480) (by omega) fun x hx => hB x hx i
    rw [zero_add, hlen] at this
    change Below 480 (_ / IE.ofCount xs.length)
    rw [count_exact h hl]
    exact times_div h this le_rfl (by omega) (by norm_num)
  refine ⟨mu, S, em, eS, hm, fun i j => ?_⟩
  rw [hS]
  have hd : ∀ x ∈ ys, ∀ i, Below 481 (x i - mu i) := fun x hx i => Below.sub (by decide) (by decide) h (hB x hx i) (hm i) (by decide)
  have hsum := fold_times h (fun x : Fin n → IE binary64 fl => (x i - mu i) * (x j - mu j)) (c := 962) (by norm_num) ys 0 0 (Times.zero 962) (by omega) fun x hx =>
    Below.mul (by decide) (by decide) h (hd x hx i) (hd x hx j) (by decide)
  rw [zero_add, hlen] at hsum
  have h1 : Below 0 (1 / ((xs.length - 1 : ℕ) : IE binary64 fl)) := by
    change Below 0 (1 / IE.ofCount (xs.length - 1))
    rw [count_exact h (by omega)]
    have hk : (1 : ℝ) ≤ ((xs.length - 1 : ℕ) : ℝ) := by
      have : 1 ≤ xs.length - 1 := by omega
      exact_mod_cast this
    change Below 0 (IE.num 1 / IE.num _)
    rw [div_num _ (by linarith)]
    refine ofReal_below (by decide) (by decide) h (by decide) ?_
    rw [abs_of_nonneg (by positivity), pow_zero]
    exact div_le_one_of_le₀ hk (by linarith)
  have := Below.mul (by decide) (by decide) h (hsum.below (e := 53) hl) h1 (by decide)
  simpa using this

/-- Three samples of two components. -/
example : 2 ≤ ([![0, 1], ![2, -1], ![4, 3]] : List (Fin 2 → ℝ)).length ∧ ∀ x ∈ ([![0, 1], ![2, -1], ![4, 3]] : List (Fin 2 → ℝ)), ∀ i, |x i| ≤ 2 ^ 480 := by
  refine ⟨by simp, fun x hx i => ?_⟩
  have h4 : (4 : ℝ) ≤ 2 ^ 480 := by
    calc (4 : ℝ) = 2 ^ 2 := by norm_num
      _ ≤ 2 ^ 480 := pow_le_pow_right₀ (by norm_num) (by norm_num)
  refine le_trans ?_ h4
  simp only [List.mem_cons, List.not_mem_nil, or_false] at hx
  rcases hx with rfl | rfl | rfl <;> fin_cases i <;> norm_num

end Verif.Stats.Ie
