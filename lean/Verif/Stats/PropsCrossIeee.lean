import Verif.Stats.PropsCovIeee

/-!
# Sample cross-covariances in machine arithmetic (C240)
-/

namespace Verif.Stats.Ie

open Verif.Ieee Verif.Mat Verif.ML.Ie

variable {F : Format} {fl : ℝ → ℝ} {n m : ℕ}

/-- The entries of the computed mean, in any arithmetic. -/
theorem mean_entry {α : Type} [Zero α] [Add α] [Div α] [NatCast α] (xs : List (Fin n → α)) (h2 : 2 ≤ xs.length) :
    ∃ mu, mean xs = .ok mu ∧ ∀ i, mu i = xs.foldl (fun s x => s + x i) 0 / (xs.length : α) := by
  have hne : ¬ xs.isEmpty := by
    rw [List.isEmpty_iff]
    rintro rfl
    simp at h2
  refine ⟨fun i => xs.foldl (fun mean sample => mean + sample) (fun _ => 0) i / (xs.length : α), by unfold mean; rw [if_neg hne], fun i => ?_⟩
  have : ∀ (l : List (Fin n → α)) (v : Fin n → α), l.foldl (fun mean sample => mean + sample) v i = l.foldl (fun s x => s + x i) (v i) := by
    intro l
    induction l with
    | nil => intro v; rfl
    | cons x l ih => intro v; rw [List.foldl_cons, ih]; rfl
  change xs.foldl (fun mean sample => mean + sample) (fun _ => 0) i / (xs.length : α) = _
  rw [this]

/-- The entries of the computed cross-covariance, in any arithmetic. -/
theorem cross_entry {α : Type} [Zero α] [One α] [Add α] [Sub α] [Mul α] [Div α] [NatCast α] (xs : List (Fin n → α)) (ys : List (Fin m → α))
    (hl : xs.length = ys.length) (h2 : 2 ≤ xs.length) :
    ∃ mx my S, mean xs = .ok mx ∧ mean ys = .ok my ∧ crossCovariance xs ys = .ok S ∧
      ∀ i j, S i j = (xs.zip ys).foldl (fun acc p => acc + (p.1 i - mx i) * (p.2 j - my j)) 0 * (1 / ((xs.length - 1 : ℕ) : α)) := by
  have hne : ¬ xs.isEmpty := by
    rw [List.isEmpty_iff]
    rintro rfl
    simp at h2
  obtain ⟨mx, ex, -⟩ := mean_entry xs h2
  obtain ⟨my, ey, -⟩ := mean_entry ys (by omega)
  refine ⟨mx, my, _, ex, ey, by unfold crossCovariance; rw [if_neg (by omega), if_neg hne, if_neg (by omega), ex, ey]; rfl, fun i j => ?_⟩
  unfold mulS
  rw [fillLoop_apply]
  congr 1
  have : ∀ (l : List ((Fin n → α) × (Fin m → α))) (c : Mat α n m), l.foldl (fun cov p => addOuter cov (p.1 - mx) (p.2 - my)) c i j =
      l.foldl (fun acc p => acc + (p.1 i - mx i) * (p.2 j - my j)) (c i j) := by
    intro l
    induction l with
    | nil => intro c; rfl
    | cons x l ih => intro c; rw [List.foldl_cons, ih, addOuter_apply]; rfl
  rw [this]
  rfl

/-! ## Properties -/

/-- **C240, exchange**: any samples of any values, also infinite ones and NaN, in any format. Exchanging the two series gives exactly the transposed matrix; it fails exactly if
the first call does, with the same error. -/
theorem C240_swap (xs : List (Fin n → IE F fl)) (ys : List (Fin m → IE F fl)) :
    (∀ e, crossCovariance xs ys = .error e → crossCovariance ys xs = .error e) ∧
      ∀ S, crossCovariance xs ys = .ok S → crossCovariance ys xs = .ok fun j i => S i j := by
  by_cases hl : xs.length = ys.length
  · by_cases h2 : 2 ≤ xs.length
    · obtain ⟨mx, my, S, ex, ey, eS, hS⟩ := cross_entry xs ys hl h2
      obtain ⟨my', mx', T, ey', ex', eT, hT⟩ := cross_entry ys xs hl.symm (by omega)
      rw [ex] at ex'
      rw [ey] at ey'
      cases ex'
      cases ey'
      rw [eS, eT]
      refine ⟨fun e he => (by cases he), fun S' he => ?_⟩
      cases he
      congr 1
      funext j i
      rw [hS, hT, hl, ← List.zip_swap, List.foldl_map]
      congr 2
      funext acc p
      rw [ie_mul_comm]
      rfl
    · have h0 : xs.isEmpty = ys.isEmpty := by
        rw [Bool.eq_iff_iff, List.isEmpty_iff_length_eq_zero, List.isEmpty_iff_length_eq_zero, hl]
      unfold crossCovariance
      rw [if_neg (show ¬ xs.length ≠ ys.length by omega), if_neg (show ¬ ys.length ≠ xs.length by omega), h0]
      by_cases h0 : ys.isEmpty
      · rw [if_pos h0, if_pos h0]
        exact ⟨fun e he => by cases he; rfl, fun S he => by cases he⟩
      · rw [if_neg h0, if_neg h0, if_pos (by omega), if_pos (by omega)]
        exact ⟨fun e he => by cases he; rfl, fun S he => by cases he⟩
  · unfold crossCovariance
    rw [if_pos hl, if_pos (Ne.symm hl)]
    exact ⟨fun e he => by cases he; rfl, fun S he => by cases he⟩

/-- **C240, self**: the cross-covariance of a series with itself is exactly its covariance, entry by entry, or the same error. -/
theorem C240_self (xs : List (Fin n → IE F fl)) : crossCovariance xs xs = sampleCovariance xs := (self_gen xs).symm

/-- **C240, range**: two to `2 ^ 53` pairs of `f64` samples of size at most `2 ^ 480`. The call succeeds and every entry is a finite number. -/
theorem C240_finite (h : Rounds binary64 fl) (xs : List (Fin n → IE binary64 fl)) (ys : List (Fin m → IE binary64 fl)) (he : xs.length = ys.length) (h2 : 2 ≤ xs.length)
    (hl : xs.length ≤ 2 ^ 53) (hx : ∀ x ∈ xs, ∀ i, Below 480 (x i)) (hy : ∀ y ∈ ys, ∀ j, Below 480 (y j)) :
    ∃ S, crossCovariance xs ys = .ok S ∧ ∀ i j, ∃ c, S i j = IE.num c ∧ Finite binary64 c ∧ |c| ≤ 2 ^ 1015 := by
  have hm : ∀ {k : ℕ} (zs : List (Fin k → IE binary64 fl)) (mu : Fin k → IE binary64 fl), 2 ≤ zs.length → zs.length ≤ 2 ^ 53 →
      (∀ z ∈ zs, ∀ i, Below 480 (z i)) → mean zs = .ok mu → ∀ i, Below 480 (mu i) := by
    intro k zs mu l2 ll hz e i
    obtain ⟨mu', e', hmu⟩ := mean_entry zs l2
    rw [e] at e'
    cases e'
    rw [hmu]
    have := fold_times h (fun x : Fin k → IE binary64 fl => x i) (by norm_num) zs 0 0 (Times.zero 480) (by omega) fun x hx => hz x hx i
    rw [zero_add] at this
    change Below 480 (_ / IE.ofCount zs.length)
    rw [count_exact h ll]
    exact times_div h this le_rfl (by omega) (by norm_num)
  obtain ⟨mx, my, S, ex, ey, eS, hS⟩ := cross_entry xs ys he h2
  refine ⟨S, eS, fun i j => ?_⟩
  have hlen : (xs.zip ys).length = xs.length := by rw [List.length_zip, he, min_self]
  have hsum := fold_times h (fun p : (Fin n → IE binary64 fl) × (Fin m → IE binary64 fl) => (p.1 i - mx i) * (p.2 j - my j)) (c := 962) (by norm_num) (xs.zip ys) 0 0
    (Times.zero 962) (by omega) fun p hp =>
    Below.mul (by decide) (by decide) h
      (Below.sub (by decide) (by decide) h (hx _ (List.of_mem_zip hp).1 i) (hm xs mx h2 hl hx ex i) (by decide))
      (Below.sub (by decide) (by decide) h (hy _ (List.of_mem_zip hp).2 j) (hm ys my (by omega) (by omega) hy ey j) (by decide)) (by decide)
  rw [zero_add, hlen] at hsum
  have h1 : Below 0 (1 / ((xs.length - 1 : ℕ) : IE binary64 fl)) := by
    change Below 0 (1 / IE.ofCount (xs.length - 1))
    rw [count_exact h (by omega)]
    have hk : (1 : ℝ) ≤ ((xs.length - 1 : ℕ) : ℝ) := by
      have : 1 ≤ xs.length - 1 := by omega
      exact_mod_cast this
    change Below 0 (IE.num 1 / IE.num _)
    rw [div_num _ (by linarith)]
    refine ofReal_below (by decide) (by decide) h (by decide) ?_
    rw [abs_of_nonneg (by positivity), pow_zero]
    exact div_le_one_of_le₀ hk (by linarith)
  rw [hS]
  have := Below.mul (by decide) (by decide) h (hsum.below (e := 53) hl) h1 (by decide)
  simpa [Below] using this

/-- Two pairs of samples. -/
example (h : Rounds binary64 fl) : ∃ S, crossCovariance [fun _ : Fin 1 => (IE.num 0 : IE binary64 fl), fun _ => IE.num 1] [fun _ : Fin 2 => IE.num 1, fun _ => IE.num 0] = .ok S ∧
    ∀ i j, ∃ c, S i j = IE.num c ∧ Finite binary64 c ∧ |c| ≤ 2 ^ 1015 := by
  have one : Below 480 (IE.num 1 : IE binary64 fl) := ⟨1, rfl, fin_one, by rw [abs_one]; exact one_le_pow₀ (by norm_num)⟩
  have zero : Below 480 (IE.num 0 : IE binary64 fl) := ⟨0, rfl, fin_zero, by simp⟩
  refine C240_finite h _ _ rfl (by simp) (by norm_num) ?_ ?_
  all_goals
    intro x hx i
    simp only [List.mem_cons, List.not_mem_nil, or_false] at hx
    rcases hx with rfl | rfl <;> assumption

end Verif.Stats.Ie
