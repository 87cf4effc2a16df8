import Verif.Rand.Props
import Mathlib.Algebra.Order.Floor.Ring

/-!
# C144: the uniform draws are equidistributed over the period
-/

namespace Verif.Rand

/-- The `i`-th uniform draw (`next_f64`) from a seed. -/
def unitAt (seed : BitVec 64) (i : ℕ) : ℚ := (((Gen.new seed).draws i).2.nextUnit).1

/-- The `i`-th output. -/
def outAt (seed : BitVec 64) (i : ℕ) : BitVec 64 := (((Gen.new seed).draws i).2.nextU64).1

theorem outAt_val (seed : BitVec 64) (i : ℕ) : outAt seed i = stepState^[i + 1] (Gen.new seed).state * 0x2545F4914F6CDD1D#64 := by
  rw [Function.iterate_succ_apply', ← draws_state]; rfl

theorem outAt_eq (seed : BitVec 64) {i n : ℕ} (h : i < n) : ((Gen.new seed).draws n).1[i]? = some (outAt seed i) := by
  rw [draws_out _ _ i h, outAt_val]

theorem outAt_ne (seed : BitVec 64) (i : ℕ) : outAt seed i ≠ 0 := by
  intro h
  have e := outAt_val seed i
  exact iterate_ne_zero (i + 1) _ (new_state_ne seed) (mult_injective _ 0#64 (by rw [← e, h]; decide))

theorem card_outputs (seed : BitVec 64) (P : ℕ → Prop) [DecidablePred P] :
    ((Finset.range (2 ^ 64 - 1)).filter fun i => P (outAt seed i).toNat).card = ((Finset.Icc 1 (2 ^ 64 - 1)).filter P).card := by
  refine Finset.card_bij (fun i _ => (outAt seed i).toNat) ?_ ?_ ?_
  · intro i hi
    rw [Finset.mem_filter] at hi ⊢
    refine ⟨Finset.mem_Icc.2 ⟨?_, ?_⟩, hi.2⟩
    · rcases Nat.eq_zero_or_pos (outAt seed i).toNat with h | h
      · exact absurd (BitVec.eq_of_toNat_eq h) (outAt_ne seed i)
      · exact h
    · exact Nat.le_sub_one_of_lt (outAt seed i).isLt
  · intro i hi j hj h
    have hi := Finset.mem_range.1 (Finset.mem_filter.1 hi).1
    have hj := Finset.mem_range.1 (Finset.mem_filter.1 hj).1
    have h := BitVec.eq_of_toNat_eq h
    exact (C74_every_output_once seed _ (outAt_ne seed j)).unique ⟨hi, by rw [outAt_eq seed hi, h]⟩ ⟨hj, outAt_eq seed hj⟩
  · intro u hu
    rw [Finset.mem_filter, Finset.mem_Icc] at hu
    have hlt : u < 2 ^ 64 := by omega
    have e : (BitVec.ofNat 64 u).toNat = u := by rw [BitVec.toNat_ofNat, Nat.mod_eq_of_lt hlt]
    have hne : BitVec.ofNat 64 u ≠ 0 := by
      intro h
      rw [h] at e
      have : (0 : BitVec 64).toNat = 0 := rfl
      omega
    obtain ⟨i, ⟨hi, ho⟩, _⟩ := C74_every_output_once seed _ hne
    rw [outAt_eq seed hi, Option.some.injEq] at ho
    exact ⟨i, Finset.mem_filter.2 ⟨Finset.mem_range.2 hi, by rw [ho, e]; exact hu.2⟩, by rw [ho, e]⟩

theorem unitAt_eq (seed : BitVec 64) (i : ℕ) : unitAt seed i = (((outAt seed i).toNat / 2048 : ℕ) : ℚ) / 2 ^ 53 := by
  have : unitAt seed i = ((outAt seed i >>> 11).toNat : ℚ) / 2 ^ 53 := rfl
  rw [this, BitVec.toNat_ushiftRight, Nat.shiftRight_eq_div_pow]

/-- C144. In one period of `2 ^ 64 - 1` draws each of the `2 ^ 53` values `k / 2 ^ 53` occurs `2 ^ 11` times, except zero, which occurs once less often. -/
theorem C144_counts (seed : BitVec 64) (k : ℕ) (hk : k < 2 ^ 53) :
    ((Finset.range (2 ^ 64 - 1)).filter fun i => unitAt seed i = (k : ℚ) / 2 ^ 53).card = if k = 0 then 2047 else 2048 := by
  have h1 : ((Finset.range (2 ^ 64 - 1)).filter fun i => unitAt seed i = (k : ℚ) / 2 ^ 53) =
      (Finset.range (2 ^ 64 - 1)).filter fun i => (outAt seed i).toNat / 2048 = k := by
    apply Finset.filter_congr
    intro i _
    rw [unitAt_eq, div_left_inj' (by positivity)]
    exact Nat.cast_inj
  rw [h1, card_outputs seed (fun u => u / 2048 = k)]
  have h2 : ((Finset.Icc 1 (2 ^ 64 - 1)).filter fun u => u / 2048 = k) = Finset.Icc (max 1 (k * 2048)) (k * 2048 + 2047) := by
    ext u
    simp only [Finset.mem_filter, Finset.mem_Icc]
    omega
  rw [h2, Nat.card_Icc]
  split_ifs with h
  · subst h; rfl
  · omega

/-- C144. In one period the share of the draws below `x` is `x`, up to `2 ^ 11` draws in `2 ^ 64 - 1`. -/
theorem C144_share (seed : BitVec 64) (x : ℚ) (h0 : 0 ≤ x) (h1 : x ≤ 1) :
    |(((Finset.range (2 ^ 64 - 1)).filter fun i => unitAt seed i < x).card : ℚ) - x * (2 ^ 64 - 1)| ≤ 2 ^ 11 := by
  set m : ℕ := ⌈x * 2 ^ 53⌉₊ with hm
  have hm1 : x * 2 ^ 53 ≤ m := Nat.le_ceil _
  have hm2 : (m : ℚ) < x * 2 ^ 53 + 1 := Nat.ceil_lt_add_one (by positivity)
  have hm3 : m ≤ 2 ^ 53 := Nat.ceil_le.2 (by push_cast; nlinarith)
  have e1 : ((Finset.range (2 ^ 64 - 1)).filter fun i => unitAt seed i < x) =
      (Finset.range (2 ^ 64 - 1)).filter fun i => (outAt seed i).toNat / 2048 < m := by
    apply Finset.filter_congr
    intro i _
    rw [unitAt_eq, div_lt_iff₀ (by positivity), hm, Nat.lt_ceil]
  rw [e1, card_outputs seed (fun u => u / 2048 < m)]
  have e2 : ((Finset.Icc 1 (2 ^ 64 - 1)).filter fun u => u / 2048 < m) = Finset.Icc 1 (m * 2048 - 1) := by
    ext u
    simp only [Finset.mem_filter, Finset.mem_Icc]
    omega
  rw [e2, Nat.card_Icc, Nat.add_sub_cancel]
  clear_value m
  rcases Nat.eq_zero_or_pos m with h | h
  · subst h
    have hx : x = 0 := by
      have : x * 2 ^ 53 ≤ 0 := by simpa using hm1
      have : x ≤ 0 := by linarith
      linarith
    subst hx
    norm_num
  · rw [Nat.cast_sub (by omega)]
    push_cast
    rw [abs_le]
    constructor <;> linarith

example : (3 : ℕ) < 2 ^ 53 ∧ (0 : ℚ) ≤ 1 / 3 ∧ (1 / 3 : ℚ) ≤ 1 := by norm_num

end Verif.Rand
