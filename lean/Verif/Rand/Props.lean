import Verif.Rand.Lemmas
import Mathlib.Tactic.Linarith
import Mathlib.Tactic.FieldSimp
import Mathlib.Data.Rat.Floor
import Mathlib.Tactic.Positivity
import Mathlib.Data.Set.Card
import Mathlib.Algebra.Order.Field.Power

/-!
# C18–C20, C74: the xorshift64* generator

`(g.draws n).1` are the outputs of `n` successive `next_u64` calls on `g`, `(g.draws n).2` the generator
afterwards.
-/

namespace Verif.Rand

/-! ## C18 -/

/-- C18. Whatever the seed and however many numbers are drawn, the state is never zero and neither is
any output (and, the model being total, no draw panics). -/
theorem C18_never_stuck (seed : BitVec 64) (n : Nat) :
    ((Gen.new seed).draws n).2.state ≠ 0 ∧ ∀ u ∈ ((Gen.new seed).draws n).1, u ≠ 0 := by
  constructor
  · rw [draws_state]; exact iterate_ne_zero n _ (new_state_ne seed)
  · intro u hu e
    obtain ⟨i, hi⟩ := List.mem_iff_getElem?.1 hu
    have hlt : i < n := by
      have := (List.getElem?_eq_some_iff.1 hi).1
      rwa [draws_length] at this
    rw [draws_out n _ i hlt, Option.some.injEq, e] at hi
    exact iterate_ne_zero (i + 1) _ (new_state_ne seed)
      (mult_injective _ 0#64 (by rw [hi]; decide))

example : (Gen.new 0).state = 0x9E3779B97F4A7C15#64 ∧ (Gen.new 1).nextU64.1 ≠ 0 := by decide

/-! ## C19 -/

/-- C19. One draw permutes the 2^64 states. -/
theorem C19_step_bijective : Function.Bijective (fun s : BitVec 64 => (Gen.nextU64 ⟨s⟩).2.state) := by
  refine ⟨fun a b h => step_injective h, fun b => ?_⟩
  have e : (N - 1).succ = N := by decide
  have h := iterate_N b
  rw [← e, Function.iterate_succ_apply'] at h
  generalize stepState^[N - 1] b = c at h
  exact ⟨c, h⟩

/-- C19. The output determines the generator: equal outputs only come from equal states. -/
theorem C19_output_injective (g g' : Gen) (h : g.nextU64.1 = g'.nextU64.1) : g = g' := by
  cases g; cases g'
  have := step_injective (mult_injective _ _ h)
  simp only at this
  rw [this]

/-- C19. Two generators in different states produce different outputs at every draw, for ever. -/
theorem C19_streams_never_merge (g g' : Gen) (h : g ≠ g') (n i : Nat) (hi : i < n) :
    (g.draws n).1[i]? ≠ (g'.draws n).1[i]? := by
  rw [draws_out n g i hi, draws_out n g' i hi]
  intro e
  apply h
  cases g; cases g'
  have := step_injective.iterate (i + 1) (mult_injective _ _ (Option.some.inj e))
  simp only at this
  rw [this]

/-- C19. Two seeds give the same generator only if they are equal or are 0 and its substitute. -/
theorem C19_seed_collisions (a b : BitVec 64) :
    Gen.new a = Gen.new b ↔ a = b ∨ (a = 0 ∧ b = 0x9E3779B97F4A7C15#64) ∨
      (a = 0x9E3779B97F4A7C15#64 ∧ b = 0) := by
  unfold Gen.new
  rw [Gen.mk.injEq]
  by_cases ha : a = 0 <;> by_cases hb : b = 0
  · rw [if_pos ha, if_pos hb, ha, hb]; exact ⟨fun _ => Or.inl rfl, fun _ => rfl⟩
  · rw [if_pos ha, if_neg hb]
    constructor
    · intro h; exact Or.inr (Or.inl ⟨ha, h.symm⟩)
    · rintro (h | ⟨_, h⟩ | ⟨_, h⟩)
      · exact absurd (h.symm.trans ha) hb
      · exact h.symm
      · exact absurd h hb
  · rw [if_neg ha, if_pos hb]
    constructor
    · intro h; exact Or.inr (Or.inr ⟨h, hb⟩)
    · rintro (h | ⟨h, _⟩ | ⟨h, _⟩)
      · exact absurd (h.trans hb) ha
      · exact absurd h ha
      · exact h
  · rw [if_neg ha, if_neg hb]
    constructor
    · intro h; exact Or.inl h
    · rintro (h | ⟨h, _⟩ | ⟨_, h⟩)
      · exact h
      · exact absurd h ha
      · exact absurd h hb

/-- C19. Distinct seeds, not the pair {0, substitute}: the two streams differ at every draw. -/
theorem C19_distinct_seeds (a b : BitVec 64) (hab : a ≠ b)
    (h : ¬ (a = 0 ∧ b = 0x9E3779B97F4A7C15#64)) (h' : ¬ (a = 0x9E3779B97F4A7C15#64 ∧ b = 0))
    (n i : Nat) (hi : i < n) :
    ((Gen.new a).draws n).1[i]? ≠ ((Gen.new b).draws n).1[i]? := by
  refine C19_streams_never_merge _ _ (fun e => ?_) n i hi
  rcases (C19_seed_collisions a b).1 e with h1 | h1 | h1
  · exact hab h1
  · exact h h1
  · exact h' h1

example : (1#64 : BitVec 64) ≠ 2#64 ∧ ((Gen.new 1#64).draws 3).1[2]? ≠ ((Gen.new 2#64).draws 3).1[2]? :=
  ⟨by decide, C19_distinct_seeds 1#64 2#64 (by decide) (by decide) (by decide) 3 2 (by decide)⟩

/-! ## C74: full period -/

/-- C74. The state returns to its start after `n` draws exactly when `n` is a multiple of `2^64 - 1`. -/
theorem C74_period (seed : BitVec 64) (n : Nat) :
    ((Gen.new seed).draws n).2 = Gen.new seed ↔ (2 ^ 64 - 1) ∣ n := by
  have e : (2 ^ 64 - 1 : Nat) = N := by decide
  have hg : ((Gen.new seed).draws n).2 = Gen.new seed ↔
      ((Gen.new seed).draws n).2.state = (Gen.new seed).state := by
    constructor
    · intro h; rw [h]
    · intro h
      cases hA : ((Gen.new seed).draws n).2
      cases hB : Gen.new seed
      rw [hA] at h; rw [hB] at h; simp only at h; rw [h]
  rw [hg, draws_state, e, ← minimalPeriod_eq _ (new_state_ne seed)]
  exact Function.isPeriodicPt_iff_minimalPeriod_dvd

/-- C74. Every non-zero 64-bit word is produced exactly once in each full period, whatever the seed. -/
theorem C74_every_output_once (seed u : BitVec 64) (hu : u ≠ 0) :
    ∃! i, i < 2 ^ 64 - 1 ∧ ((Gen.new seed).draws (2 ^ 64 - 1)).1[i]? = some u := by
  have e : (2 ^ 64 - 1 : Nat) = N := by decide
  rw [e]
  have hs := new_state_ne seed
  generalize (Gen.new seed) = g at *
  -- the map i ↦ i-th output from `[0, N)` to the non-zero words is injective between sets of size N
  let f : Nat → BitVec 64 := fun i => stepState^[i + 1] g.state * 0x2545F4914F6CDD1D#64
  have finj : ∀ i j, i < N → j < N → f i = f j → i = j := by
    intro i j hi hj h
    have h1 := mult_injective _ _ h
    rw [Function.iterate_succ_apply', Function.iterate_succ_apply'] at h1
    have h2 := step_injective h1
    have hm := minimalPeriod_eq _ hs
    exact (Function.iterate_eq_iterate_iff_of_lt_minimalPeriod (by rw [hm]; exact hi)
      (by rw [hm]; exact hj)).1 h2
  have fne : ∀ i, f i ≠ 0#64 := by
    intro i h
    exact iterate_ne_zero (i + 1) _ hs (mult_injective _ 0#64 (by rw [show _ * _ = f i from rfl, h]; decide))
  -- pigeonhole
  have hcard : ((Finset.range N).image fun i => (f i).toNat).card = N := by
    rw [Finset.card_image_of_injOn, Finset.card_range]
    intro i hi j hj h
    exact finj i j (by simpa using hi) (by simpa using hj) (BitVec.eq_of_toNat_eq h)
  have hsub : ((Finset.range N).image fun i => (f i).toNat) ⊆ Finset.Icc 1 N := by
    intro x hx
    obtain ⟨i, _, rfl⟩ := Finset.mem_image.1 hx
    rw [Finset.mem_Icc]
    constructor
    · rcases Nat.eq_zero_or_pos (f i).toNat with h | h
      · exact absurd (BitVec.eq_of_toNat_eq h) (fne i)
      · exact h
    · have := (f i).isLt
      rw [← e]; exact Nat.le_sub_one_of_lt this
  have heq := Finset.eq_of_subset_of_card_le hsub (by rw [hcard, Nat.card_Icc]; exact Nat.le_refl _)
  have hmem : u.toNat ∈ (Finset.range N).image fun i => (f i).toNat := by
    rw [heq, Finset.mem_Icc]
    constructor
    · rcases Nat.eq_zero_or_pos u.toNat with h | h
      · exact absurd (BitVec.eq_of_toNat_eq h) hu
      · exact h
    · have := u.isLt
      rw [← e]; exact Nat.le_sub_one_of_lt this
  obtain ⟨i, hi, hfi⟩ := Finset.mem_image.1 hmem
  have hi' : i < N := by simpa using hi
  have hfi := BitVec.eq_of_toNat_eq hfi
  refine ⟨i, ⟨hi', ?_⟩, ?_⟩
  · rw [draws_out N g i hi']; exact congrArg some hfi
  · rintro j ⟨hj, hj2⟩
    rw [draws_out N g j hj] at hj2
    exact finj j i hj hi' ((Option.some.inj hj2).trans hfi.symm)

example : (5#64 : BitVec 64) ≠ 0 := by decide

/-! ## C20 -/

/-- C20 for `f64`. Every uniform draw of every generator is `k/2^53` for some `k < 2^53`; in
particular it lies in `[0, 1)`. -/
theorem C20_f64_range (g : Gen) :
    (∃ k : Nat, k < 2 ^ 53 ∧ g.nextUnit.1 = (k : ℚ) / 2 ^ 53) ∧ 0 ≤ g.nextUnit.1 ∧ g.nextUnit.1 < 1 := by
  have hk : (g.nextU64.1 >>> 11).toNat < 2 ^ 53 := by
    rw [BitVec.toNat_ushiftRight, Nat.shiftRight_eq_div_pow]
    have := g.nextU64.1.isLt
    omega
  have e : g.nextUnit.1 = ((g.nextU64.1 >>> 11).toNat : ℚ) / 2 ^ 53 := rfl
  rw [e]
  generalize (g.nextU64.1 >>> 11).toNat = k at *
  refine ⟨⟨k, hk, rfl⟩, by positivity, ?_⟩
  rw [div_lt_one (by positivity)]
  exact_mod_cast hk

/-- C20 for `f64`: every one of the values `k/2^53` is produced, within one period, from every seed. -/
theorem C20_f64_all_values (seed : BitVec 64) (k : Nat) (hk : k < 2 ^ 53) :
    ∃ n, (((Gen.new seed).draws n).2.nextUnit).1 = (k : ℚ) / 2 ^ 53 := by
  have hu : BitVec.ofNat 64 (k * 2048 + 1) ≠ 0 := by
    intro h
    have := congrArg BitVec.toNat h
    rw [BitVec.toNat_ofNat, Nat.mod_eq_of_lt (by omega)] at this
    simp at this
  obtain ⟨i, ⟨hi, hout⟩, _⟩ := C74_every_output_once seed _ hu
  rw [draws_out _ _ i hi, Option.some.injEq] at hout
  refine ⟨i, ?_⟩
  have e : (((Gen.new seed).draws i).2.nextU64).1 = BitVec.ofNat 64 (k * 2048 + 1) := by
    rw [← hout, Function.iterate_succ_apply', ← draws_state]; rfl
  have e' : (((Gen.new seed).draws i).2.nextUnit).1 =
      (((((Gen.new seed).draws i).2.nextU64).1 >>> 11).toNat : ℚ) / 2 ^ 53 := rfl
  rw [e', e, BitVec.toNat_ushiftRight, BitVec.toNat_ofNat, Nat.mod_eq_of_lt (by omega),
    Nat.shiftRight_eq_div_pow]
  congr 2
  omega

example : (12345 : Nat) < 2 ^ 53 := by decide

/-- The finite values of an IEEE `f32`: `m·2^e` with `|m| < 2^24`, `-149 ≤ e ≤ 104`. -/
def IsF32 (y : ℚ) : Prop := ∃ (m e : ℤ), |m| < 2 ^ 24 ∧ -149 ≤ e ∧ e ≤ 104 ∧ y = m * (2 : ℚ) ^ e

/-- `y` is the result of a correct round-to-nearest conversion of `x` to `f32` (Rust's `as f32`,
used by `f32::from_f64`); ties are irrelevant below. -/
def RoundsToF32 (x y : ℚ) : Prop := IsF32 y ∧ ∀ z, IsF32 z → |x - y| ≤ |x - z|

/-- The only `f32` value within `2^-53` of `1 - 2^-53` is 1. -/
theorem near_one (y : ℚ) (hy : IsF32 y) (h1 : |(1 - 1 / 2 ^ 53 : ℚ) - y| ≤ 1 / 2 ^ 53) : y = 1 := by
  obtain ⟨m, k, hm, hk1, hk2, rfl⟩ := hy
  rw [abs_le] at h1
  obtain ⟨h2, h3⟩ := h1
  have hy1 : (m : ℚ) * 2 ^ k ≥ 1 - 2 / 2 ^ 53 := by linarith
  have hy2 : (m : ℚ) * 2 ^ k ≤ 1 := by linarith
  have hk : -24 ≤ k := by
    by_contra hlt
    have hkk : k ≤ -25 := by omega
    have hp : (2 : ℚ) ^ k ≤ 2 ^ (-25 : ℤ) := zpow_le_zpow_right₀ (by norm_num) hkk
    have hpos : (0 : ℚ) < 2 ^ k := by positivity
    have hmq : (m : ℚ) < 2 ^ 24 := by
      have := (abs_lt.1 hm).2; exact_mod_cast this
    have : (m : ℚ) * 2 ^ k ≤ 2 ^ 24 * 2 ^ (-25 : ℤ) := by
      calc (m : ℚ) * 2 ^ k ≤ 2 ^ 24 * 2 ^ k := by
            apply mul_le_mul_of_nonneg_right hmq.le hpos.le
        _ ≤ 2 ^ 24 * 2 ^ (-25 : ℤ) := by
            apply mul_le_mul_of_nonneg_left hp; positivity
    norm_num at this hy1
    linarith
  obtain ⟨j, hj⟩ := Int.eq_ofNat_of_zero_le (show 0 ≤ k + 24 by omega)
  have hkj : k = (j : ℤ) - 24 := by omega
  have hsc : (m : ℚ) * 2 ^ k = ((m * 2 ^ j : ℤ) : ℚ) / 2 ^ 24 := by
    rw [hkj, zpow_sub₀ (by norm_num)]; push_cast; field_simp; norm_num; ring
  rw [hsc] at hy1 hy2 ⊢
  generalize m * 2 ^ j = M at *
  have hM1 : (M : ℚ) ≤ 2 ^ 24 := by
    rw [div_le_one (by positivity)] at hy2; exact hy2
  have hM2 : (M : ℚ) > 2 ^ 24 - 1 := by
    have : (M : ℚ) ≥ (1 - 2 / 2 ^ 53) * 2 ^ 24 := by
      rwa [ge_iff_le, le_div_iff₀ (by positivity)] at hy1
    norm_num at this ⊢
    linarith
  have a1 : M ≤ 2 ^ 24 := by exact_mod_cast hM1
  have a2 : (2 ^ 24 - 1 : ℤ) < M := by exact_mod_cast hM2
  have : M = 2 ^ 24 := by omega
  rw [this]; norm_num

theorem isF32_one : IsF32 1 := ⟨1, 0, by norm_num, by norm_num, by norm_num, by norm_num⟩

theorem isF32_zero : IsF32 0 := ⟨0, 0, by norm_num, by norm_num, by norm_num, by norm_num⟩

/-- C20 fails for `f32`: from this seed the uniform draw is `1 - 2^-53`, whose conversion to `f32` is
exactly 1, outside `[0, 1)`. -/
theorem C20_f32_fails :
    (Gen.new 12165231662994148584#64).nextUnit.1 = 1 - 1 / 2 ^ 53 ∧
    ∀ y, RoundsToF32 (Gen.new 12165231662994148584#64).nextUnit.1 y ↔ y = 1 := by
  have e : (Gen.new 12165231662994148584#64).nextUnit.1 = 1 - 1 / 2 ^ 53 := by
    have h : ((Gen.new 12165231662994148584#64).nextU64.1 >>> 11).toNat = 2 ^ 53 - 1 := by decide
    have h' : (Gen.new 12165231662994148584#64).nextUnit.1 =
      (((Gen.new 12165231662994148584#64).nextU64.1 >>> 11).toNat : ℚ) / 2 ^ 53 := rfl
    rw [h', h]; norm_num
  have hd : |(1 - 1 / 2 ^ 53 : ℚ) - 1| = 1 / 2 ^ 53 := by
    rw [abs_of_nonpos (by norm_num)]; norm_num
  refine ⟨e, fun y => ⟨?_, ?_⟩⟩
  · rw [e]
    rintro ⟨hy, hmin⟩
    have := hmin 1 isF32_one
    rw [hd] at this
    exact near_one y hy this
  · rintro rfl
    rw [e]
    refine ⟨isF32_one, fun z hz => ?_⟩
    by_contra hlt
    have := near_one z hz (by rw [hd] at hlt; exact (not_le.1 hlt).le)
    rw [this] at hlt
    exact hlt le_rfl

/-- C20 for `f32` (part). Every `f32` draw lies in the closed interval `[0, 1]`.
Missing: strictly below 1 (false, see `C20_f32_fails`). -/
theorem C20_f32_partial (g : Gen) (y : ℚ) (h : RoundsToF32 g.nextUnit.1 y) : 0 ≤ y ∧ y ≤ 1 := by
  obtain ⟨_, h0, h1⟩ := C20_f64_range g
  obtain ⟨_, hmin⟩ := h
  generalize g.nextUnit.1 = x at *
  constructor
  · by_contra hy
    have hy := not_le.1 hy
    have := hmin 0 isF32_zero
    rw [abs_of_nonneg (by linarith), abs_of_nonneg (by linarith)] at this
    linarith
  · by_contra hy
    have hy := not_le.1 hy
    have := hmin 1 isF32_one
    rw [abs_of_neg (by linarith), abs_of_neg (by linarith)] at this
    linarith

/-- The hypothesis of `C20_f32_partial` is met. -/
example : RoundsToF32 (Gen.new 12165231662994148584#64).nextUnit.1 1 :=
  (C20_f32_fails.2 1).2 rfl

end Verif.Rand
