import Verif.Rand.Model
import Mathlib.Dynamics.PeriodicPts.Lemmas
import Mathlib.Tactic.NormNum.Prime

/-!
# The order of the xorshift map

`stepState` is linear over GF(2). Polynomials over GF(2) are natural numbers (bit `i` = coefficient
of `x^i`); `act` evaluates a polynomial at `stepState`. `P` annihilates `stepState`, so products may be
computed modulo `P`; the order follows from `x^(2^64-1) = 1` and seven Bézout certificates.
-/

namespace Verif.Rand

theorem xs_right (a b : BitVec 64) (k : Nat) :
    (a ^^^ b) ^^^ ((a ^^^ b) >>> k) = (a ^^^ a >>> k) ^^^ (b ^^^ b >>> k) := by
  rw [BitVec.ushiftRight_xor_distrib]; ac_rfl

theorem xs_left (a b : BitVec 64) (k : Nat) :
    (a ^^^ b) ^^^ ((a ^^^ b) <<< k) = (a ^^^ a <<< k) ^^^ (b ^^^ b <<< k) := by
  rw [BitVec.shiftLeft_xor_distrib]; ac_rfl

theorem step_xor (a b : BitVec 64) : stepState (a ^^^ b) = stepState a ^^^ stepState b := by
  unfold stepState
  simp only []
  rw [xs_right a b 12, xs_left, xs_right]

theorem step_zero : stepState 0#64 = 0#64 := by decide

/-- `stepState` on natural numbers. -/
def stepN (n : Nat) : Nat :=
  let x := n ^^^ (n >>> 12)
  let x := x ^^^ ((x <<< 25) % 18446744073709551616)
  x ^^^ (x >>> 27)

theorem stepN_eq (s : BitVec 64) : (stepState s).toNat = stepN s.toNat := by
  simp [stepState, stepN, BitVec.toNat_xor, BitVec.toNat_ushiftRight, BitVec.toNat_shiftLeft]

/-- Polynomial `a` (bits below `k`) evaluated at `stepState`, applied to `s`. -/
def act : Nat → Nat → BitVec 64 → BitVec 64
  | 0, _, _ => 0#64
  | k + 1, a, s => (if a.testBit 0 then s else 0#64) ^^^ stepState (act k (a >>> 1) s)

theorem act_xor_left (k : Nat) (a b : Nat) (s : BitVec 64) :
    act k (a ^^^ b) s = act k a s ^^^ act k b s := by
  induction k generalizing a b with
  | zero => simp [act]
  | succ k ih =>
    simp only [act, Nat.testBit_xor, Nat.shiftRight_xor_distrib, ih, step_xor]
    generalize stepState (act k (a >>> 1) s) = u
    generalize stepState (act k (b >>> 1) s) = v
    cases a.testBit 0 <;> cases b.testBit 0 <;> simp
    · ac_rfl
    · ac_rfl
    · have : s ^^^ u ^^^ (s ^^^ v) = (s ^^^ s) ^^^ (u ^^^ v) := by ac_rfl
      rw [this]; simp

theorem act_xor_right (k a : Nat) (s t : BitVec 64) :
    act k a (s ^^^ t) = act k a s ^^^ act k a t := by
  induction k generalizing a with
  | zero => simp [act]
  | succ k ih =>
    simp only [act, ih, step_xor]
    cases a.testBit 0 <;> simp
    ac_rfl

theorem act_zero_right (k a : Nat) : act k a 0#64 = 0#64 := by
  induction k generalizing a with
  | zero => rfl
  | succ k ih => simp only [act, ih, step_zero, ite_self]; rfl

theorem act_zero_left (k : Nat) (s : BitVec 64) : act k 0 s = 0#64 := by
  induction k with
  | zero => rfl
  | succ k ih => simp only [act, Nat.zero_shiftRight, ih, step_zero, Nat.zero_testBit]; simp

theorem act_step (k a : Nat) (s : BitVec 64) : act k a (stepState s) = stepState (act k a s) := by
  induction k generalizing a with
  | zero => simp [act, step_zero]
  | succ k ih =>
    simp only [act, ih, step_xor]
    cases a.testBit 0 <;> simp [step_zero]

theorem act_succ_of_lt (k a : Nat) (s : BitVec 64) (h : a < 2 ^ k) : act (k + 1) a s = act k a s := by
  induction k generalizing a with
  | zero =>
    have : a = 0 := by omega
    subst this; simp [act, step_zero]
  | succ k ih =>
    have : a >>> 1 < 2 ^ k := by
      rw [Nat.shiftRight_eq_div_pow]; rw [Nat.pow_succ] at h; omega
    rw [act, ih _ this]; rfl

/-- The annihilating polynomial of `stepState` (degree 64). -/
def P : Nat := 0x10018b73aa7cc9b71

/-- `act` on natural numbers, for kernel evaluation. -/
def actN : Nat → Nat → Nat → Nat
  | 0, _, _ => 0
  | k + 1, a, s => (if a.testBit 0 then s else 0) ^^^ stepN (actN k (a >>> 1) s)

theorem actN_eq (k a : Nat) (s : BitVec 64) : (act k a s).toNat = actN k a s.toNat := by
  induction k generalizing a with
  | zero => rfl
  | succ k ih =>
    simp only [act, actN, BitVec.toNat_xor, stepN_eq, ih]
    cases a.testBit 0 <;> rfl

theorem P_basis : ∀ i : Fin 64, actN 65 P (2 ^ i.val) = 0 := by decide +kernel

/-- The low `k` bits of `s`. -/
def low (k : Nat) (s : BitVec 64) : BitVec 64 := BitVec.ofNat 64 (s.toNat % 2 ^ k)

theorem low_bit (k : Nat) (s : BitVec 64) (i : Nat) (hi : i < 64) :
    (low k s).getLsbD i = (decide (i < k) && s.getLsbD i) := by
  rw [low, BitVec.getLsbD_ofNat, Nat.testBit_mod_two_pow, decide_eq_true hi, Bool.true_and]
  rfl

theorem low_succ (k : Nat) (s : BitVec 64) :
    low (k + 1) s = low k s ^^^ (if s.getLsbD k then BitVec.ofNat 64 (2 ^ k) else 0#64) := by
  apply BitVec.eq_of_getLsbD_eq
  intro i hi
  have hite : (if s.getLsbD k then BitVec.ofNat 64 (2 ^ k) else 0#64).getLsbD i =
      (s.getLsbD k && decide (k = i)) := by
    cases s.getLsbD k
    · simp
    · simp only [if_true, BitVec.getLsbD_ofNat, Nat.testBit_two_pow, decide_eq_true hi, Bool.true_and]
  rw [BitVec.getLsbD_xor, low_bit _ _ _ hi, low_bit _ _ _ hi, hite]
  by_cases e : k = i
  · subst e; simp
  · by_cases h : i < k
    · simp [h, e, Nat.lt_succ_of_lt h]
    · have : ¬ i < k + 1 := by omega
      simp [h, e, this]

theorem low_all (s : BitVec 64) : low 64 s = s := by
  apply BitVec.eq_of_getLsbD_eq
  intro i hi
  rw [low_bit _ _ _ hi, decide_eq_true hi, Bool.true_and]

/-- `P` annihilates every state. -/
theorem act_P (s : BitVec 64) : act 65 P s = 0#64 := by
  have h : ∀ k, k ≤ 64 → act 65 P (low k s) = 0#64 := by
    intro k
    induction k with
    | zero => intro _; simp only [low, Nat.pow_zero, Nat.mod_one]; exact act_zero_right _ _
    | succ k ih =>
      intro hk
      rw [low_succ k s, act_xor_right, ih (by omega)]
      split
      · have := P_basis ⟨k, by omega⟩
        have e := actN_eq 65 P (BitVec.ofNat 64 (2 ^ k))
        have hlt : 2 ^ k < 2 ^ 64 := Nat.pow_lt_pow_right (by decide) (by omega)
        rw [BitVec.toNat_ofNat, Nat.mod_eq_of_lt hlt, this] at e
        have : act 65 P (BitVec.ofNat 64 (2 ^ k)) = 0#64 := by
          apply BitVec.eq_of_toNat_eq; rw [e]; rfl
        rw [this]; rfl
      · rw [act_zero_right]; rfl
  have := h 64 (by omega)
  rwa [low_all] at this

/-- Multiplication by `x` modulo `P`. -/
def mulx (a : Nat) : Nat := if (a <<< 1).testBit 64 then (a <<< 1) ^^^ P else a <<< 1

/-- Multiplication modulo `P` (using the low `k` bits of `a`). -/
def mul : Nat → Nat → Nat → Nat
  | 0, _, _ => 0
  | k + 1, a, b => (if a.testBit 0 then b else 0) ^^^ mulx (mul k (a >>> 1) b)

theorem mulx_lt (a : Nat) (h : a < 2 ^ 64) : mulx a < 2 ^ 64 := by
  unfold mulx
  have h65 : a <<< 1 < 2 ^ 65 := by
    rw [Nat.shiftLeft_eq]; omega
  split
  · rename_i hb
    apply Nat.lt_pow_two_of_testBit
    intro i hi
    rw [Nat.testBit_xor]
    by_cases e : i = 64
    · subst e; rw [hb]; decide +kernel
    · have : 2 ^ 65 ≤ 2 ^ i := Nat.pow_le_pow_right (by decide) (by omega)
      rw [Nat.testBit_lt_two_pow (by omega), Nat.testBit_lt_two_pow]; rfl
      have : P < 2 ^ 65 := by decide
      omega
  · rename_i hb
    apply Nat.lt_pow_two_of_testBit
    intro i hi
    by_cases e : i = 64
    · subst e; simpa using hb
    · have : 2 ^ 65 ≤ 2 ^ i := Nat.pow_le_pow_right (by decide) (by omega)
      exact Nat.testBit_lt_two_pow (by omega)

theorem act_mulx (a : Nat) (h : a < 2 ^ 64) (s : BitVec 64) :
    act 64 (mulx a) s = stepState (act 64 a s) := by
  rw [← act_succ_of_lt 64 _ s (mulx_lt a h)]
  have key : act 65 (a <<< 1) s = stepState (act 64 a s) := by
    rw [act]
    have h1 : (a <<< 1).testBit 0 = false := by simp
    have h2 : (a <<< 1) >>> 1 = a := by
      rw [Nat.shiftRight_eq_div_pow, Nat.shiftLeft_eq]; omega
    rw [h1, h2]; simp
  unfold mulx
  split
  · rw [act_xor_left, act_P, key]; simp
  · exact key

theorem mul_lt (k a b : Nat) (h : b < 2 ^ 64) : mul k a b < 2 ^ 64 := by
  induction k generalizing a with
  | zero => simp [mul]
  | succ k ih =>
    rw [mul]
    apply Nat.xor_lt_two_pow
    · split
      · exact h
      · decide
    · exact mulx_lt _ (ih _)

theorem act_mul (k a b : Nat) (h : b < 2 ^ 64) (s : BitVec 64) :
    act 64 (mul k a b) s = act k a (act 64 b s) := by
  induction k generalizing a with
  | zero => exact act_zero_left _ _
  | succ k ih =>
    rw [mul, act_xor_left, act_mulx _ (mul_lt k _ b h), ih]
    show _ = (if a.testBit 0 then act 64 b s else 0#64) ^^^ stepState (act k (a >>> 1) (act 64 b s))
    congr 1
    split
    · rfl
    · exact act_zero_left _ _

/-- `x^n` modulo `P` by repeated squaring (`f` bounds the number of binary digits). -/
def powx : Nat → Nat → Nat
  | 0, _ => 1
  | f + 1, n =>
    if n = 0 then 1
    else if n % 2 = 1 then mulx (mul 64 (powx f (n / 2)) (powx f (n / 2)))
    else mul 64 (powx f (n / 2)) (powx f (n / 2))

theorem powx_lt (f n : Nat) : powx f n < 2 ^ 64 := by
  induction f generalizing n with
  | zero => simp [powx]
  | succ f ih =>
    rw [powx]
    split
    · decide
    · split
      · exact mulx_lt _ (mul_lt _ _ _ (ih _))
      · exact mul_lt _ _ _ (ih _)

theorem act_one (s : BitVec 64) : act 64 1 s = s := by
  rw [act]
  have : (1 : Nat) >>> 1 = 0 := rfl
  rw [this, act_zero_left]
  simp [step_zero]

theorem act_powx (f n : Nat) (h : n < 2 ^ f) (s : BitVec 64) :
    act 64 (powx f n) s = stepState^[n] s := by
  induction f generalizing n s with
  | zero =>
    have : n = 0 := by omega
    subst this; exact act_one s
  | succ f ih =>
    rw [powx]
    have hn : n / 2 < 2 ^ f := by rw [Nat.pow_succ] at h; omega
    split
    · rename_i e; subst e; exact act_one s
    · split
      · rename_i h1
        have e : n = 1 + (n / 2 + n / 2) := by omega
        rw [act_mulx _ (mul_lt _ _ _ (powx_lt _ _)), act_mul _ _ _ (powx_lt _ _), ih _ hn, ih _ hn,
          ← Function.iterate_add_apply]
        conv_rhs => rw [e, Function.iterate_add_apply]
        rfl
      · have e : n = n / 2 + n / 2 := by omega
        rw [act_mul _ _ _ (powx_lt _ _), ih _ hn, ih _ hn, ← Function.iterate_add_apply, ← e]

/-- The period: `2^64 - 1`. -/
def N : Nat := 18446744073709551615

theorem powx_N : powx 64 N = 1 := by decide +kernel

theorem iterate_N (s : BitVec 64) : stepState^[N] s = s := by
  rw [← act_powx 64 N (by decide) s, powx_N, act_one]

theorem step_injective : Function.Injective stepState := by
  intro a b h
  have e : N = (N - 1) + 1 := by decide
  rw [← iterate_N a, ← iterate_N b, e, Function.iterate_succ_apply, Function.iterate_succ_apply, h]

theorem iterate_zero (n : Nat) : stepState^[n] 0#64 = 0#64 := by
  induction n with
  | zero => rfl
  | succ n ih => rw [Function.iterate_succ_apply, step_zero, ih]

theorem iterate_ne_zero (n : Nat) (s : BitVec 64) (h : s ≠ 0#64) : stepState^[n] s ≠ 0#64 := by
  intro e
  exact h (step_injective.iterate n (by rw [e, iterate_zero]))

/-- A Bézout certificate `u·(x^m + 1) = 1` shows that no non-zero state has period `m`. -/
theorem no_period (m u : Nat) (hm : m < 2 ^ 64) (hu : mul 64 u (powx 64 m ^^^ 1) = 1)
    (s : BitVec 64) (h : stepState^[m] s = s) : s = 0#64 := by
  have hlt : powx 64 m ^^^ 1 < 2 ^ 64 := Nat.xor_lt_two_pow (powx_lt _ _) (by decide)
  have := act_mul 64 u _ hlt s
  rw [hu, act_one, act_xor_left, act_powx 64 m hm, h, act_one, BitVec.xor_self, act_zero_right] at this
  exact this

theorem primes_N : N = 3 * 5 * 17 * 257 * 641 * 65537 * 6700417 := by decide

theorem cert3 : mul 64 0x60e71579575698b8 (powx 64 6148914691236517205 ^^^ 1) = 1 := by decide +kernel
theorem cert5 : mul 64 0x2dfd563d8df4dacb (powx 64 3689348814741910323 ^^^ 1) = 1 := by decide +kernel
theorem cert17 : mul 64 0xe1abb9b6d5614b7 (powx 64 1085102592571150095 ^^^ 1) = 1 := by decide +kernel
theorem cert257 : mul 64 0x1934106f6e3c47a3 (powx 64 71777214294589695 ^^^ 1) = 1 := by decide +kernel
theorem cert641 : mul 64 0x52d7e7e1fc2212ef (powx 64 28778071877862015 ^^^ 1) = 1 := by decide +kernel
theorem cert65537 : mul 64 0x6e23c80b59c2baa2 (powx 64 281470681808895 ^^^ 1) = 1 := by decide +kernel
theorem cert6700417 : mul 64 0x77bd2fdf157c6fc9 (powx 64 2753074036095 ^^^ 1) = 1 := by decide +kernel

/-- A proper divisor of `N` divides `N / q` for one of the primes `q`. -/
theorem proper_divisor (d : Nat) (h : d ∣ N) (hd : d ≠ N) :
    d ∣ 6148914691236517205 ∨ d ∣ 3689348814741910323 ∨ d ∣ 1085102592571150095 ∨
    d ∣ 71777214294589695 ∨ d ∣ 28778071877862015 ∨ d ∣ 281470681808895 ∨ d ∣ 2753074036095 := by
  obtain ⟨k, hk⟩ := h
  have hk1 : k ≠ 1 := by rintro rfl; exact hd (by omega)
  obtain ⟨q, hq, q', rfl⟩ := Nat.exists_prime_and_dvd hk1
  have hqN : q ∣ 3 * 5 * 17 * 257 * 641 * 65537 * 6700417 := by
    rw [← primes_N, hk]; exact ⟨d * q', by ac_rfl⟩
  have fin : ∀ m, N = q * m → d ∣ m := by
    intro m hm
    refine ⟨q', ?_⟩
    have : q * m = q * (d * q') := by rw [← hm, hk]; ac_rfl
    exact Nat.eq_of_mul_eq_mul_left hq.pos this
  have p3 : Nat.Prime 3 := by norm_num
  have p5 : Nat.Prime 5 := by norm_num
  have p17 : Nat.Prime 17 := by norm_num
  have p257 : Nat.Prime 257 := by norm_num
  have p641 : Nat.Prime 641 := by norm_num
  have p65537 : Nat.Prime 65537 := by norm_num
  have p6700417 : Nat.Prime 6700417 := by norm_num
  have e := fun (p : Nat) (hp : p.Prime) => (Nat.prime_dvd_prime_iff_eq hq hp).1
  rcases hq.dvd_mul.1 hqN with h | h
  · rcases hq.dvd_mul.1 h with h | h
    · rcases hq.dvd_mul.1 h with h | h
      · rcases hq.dvd_mul.1 h with h | h
        · rcases hq.dvd_mul.1 h with h | h
          · rcases hq.dvd_mul.1 h with h | h
            · have := e 3 p3 h; subst this; exact Or.inl (fin _ (by decide))
            · have := e 5 p5 h; subst this; exact Or.inr (Or.inl (fin _ (by decide)))
          · have := e 17 p17 h; subst this; exact Or.inr (Or.inr (Or.inl (fin _ (by decide))))
        · have := e 257 p257 h; subst this
          exact Or.inr (Or.inr (Or.inr (Or.inl (fin _ (by decide)))))
      · have := e 641 p641 h; subst this
        exact Or.inr (Or.inr (Or.inr (Or.inr (Or.inl (fin _ (by decide))))))
    · have := e 65537 p65537 h; subst this
      exact Or.inr (Or.inr (Or.inr (Or.inr (Or.inr (Or.inl (fin _ (by decide)))))))
  · have := e 6700417 p6700417 h; subst this
    exact Or.inr (Or.inr (Or.inr (Or.inr (Or.inr (Or.inr (fin _ (by decide)))))))

/-- Every non-zero state has minimal period exactly `2^64 - 1`. -/
theorem minimalPeriod_eq (s : BitVec 64) (hs : s ≠ 0#64) : Function.minimalPeriod stepState s = N := by
  have hdvd : Function.minimalPeriod stepState s ∣ N :=
    Function.IsPeriodicPt.minimalPeriod_dvd (iterate_N s)
  by_contra hne
  have per : ∀ m, Function.minimalPeriod stepState s ∣ m → stepState^[m] s = s := by
    intro m hm
    exact (Function.isPeriodicPt_iff_minimalPeriod_dvd.2 hm)
  rcases proper_divisor _ hdvd hne with h | h | h | h | h | h | h
  · exact hs (no_period _ _ (by decide) cert3 s (per _ h))
  · exact hs (no_period _ _ (by decide) cert5 s (per _ h))
  · exact hs (no_period _ _ (by decide) cert17 s (per _ h))
  · exact hs (no_period _ _ (by decide) cert257 s (per _ h))
  · exact hs (no_period _ _ (by decide) cert641 s (per _ h))
  · exact hs (no_period _ _ (by decide) cert65537 s (per _ h))
  · exact hs (no_period _ _ (by decide) cert6700417 s (per _ h))

/-- Inverse of the output multiplier. -/
theorem mult_inv : (0x2545F4914F6CDD1D#64) * (0x59071d96d81ecd35#64) = 1#64 := by decide

theorem mult_injective (a b : BitVec 64)
    (h : a * 0x2545F4914F6CDD1D#64 = b * 0x2545F4914F6CDD1D#64) : a = b := by
  have := congrArg (· * 0x59071d96d81ecd35#64) h
  simpa only [BitVec.mul_assoc, mult_inv, BitVec.mul_one] using this

theorem draws_state (n : Nat) (g : Gen) : (g.draws n).2.state = stepState^[n] g.state := by
  induction n generalizing g with
  | zero => rfl
  | succ n ih => simp only [Gen.draws, Gen.nextU64, ih]; rfl

theorem draws_out (n : Nat) (g : Gen) (i : Nat) (h : i < n) :
    (g.draws n).1[i]? = some (stepState^[i + 1] g.state * 0x2545F4914F6CDD1D#64) := by
  induction n generalizing g i with
  | zero => omega
  | succ n ih =>
    cases i with
    | zero => rfl
    | succ i =>
      simp only [Gen.draws, Gen.nextU64, List.getElem?_cons_succ]
      rw [ih _ _ (by omega)]; rfl

theorem draws_length (n : Nat) (g : Gen) : (g.draws n).1.length = n := by
  induction n generalizing g with
  | zero => rfl
  | succ n ih => simp [Gen.draws, ih]

theorem new_state_ne (seed : BitVec 64) : (Gen.new seed).state ≠ 0#64 := by
  unfold Gen.new
  by_cases h : seed = 0
  · rw [if_pos h]; decide
  · rw [if_neg h]; exact h

end Verif.Rand
