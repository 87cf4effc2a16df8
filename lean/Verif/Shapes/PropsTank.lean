import Verif.Shapes.Tank
import Verif.Ieee.PropsAngle

/-!
# Propellant tanks in IEEE arithmetic (C231)

All inputs are arbitrary: any sign, any size, infinite or NaN.
-/

namespace Verif.Shapes.Ie

open Verif.Ieee

variable {F : Format} {fl : ℝ → ℝ}

/-- A value that is not NaN and not negative. -/
theorem nonneg_cases {a : IE F fl} : 0 ≤ a ↔ (∃ x, 0 ≤ x ∧ a = IE.num x) ∨ a = IE.inf false := by
  constructor
  · intro h
    rcases a with ⟨_ | s | x⟩
    · exact (le_nan _ h).elim
    · exact Or.inr (by have : s = false := h
                       rw [this]; rfl)
    · exact Or.inl ⟨x, h, rfl⟩
  · rintro (⟨x, h, rfl⟩ | rfl)
    · exact h
    · exact (rfl : false = false)

theorem fmax_nonneg (a : IE F fl) : 0 ≤ a.fmax 0 := by
  unfold IE.fmax
  split_ifs with h1 h2 h3
  · exact nonneg_cases.2 (Or.inl ⟨0, le_rfl, rfl⟩)
  · exact (Val.noConfusion (show Val.num 0 = Val.nan from h2))
  · exact nonneg_cases.2 (Or.inl ⟨0, le_rfl, rfl⟩)
  · rcases a with ⟨_ | s | x⟩
    · exact (h1 rfl).elim
    · cases s
      · exact (rfl : false = false)
      · exact (h3 (rfl : true = true)).elim
    · exact not_lt.1 (fun h : x < 0 => h3 h)

/-- The greater of a value and zero is that value if it is positive, and otherwise zero. -/
theorem fmax_eq (a : IE F fl) : (0 < a → a.fmax 0 = a) ∧ (¬ 0 < a → a.fmax 0 = 0) := by
  unfold IE.fmax
  rcases a with ⟨_ | s | x⟩
  · exact ⟨fun h => (lt_nan _ h).elim, fun _ => if_pos rfl⟩
  · rw [if_neg (by simp), if_neg (by show ¬ (Val.num 0 = Val.nan); simp)]
    cases s
    · exact ⟨fun _ => if_neg (fun h => Bool.noConfusion (show false = true from h)), fun h => (h (rfl : false = false)).elim⟩
    · exact ⟨fun h => Bool.noConfusion (show true = false from h), fun _ => if_pos (rfl : true = true)⟩
  · rw [if_neg (by simp), if_neg (by show ¬ (Val.num 0 = Val.nan); simp)]
    refine ⟨fun h => if_neg (fun h' => ?_), fun h => ?_⟩
    · exact lt_asymm (show (0 : ℝ) < x from h) (show x < 0 from h')
    · split_ifs with h'
      · rfl
      · have : x = 0 := le_antisymm (not_lt.1 fun hh => h hh) (not_lt.1 fun hh => h' hh)
        rw [this]; rfl

theorem clamp_cases (a : IE F fl) : (a = IE.nan ∧ clamp01 a = IE.nan) ∨ (a ≠ IE.nan ∧ ∃ c : ℝ, 0 ≤ c ∧ c ≤ 1 ∧ clamp01 a = IE.num c ∧ (c = 0 ↔ ¬ 0 < a)) := by
  unfold clamp01
  dsimp only
  rcases a with ⟨_ | s | x⟩
  · left
    refine ⟨rfl, ?_⟩
    rw [if_neg (show ¬ ((⟨.nan⟩ : IE F fl) < 0) from nan_lt _)]
    exact if_neg (lt_nan _)
  · right
    refine ⟨fun h => Val.noConfusion (congrArg IE.val h), ?_⟩
    cases s
    · refine ⟨1, zero_le_one, le_rfl, ?_, ?_⟩
      · rw [if_neg (show ¬ ((⟨.inf false⟩ : IE F fl) < 0) from fun h => Bool.noConfusion (show false = true from h))]
        exact if_pos (rfl : false = false)
      · exact ⟨fun h => (one_ne_zero h).elim, fun h => (h (rfl : false = false)).elim⟩
    · refine ⟨0, le_rfl, zero_le_one, ?_, ?_⟩
      · rw [if_pos (show (⟨.inf true⟩ : IE F fl) < 0 from (rfl : true = true))]
        exact if_neg (fun h : (1 : ℝ) < 0 => by linarith)
      · exact ⟨fun _ h => Bool.noConfusion (show true = false from h), fun _ => rfl⟩
  · right
    refine ⟨fun h => Val.noConfusion (congrArg IE.val h), ?_⟩
    have hx : ((⟨.num x⟩ : IE F fl) < 0) ↔ x < 0 := Iff.rfl
    have hx' : (0 < (⟨.num x⟩ : IE F fl)) ↔ 0 < x := Iff.rfl
    simp only [hx, hx']
    by_cases h0 : x < 0
    · refine ⟨0, le_rfl, zero_le_one, ?_, ?_⟩
      · rw [if_pos h0]
        exact if_neg (fun h : (1 : ℝ) < 0 => by linarith)
      · simp [h0.le]
    · rw [if_neg h0]
      by_cases h1 : 1 < x
      · exact ⟨1, zero_le_one, le_rfl, if_pos h1, by simp; linarith⟩
      · refine ⟨x, not_lt.1 h0, not_lt.1 h1, if_neg h1, ?_⟩
        rw [not_lt]
        exact ⟨fun h => h.le, fun h => le_antisymm h (not_lt.1 h0)⟩

/-- Products of values that are not negative: they are not negative, unless zero meets infinity. -/
theorem mul_nonneg_ie (h : Rounds F fl) {a b : IE F fl} (ha : 0 ≤ a) (hb : 0 ≤ b) :
    (a * b = IE.nan ∧ ((a = 0 ∧ b = IE.inf false) ∨ (a = IE.inf false ∧ b = 0))) ∨
    (0 ≤ a * b ∧ ¬ ((a = 0 ∧ b = IE.inf false) ∨ (a = IE.inf false ∧ b = 0))) := by
  have ninf : ∀ x : ℝ, (IE.num x : IE F fl) ≠ IE.inf false := fun x h => by injection h with h; cases h
  rcases nonneg_cases.1 ha with ⟨x, hx, rfl⟩ | rfl <;> rcases nonneg_cases.1 hb with ⟨y, hy, rfl⟩ | rfl
  · right
    refine ⟨?_, by rintro (⟨-, h⟩ | ⟨h, -⟩) <;> exact ninf _ h⟩
    rw [mul_num]
    have h0 : 0 ≤ fl (x * y) := by
      have := h.mono (mul_nonneg hx hy)
      rwa [h.zero] at this
    unfold IE.ofReal
    split_ifs with h1
    · exact h0
    · rw [decide_eq_false (not_lt.2 (mul_nonneg hx hy))]
      exact (rfl : false = false)
  · by_cases h0 : x = 0
    · left
      rw [h0]
      exact ⟨if_pos rfl, Or.inl ⟨rfl, rfl⟩⟩
    · right
      have e : (IE.num x * IE.inf false : IE F fl) = IE.inf (xor (IE.isNeg x) false) := if_neg h0
      refine ⟨?_, ?_⟩
      · rw [e, IE.isNeg, decide_eq_false (not_lt.2 hx)]
        exact (rfl : false = false)
      · rintro (⟨h, -⟩ | ⟨h, -⟩)
        · exact h0 (num_inj.1 h)
        · exact ninf _ h
  · by_cases h0 : y = 0
    · left
      rw [h0]
      exact ⟨if_pos rfl, Or.inr ⟨rfl, rfl⟩⟩
    · right
      have e : (IE.inf false * IE.num y : IE F fl) = IE.inf (xor false (IE.isNeg y)) := if_neg h0
      refine ⟨?_, ?_⟩
      · rw [e, IE.isNeg, decide_eq_false (not_lt.2 hy)]
        exact (rfl : false = false)
      · rintro (⟨-, h⟩ | ⟨-, h⟩)
        · exact ninf _ h
        · exact h0 (num_inj.1 h)
  · right
    refine ⟨(rfl : false = false), ?_⟩
    rintro (⟨h, -⟩ | ⟨-, h⟩) <;> exact ninf _ h.symm

theorem ofReal_grid (h : Rounds F fl) {y x : ℝ} (e : (IE.ofReal y : IE F fl) = IE.num x) : Finite F x := by
  unfold IE.ofReal at e
  split_ifs at e with hb
  · rw [← num_inj.1 e]
    exact ⟨(h y).1, hb⟩
  · injection e with e; cases e

/-- A product that is a finite number is a number of the format. -/
theorem mul_grid (h : Rounds F fl) {a b : IE F fl} {x : ℝ} (e : a * b = IE.num x) : Finite F x := by
  rcases a with ⟨_ | s | u⟩ <;> rcases b with ⟨_ | t | v⟩
  all_goals first
    | exact ofReal_grid h e
    | (exfalso
       first
         | exact Val.noConfusion (congrArg IE.val e)
         | (change (if _ then IE.nan else _) = _ at e
            split_ifs at e <;> exact Val.noConfusion (congrArg IE.val e)))

theorem volume_grid (h : Rounds F fl) (pi : IE F fl) (s : TankShape F fl) {x : ℝ} (e : s.volume pi = IE.num x) : Finite F x := by
  cases s <;> exact mul_grid h e

/-- C231. For every specification the geometric volume is a number that is not negative, or infinite. The usable volume is NaN
exactly if the fill fraction is NaN or the volume is infinite and the fill fraction is not positive; otherwise it lies between zero
and the geometric volume. The greatest mass is NaN exactly if the usable volume is, or one of usable volume and density is infinite
and the other is not positive; otherwise it is not negative. -/
theorem C231_limits (h : Rounds F fl) (pi : IE F fl) (s : TankSpec F fl) :
    0 ≤ (s.limits pi).geometric ∧
    ((s.limits pi).usable = IE.nan ↔ s.fill = IE.nan ∨ ((s.limits pi).geometric = IE.inf false ∧ ¬ 0 < s.fill)) ∧
    ((s.limits pi).usable ≠ IE.nan → 0 ≤ (s.limits pi).usable ∧ (s.limits pi).usable ≤ (s.limits pi).geometric) ∧
    ((s.limits pi).maxMass = IE.nan ↔ (s.limits pi).usable = IE.nan ∨ ((s.limits pi).usable = IE.inf false ∧ ¬ 0 < s.density) ∨
      ((s.limits pi).usable = 0 ∧ s.density = IE.inf false)) ∧
    ((s.limits pi).maxMass ≠ IE.nan → 0 ≤ (s.limits pi).maxMass) := by
  have nn : ∀ a : IE F fl, 0 ≤ a → a ≠ IE.nan := fun a ha e => le_nan _ (e ▸ ha)
  have g0 : 0 ≤ (s.limits pi).geometric := fmax_nonneg _
  have ninf : ∀ x : ℝ, (IE.num x : IE F fl) ≠ IE.inf false := fun x h => Val.noConfusion (congrArg IE.val h)
  have hg : ∀ x, (s.limits pi).geometric = IE.num x → Finite F x := by
    intro x hx
    by_cases hv : 0 < s.shape.volume pi
    · exact volume_grid h pi s.shape (((fmax_eq _).1 hv).symm.trans hx)
    · rw [← num_inj.1 (show IE.num 0 = (IE.num x : IE F fl) from ((fmax_eq _).2 hv).symm.trans hx)]
      exact finite_zero
  have hu : (s.limits pi).usable = (s.limits pi).geometric * clamp01 s.fill := rfl
  have hm : (s.limits pi).maxMass = (s.limits pi).usable * s.density.fmax 0 := rfl
  have mulnan : ∀ a : IE F fl, a * IE.nan = IE.nan ∧ IE.nan * a = IE.nan := by
    intro a
    rcases a with ⟨_ | _ | _⟩ <;> exact ⟨rfl, rfl⟩
  generalize (s.limits pi).geometric = g at *
  generalize (s.limits pi).usable = w at *
  generalize (s.limits pi).maxMass = mm at *
  have part1 : (w = IE.nan ↔ s.fill = IE.nan ∨ (g = IE.inf false ∧ ¬ 0 < s.fill)) ∧ (w ≠ IE.nan → 0 ≤ w ∧ w ≤ g) := by
    rcases clamp_cases s.fill with ⟨e1, e2⟩ | ⟨e1, c, c0, c1, e2, e3⟩
    · rw [e2, (mulnan g).1] at hu
      exact ⟨⟨fun _ => Or.inl e1, fun _ => hu⟩, fun hh => (hh hu).elim⟩
    · rw [e2] at hu
      rcases mul_nonneg_ie h g0 (b := IE.num c) (nonneg_cases.2 (Or.inl ⟨c, c0, rfl⟩)) with ⟨a, b⟩ | ⟨a, b⟩
      · rcases b with ⟨-, b⟩ | ⟨b1, b2⟩
        · exact (ninf _ b).elim
        · rw [a] at hu
          exact ⟨⟨fun _ => Or.inr ⟨b1, e3.1 (num_inj.1 b2)⟩, fun _ => hu⟩, fun hh => (hh hu).elim⟩
      · rw [← hu] at a
        refine ⟨⟨fun hh => (nn w a hh).elim, ?_⟩, fun _ => ⟨a, ?_⟩⟩
        · rintro (hh | ⟨hh, hf⟩)
          · exact (e1 hh).elim
          · exact (b (Or.inr ⟨hh, by rw [e3.2 hf]; rfl⟩)).elim
        · rcases nonneg_cases.1 g0 with ⟨x, hx, rfl⟩ | rfl
          · have hle : fl (x * c) ≤ x := by
              have := h.mono (show x * c ≤ x from mul_le_of_le_one_right hx c1)
              rwa [h.fix (hg x rfl).1] at this
            rw [hu, mul_num]
            rw [hu, mul_num] at a
            unfold IE.ofReal at a ⊢
            split_ifs with hb
            · exact hle
            · exfalso
              have h0 : 0 ≤ fl (x * c) := by
                have := h.mono (mul_nonneg hx c0)
                rwa [h.zero] at this
              have hb' := (hg x rfl).2
              rw [abs_of_nonneg hx] at hb'
              exact hb (by rw [abs_of_nonneg h0]; exact hle.trans_lt hb')
          · rcases nonneg_cases.1 a with ⟨y, -, e⟩ | e <;> rw [e]
            · exact (rfl : false = false)
            · exact Or.inr rfl
  obtain ⟨p1, p2⟩ := part1
  refine ⟨g0, p1, p2, ?_⟩
  by_cases hw : w = IE.nan
  · rw [hw, (mulnan _).2] at hm
    exact ⟨⟨fun _ => Or.inl hw, fun _ => hm⟩, fun hh => (hh hm).elim⟩
  · have d0 : s.density.fmax 0 = 0 ↔ ¬ 0 < s.density := by
      refine ⟨fun hh hp => ?_, (fmax_eq _).2⟩
      rw [(fmax_eq _).1 hp] at hh
      rw [hh] at hp
      exact lt_irrefl (0 : ℝ) hp
    have di : s.density.fmax 0 = IE.inf false ↔ s.density = IE.inf false := by
      by_cases hp : 0 < s.density
      · rw [(fmax_eq _).1 hp]
      · rw [(fmax_eq _).2 hp]
        exact ⟨fun hh => (ninf 0 hh).elim, fun hh => (hp (by rw [hh]; exact (rfl : false = false))).elim⟩
    rcases mul_nonneg_ie h (p2 hw).1 (fmax_nonneg s.density) with ⟨a, b⟩ | ⟨a, b⟩
    · rw [a] at hm
      refine ⟨⟨fun _ => ?_, fun _ => hm⟩, fun hh => (hh hm).elim⟩
      rcases b with ⟨b1, b2⟩ | ⟨b1, b2⟩
      · exact Or.inr (Or.inr ⟨b1, di.1 b2⟩)
      · exact Or.inr (Or.inl ⟨b1, d0.1 b2⟩)
    · rw [← hm] at a
      refine ⟨⟨fun hh => (nn mm a hh).elim, ?_⟩, fun _ => a⟩
      rintro (hh | ⟨h1, h2⟩ | ⟨h1, h2⟩)
      · exact (hw hh).elim
      · exact (b (Or.inr ⟨h1, d0.2 h2⟩)).elim
      · exact (b (Or.inl ⟨h1, di.2 h2⟩)).elim

/-- C231, partial. If nothing overflows, is infinite or NaN, the limits are as they should be. (Missing: overflow, infinite and NaN inputs, for
which the claim is false, see `C231_fails`; `C231_limits` says exactly when.) -/
theorem C231_finite_partial (h : Rounds F fl) (pi : IE F fl) (s : TankSpec F fl) {v f d : ℝ} (hv : s.shape.volume pi = IE.num v)
    (hf : s.fill = IE.num f) (hd : s.density = IE.num d) :
    0 ≤ (s.limits pi).geometric ∧ 0 ≤ (s.limits pi).usable ∧ (s.limits pi).usable ≤ (s.limits pi).geometric ∧ 0 ≤ (s.limits pi).maxMass := by
  have ninf : ∀ x : ℝ, (IE.num x : IE F fl) ≠ IE.inf false := fun x h => Val.noConfusion (congrArg IE.val h)
  have nnan : ∀ x : ℝ, (IE.num x : IE F fl) ≠ IE.nan := fun x h => Val.noConfusion (congrArg IE.val h)
  obtain ⟨a, b, c, d', e⟩ := C231_limits h pi s
  have hg : (s.limits pi).geometric ≠ IE.inf false := by
    have e1 : (s.limits pi).geometric = (s.shape.volume pi).fmax 0 := rfl
    rw [e1]
    by_cases hp : 0 < s.shape.volume pi
    · rw [(fmax_eq _).1 hp, hv]; exact ninf v
    · rw [(fmax_eq _).2 hp]; exact ninf 0
  have hu : (s.limits pi).usable ≠ IE.nan := by
    intro hn
    rcases b.1 hn with hh | ⟨hh, -⟩
    · exact nnan f (hf ▸ hh)
    · exact hg hh
  obtain ⟨c1, c2⟩ := c hu
  refine ⟨a, c1, c2, e fun hn => ?_⟩
  rcases d'.1 hn with hh | ⟨hh, -⟩ | ⟨-, hh⟩
  · exact hu hh
  · rw [hh] at c2
    rcases nonneg_cases.1 a with ⟨x, -, ex⟩ | ex
    · rw [ex] at c2
      exact inf_le_num x c2
    · exact hg ex
  · exact ninf d (hd ▸ hh)

/-- A cylinder of radius and length 1 has the volume π of the format. -/
example (h : Rounds binary64 fl) : (TankShape.cyl (IE.num 1) (IE.num 1) : TankShape binary64 fl).volume (IE.num pi64) = IE.num pi64 := by
  have hpi := isPi64.bounds (by decide)
  have e : (IE.num pi64 * IE.num 1 : IE binary64 fl) = IE.num pi64 := by
    rw [mul_num, mul_one, ofReal_num, h.fix isPi64.1]
    rw [h.fix isPi64.1, abs_of_pos (by linarith)]
    calc pi64 < 2 ^ (2 : ℤ) := by norm_num; linarith
      _ ≤ _ := zpow_le_zpow_right₀ (by norm_num) (by norm_num [binary64])
  show IE.num pi64 * IE.num 1 * IE.num 1 * IE.num 1 = _
  rw [e, e, e]

/-- C231 fails without exception: an empty cylinder of radius 2^1000 and length 1, all numbers of the format, has NaN as its usable
volume and as its greatest mass. -/
theorem C231_fails (h : Rounds binary64 fl) :
    let s : TankSpec binary64 fl := ⟨.cyl (IE.num (2 ^ (1000 : ℤ))) (IE.num 1), IE.num 1000, IE.num 0⟩
    Finite binary64 (2 ^ (1000 : ℤ)) ∧ (s.limits (IE.num pi64)).usable = IE.nan ∧ (s.limits (IE.num pi64)).maxMass = IE.nan := by
  intro s
  have hpi := isPi64.bounds (by decide)
  have hf : Finite binary64 (2 ^ (1000 : ℤ)) := by
    refine ⟨⟨1, 1000, by norm_num [binary64], by norm_num [binary64], by norm_num⟩, ?_⟩
    rw [abs_of_pos (by positivity)]
    exact zpow_lt_zpow_right₀ (by norm_num) (by norm_num [binary64])
  have hv : s.shape.volume (IE.num pi64) = IE.inf false := by
    have e1 : (IE.num pi64 * IE.num (2 ^ (1000 : ℤ)) : IE binary64 fl) = IE.num (pi64 * 2 ^ (1000 : ℤ)) := by
      obtain ⟨⟨m, e, h1, h2, h3⟩, -⟩ := isPi64
      have hg : OnGrid binary64 (pi64 * 2 ^ (1000 : ℤ)) := by
        refine ⟨m, e + 1000, h1, by omega, ?_⟩
        rw [h3, zpow_add₀ (by norm_num)]; ring
      rw [mul_num, ofReal_num, h.fix hg]
      rw [h.fix hg, abs_of_pos (mul_pos (by linarith) (by positivity))]
      calc pi64 * 2 ^ (1000 : ℤ) ≤ 2 ^ (2 : ℤ) * 2 ^ (1000 : ℤ) := by gcongr; norm_num; linarith
        _ = 2 ^ (1002 : ℤ) := by rw [← zpow_add₀ (by norm_num)]; norm_num
        _ < _ := zpow_lt_zpow_right₀ (by norm_num) (by norm_num [binary64])
    have e2 : (IE.num (pi64 * 2 ^ (1000 : ℤ)) * IE.num (2 ^ (1000 : ℤ)) : IE binary64 fl) = IE.inf false := by
      rw [mul_num]
      refine ofReal_over h (by decide) (by decide) ?_
      calc (2 : ℝ) ^ binary64.emax ≤ 1 * 2 ^ (1000 : ℤ) * 2 ^ (1000 : ℤ) := by
            rw [one_mul, ← zpow_add₀ (by norm_num)]
            exact zpow_le_zpow_right₀ (by norm_num) (by norm_num [binary64])
        _ ≤ _ := by gcongr; linarith
    show IE.num pi64 * IE.num (2 ^ (1000 : ℤ)) * IE.num (2 ^ (1000 : ℤ)) * IE.num 1 = _
    rw [e1, e2]
    have e3 : (IE.inf false * IE.num 1 : IE binary64 fl) = IE.inf (xor false (IE.isNeg 1)) := if_neg one_ne_zero
    rw [e3, IE.isNeg, decide_eq_false (by norm_num)]
    rfl
  obtain ⟨a, b, c, d, -⟩ := C231_limits h (IE.num pi64) s
  have hg : (s.limits (IE.num pi64)).geometric = IE.inf false := by
    have : (s.limits (IE.num pi64)).geometric = (s.shape.volume (IE.num pi64)).fmax 0 := rfl
    rw [this, hv]
    exact (fmax_eq _).1 (rfl : false = false)
  have hu := b.2 (Or.inr ⟨hg, fun hh => lt_irrefl (0 : ℝ) hh⟩)
  exact ⟨hf, hu, d.2 (Or.inl hu)⟩

/-- The sum of two values that are not negative is not negative and not less than either. -/
theorem add_nonneg_ie (h : Rounds F fl) {a b : IE F fl} (ha : 0 ≤ a) (hb : 0 ≤ b) (fa : ∀ x, a = IE.num x → Finite F x)
    (fb : ∀ x, b = IE.num x → Finite F x) :
    0 ≤ a + b ∧ a ≤ a + b ∧ b ≤ a + b ∧ ∀ x, a + b = IE.num x → Finite F x := by
  have linf : ∀ x : ℝ, (IE.num x : IE F fl) ≤ IE.inf false := fun _ => (rfl : false = false)
  have iinf : (IE.inf false : IE F fl) ≤ IE.inf false := Or.inr rfl
  have ninf : ∀ x : ℝ, (IE.inf false : IE F fl) ≠ IE.num x := fun x h => Val.noConfusion (congrArg IE.val h)
  rcases nonneg_cases.1 ha with ⟨x, hx, rfl⟩ | rfl <;> rcases nonneg_cases.1 hb with ⟨y, hy, rfl⟩ | rfl
  · rw [add_num]
    refine ⟨?_, ?_, ?_, fun z => ofReal_grid h⟩ <;> unfold IE.ofReal <;> split_ifs with hb
    · have := h.mono (add_nonneg hx hy)
      rw [h.zero] at this
      exact this
    · rw [decide_eq_false (not_lt.2 (add_nonneg hx hy))]; exact linf 0
    · have := h.mono (show x ≤ x + y by linarith)
      rw [h.fix (fa x rfl).1] at this
      exact this
    · rw [decide_eq_false (not_lt.2 (add_nonneg hx hy))]; exact linf x
    · have := h.mono (show y ≤ x + y by linarith)
      rw [h.fix (fb y rfl).1] at this
      exact this
    · rw [decide_eq_false (not_lt.2 (add_nonneg hx hy))]; exact linf y
  · exact ⟨linf 0, linf x, iinf, fun z hz => (ninf z hz).elim⟩
  · exact ⟨linf 0, iinf, linf y, fun z hz => (ninf z hz).elim⟩
  · have e : (IE.inf false + IE.inf false : IE F fl) = IE.inf false := rfl
    rw [e]
    exact ⟨linf 0, iinf, iinf, fun z hz => (ninf z hz).elim⟩

theorem le_trans_ie {a b c : IE F fl} (h0 : 0 ≤ a) (h1 : a ≤ b) (h2 : b ≤ c) : a ≤ c := by
  rcases nonneg_cases.1 h0 with ⟨x, -, rfl⟩ | rfl <;> rcases b with ⟨_ | t | y⟩ <;> rcases c with ⟨_ | u | z⟩
  all_goals first
    | exact (le_nan _ h1).elim
    | exact (le_nan _ h2).elim
    | exact le_trans (show x ≤ y from h1) (show y ≤ z from h2)
    | (cases u
       · first
           | exact (rfl : false = false)
           | exact Or.inr rfl
       · first
           | exact Bool.noConfusion (show true = false from h2)
           | exact (inf_le_num _ h1).elim
           | (cases t
              · exact (show false = true ∨ true = false from h2).elim (fun h => Bool.noConfusion h) fun h => Bool.noConfusion h
              · first
                  | exact Bool.noConfusion (show true = false from h1)
                  | exact (show false = true ∨ true = false from h1).elim (fun h => Bool.noConfusion h) fun h => Bool.noConfusion h))
    | exact (inf_le_num _ h1).elim
    | (cases t
       · exact (inf_le_num _ h2).elim
       · first
           | exact Bool.noConfusion (show true = false from h1)
           | exact (show false = true ∨ true = false from h1).elim (fun h => Bool.noConfusion h) fun h => Bool.noConfusion h)

theorem fmax_finite {a : IE F fl} (ha : ∀ x, a = IE.num x → Finite F x) (x : ℝ) (e : a.fmax 0 = IE.num x) : Finite F x := by
  by_cases hp : 0 < a
  · rw [(fmax_eq _).1 hp] at e
    exact ha x e
  · rw [(fmax_eq _).2 hp] at e
    rw [← num_inj.1 (show IE.num 0 = (IE.num x : IE F fl) from e)]
    exact finite_zero

/-- C231. Whatever the tanks hold, NaN included, the total mass is not negative, not NaN and not less than any tank's; a further tank
does not lessen it. -/
theorem C231_total (h : Rounds F fl) (l : List (Tank F fl)) (hl : ∀ t ∈ l, ∀ x, t.mass = IE.num x → Finite F x) :
    0 ≤ aggregateMass l ∧ (∀ t ∈ l, t.mass.fmax 0 ≤ aggregateMass l) ∧
      ∀ t : Tank F fl, (∀ x, t.mass = IE.num x → Finite F x) → aggregateMass l ≤ aggregateMass (l ++ [t]) := by
  have step : ∀ (l : List (Tank F fl)) t, aggregateMass (l ++ [t]) = aggregateMass l + t.mass.fmax 0 := fun l t => by
    unfold aggregateMass
    rw [List.foldl_append]
    rfl
  have key : 0 ≤ aggregateMass l ∧ (∀ t ∈ l, t.mass.fmax 0 ≤ aggregateMass l) ∧ ∀ x, aggregateMass l = IE.num x → Finite F x := by
    induction l using List.reverseRecOn with
    | nil =>
      refine ⟨nonneg_cases.2 (Or.inl ⟨0, le_rfl, rfl⟩), by simp, fun x hx => ?_⟩
      rw [← num_inj.1 (show IE.num 0 = (IE.num x : IE F fl) from hx)]
      exact finite_zero
    | append_singleton l t ih =>
      obtain ⟨a, b, c⟩ := ih fun t ht => hl t (List.mem_append_left _ ht)
      obtain ⟨d, e, f, g⟩ := add_nonneg_ie h a (fmax_nonneg t.mass) c (fmax_finite (hl t (by simp)))
      rw [step]
      refine ⟨d, fun t' ht => ?_, g⟩
      rcases List.mem_append.1 ht with ht | ht
      · exact le_trans_ie (fmax_nonneg _) (b t' ht) e
      · rw [List.mem_singleton.1 ht]
        exact f
  obtain ⟨a, b, c⟩ := key
  refine ⟨a, b, fun t ht => ?_⟩
  rw [step]
  exact (add_nonneg_ie h a (fmax_nonneg t.mass) c (fmax_finite ht)).2.1

/-- A tank of mass 3 and one whose mass is NaN. -/
example : ∀ t ∈ [(⟨.sph (IE.num 1), IE.num 3⟩ : Tank binary64 fl), ⟨.sph (IE.num 1), IE.nan⟩], ∀ x, t.mass = IE.num x → Finite binary64 x := by
  intro t ht x hx
  simp only [List.mem_cons, List.not_mem_nil, or_false] at ht
  rcases ht with rfl | rfl
  · rw [← num_inj.1 hx]
    refine ⟨⟨3, 0, by norm_num [binary64], by norm_num [binary64], by norm_num⟩, ?_⟩
    rw [abs_of_pos (by norm_num)]
    calc (3 : ℝ) < 2 ^ (2 : ℤ) := by norm_num
      _ ≤ _ := zpow_le_zpow_right₀ (by norm_num) (by norm_num [binary64])
  · exact Val.noConfusion (congrArg IE.val hx)

end Verif.Shapes.Ie
