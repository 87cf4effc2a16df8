import Verif.Time.Spec

/-! # Helper lemmas: closed forms of Duration/Time arithmetic -/

namespace Verif.Time
open Verif.Rust

theorem chk64_of {x : Int} (h : FitsI64 x) : chk64 x = some x := if_pos h
theorem chk64_not {x : Int} (h : ¬ FitsI64 x) : chk64 x = none := if_neg h
theorem chk32_of {x : Int} (h : i32Min ≤ x) (h' : x ≤ i32Max) : chk32 x = some x := if_pos ⟨h, h'⟩

/-- The canonical duration/time fields of `x` nanoseconds. -/
def durOf (x : Int) : Duration := ⟨x / NS, x % NS⟩
def timeOf (ts : Scale) (x : Int) : Time ts := ⟨x / NS, x % NS⟩

theorem Duration.eq_durOf {d : Duration} (h : d.Canon) : d = durOf d.total := by
  obtain ⟨s, n⟩ := d
  obtain ⟨_, h1, h2⟩ := h
  simp only [durOf, Duration.total, Duration.mk.injEq] at *
  omega

theorem Time.eq_timeOf {ts : Scale} {t : Time ts} (h : t.Canon) : t = timeOf ts t.total := by
  obtain ⟨s, n⟩ := t
  obtain ⟨_, h1, h2⟩ := h
  simp only [timeOf, Time.total, Time.mk.injEq] at *
  omega

theorem durOf_canon {x : Int} (h : FitsI64 (x / NS)) : (durOf x).Canon := by
  refine ⟨h, ?_, ?_⟩ <;> simp only [durOf] <;> omega

theorem timeOf_canon {ts : Scale} {x : Int} (h : FitsI64 (x / NS)) : (timeOf ts x).Canon := by
  refine ⟨h, ?_, ?_⟩ <;> simp only [timeOf] <;> omega

@[simp] theorem durOf_total (x : Int) : (durOf x).total = x := by
  simp only [durOf, Duration.total]; omega

@[simp] theorem timeOf_total (ts : Scale) (x : Int) : (timeOf ts x).total = x := by
  simp only [timeOf, Time.total]; omega

theorem normalize_hi {s n : Int} (h0 : NS ≤ n) (h1 : n < 2 * NS) :
    Duration.normalize ⟨s, n⟩ = if FitsI64 (s + 1) then some ⟨s + 1, n - NS⟩ else none := by
  have a : n.tdiv 1000000000 = 1 := by
    rw [Int.tdiv_eq_ediv_of_nonneg (by omega)]; omega
  have b : n.tmod 1000000000 = n - NS := by
    rw [Int.tmod_eq_emod_of_nonneg (by omega)]; omega
  simp only [Duration.normalize]
  rw [if_pos (by omega : n ≥ 1000000000), a, b]
  by_cases f : FitsI64 (s + 1)
  · rw [chk64_of f, if_pos f]; rfl
  · rw [chk64_not f, if_neg f]; rfl

theorem normalize_lo {s n : Int} (h0 : n < 0) (h1 : -NS ≤ n) :
    Duration.normalize ⟨s, n⟩ = if FitsI64 (s - 1) then some ⟨s - 1, n + NS⟩ else none := by
  simp only [Duration.normalize]
  rw [if_neg (by omega : ¬ n ≥ 1000000000), if_pos (by omega : n < 0)]
  by_cases f : FitsI64 (s - 1)
  · rw [chk64_of f, if_pos f]
    rw [chk32_of (by omega) (by omega)]; rfl
  · rw [chk64_not f, if_neg f]; rfl

theorem normalize_mid {s n : Int} (h0 : 0 ≤ n) (h1 : n < NS) :
    Duration.normalize ⟨s, n⟩ = some ⟨s, n⟩ := by
  simp only [Duration.normalize]
  rw [if_neg (by omega : ¬ n ≥ 1000000000), if_neg (by omega : ¬ n < 0)]; rfl

/-- Closed form of `normalize` on the fields a sum/difference of canonical values can have. -/
theorem normalize_eq {s n : Int} (hs : FitsI64 s) (h0 : -NS ≤ n) (h1 : n < 2 * NS) :
    Duration.normalize ⟨s, n⟩ =
      if FitsI64 ((s * NS + n) / NS) then some (durOf (s * NS + n)) else none := by
  by_cases c1 : NS ≤ n
  · have : (s * NS + n) / NS = s + 1 := by omega
    have : (s * NS + n) % NS = n - NS := by omega
    rw [normalize_hi c1 h1]; simp only [durOf, *]
  · by_cases c2 : n < 0
    · have : (s * NS + n) / NS = s - 1 := by omega
      have : (s * NS + n) % NS = n + NS := by omega
      rw [normalize_lo c2 h0]; simp only [durOf, *]
    · have : (s * NS + n) / NS = s := by omega
      have : (s * NS + n) % NS = n := by omega
      rw [normalize_mid (by omega) (by omega)]; simp only [durOf, *, if_true]

theorem Duration.add_eq {a b : Duration} (ha : a.Canon) (hb : b.Canon) :
    a.add b = if FitsI64 (a.sec + b.sec) ∧ FitsI64 ((a.total + b.total) / NS)
      then some (durOf (a.total + b.total)) else none := by
  obtain ⟨_, a1, a2⟩ := ha
  obtain ⟨_, b1, b2⟩ := hb
  have e : (a.sec + b.sec) * NS + (a.nano + b.nano) = a.total + b.total := by
    simp only [Duration.total]; omega
  by_cases f : FitsI64 (a.sec + b.sec)
  · have := normalize_eq f (n := a.nano + b.nano) (by omega) (by omega)
    rw [e] at this
    simp only [Duration.add, chk64_of f, chk32_of (x := a.nano + b.nano) (by omega) (by omega),
      Option.bind_eq_bind, Option.bind_some, f, true_and]
    exact this
  · simp [Duration.add, chk64_not f, f]

theorem Duration.sub_eq {a b : Duration} (ha : a.Canon) (hb : b.Canon) :
    a.sub b = if FitsI64 (a.sec - b.sec) ∧ FitsI64 ((a.total - b.total) / NS)
      then some (durOf (a.total - b.total)) else none := by
  obtain ⟨_, a1, a2⟩ := ha
  obtain ⟨_, b1, b2⟩ := hb
  have e : (a.sec - b.sec) * NS + (a.nano - b.nano) = a.total - b.total := by
    simp only [Duration.total]; omega
  by_cases f : FitsI64 (a.sec - b.sec)
  · have := normalize_eq f (n := a.nano - b.nano) (by omega) (by omega)
    rw [e] at this
    simp only [Duration.sub, chk64_of f, chk32_of (x := a.nano - b.nano) (by omega) (by omega),
      Option.bind_eq_bind, Option.bind_some, f, true_and]
    exact this
  · simp [Duration.sub, chk64_not f, f]

theorem Time.add_eq {ts : Scale} {t : Time ts} {d : Duration} (ht : t.Canon) (hd : d.Canon) :
    t.add d = if FitsI64 (t.sec + d.sec) ∧ FitsI64 ((t.total + d.total) / NS)
      then some (timeOf ts (t.total + d.total)) else none := by
  obtain ⟨_, a1, a2⟩ := ht
  obtain ⟨_, b1, b2⟩ := hd
  by_cases f : FitsI64 (t.sec + d.sec)
  · simp only [Time.add, chk64_of f, chk32_of (x := t.nano + d.nano) (by omega) (by omega),
      Option.bind_eq_bind, Option.bind_some, f, true_and]
    by_cases c : t.nano + d.nano ≥ 1000000000
    · have e1 : (t.total + d.total) / NS = t.sec + d.sec + 1 := by
        simp only [Time.total, Duration.total]; omega
      have e2 : (t.total + d.total) % NS = t.nano + d.nano - 1000000000 := by
        simp only [Time.total, Duration.total]; omega
      rw [if_pos c]
      by_cases g : FitsI64 (t.sec + d.sec + 1)
      · rw [chk64_of g, chk32_of (by omega) (by omega), e1, if_pos g]
        simp [timeOf, e1, e2]
      · rw [chk64_not g, e1, if_neg g]; rfl
    · have e1 : (t.total + d.total) / NS = t.sec + d.sec := by
        simp only [Time.total, Duration.total]; omega
      have e2 : (t.total + d.total) % NS = t.nano + d.nano := by
        simp only [Time.total, Duration.total]; omega
      rw [if_neg c, if_neg (by omega), e1, if_pos f]
      simp [timeOf, e1, e2]
  · simp [Time.add, chk64_not f, f]

theorem Time.sub_eq {ts : Scale} {a b : Time ts} (ha : a.Canon) (hb : b.Canon) :
    a.sub b = if FitsI64 (a.sec - b.sec) ∧ FitsI64 ((a.total - b.total) / NS)
      then some (durOf (a.total - b.total)) else none := by
  obtain ⟨_, a1, a2⟩ := ha
  obtain ⟨_, b1, b2⟩ := hb
  by_cases f : FitsI64 (a.sec - b.sec)
  · simp only [Time.sub, chk64_of f, chk32_of (x := a.nano - b.nano) (by omega) (by omega),
      Option.bind_eq_bind, Option.bind_some, f, true_and]
    by_cases c : a.nano - b.nano < 0
    · have e1 : (a.total - b.total) / NS = a.sec - b.sec - 1 := by
        simp only [Time.total]; omega
      have e2 : (a.total - b.total) % NS = a.nano - b.nano + 1000000000 := by
        simp only [Time.total]; omega
      rw [if_pos c]
      by_cases g : FitsI64 (a.sec - b.sec - 1)
      · rw [chk64_of g, chk32_of (by omega) (by omega), e1, if_pos g]
        simp [durOf, e1, e2]
      · rw [chk64_not g, e1, if_neg g]; rfl
    · have e1 : (a.total - b.total) / NS = a.sec - b.sec := by
        simp only [Time.total]; omega
      have e2 : (a.total - b.total) % NS = a.nano - b.nano := by
        simp only [Time.total]; omega
      rw [if_neg c, e1, if_pos f]
      simp [durOf, e1, e2]
  · simp [Time.sub, chk64_not f, f]

/-! ### Comparison -/

theorem lexCmp_eq_iff (s₁ n₁ s₂ n₂ : Int) :
    (match compare s₁ s₂ with
      | .eq => compare n₁ n₂
      | o => o) = .eq ↔ s₁ = s₂ ∧ n₁ = n₂ := by
  rcases Int.lt_trichotomy s₁ s₂ with h | h | h
  · have : compare s₁ s₂ = .lt := by simp [compare, compareOfLessAndEq, h]
    simp [this]; omega
  · simp [h, compare, compareOfLessAndEq]
    (repeat' split) <;> simp_all; omega
  · have : compare s₁ s₂ = .gt := by
      simp only [compare, compareOfLessAndEq]
      rw [if_neg (by omega), if_neg (by omega)]
    simp [this]; omega

theorem lexCmp_gt_iff (s₁ n₁ s₂ n₂ : Int) :
    (match compare s₁ s₂ with
      | .eq => compare n₁ n₂
      | o => o) = .gt ↔ s₂ < s₁ ∨ s₁ = s₂ ∧ n₂ < n₁ := by
  rcases Int.lt_trichotomy s₁ s₂ with h | h | h
  · have : compare s₁ s₂ = .lt := by simp [compare, compareOfLessAndEq, h]
    simp [this]; omega
  · simp [h, compare, compareOfLessAndEq]
    (repeat' split) <;> simp_all <;> omega
  · have : compare s₁ s₂ = .gt := by
      simp only [compare, compareOfLessAndEq]
      rw [if_neg (by omega), if_neg (by omega)]
    simp [this]; omega

theorem lexCmp_lt_iff (s₁ n₁ s₂ n₂ : Int) :
    (match compare s₁ s₂ with
      | .eq => compare n₁ n₂
      | o => o) = .lt ↔ s₁ < s₂ ∨ s₁ = s₂ ∧ n₁ < n₂ := by
  rcases Int.lt_trichotomy s₁ s₂ with h | h | h
  · have : compare s₁ s₂ = .lt := by simp [compare, compareOfLessAndEq, h]
    simp [this]; omega
  · simp [h, compare, compareOfLessAndEq]
    (repeat' split) <;> simp_all
  · have : compare s₁ s₂ = .gt := by
      simp only [compare, compareOfLessAndEq]
      rw [if_neg (by omega), if_neg (by omega)]
    simp [this]; omega

theorem lexCmp_swap (s₁ n₁ s₂ n₂ : Int) :
    (match compare s₁ s₂ with
      | .eq => compare n₁ n₂
      | o => o) = (match compare s₂ s₁ with
      | .eq => compare n₂ n₁
      | o => o).swap := by
  have a := lexCmp_eq_iff s₁ n₁ s₂ n₂
  have a' := lexCmp_eq_iff s₂ n₂ s₁ n₁
  have b := lexCmp_lt_iff s₁ n₁ s₂ n₂
  have b' := lexCmp_lt_iff s₂ n₂ s₁ n₁
  have c := lexCmp_gt_iff s₁ n₁ s₂ n₂
  have c' := lexCmp_gt_iff s₂ n₂ s₁ n₁
  generalize (match compare s₁ s₂ with
      | .eq => compare n₁ n₂
      | o => o) = x at *
  generalize (match compare s₂ s₁ with
      | .eq => compare n₂ n₁
      | o => o) = y at *
  cases x <;> cases y <;> simp_all [Ordering.swap] <;> omega


theorem lexCmp_eq {s₁ n₁ s₂ n₂ : Int} (h1 : 0 ≤ n₁) (h2 : n₁ < NS) (h3 : 0 ≤ n₂) (h4 : n₂ < NS) :
    (match compare s₁ s₂ with
      | .eq => compare n₁ n₂
      | o => o) = compare (s₁ * NS + n₁) (s₂ * NS + n₂) := by
  simp only [compare, compareOfLessAndEq]
  split <;> rename_i h <;> split at h <;> (try split at h) <;> simp_all <;>
    (repeat' split) <;> simp_all <;> omega

theorem Duration.cmp_eq {a b : Duration} (ha : a.Canon) (hb : b.Canon) :
    a.cmp b = compare a.total b.total := lexCmp_eq ha.2.1 ha.2.2 hb.2.1 hb.2.2

theorem Time.cmp_eq {ts : Scale} {a b : Time ts} (ha : a.Canon) (hb : b.Canon) :
    a.cmp b = compare a.total b.total := lexCmp_eq ha.2.1 ha.2.2 hb.2.1 hb.2.2

theorem isGE_compare (x y : Int) : (compare x y).isGE = decide (y ≤ x) := by
  simp only [compare, compareOfLessAndEq]
  (repeat' split) <;> simp_all <;> omega
theorem isLE_compare (x y : Int) : (compare x y).isLE = decide (x ≤ y) := by
  simp only [compare, compareOfLessAndEq]
  (repeat' split) <;> simp_all <;> omega
theorem isLT_compare (x y : Int) : (compare x y).isLT = decide (x < y) := by
  simp only [compare, compareOfLessAndEq]
  (repeat' split) <;> simp_all

theorem Duration.ge_eq {a b : Duration} (ha : a.Canon) (hb : b.Canon) :
    a.ge b = decide (b.total ≤ a.total) := by
  rw [Duration.ge, Duration.cmp_eq ha hb, isGE_compare]
theorem Time.ge_eq {ts : Scale} {a b : Time ts} (ha : a.Canon) (hb : b.Canon) :
    a.ge b = decide (b.total ≤ a.total) := by
  rw [Time.ge, Time.cmp_eq ha hb, isGE_compare]
theorem Time.le_eq {ts : Scale} {a b : Time ts} (ha : a.Canon) (hb : b.Canon) :
    a.le b = decide (a.total ≤ b.total) := by
  rw [Time.le, Time.cmp_eq ha hb, isLE_compare]
theorem Time.lt_eq {ts : Scale} {a b : Time ts} (ha : a.Canon) (hb : b.Canon) :
    a.lt b = decide (a.total < b.total) := by
  rw [Time.lt, Time.cmp_eq ha hb, isLT_compare]

end Verif.Time
