import Verif.Time.Lemmas

/-! # Properties C01–C08: durations, instants, time scales, GPS weeks, mission clock -/

namespace Verif.Time
open Verif.Rust

/-! ## C01 -/

/-- C01. A sum of canonical durations, when returned, is canonical and exact; the call panics
exactly when the sum of the seconds fields or the exact result does not fit an `i64`. -/
theorem C01_add_exact (a b : Duration) (ha : a.Canon) (hb : b.Canon) :
    (∀ c, a.add b = some c → c.Canon ∧ c.total = a.total + b.total) ∧
    (a.add b = none ↔ ¬ (FitsI64 (a.sec + b.sec) ∧ FitsI64 ((a.total + b.total) / NS))) := by
  rw [Duration.add_eq ha hb]
  split
  · rename_i h
    refine ⟨fun c hc => ?_, by simp [h]⟩
    cases hc
    exact ⟨durOf_canon h.2, durOf_total _⟩
  · rename_i h
    exact ⟨fun c hc => (nomatch hc), by simp [h]⟩

example : (Duration.mk (-5) 700000000).Canon ∧ (Duration.mk 2 600000000).Canon ∧
    (Duration.mk (-5) 700000000).add (Duration.mk 2 600000000) = some ⟨-2, 300000000⟩ := by decide

/-- C01. The same for differences. -/
theorem C01_sub_exact (a b : Duration) (ha : a.Canon) (hb : b.Canon) :
    (∀ c, a.sub b = some c → c.Canon ∧ c.total = a.total - b.total) ∧
    (a.sub b = none ↔ ¬ (FitsI64 (a.sec - b.sec) ∧ FitsI64 ((a.total - b.total) / NS))) := by
  rw [Duration.sub_eq ha hb]
  split
  · rename_i h
    refine ⟨fun c hc => ?_, by simp [h]⟩
    cases hc
    exact ⟨durOf_canon h.2, durOf_total _⟩
  · rename_i h
    exact ⟨fun c hc => (nomatch hc), by simp [h]⟩

example : (Duration.mk 3 100).Canon ∧ (Duration.mk 1 200).Canon ∧
    (Duration.mk 3 100).sub (Duration.mk 1 200) = some ⟨1, 999999900⟩ := by decide

/-! ## C02 -/

/-- C02. `from_secs` is canonical and exact. -/
theorem C02_from_secs (s : Int) (h : FitsI64 s) :
    (Duration.fromSecs s).Canon ∧ (Duration.fromSecs s).total = s * NS := by
  refine ⟨⟨h, Int.le_refl 0, by simp [Duration.fromSecs]⟩, ?_⟩
  simp [Duration.fromSecs, Duration.total]

example : FitsI64 (-7) := by decide

/-- C02. `from_millis` never panics and is canonical and exact, for every `i64`. -/
theorem C02_from_millis (ms : Int) (h : FitsI64 ms) :
    ∃ d, Duration.fromMillis ms = some d ∧ d.Canon ∧ d.total = ms * 1000000 := by
  obtain ⟨h1, h2⟩ := h
  have e := Int.mul_tdiv_add_tmod ms 1000
  have b1 : -1000 < ms.tmod 1000 := by
    have := Int.lt_tmod_of_pos ms (show (0:Int) < 1000 by decide); omega
  have b2 := Int.tmod_lt_of_pos ms (show (0:Int) < 1000 by decide)
  generalize hq : ms.tdiv 1000 = q at *
  generalize hr : ms.tmod 1000 = r at *
  have f : FitsI64 q := by constructor <;> omega
  have w : asI32 (r * 1000000) = r * 1000000 := by unfold asI32; omega
  have fit : FitsI64 ((q * NS + r * 1000000) / NS) := by
    constructor <;> omega
  refine ⟨durOf (q * NS + r * 1000000), ?_, durOf_canon fit, by rw [durOf_total]; omega⟩
  simp only [Duration.fromMillis, hq, hr]
  rw [chk64_of (by constructor <;> omega), Option.bind_eq_bind, Option.bind_some, w,
    normalize_eq f (by omega) (by omega), if_pos fit]

example : FitsI64 (-1500) ∧ Duration.fromMillis (-1500) = some ⟨-2, 500000000⟩ := by decide

/-- C02. `from_micros` never panics and is canonical and exact, for every `i64`. -/
theorem C02_from_micros (us : Int) (h : FitsI64 us) :
    ∃ d, Duration.fromMicros us = some d ∧ d.Canon ∧ d.total = us * 1000 := by
  obtain ⟨h1, h2⟩ := h
  have e := Int.mul_tdiv_add_tmod us 1000000
  have b1 : -1000000 < us.tmod 1000000 := by
    have := Int.lt_tmod_of_pos us (show (0:Int) < 1000000 by decide); omega
  have b2 := Int.tmod_lt_of_pos us (show (0:Int) < 1000000 by decide)
  generalize hq : us.tdiv 1000000 = q at *
  generalize hr : us.tmod 1000000 = r at *
  have f : FitsI64 q := by constructor <;> omega
  have w : asI32 (r * 1000) = r * 1000 := by unfold asI32; omega
  have fit : FitsI64 ((q * NS + r * 1000) / NS) := by
    constructor <;> omega
  refine ⟨durOf (q * NS + r * 1000), ?_, durOf_canon fit, by rw [durOf_total]; omega⟩
  simp only [Duration.fromMicros, hq, hr]
  rw [chk64_of (by constructor <;> omega), Option.bind_eq_bind, Option.bind_some, w,
    normalize_eq f (by omega) (by omega), if_pos fit]

example : FitsI64 (-1) ∧ Duration.fromMicros (-1) = some ⟨-1, 999999000⟩ := by decide

/-- C02 (part). `from_nanos` always denotes the requested length, but it is canonical exactly for
non-negative arguments and whole seconds. Missing: canonicity for the other negative arguments
(false, see `C02_from_nanos_fails`). -/
theorem C02_from_nanos_partial (n : Int) (h : FitsI64 n) :
    (Duration.fromNanos n).total = n ∧ ((Duration.fromNanos n).Canon ↔ 0 ≤ n ∨ n % NS = 0) := by
  obtain ⟨h1, h2⟩ := h
  have e := Int.mul_tdiv_add_tmod n 1000000000
  have b1 : -1000000000 < n.tmod 1000000000 := by
    have := Int.lt_tmod_of_pos n (show (0:Int) < 1000000000 by decide); omega
  have b2 := Int.tmod_lt_of_pos n (show (0:Int) < 1000000000 by decide)
  have s1 : 0 ≤ n → 0 ≤ n.tmod 1000000000 := fun h => Int.tmod_nonneg _ h
  have s2 : n ≤ 0 → n.tmod 1000000000 ≤ 0 := by
    intro h
    have := Int.tmod_nonneg (a := -n) 1000000000 (by omega)
    rw [Int.neg_tmod] at this; omega
  have w : asI32 (n.tmod 1000000000) = n.tmod 1000000000 := by unfold asI32; omega
  simp only [Duration.fromNanos, Duration.total, Duration.Canon, FitsI64, w]
  generalize n.tdiv 1000000000 = q at *
  generalize n.tmod 1000000000 = r at *
  refine ⟨by omega, ?_, ?_⟩
  · omega
  · intro h; refine ⟨⟨by omega, by omega⟩, ?_, by omega⟩
    omega

example : FitsI64 (-5) ∧ ¬ (0 ≤ (-5:Int) ∨ (-5:Int) % NS = 0) := by decide

/-- C02 is false as stated: `from_nanos(-1000)` is not canonical, and although it denotes the same
length as `from_micros(-1)`, the two compare as different and as ordered. -/
theorem C02_from_nanos_fails :
    ∃ d, Duration.fromMicros (-1) = some d ∧ ¬ (Duration.fromNanos (-1000)).Canon ∧
      d.total = (Duration.fromNanos (-1000)).total ∧ d ≠ Duration.fromNanos (-1000) ∧
      d.cmp (Duration.fromNanos (-1000)) = .lt :=
  ⟨⟨-1, 999999000⟩, by decide⟩

/-! ## C03 -/

/-- C03. `t + d` is the exact sum, canonical, and panics exactly on overflow of the seconds. -/
theorem C03_add_exact {ts : Scale} (t : Time ts) (d : Duration) (ht : t.Canon) (hd : d.Canon) :
    (∀ u, t.add d = some u → u.Canon ∧ u.total = t.total + d.total) ∧
    (t.add d = none ↔ ¬ (FitsI64 (t.sec + d.sec) ∧ FitsI64 ((t.total + d.total) / NS))) := by
  rw [Time.add_eq ht hd]
  by_cases h : FitsI64 (t.sec + d.sec) ∧ FitsI64 ((t.total + d.total) / NS)
  · rw [if_pos h]
    refine ⟨fun c hc => ?_, by simp [h]⟩
    cases hc
    exact ⟨timeOf_canon h.2, timeOf_total _ _⟩
  · rw [if_neg h]
    exact ⟨fun c hc => (nomatch hc), by simp [h]⟩

example : (Time.mk 10 999999999 : Time .tai).Canon ∧ (Duration.mk 0 2).Canon ∧
    (Time.mk 10 999999999 : Time .tai).add ⟨0, 2⟩ = some ⟨11, 1⟩ := by decide

/-- C03. `u - t` is the exact difference, canonical, and panics exactly on overflow. -/
theorem C03_sub_exact {ts : Scale} (u t : Time ts) (hu : u.Canon) (ht : t.Canon) :
    (∀ d, u.sub t = some d → d.Canon ∧ d.total = u.total - t.total) ∧
    (u.sub t = none ↔ ¬ (FitsI64 (u.sec - t.sec) ∧ FitsI64 ((u.total - t.total) / NS))) := by
  rw [Time.sub_eq hu ht]
  by_cases h : FitsI64 (u.sec - t.sec) ∧ FitsI64 ((u.total - t.total) / NS)
  · rw [if_pos h]
    refine ⟨fun c hc => ?_, by simp [h]⟩
    cases hc
    exact ⟨durOf_canon h.2, durOf_total _⟩
  · rw [if_neg h]
    exact ⟨fun c hc => (nomatch hc), by simp [h]⟩

example : (Time.mk 10 1 : Time .tai).Canon ∧ (Time.mk 12 0 : Time .tai).Canon ∧
    (Time.mk 10 1 : Time .tai).sub ⟨12, 0⟩ = some ⟨-2, 1⟩ := by decide

/-- C03. `(t + d) - t = d`. -/
theorem C03_add_sub_cancel {ts : Scale} (t u : Time ts) (d : Duration) (ht : t.Canon)
    (hd : d.Canon) (hmax : d.sec < i64Max) (h : t.add d = some u) : u.sub t = some d := by
  obtain ⟨hu, e⟩ := (C03_add_exact t d ht hd).1 u h
  have e' : u.total - t.total = d.total := by omega
  have f : FitsI64 (d.total / NS) := by
    have := Duration.eq_durOf hd
    rw [show d.total / NS = (durOf d.total).sec from rfl, ← this]; exact hd.1
  have f' : FitsI64 (u.sec - t.sec) := by
    obtain ⟨⟨_, _⟩, _, _⟩ := hu
    obtain ⟨⟨_, _⟩, _, _⟩ := ht
    obtain ⟨⟨_, _⟩, _, _⟩ := hd
    simp only [Time.total, Duration.total] at e
    constructor <;> omega
  rw [Time.sub_eq hu ht, e', if_pos ⟨f', f⟩, ← Duration.eq_durOf hd]

example : (Time.mk 5 999999999 : Time .utc).Canon ∧ (Duration.mk (-9) 5).Canon ∧
    (Duration.mk (-9) 5).sec < i64Max ∧
    (Time.mk 5 999999999 : Time .utc).add ⟨-9, 5⟩ = some ⟨-3, 4⟩ := by decide

/-- C03 edge: without the bound on `d.sec` the law fails — the subtraction panics although the
result is representable. -/
theorem C03_add_sub_cancel_edge :
    ∃ (t u : Time .utc) (d : Duration), t.Canon ∧ d.Canon ∧ d.sec = i64Max ∧
      t.add d = some u ∧ u.sub t = none :=
  ⟨⟨-1, 500000000⟩, ⟨i64Max, 0⟩, ⟨i64Max, 500000000⟩, by decide⟩

/-- C03. `t + (u - t) = u`. -/
theorem C03_sub_add_cancel {ts : Scale} (t u : Time ts) (d : Duration) (ht : t.Canon)
    (hu : u.Canon) (hmin : i64Min < u.sec) (h : u.sub t = some d) : t.add d = some u := by
  obtain ⟨hd, e⟩ := (C03_sub_exact u t hu ht).1 d h
  have e' : t.total + d.total = u.total := by omega
  have f : FitsI64 (u.total / NS) := by
    have := Time.eq_timeOf hu
    rw [show u.total / NS = (timeOf ts u.total).sec from rfl, ← this]; exact hu.1
  have f' : FitsI64 (t.sec + d.sec) := by
    obtain ⟨⟨_, _⟩, _, _⟩ := hu
    obtain ⟨⟨_, _⟩, _, _⟩ := ht
    obtain ⟨⟨_, _⟩, _, _⟩ := hd
    simp only [Time.total, Duration.total] at e
    constructor <;> omega
  rw [Time.add_eq ht hd, e', if_pos ⟨f', f⟩, ← Time.eq_timeOf hu]

example : (Time.mk 5 999999999 : Time .gps).Canon ∧ (Time.mk (-3) 4 : Time .gps).Canon ∧
    i64Min < (-3 : Int) ∧ (Time.mk (-3) 4 : Time .gps).sub ⟨5, 999999999⟩ = some ⟨-9, 5⟩ := by
  decide

/-- C03. `(t + d) + e = t + (d + e)`. -/
theorem C03_add_assoc {ts : Scale} (t t₁ t₂ : Time ts) (d e f : Duration) (ht : t.Canon)
    (hd : d.Canon) (he : e.Canon) (hmin : i64Min < t₂.sec) (h₁ : t.add d = some t₁)
    (h₂ : t₁.add e = some t₂) (h₃ : d.add e = some f) : t.add f = some t₂ := by
  obtain ⟨c₁, e₁⟩ := (C03_add_exact t d ht hd).1 _ h₁
  obtain ⟨c₂, e₂⟩ := (C03_add_exact t₁ e c₁ he).1 _ h₂
  obtain ⟨c₃, e₃⟩ := (C01_add_exact d e hd he).1 _ h₃
  have e' : t.total + f.total = t₂.total := by omega
  have g : FitsI64 (t₂.total / NS) := by
    have := Time.eq_timeOf c₂
    rw [show t₂.total / NS = (timeOf ts t₂.total).sec from rfl, ← this]; exact c₂.1
  have g' : FitsI64 (t.sec + f.sec) := by
    obtain ⟨⟨_, _⟩, _, _⟩ := c₂
    obtain ⟨⟨_, _⟩, _, _⟩ := ht
    obtain ⟨⟨_, _⟩, _, _⟩ := c₃
    simp only [Time.total, Duration.total] at e'
    constructor <;> omega
  rw [Time.add_eq ht c₃, e', if_pos ⟨g', g⟩, ← Time.eq_timeOf c₂]

example : (Time.mk 0 800000000 : Time .gps).add ⟨0, 300000000⟩ = some ⟨1, 100000000⟩ ∧
    (Time.mk 1 100000000 : Time .gps).add ⟨-4, 950000000⟩ = some ⟨-2, 50000000⟩ ∧
    (Duration.mk 0 300000000).add ⟨-4, 950000000⟩ = some ⟨-3, 250000000⟩ := by decide

/-- C03. The by-reference operators return the same results as the by-value ones (any fields). -/
theorem C03_ref_ops {ts : Scale} (t u : Time ts) (d : Duration) :
    t.addRef d = t.add d ∧ u.subRef t = u.sub t := ⟨rfl, rfl⟩

/-! ## C04 -/

/-- C04. On canonical durations comparison is comparison of lengths. -/
theorem C04_duration_cmp (a b : Duration) (ha : a.Canon) (hb : b.Canon) :
    (a.cmp b = .lt ↔ a.total < b.total) ∧ (a.cmp b = .eq ↔ a.total = b.total) ∧
    (a.cmp b = .gt ↔ b.total < a.total) ∧ (a = b ↔ a.total = b.total) := by
  rw [Duration.cmp_eq ha hb]
  refine ⟨by simp [compare, compareOfLessAndEq]; repeat' split <;> simp_all <;> omega,
    by simp [compare, compareOfLessAndEq]; repeat' split <;> simp_all <;> omega,
    by simp [compare, compareOfLessAndEq]; repeat' split <;> simp_all <;> omega,
    fun h => h ▸ rfl, fun h => ?_⟩
  rw [Duration.eq_durOf ha, Duration.eq_durOf hb, h]

/-- C04. On canonical instants comparison is chronological, and `==` means the same instant. -/
theorem C04_time_cmp {ts : Scale} (a b : Time ts) (ha : a.Canon) (hb : b.Canon) :
    (a.cmp b = .lt ↔ a.total < b.total) ∧ (a.cmp b = .eq ↔ a.total = b.total) ∧
    (a.cmp b = .gt ↔ b.total < a.total) ∧ (a = b ↔ a.total = b.total) := by
  rw [Time.cmp_eq ha hb]
  refine ⟨by simp [compare, compareOfLessAndEq]; repeat' split <;> simp_all <;> omega,
    by simp [compare, compareOfLessAndEq]; repeat' split <;> simp_all <;> omega,
    by simp [compare, compareOfLessAndEq]; repeat' split <;> simp_all <;> omega,
    fun h => h ▸ rfl, fun h => ?_⟩
  rw [Time.eq_timeOf ha, Time.eq_timeOf hb, h]

example : (Duration.mk (-1) 999999999).Canon ∧ (Duration.mk 0 0).Canon ∧
    (Time.mk (-1) 999999999 : Time .utc).Canon ∧ (Time.mk 0 0 : Time .utc).Canon := by decide

/-- C04. For arbitrary field values (canonical or not) the order on durations is a total order
compatible with `==`. -/
theorem C04_duration_total_order (a b c : Duration) :
    (a.cmp b = .eq ↔ a = b) ∧ a.cmp b = (b.cmp a).swap ∧
    (a.cmp b ≠ .gt → b.cmp c ≠ .gt → a.cmp c ≠ .gt) := by
  obtain ⟨s₁, n₁⟩ := a
  obtain ⟨s₂, n₂⟩ := b
  obtain ⟨s₃, n₃⟩ := c
  refine ⟨by rw [Duration.mk.injEq]; exact lexCmp_eq_iff .., ?_, ?_⟩
  · exact lexCmp_swap ..
  · have h₁ := lexCmp_gt_iff s₁ n₁ s₂ n₂
    have h₂ := lexCmp_gt_iff s₂ n₂ s₃ n₃
    have h₃ := lexCmp_gt_iff s₁ n₁ s₃ n₃
    intro g₁ g₂ g₃
    have g₁ := mt h₁.2 g₁
    have g₂ := mt h₂.2 g₂
    have g₃ := h₃.1 g₃
    omega

/-- C04. The same for instants. -/
theorem C04_time_total_order {ts : Scale} (a b c : Time ts) :
    (a.cmp b = .eq ↔ a = b) ∧ a.cmp b = (b.cmp a).swap ∧
    (a.cmp b ≠ .gt → b.cmp c ≠ .gt → a.cmp c ≠ .gt) := by
  obtain ⟨s₁, n₁⟩ := a
  obtain ⟨s₂, n₂⟩ := b
  obtain ⟨s₃, n₃⟩ := c
  refine ⟨by rw [Time.mk.injEq]; exact lexCmp_eq_iff .., ?_, ?_⟩
  · exact lexCmp_swap ..
  · have h₁ := lexCmp_gt_iff s₁ n₁ s₂ n₂
    have h₂ := lexCmp_gt_iff s₂ n₂ s₃ n₃
    have h₃ := lexCmp_gt_iff s₁ n₁ s₃ n₃
    intro g₁ g₂ g₃
    have g₁ := mt h₁.2 g₁
    have g₂ := mt h₂.2 g₂
    have g₃ := h₃.1 g₃
    omega

end Verif.Time
