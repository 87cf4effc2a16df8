import Verif.Time.PropsArith

/-! # Helper lemmas: timer and schedule loops -/

namespace Verif.Time
open Verif.Rust

theorem canon_sec {d : Duration} (h : d.Canon) : d.sec = d.total / NS := by
  obtain ⟨_, _, _⟩ := h; simp only [Duration.total]; omega

theorem time_canon_sec {ts : Scale} {d : Time ts} (h : d.Canon) : d.sec = d.total / NS := by
  obtain ⟨_, _, _⟩ := h; simp only [Time.total]; omega

theorem drain_ok {p : Duration} (hp : p.Canon) (hpos : 0 < p.total) (n : Nat) (a : Duration)
    (ha : a.Canon) (h0 : 0 ≤ a.total) (hn : a.total / p.total ≤ n) :
    drain p n a = .ok (durOf (a.total % p.total)) := by
  induction n generalizing a with
  | zero =>
    have : a.total < p.total := by
      have : a.total / p.total = 0 := by
        have := Int.ediv_nonneg h0 (Int.le_of_lt hpos); omega
      have := Int.emod_lt_of_pos a.total hpos
      have := Int.mul_ediv_add_emod a.total p.total
      simp_all
    simp only [drain, Duration.ge_eq ha hp]
    rw [if_neg (by simp; omega), Int.emod_eq_of_lt h0 this, ← Duration.eq_durOf ha]
  | succ n ih =>
    simp only [drain, Duration.ge_eq ha hp]
    by_cases c : p.total ≤ a.total
    · have s1 := canon_sec ha
      have s2 := canon_sec hp
      have f1 : FitsI64 (a.sec - p.sec) := by
        obtain ⟨⟨_, _⟩, _, _⟩ := ha
        obtain ⟨⟨_, _⟩, _, _⟩ := hp
        constructor <;> omega
      have f2 : FitsI64 ((a.total - p.total) / NS) := by
        obtain ⟨⟨_, _⟩, _, _⟩ := ha
        constructor <;> omega
      rw [if_pos (by simpa using c), Duration.sub_eq ha hp, if_pos ⟨f1, f2⟩]
      simp only [Run.ofOption, Run.bind]
      rw [ih _ (durOf_canon f2)]
      · rw [durOf_total, Int.sub_emod_right]
      · rw [durOf_total]; omega
      · rw [durOf_total]
        have : (a.total - p.total) / p.total = a.total / p.total - 1 := by
          have := Int.add_mul_ediv_right a.total (-1) (c := p.total) (by omega)
          rw [show a.total - p.total = a.total + -1 * p.total by omega]; omega
        omega
    · rw [if_neg (by simpa using c), Int.emod_eq_of_lt h0 (by omega), ← Duration.eq_durOf ha]

/-- One `step` with a non-negative `dt`, in closed form. -/
theorem step_ok {p : Duration} (hp : p.Canon) (hpos : 0 < p.total) (s : Int)
    (d : Duration) (hd : d.Canon) (hd0 : 0 ≤ d.total)
    (hfit : d.sec + p.sec + 1 ≤ i64Max) (n : Nat) (hn : d.total + 1 ≤ n) :
    TimerEvent.step ⟨durOf (s % p.total), p⟩ d n =
      .ok (⟨durOf ((s + d.total) % p.total), p⟩, decide (s / p.total < (s + d.total) / p.total)) := by
  have r0 := Int.emod_nonneg s (show p.total ≠ 0 by omega)
  have r1 := Int.emod_lt_of_pos s hpos
  have sp := canon_sec hp
  have sd := canon_sec hd
  have hca : (durOf (s % p.total)).Canon := by
    apply durOf_canon
    obtain ⟨⟨_, _⟩, _, _⟩ := hp
    constructor <;> omega
  have f2 : FitsI64 ((s % p.total + d.total) / NS) := by
    constructor <;> omega
  have f1 : FitsI64 ((durOf (s % p.total)).sec + d.sec) := by
    simp only [durOf]
    constructor <;> omega
  simp only [TimerEvent.step]
  rw [Duration.add_eq hca hd, durOf_total, if_pos ⟨f1, f2⟩]
  simp only [Run.ofOption, Run.bind]
  have hc2 := durOf_canon f2
  rw [Duration.ge_eq hc2 hp, durOf_total]
  have em : (s % p.total + d.total) % p.total = (s + d.total) % p.total := by
    rw [Int.add_comm, Int.add_emod_emod, Int.add_comm]
  have div : (s + d.total) / p.total = s / p.total + (s % p.total + d.total) / p.total := by
    have h := Int.mul_ediv_add_emod s p.total
    have h2 : s + d.total = (s % p.total + d.total) + (s / p.total) * p.total := by
      have := Int.mul_comm p.total (s / p.total); omega
    rw [h2, Int.add_mul_ediv_right _ _ (by omega)]
    have h3 : ((s % p.total + d.total) + (s / p.total) * p.total - d.total) = s := by omega
    omega
  by_cases c : p.total ≤ s % p.total + d.total
  · have hge : 1 ≤ (s % p.total + d.total) / p.total := by
      rw [Int.le_ediv_iff_mul_le hpos]; omega
    have hle : (s % p.total + d.total) / p.total ≤ n := by
      have : (s % p.total + d.total) / p.total ≤ d.total + 1 := by
        apply Int.le_of_lt_add_one
        apply Int.ediv_lt_of_lt_mul hpos
        have : (d.total + 1 + 1) * p.total = d.total * p.total + 2 * p.total := by
          rw [Int.add_mul, Int.add_mul]; omega
        have h3 := Int.mul_le_mul_of_nonneg_left (show 1 ≤ p.total by omega) hd0
        omega
      omega
    rw [if_pos (by simpa using c), drain_ok hp hpos n _ hc2 (by rw [durOf_total]; omega)
      (by rw [durOf_total]; exact hle)]
    simp only [durOf_total, em]
    rw [decide_eq_true (by omega)]
  · have hz : (s % p.total + d.total) / p.total = 0 := Int.ediv_eq_zero_of_lt (by omega) (by omega)
    rw [if_neg (by simpa using c)]
    have hlt : (s + d.total) % p.total = s % p.total + d.total := by
      rw [← em, Int.emod_eq_of_lt (by omega) (by omega)]
    rw [hlt, decide_eq_false (by omega)]

theorem drain_nonpos {p : Duration} (hp : p.Canon) (hneg : p.total ≤ 0) (n : Nat) (a r : Duration)
    (ha : a.Canon) (h : p.total ≤ a.total) : drain p n a ≠ .ok r := by
  induction n generalizing a with
  | zero =>
    simp only [drain, Duration.ge_eq ha hp]
    rw [if_pos (by simpa using h)]; simp
  | succ n ih =>
    simp only [drain, Duration.ge_eq ha hp]
    rw [if_pos (by simpa using h)]
    cases hs : a.sub p with
    | none => simp [Run.ofOption, Run.bind]
    | some b =>
      obtain ⟨hb, e⟩ := (C01_sub_exact a p ha hp).1 b hs
      simp only [Run.ofOption, Run.bind]
      exact ih b hb (by omega)

/-! ### The schedule loop -/

theorem catchUp_ok {p : Duration} (hp : p.Canon) (hpos : 0 < p.total) {now : Time .utc}
    (hnow : now.Canon) (hfit : now.sec + p.sec + 1 ≤ i64Max) (n : Nat) (t : Time .utc)
    (ht : t.Canon) (hn : now.total - t.total < n) :
    ∃ k : Int, 0 ≤ k ∧ catchUp p now n t = .ok (timeOf .utc (t.total + k * p.total)) ∧
      (timeOf .utc (t.total + k * p.total)).Canon ∧
      now.total < t.total + k * p.total ∧
      (t.total ≤ now.total → t.total + k * p.total ≤ now.total + p.total) ∧
      (now.total < t.total → k = 0) := by
  induction n generalizing t with
  | zero =>
    have c : now.total < t.total := by omega
    refine ⟨0, Int.le_refl 0, ?_, ?_, by omega, by omega, fun _ => rfl⟩
    · simp only [catchUp, Time.le_eq ht hnow]
      rw [if_neg (by simpa using c)]
      simp only [Int.zero_mul, Int.add_zero, ← Time.eq_timeOf ht]
    · simp only [Int.zero_mul, Int.add_zero, ← Time.eq_timeOf ht]; exact ht
  | succ n ih =>
    simp only [catchUp, Time.le_eq ht hnow]
    by_cases c : t.total ≤ now.total
    · have s1 := time_canon_sec ht
      have s2 := time_canon_sec hnow
      have s3 := canon_sec hp
      have f1 : FitsI64 (t.sec + p.sec) := by
        obtain ⟨⟨_, _⟩, _, _⟩ := ht
        constructor <;> omega
      have f2 : FitsI64 ((t.total + p.total) / NS) := by
        obtain ⟨⟨_, _⟩, _, _⟩ := ht
        constructor <;> omega
      rw [if_pos (by simpa using c), Time.add_eq ht hp, if_pos ⟨f1, f2⟩]
      simp only [Run.ofOption, Run.bind]
      obtain ⟨k, k0, hk, hc, h1, h2, h3⟩ := ih (timeOf .utc (t.total + p.total)) (timeOf_canon f2)
        (by rw [timeOf_total]; omega)
      rw [timeOf_total] at *
      have e : t.total + p.total + k * p.total = t.total + (k + 1) * p.total := by
        rw [Int.add_mul]; omega
      rw [e] at hk hc h1 h2
      refine ⟨k + 1, by omega, hk, hc, h1, fun _ => ?_, by omega⟩
      by_cases c2 : t.total + p.total ≤ now.total
      · exact h2 c2
      · have := h3 (by omega)
        subst this
        omega
    · refine ⟨0, Int.le_refl 0, ?_, ?_, by omega, by omega, fun _ => rfl⟩
      · rw [if_neg (by simpa using c)]
        simp only [Int.zero_mul, Int.add_zero, ← Time.eq_timeOf ht]
      · simp only [Int.zero_mul, Int.add_zero, ← Time.eq_timeOf ht]; exact ht

/-- What is known of a schedule after the polls `seen`, for a set `M` of nominal firing instants
after `start`: the pending instant is nominal, later than all polls, and the earliest such. -/
def SchedInv (M : Int → Prop) (start : Int) (pat : Recurrence) (seen : List (Time .utc))
    (s : UtcSchedule) : Prop :=
  s.pattern = pat ∧ s.nextFire.Canon ∧ M s.nextFire.total ∧ start < s.nextFire.total ∧
  (∀ p ∈ seen, p.total < s.nextFire.total) ∧
  ∀ m, M m → start < m → (∀ p ∈ seen, p.total < m) → s.nextFire.total ≤ m

/-- Generic history theorem for schedules whose advance finds the least nominal instant after now. -/
theorem sched_history (M : Int → Prop) (start : Int) (pat : Recurrence) (OK : Time .utc → Prop)
    (hOK : ∀ t, OK t → t.Canon)
    (adv : ∀ (s : UtcSchedule) (now : Time .utc), s.pattern = pat → s.nextFire.Canon →
      M s.nextFire.total → start < s.nextFire.total → OK now → s.nextFire.total ≤ now.total →
      ∃ (t : Time .utc) (N : Nat), (∀ n, N ≤ n → s.check now n = .ok ({ s with nextFire := t }, true)) ∧
        t.Canon ∧ M t.total ∧ now.total < t.total ∧ ∀ m, M m → now.total < m → t.total ≤ m)
    (polls : List (Time .utc)) (hpolls : ∀ p ∈ polls, OK p) (seen : List (Time .utc))
    (s : UtcSchedule) (inv : SchedInv M start pat seen s) :
    ∃ (s' : UtcSchedule) (flags : List Bool) (N : Nat),
      (∀ n, N ≤ n → s.checks n polls = .ok (s', flags)) ∧
      SchedInv M start pat (seen ++ polls) s' ∧ flags.length = polls.length ∧
      ∀ i (h : i < polls.length), (flags[i]? = some true ↔
        ∃ m, M m ∧ start < m ∧ m ≤ polls[i].total ∧ ∀ p ∈ seen ++ polls.take i, p.total < m) := by
  induction polls generalizing seen s with
  | nil => exact ⟨s, [], 0, fun n _ => rfl, by simpa using inv, rfl, by simp⟩
  | cons now rest ih =>
    have oknow := hpolls now (List.mem_cons_self ..)
    have cnow := hOK _ oknow
    have okrest : ∀ p ∈ rest, OK p := fun p hp => hpolls p (List.mem_cons_of_mem _ hp)
    obtain ⟨i1, i2, i3, i4, i5, i6⟩ := inv
    by_cases c : s.nextFire.total ≤ now.total
    · obtain ⟨t, N₁, hch, ct, mt, lt, least⟩ := adv s now i1 i2 i3 i4 oknow c
      have inv' : SchedInv M start pat (seen ++ [now]) { s with nextFire := t } := by
        refine ⟨i1, ct, mt, by simp only; omega, ?_, ?_⟩
        · intro p hp
          rcases List.mem_append.1 hp with h | h
          · have := i5 p h; simp only; omega
          · simp only [List.mem_singleton] at h; subst h; exact lt
        · intro m hm _ hall
          exact least m hm (hall now (by simp))
      obtain ⟨s', flags, N₂, h1, h2, h3, h4⟩ := ih okrest (seen ++ [now]) _ inv'
      refine ⟨s', true :: flags, max N₁ N₂, ?_, by simpa using h2, by simp [h3], ?_⟩
      · intro n hn
        simp only [UtcSchedule.checks]
        rw [hch n (by omega)]
        simp only [Run.bind]
        rw [h1 n (by omega)]
      · intro i hi
        cases i with
        | zero =>
          simp only [List.getElem?_cons_zero, List.getElem_cons_zero, List.take_zero,
            List.append_nil, true_iff]
          exact ⟨s.nextFire.total, i3, i4, c, i5⟩
        | succ i =>
          have := h4 i (by simpa using hi)
          simpa using this
    · have inv' : SchedInv M start pat (seen ++ [now]) s := by
        refine ⟨i1, i2, i3, i4, ?_, ?_⟩
        · intro p hp
          rcases List.mem_append.1 hp with h | h
          · exact i5 p h
          · simp only [List.mem_singleton] at h; subst h; omega
        · intro m hm hs hall
          exact i6 m hm hs fun p hp => hall p (by simp [hp])
      obtain ⟨s', flags, N₂, h1, h2, h3, h4⟩ := ih okrest (seen ++ [now]) _ inv'
      have hch : ∀ n, s.check now n = .ok (s, false) := by
        intro n
        simp only [UtcSchedule.check, Time.lt_eq cnow i2]
        rw [if_pos (by simp; omega)]
      refine ⟨s', false :: flags, N₂, ?_, by simpa using h2, by simp [h3], ?_⟩
      · intro n hn
        simp only [UtcSchedule.checks]
        rw [hch n]
        simp only [Run.bind]
        rw [h1 n hn]
      · intro i hi
        cases i with
        | zero =>
          simp only [List.getElem?_cons_zero, List.getElem_cons_zero, List.take_zero,
            List.append_nil]
          constructor
          · intro h; cases h
          · rintro ⟨m, hm, hs, hle, hall⟩
            have := i6 m hm hs hall
            omega
        | succ i =>
          have := h4 i (by simpa using hi)
          simpa using this

end Verif.Time
