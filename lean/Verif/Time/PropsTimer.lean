import Verif.Time.LemmasTimer

/-! # Properties C09–C13, C17: timers, alarms, schedules -/

namespace Verif.Time
open Verif.Rust

/-! ## C09 -/

/-- Specification: starting at elapsed time `s`, which of the steps `ds` (lengths in ns) carry the
elapsed time across a multiple of `P`. -/
def crossings (P : Int) : Int → List Int → List Bool
  | _, [] => []
  | s, d :: ds => decide (s / P < (s + d) / P) :: crossings P (s + d) ds

/-- C09, general form: also from a state reached by earlier steps with total length `s`. -/
theorem C09_timer_from (p : Duration) (hp : p.Canon) (hpos : 0 < p.total) (ds : List Duration)
    (hds : ∀ d ∈ ds, d.Canon ∧ 0 ≤ d.total ∧ d.sec + p.sec + 1 ≤ i64Max) (s : Int) :
    ∃ N : Nat, ∀ n, N ≤ n → ∃ e,
      TimerEvent.steps n ⟨durOf (s % p.total), p⟩ ds =
        .ok (e, crossings p.total s (ds.map Duration.total)) ∧
      e = ⟨durOf ((s + (ds.map Duration.total).sum) % p.total), p⟩ := by
  induction ds generalizing s with
  | nil => exact ⟨0, fun n _ => ⟨_, rfl, by simp⟩⟩
  | cons d ds ih =>
    obtain ⟨c, h0, hf⟩ := hds d (List.mem_cons_self ..)
    obtain ⟨N, hN⟩ := ih (fun x hx => hds x (List.mem_cons_of_mem _ hx)) (s + d.total)
    refine ⟨max N (d.total + 1).toNat, fun n hn => ?_⟩
    obtain ⟨e, he, hee⟩ := hN n (by omega)
    refine ⟨e, ?_, ?_⟩
    · simp only [TimerEvent.steps, step_ok hp hpos s d c h0 hf n (by omega), Run.bind, he,
        List.map_cons, crossings]
    · rw [hee, List.map_cons, List.sum_cons, Int.add_assoc]

/-- C09. A new timer with a positive canonical period, stepped by any list of canonical
non-negative durations (no overflow): every call returns; the k-th flag is true exactly when the
total elapsed time crossed a multiple of the period in the k-th step; and the remainder kept is
canonical, in `[0, period)`, and equals total elapsed time modulo the period. -/
theorem C09_timer (p : Duration) (hp : p.Canon) (hpos : 0 < p.total) (ds : List Duration)
    (hds : ∀ d ∈ ds, d.Canon ∧ 0 ≤ d.total ∧ d.sec + p.sec + 1 ≤ i64Max) :
    ∃ (e : TimerEvent), Returns (fun n => (TimerEvent.new p).steps n ds)
        (e, crossings p.total 0 (ds.map Duration.total)) ∧
      e.period = p ∧ e.acc.Canon ∧ 0 ≤ e.acc.total ∧ e.acc.total < p.total ∧
      e.acc.total = (ds.map Duration.total).sum % p.total := by
  obtain ⟨N, hN⟩ := C09_timer_from p hp hpos ds hds 0
  obtain ⟨e, he, hee⟩ := hN N (Nat.le_refl _)
  have h0 : durOf (0 % p.total) = Duration.zero := by simp [durOf, Duration.zero]
  rw [h0] at he
  rw [Int.zero_add] at hee
  have r0 := Int.emod_nonneg (ds.map Duration.total).sum (show p.total ≠ 0 by omega)
  have r1 := Int.emod_lt_of_pos (ds.map Duration.total).sum hpos
  have sp := canon_sec hp
  refine ⟨e, ⟨N, he⟩, by rw [hee], ?_, ?_, ?_, ?_⟩
  · rw [hee]; apply durOf_canon
    obtain ⟨⟨_, _⟩, _, _⟩ := hp
    constructor <;> omega
  all_goals rw [hee]; simp only [durOf_total]
  · exact r0
  · exact r1

example : let p : Duration := ⟨0, 300000000⟩
    let ds : List Duration := [⟨0, 200000000⟩, ⟨1, 0⟩, ⟨0, 50000000⟩]
    p.Canon ∧ 0 < p.total ∧ (∀ d ∈ ds, d.Canon ∧ 0 ≤ d.total ∧ d.sec + p.sec + 1 ≤ i64Max) ∧
    (TimerEvent.new p).steps 10 ds = .ok (⟨⟨0, 50000000⟩, p⟩, [false, true, false]) := by decide

/-- C09. With a zero or negative period, a step whose accumulated time reaches the period never
returns (it loops forever or, for negative periods, until the addition overflows and panics). -/
theorem C09_nonpositive_period_hangs (e : TimerEvent) (dt a : Duration) (hp : e.period.Canon)
    (hneg : e.period.total ≤ 0) (hacc : e.acc.Canon) (hdt : dt.Canon)
    (hadd : e.acc.add dt = some a) (hge : e.period.total ≤ a.total) :
    NeverReturns (e.step dt) := by
  intro n r
  obtain ⟨ha, _⟩ := (C01_add_exact _ _ hacc hdt).1 _ hadd
  simp only [TimerEvent.step, hadd, Run.ofOption, Run.bind, Duration.ge_eq ha hp]
  rw [if_pos (by simpa using hge)]
  have := drain_nonpos hp hneg n a
  cases hd : drain e.period n a with
  | ok x => exact absurd hd (this x ha hge)
  | panic => simp
  | running => simp

example : let e := TimerEvent.new ⟨0, 0⟩
    e.period.Canon ∧ e.period.total ≤ 0 ∧ e.acc.Canon ∧ (Duration.mk 0 1).Canon ∧
    e.acc.add ⟨0, 1⟩ = some ⟨0, 1⟩ ∧ e.period.total ≤ (Duration.mk 0 1).total := by decide

/-! ## C10 -/

theorem timerSetStep_ok {n : Nat} {dt : Duration} {es es' : List TimerEvent} {bs : List Bool}
    (h : timerSetStep n dt es = .ok (es', bs)) :
    es'.length = es.length ∧ bs.length = es.length ∧
    ∀ i (hi : i < es.length), ∃ e' b, es[i].step dt n = .ok (e', b) ∧
      es'[i]? = some e' ∧ bs[i]? = some b := by
  induction es generalizing es' bs with
  | nil =>
    simp only [timerSetStep, Run.ok.injEq, Prod.mk.injEq] at h
    obtain ⟨rfl, rfl⟩ := h
    simp
  | cons e es ih =>
    simp only [timerSetStep] at h
    cases h1 : e.step dt n with
    | panic => simp [h1, Run.bind] at h
    | running => simp [h1, Run.bind] at h
    | ok x =>
      obtain ⟨e', b⟩ := x
      cases h2 : timerSetStep n dt es with
      | panic => simp [h1, h2, Run.bind] at h
      | running => simp [h1, h2, Run.bind] at h
      | ok y =>
        obtain ⟨es₂, bs₂⟩ := y
        simp only [h1, h2, Run.bind, Run.ok.injEq, Prod.mk.injEq] at h
        obtain ⟨rfl, rfl⟩ := h
        obtain ⟨l1, l2, hh⟩ := ih h2
        refine ⟨by simp [l1], by simp [l2], fun i hi => ?_⟩
        cases i with
        | zero => exact ⟨e', b, h1, rfl, rfl⟩
        | succ i =>
          obtain ⟨e₃, b₃, g1, g2, g3⟩ := hh i (by simpa using hi)
          exact ⟨e₃, b₃, by simpa using g1, by simpa using g2, by simpa using g3⟩

/-- C10. If a set of timers steps through the durations `ds`, then timer `i` of the set ends in the
state, and produced the flags, that it would have produced on its own. -/
theorem C10_set_is_independent (n : Nat) (es es' : List TimerEvent) (ds : List Duration)
    (rows : List (List Bool)) (h : timerSetSteps n es ds = .ok (es', rows)) :
    es'.length = es.length ∧ rows.length = ds.length ∧
    ∀ i (hi : i < es.length), ∃ e' col, es[i].steps n ds = .ok (e', col) ∧
      es'[i]? = some e' ∧ rows.map (fun r => r[i]?) = col.map some := by
  induction ds generalizing es es' rows with
  | nil =>
    simp only [timerSetSteps, Run.ok.injEq, Prod.mk.injEq] at h
    obtain ⟨rfl, rfl⟩ := h
    refine ⟨rfl, rfl, fun i hi => ⟨es[i], [], rfl, by simp [hi], rfl⟩⟩
  | cons d ds ih =>
    simp only [timerSetSteps] at h
    cases h1 : timerSetStep n d es with
    | panic => simp [h1, Run.bind] at h
    | running => simp [h1, Run.bind] at h
    | ok x =>
      obtain ⟨es₁, bs⟩ := x
      cases h2 : timerSetSteps n es₁ ds with
      | panic => simp [h1, h2, Run.bind] at h
      | running => simp [h1, h2, Run.bind] at h
      | ok y =>
        obtain ⟨es₂, rows₂⟩ := y
        simp only [h1, h2, Run.bind, Run.ok.injEq, Prod.mk.injEq] at h
        obtain ⟨rfl, rfl⟩ := h
        obtain ⟨l1, l2, hs⟩ := timerSetStep_ok h1
        obtain ⟨k1, k2, hr⟩ := ih _ _ _ h2
        refine ⟨by omega, by simp [k2], fun i hi => ?_⟩
        obtain ⟨e₁, b, g1, g2, g3⟩ := hs i hi
        obtain ⟨e₂, col, g4, g5, g6⟩ := hr i (by omega)
        have : es₁[i]'(by omega) = e₁ := by
          rw [List.getElem?_eq_getElem (by omega)] at g2; exact Option.some.inj g2
        refine ⟨e₂, b :: col, ?_, g5, ?_⟩
        · simp only [TimerEvent.steps, g1, Run.bind]
          rw [this] at g4
          simp only [g4]
        · simp [g3, g6]

/-- C10. Conversely, if every timer of the set returns on its own, so does the set. -/
theorem C10_set_returns (n : Nat) (es : List TimerEvent) (ds : List Duration)
    (h : ∀ e ∈ es, ∃ r, e.steps n ds = .ok r) : ∃ r, timerSetSteps n es ds = .ok r := by
  induction ds generalizing es with
  | nil => exact ⟨_, rfl⟩
  | cons d ds ih =>
    have key : ∃ es₁ bs, timerSetStep n d es = .ok (es₁, bs) ∧
        ∀ e ∈ es₁, ∃ r, e.steps n ds = .ok r := by
      clear ih
      induction es with
      | nil => exact ⟨[], [], rfl, by simp⟩
      | cons e es ih2 =>
        obtain ⟨es₁, bs, h1, h2⟩ := ih2 fun x hx => h x (List.mem_cons_of_mem _ hx)
        obtain ⟨r, hr⟩ := h e (List.mem_cons_self ..)
        simp only [TimerEvent.steps] at hr
        cases h3 : e.step d n with
        | panic => simp [h3, Run.bind] at hr
        | running => simp [h3, Run.bind] at hr
        | ok x =>
          obtain ⟨e', b⟩ := x
          simp only [h3, Run.bind] at hr
          refine ⟨e' :: es₁, b :: bs, by simp [timerSetStep, h3, h1, Run.bind], ?_⟩
          intro y hy
          rcases List.mem_cons.1 hy with rfl | hy
          · cases h4 : y.steps n ds with
            | panic => simp [h4] at hr
            | running => simp [h4] at hr
            | ok z => exact ⟨z, rfl⟩
          · exact h2 y hy
    obtain ⟨es₁, bs, h1, h2⟩ := key
    obtain ⟨r, hr⟩ := ih es₁ h2
    exact ⟨(r.1, bs :: r.2), by simp only [timerSetSteps, h1, Run.bind, hr]⟩

/-- C10 from the construction on: the set made from a list of periods has one timer per period, and column `i` of the flags is what a
fresh timer with the `i`-th period shows on its own. -/
theorem C10_from_new (n : Nat) (periods : List Duration) (ds : List Duration) (es' : List TimerEvent) (rows : List (List Bool))
    (h : timerSetSteps n (timerSetNew periods) ds = .ok (es', rows)) :
    es'.length = periods.length ∧ rows.length = ds.length ∧
    ∀ i (hi : i < periods.length), ∃ e' col, (TimerEvent.new periods[i]).steps n ds = .ok (e', col) ∧
      es'[i]? = some e' ∧ rows.map (fun r => r[i]?) = col.map some := by
  obtain ⟨h1, h2, h3⟩ := C10_set_is_independent n _ es' ds rows h
  refine ⟨by simpa [timerSetNew] using h1, h2, fun i hi => ?_⟩
  obtain ⟨e', col, a, b, c⟩ := h3 i (by simpa [timerSetNew] using hi)
  exact ⟨e', col, by simpa [timerSetNew] using a, b, c⟩

example : timerSetSteps 5 (timerSetNew [⟨1, 0⟩, ⟨0, 500000000⟩]) [⟨0, 600000000⟩, ⟨0, 600000000⟩] =
    .ok ([⟨⟨0, 200000000⟩, ⟨1, 0⟩⟩, ⟨⟨0, 200000000⟩, ⟨0, 500000000⟩⟩],
      [[false, true], [true, true]]) := by decide

/-! ## C11 -/

/-- A fired alarm stays silent. -/
theorem alarm_fired (a : UtcAlarm) (ts : List (Time .utc)) (h : a.fired = true) :
    a.checks ts = (a, ts.map fun _ => false) := by
  induction ts with
  | nil => rfl
  | cons t ts ih =>
    have : a.check t = (a, false) := by simp [UtcAlarm.check, h]
    simp [UtcAlarm.checks, this, ih]

/-- C11. Whatever times are polled, in whatever order: poll `i` reports true exactly when it is at
or after the target and every earlier poll was before it (so exactly once, if ever); the alarm is
done exactly when some poll reached the target. -/
theorem C11_alarm (target : Time .utc) (ts : List (Time .utc)) (hc : target.Canon)
    (hts : ∀ t ∈ ts, t.Canon) :
    ((UtcAlarm.new target).checks ts).2.length = ts.length ∧
    (∀ i (h : i < ts.length), ((UtcAlarm.new target).checks ts).2[i]? = some true ↔
      target.total ≤ ts[i].total ∧ ∀ t ∈ ts.take i, t.total < target.total) ∧
    (((UtcAlarm.new target).checks ts).1.fired = true ↔ ∃ t ∈ ts, target.total ≤ t.total) := by
  induction ts with
  | nil => simp [UtcAlarm.checks, UtcAlarm.new]
  | cons t ts ih =>
    have ct := hts t (List.mem_cons_self ..)
    obtain ⟨l, h1, h2⟩ := ih fun x hx => hts x (List.mem_cons_of_mem _ hx)
    by_cases c : target.total ≤ t.total
    · have : (UtcAlarm.new target).check t = ({ target := target, fired := true }, true) := by
        simp [UtcAlarm.check, UtcAlarm.new, Time.ge_eq ct hc, c]
      simp only [UtcAlarm.checks, this, alarm_fired ⟨target, true⟩ ts rfl]
      refine ⟨by simp, fun i hi => ?_, by simp [c]⟩
      cases i with
      | zero => simp [c]
      | succ i =>
        simp only [List.getElem?_cons_succ, List.getElem?_map, List.getElem_cons_succ,
          List.take_succ_cons, List.mem_cons, forall_eq_or_imp]
        constructor
        · intro h; cases hx : ts[i]? <;> simp [hx] at h
        · rintro ⟨_, h, _⟩; omega
    · have : (UtcAlarm.new target).check t = (UtcAlarm.new target, false) := by
        simp [UtcAlarm.check, UtcAlarm.new, Time.ge_eq ct hc, c]
      simp only [UtcAlarm.checks, this]
      refine ⟨by simp [l], fun i hi => ?_, by simp [h2, c]⟩
      cases i with
      | zero => simp [c]
      | succ i =>
        have := h1 i (by simpa using hi)
        simp only [List.getElem?_cons_succ, this, List.getElem_cons_succ, List.take_succ_cons,
          List.mem_cons, forall_eq_or_imp]
        constructor
        · rintro ⟨a, b⟩; exact ⟨a, by omega, b⟩
        · rintro ⟨a, _, b⟩; exact ⟨a, b⟩

example : (Time.mk 5 0 : Time .utc).Canon ∧
    ((UtcAlarm.new ⟨5, 0⟩).checks [⟨4, 999999999⟩, ⟨6, 0⟩, ⟨5, 0⟩, ⟨9, 1⟩]).2 =
      [false, true, false, false] := by decide

/-! ## C12 -/

/-- The nominal firing instants of an interval schedule. -/
def OnGrid (start P : Int) (m : Int) : Prop := ∃ k : Int, 1 ≤ k ∧ m = start + k * P

/-- C12. An interval schedule with a positive canonical period, created at `start` and polled at any
canonical times in any order (none within a period of the end of the `i64` range): every call
returns; a poll fires exactly when some nominal instant `start + k·period` (k ≥ 1) is due at it and
is later than all earlier polls (so ticks missed together are reported once and none is lost); the
pending firing time is always a nominal instant, later than every poll so far, and the earliest such. -/
theorem C12_interval (start : Time .utc) (p : Duration) (s₀ : UtcSchedule) (hs : start.Canon)
    (hp : p.Canon) (hpos : 0 < p.total) (hnew : UtcSchedule.new start (.interval p) = some s₀)
    (polls : List (Time .utc))
    (hpolls : ∀ t ∈ polls, t.Canon ∧ t.sec + p.sec + 1 ≤ i64Max) :
    ∃ (s : UtcSchedule) (flags : List Bool),
      Returns (fun n => s₀.checks n polls) (s, flags) ∧ flags.length = polls.length ∧
      (∀ i (h : i < polls.length), flags[i]? = some true ↔
        ∃ m, OnGrid start.total p.total m ∧ m ≤ polls[i].total ∧
          ∀ t ∈ polls.take i, t.total < m) ∧
      OnGrid start.total p.total s.nextFire.total ∧
      (∀ t ∈ polls, t.total < s.nextFire.total) ∧
      ∀ m, OnGrid start.total p.total m → (∀ t ∈ polls, t.total < m) → s.nextFire.total ≤ m := by
  have grid_pos : ∀ m, OnGrid start.total p.total m → start.total < m := by
    rintro m ⟨k, hk, rfl⟩
    have := Int.mul_le_mul_of_nonneg_right hk (Int.le_of_lt hpos)
    omega
  simp only [UtcSchedule.new, nextInterval, Option.bind_eq_bind, Option.bind_eq_some_iff, pure,
    Option.some.injEq] at hnew
  obtain ⟨t₀, ht₀, rfl⟩ := hnew
  obtain ⟨c₀, e₀⟩ := (C03_add_exact _ _ hs hp).1 _ ht₀
  have inv : SchedInv (OnGrid start.total p.total) start.total (.interval p) []
      ⟨t₀, .interval p⟩ := by
    refine ⟨rfl, c₀, ⟨1, by omega, by simp only [e₀]; omega⟩, by simp only; omega, by simp, ?_⟩
    rintro m ⟨k, hk, rfl⟩ _ _
    have := Int.mul_le_mul_of_nonneg_right hk (Int.le_of_lt hpos)
    simp only; omega
  have H := fun adv => sched_history (OnGrid start.total p.total) start.total
    (.interval p) (fun t => t.Canon ∧ t.sec + p.sec + 1 ≤ i64Max) (fun _ h => h.1) adv polls hpolls [] _ inv
  obtain ⟨s, flags, N, h1, h2, h3, h4⟩ := H (by
    rintro sch now hpat cnf ⟨k₀, hk₀, hm⟩ hstart ⟨cnow, hfit⟩ hdue
    have cu := fun n hn => catchUp_ok hp hpos cnow hfit n sch.nextFire cnf hn
    have hnn : now.total - sch.nextFire.total < ((now.total - sch.nextFire.total).toNat + 1 : Nat) := by
      omega
    obtain ⟨k, k0, hk, hcan, hlt, hle, _⟩ := cu _ hnn
    refine ⟨timeOf .utc (sch.nextFire.total + k * p.total),
      (now.total - sch.nextFire.total).toNat + 1, ?_, hcan, ?_, ?_, ?_⟩
    · intro n hn
      obtain ⟨k', k0', hk', hcan', hlt', hle', _⟩ := cu n (by omega)
      have hle := hle hdue
      have hle' := hle' hdue
      have : k = k' := by
        rcases Int.lt_trichotomy k k' with h | h | h
        · have := Int.mul_le_mul_of_nonneg_right (show k + 1 ≤ k' by omega) (Int.le_of_lt hpos)
          rw [Int.add_mul] at this; omega
        · exact h
        · have := Int.mul_le_mul_of_nonneg_right (show k' + 1 ≤ k by omega) (Int.le_of_lt hpos)
          rw [Int.add_mul] at this; omega
      subst this
      simp only [UtcSchedule.check, Time.lt_eq cnow cnf, hpat]
      rw [if_neg (by simp; omega), hk']
      simp [Run.bind, hpat]
    · rw [timeOf_total]
      refine ⟨k₀ + k, by omega, ?_⟩
      rw [hm, Int.add_mul]; omega
    · rw [timeOf_total]; exact hlt
    · rintro m ⟨j, hj, rfl⟩ hnow
      rw [timeOf_total]
      have hle := hle hdue
      have e : sch.nextFire.total + k * p.total = start.total + (k₀ + k) * p.total := by
        rw [hm, Int.add_mul]; omega
      rw [e] at hle ⊢
      by_cases hjk : k₀ + k ≤ j
      · have := Int.mul_le_mul_of_nonneg_right hjk (Int.le_of_lt hpos); omega
      · have := Int.mul_le_mul_of_nonneg_right (show j + 1 ≤ k₀ + k by omega) (Int.le_of_lt hpos)
        rw [Int.add_mul j 1] at this; omega)
  · refine ⟨s, flags, ⟨N, h1 N (Nat.le_refl _)⟩, h3, fun i hi => ?_, h2.2.2.1, by simpa using
      h2.2.2.2.2.1, fun m hm hall => h2.2.2.2.2.2 m hm (grid_pos m hm) (by simpa using hall)⟩
    rw [h4 i hi]
    constructor
    · rintro ⟨m, a, _, b, c⟩; exact ⟨m, a, b, by simpa using c⟩
    · rintro ⟨m, a, b, c⟩; exact ⟨m, a, grid_pos m a, b, by simpa using c⟩

example : UtcSchedule.new ⟨100, 0⟩ (.interval ⟨5, 0⟩) = some ⟨⟨105, 0⟩, .interval ⟨5, 0⟩⟩ ∧
    UtcSchedule.checks 9 ⟨⟨105, 0⟩, .interval ⟨5, 0⟩⟩ [⟨104, 0⟩, ⟨117, 3⟩, ⟨118, 0⟩, ⟨120, 0⟩] =
      .ok (⟨⟨125, 0⟩, .interval ⟨5, 0⟩⟩, [false, true, false, true]) := by decide

/-- C12 limit: with a zero period a due check never returns. -/
theorem C12_zero_period_hangs (s : UtcSchedule) (now : Time .utc)
    (hpat : s.pattern = .interval ⟨0, 0⟩) (hc : s.nextFire.Canon) (hn : now.Canon)
    (hdue : s.nextFire.total ≤ now.total) : NeverReturns (s.check now) := by
  have h : ∀ n t, catchUp ⟨0, 0⟩ now n s.nextFire ≠ .ok t := by
    intro n t
    induction n with
    | zero =>
      simp only [catchUp, Time.le_eq hc hn]
      rw [if_pos (by simpa using hdue)]; simp
    | succ n ih =>
      simp only [catchUp, Time.le_eq hc hn]
      rw [if_pos (by simpa using hdue)]
      have : s.nextFire.add ⟨0, 0⟩ = some s.nextFire := by
        rw [Time.add_eq hc (by decide)]
        simp only [Duration.total, Int.zero_mul, Int.add_zero]
        rw [if_pos ⟨hc.1, by rw [← time_canon_sec hc]; exact hc.1⟩, ← Time.eq_timeOf hc]
      simp only [this, Run.ofOption, Run.bind]
      exact ih
  intro n r
  simp only [UtcSchedule.check, Time.lt_eq hn hc, hpat]
  rw [if_neg (by simp; omega)]
  cases hx : catchUp ⟨0, 0⟩ now n s.nextFire with
  | ok t => exact absurd hx (h n t)
  | panic => simp [Run.bind]
  | running => simp [Run.bind]

example : (Time.mk 5 0 : Time .utc).Canon ∧ (Time.mk 7 0 : Time .utc).Canon ∧
    (Time.mk 5 0 : Time .utc).total ≤ (Time.mk 7 0 : Time .utc).total := by decide

/-! ## C13 -/

/-- `x` is a whole second whose minute and second of the hour are as given. -/
def MatchesHourly (minute second x : Int) : Prop := (x / 60) % 60 = minute ∧ x % 60 = second

/-- `x` is a whole second whose hour, minute and second of the day are as given. -/
def MatchesDaily (hour minute second x : Int) : Prop :=
  (x / 3600) % 24 = hour ∧ (x / 60) % 60 = minute ∧ x % 60 = second

/-- C13 (part). From 1970 on, `next_hourly` returns the earliest matching whole second strictly
after now. Missing: times before 1970 (false, see `C13_hourly_fails`). -/
theorem C13_hourly_partial (now : Time .utc) (minute second : Int) (hn : now.Canon)
    (h0 : 0 ≤ now.sec) (hmax : now.sec + 7200 ≤ i64Max) (hm : 0 ≤ minute ∧ minute < 60)
    (hs : 0 ≤ second ∧ second < 60) :
    ∃ t, nextHourly now minute second = some t ∧ t.Canon ∧ t.nano = 0 ∧ now.total < t.total ∧
      MatchesHourly minute second t.sec ∧
      ∀ x, MatchesHourly minute second x → now.total < x * NS → t.sec ≤ x := by
  have q : now.sec.tdiv 3600 = now.sec / 3600 := Int.tdiv_eq_ediv_of_nonneg h0
  obtain ⟨_, _, _⟩ := hn
  simp only [nextHourly, q, MatchesHourly, Time.total, Option.bind_eq_bind]
  rw [chk64_of (by constructor <;> omega), Option.bind_some,
    chk64_of (by constructor <;> omega), Option.bind_some]
  by_cases c : now.sec / 3600 * 3600 + minute * 60 + second ≤ now.sec
  · rw [if_pos c, chk64_of (by constructor <;> omega)]
    refine ⟨_, rfl, ⟨by constructor <;> simp only <;> omega, by simp, by simp⟩, rfl,
      by simp only; omega, by simp only; omega, ?_⟩
    rintro x ⟨h1, h2⟩ h3
    simp only; omega
  · rw [if_neg c]
    refine ⟨_, rfl, ⟨by constructor <;> simp only <;> omega, by simp, by simp⟩, rfl,
      by simp only; omega, by simp only; omega, ?_⟩
    rintro x ⟨h1, h2⟩ h3
    simp only; omega

example : (Time.mk 7300 5 : Time .utc).Canon ∧
    nextHourly ⟨7300, 5⟩ 30 15 = some ⟨9015, 0⟩ := by decide

/-- C13. At every representable time (also before 1970) `next_hourly` returns a matching second
strictly after now. -/
theorem C13_hourly_after (now : Time .utc) (minute second : Int) (hn : now.Canon)
    (hmax : now.sec + 7200 ≤ i64Max) (hm : 0 ≤ minute ∧ minute < 60)
    (hs : 0 ≤ second ∧ second < 60) :
    ∃ t, nextHourly now minute second = some t ∧ now.total < t.total ∧
      MatchesHourly minute second t.sec := by
  have q1 := Int.mul_tdiv_add_tmod now.sec 3600
  have b1 := Int.lt_tmod_of_pos now.sec (show (0:Int) < 3600 by decide)
  have b2 := Int.tmod_lt_of_pos now.sec (show (0:Int) < 3600 by decide)
  have b3 : now.sec ≤ 0 → now.sec.tmod 3600 ≤ 0 := by
    intro h
    have := Int.tmod_nonneg (a := -now.sec) 3600 (by omega)
    rw [Int.neg_tmod] at this; omega
  have b4 : 0 ≤ now.sec → 0 ≤ now.sec.tmod 3600 := fun h => Int.tmod_nonneg _ h
  obtain ⟨⟨_, _⟩, _, _⟩ := hn
  simp only [nextHourly, MatchesHourly, Time.total, Option.bind_eq_bind]
  rw [chk64_of (by constructor <;> omega), Option.bind_some,
    chk64_of (by constructor <;> omega), Option.bind_some]
  by_cases c : now.sec.tdiv 3600 * 3600 + minute * 60 + second ≤ now.sec
  · rw [if_pos c, chk64_of (by constructor <;> omega)]
    exact ⟨_, rfl, by simp only; omega, by simp only; omega⟩
  · rw [if_neg c]
    exact ⟨_, rfl, by simp only; omega, by simp only; omega⟩

/-- C13 fails before 1970: at 23:00:01 on 1969-12-31 the next minute-30 instant is at −1800 s, but
`next_hourly` returns +1800 s, an hour late. -/
theorem C13_hourly_fails :
    nextHourly ⟨-3599, 0⟩ 30 0 = some ⟨1800, 0⟩ ∧ MatchesHourly 30 0 (-1800) ∧
      (-3599 : Int) < -1800 := by
  refine ⟨by decide, ?_, by decide⟩
  constructor <;> decide

/-- C13 (part). From 1970 on, `next_daily` returns the earliest matching whole second strictly after
now. Missing: times before 1970 (false, see `C13_daily_fails`). -/
theorem C13_daily_partial (now : Time .utc) (hour minute second : Int) (hn : now.Canon)
    (h0 : 0 ≤ now.sec) (hmax : now.sec + 172800 ≤ i64Max) (hh : 0 ≤ hour ∧ hour < 24)
    (hm : 0 ≤ minute ∧ minute < 60) (hs : 0 ≤ second ∧ second < 60) :
    ∃ t, nextDaily now hour minute second = some t ∧ t.Canon ∧ t.nano = 0 ∧ now.total < t.total ∧
      MatchesDaily hour minute second t.sec ∧
      ∀ x, MatchesDaily hour minute second x → now.total < x * NS → t.sec ≤ x := by
  have q : now.sec.tdiv 86400 = now.sec / 86400 := Int.tdiv_eq_ediv_of_nonneg h0
  obtain ⟨_, _, _⟩ := hn
  simp only [nextDaily, q, MatchesDaily, Time.total, Option.bind_eq_bind]
  rw [chk64_of (by constructor <;> omega), Option.bind_some,
    chk64_of (by constructor <;> omega), Option.bind_some,
    chk64_of (by constructor <;> omega), Option.bind_some]
  by_cases c : now.sec / 86400 * 86400 + hour * 3600 + minute * 60 + second ≤ now.sec
  · rw [if_pos c, chk64_of (by constructor <;> omega)]
    refine ⟨_, rfl, ⟨by constructor <;> simp only <;> omega, by simp, by simp⟩, rfl,
      by simp only; omega, by simp only; omega, ?_⟩
    rintro x ⟨h1, h2, h2'⟩ h3
    simp only; omega
  · rw [if_neg c]
    refine ⟨_, rfl, ⟨by constructor <;> simp only <;> omega, by simp, by simp⟩, rfl,
      by simp only; omega, by simp only; omega, ?_⟩
    rintro x ⟨h1, h2, h2'⟩ h3
    simp only; omega

example : (Time.mk 1700000000 5 : Time .utc).Canon ∧
    nextDaily ⟨1700000000, 5⟩ 12 30 0 = some ⟨1700051400, 0⟩ := by decide

/-- C13 fails before 1970 for daily schedules too: one second into 1969-12-31 (−86399 s) the next
12:00 is at −43200 s, but `next_daily` returns +43200 s, a day late. -/
theorem C13_daily_fails :
    nextDaily ⟨-86399, 0⟩ 12 0 0 = some ⟨43200, 0⟩ ∧ MatchesDaily 12 0 0 (-43200) ∧
      (-86399 : Int) < -43200 := by
  refine ⟨by decide, ?_, by decide⟩
  refine ⟨?_, ?_, ?_⟩ <;> decide

/-- C13 over histories. A daily schedule created at `start` and polled at any times from 1970 on, in
any order: a poll fires exactly when some matching second after `start` is due at it and is later
than all earlier polls; the pending firing time is the earliest matching second after all polls. -/
theorem C13_daily_history_partial (start : Time .utc) (hour minute second : Int) (s₀ : UtcSchedule)
    (hs₀ : start.Canon ∧ 0 ≤ start.sec ∧ start.sec + 172800 ≤ i64Max) (hh : 0 ≤ hour ∧ hour < 24)
    (hm : 0 ≤ minute ∧ minute < 60) (hs : 0 ≤ second ∧ second < 60)
    (hnew : UtcSchedule.new start (.daily hour minute second) = some s₀)
    (polls : List (Time .utc))
    (hpolls : ∀ t ∈ polls, t.Canon ∧ 0 ≤ t.sec ∧ t.sec + 172800 ≤ i64Max) :
    ∃ (s : UtcSchedule) (flags : List Bool),
      Returns (fun n => s₀.checks n polls) (s, flags) ∧ flags.length = polls.length ∧
      (∀ i (h : i < polls.length), flags[i]? = some true ↔
        ∃ x, MatchesDaily hour minute second x ∧ start.total < x * NS ∧ x * NS ≤ polls[i].total ∧
          ∀ t ∈ polls.take i, t.total < x * NS) ∧
      (∃ x, MatchesDaily hour minute second x ∧ s.nextFire = ⟨x, 0⟩) ∧
      ∀ t ∈ polls, t.total < s.nextFire.total := by
  let M : Int → Prop := fun m => ∃ x, MatchesDaily hour minute second x ∧ m = x * NS
  obtain ⟨t₀, ht₀, c₀, n₀, l₀, m₀, least₀⟩ :=
    C13_daily_partial start hour minute second hs₀.1 hs₀.2.1 hs₀.2.2 hh hm hs
  simp only [UtcSchedule.new, ht₀, Option.bind_eq_bind, Option.bind_some, pure,
    Option.some.injEq] at hnew
  subst hnew
  have inv : SchedInv M start.total (.daily hour minute second) []
      ⟨t₀, .daily hour minute second⟩ := by
    refine ⟨rfl, c₀, ⟨t₀.sec, m₀, by simp only [Time.total, n₀]; omega⟩, l₀, by simp, ?_⟩
    rintro m ⟨x, hx, rfl⟩ h _
    have := least₀ x hx h
    simp only [Time.total, n₀]; omega
  have H := fun adv => sched_history M start.total
    (.daily hour minute second) (fun t => t.Canon ∧ 0 ≤ t.sec ∧ t.sec + 172800 ≤ i64Max)
    (fun _ h => h.1) adv polls hpolls [] _ inv
  obtain ⟨s, flags, N, h1, h2, h3, h4⟩ := H (by
    rintro sch now hpat cnf _ _ ⟨cnow, hn0, hfit⟩ hdue
    obtain ⟨t, ht, ct, nt, lt, mt, least⟩ :=
      C13_daily_partial now hour minute second cnow hn0 hfit hh hm hs
    refine ⟨t, 0, fun n _ => ?_, ct, ⟨t.sec, mt, by simp only [Time.total, nt]; omega⟩, lt, ?_⟩
    · simp only [UtcSchedule.check, Time.lt_eq cnow cnf, hpat]
      rw [if_neg (by simp; omega), ht]
      simp [Run.ofOption, Run.bind, hpat]
    · rintro m ⟨x, hx, rfl⟩ h
      have := least x hx h
      simp only [Time.total, nt]; omega)
  · refine ⟨s, flags, ⟨N, h1 N (Nat.le_refl _)⟩, h3, fun i hi => ?_, ?_, by simpa using
      h2.2.2.2.2.1⟩
    · rw [h4 i hi]
      constructor
      · rintro ⟨m, ⟨x, hx, rfl⟩, a, b, c⟩; exact ⟨x, hx, a, b, by simpa using c⟩
      · rintro ⟨x, hx, a, b, c⟩; exact ⟨_, ⟨x, hx, rfl⟩, a, b, by simpa using c⟩
    · obtain ⟨x, hx, e⟩ := h2.2.2.1
      refine ⟨x, hx, ?_⟩
      have := Time.eq_timeOf h2.2.1
      rw [this, e]; simp [timeOf]

example : UtcSchedule.new ⟨1700000000, 5⟩ (.daily 12 30 0) =
    some ⟨⟨1700051400, 0⟩, .daily 12 30 0⟩ ∧
    UtcSchedule.checks 0 ⟨⟨1700051400, 0⟩, .daily 12 30 0⟩ [⟨1700051399, 0⟩, ⟨1700300000, 0⟩,
      ⟨1700310600, 0⟩] = .ok (⟨⟨1700397000, 0⟩, .daily 12 30 0⟩, [false, true, true]) := by
  decide

/-- C13 over histories, for hourly schedules. -/
theorem C13_hourly_history_partial (start : Time .utc) (minute second : Int) (s₀ : UtcSchedule)
    (hs₀ : start.Canon ∧ 0 ≤ start.sec ∧ start.sec + 7200 ≤ i64Max)
    (hm : 0 ≤ minute ∧ minute < 60) (hs : 0 ≤ second ∧ second < 60)
    (hnew : UtcSchedule.new start (.hourly minute second) = some s₀)
    (polls : List (Time .utc))
    (hpolls : ∀ t ∈ polls, t.Canon ∧ 0 ≤ t.sec ∧ t.sec + 7200 ≤ i64Max) :
    ∃ (s : UtcSchedule) (flags : List Bool),
      Returns (fun n => s₀.checks n polls) (s, flags) ∧ flags.length = polls.length ∧
      (∀ i (h : i < polls.length), flags[i]? = some true ↔
        ∃ x, MatchesHourly minute second x ∧ start.total < x * NS ∧ x * NS ≤ polls[i].total ∧
          ∀ t ∈ polls.take i, t.total < x * NS) ∧
      (∃ x, MatchesHourly minute second x ∧ s.nextFire = ⟨x, 0⟩) ∧
      ∀ t ∈ polls, t.total < s.nextFire.total := by
  let M : Int → Prop := fun m => ∃ x, MatchesHourly minute second x ∧ m = x * NS
  obtain ⟨t₀, ht₀, c₀, n₀, l₀, m₀, least₀⟩ :=
    C13_hourly_partial start minute second hs₀.1 hs₀.2.1 hs₀.2.2 hm hs
  simp only [UtcSchedule.new, ht₀, Option.bind_eq_bind, Option.bind_some, pure,
    Option.some.injEq] at hnew
  subst hnew
  have inv : SchedInv M start.total (.hourly minute second) []
      ⟨t₀, .hourly minute second⟩ := by
    refine ⟨rfl, c₀, ⟨t₀.sec, m₀, by simp only [Time.total, n₀]; omega⟩, l₀, by simp, ?_⟩
    rintro m ⟨x, hx, rfl⟩ h _
    have := least₀ x hx h
    simp only [Time.total, n₀]; omega
  have H := fun adv => sched_history M start.total
    (.hourly minute second) (fun t => t.Canon ∧ 0 ≤ t.sec ∧ t.sec + 7200 ≤ i64Max)
    (fun _ h => h.1) adv polls hpolls [] _ inv
  obtain ⟨s, flags, N, h1, h2, h3, h4⟩ := H (by
    rintro sch now hpat cnf _ _ ⟨cnow, hn0, hfit⟩ hdue
    obtain ⟨t, ht, ct, nt, lt, mt, least⟩ :=
      C13_hourly_partial now minute second cnow hn0 hfit hm hs
    refine ⟨t, 0, fun n _ => ?_, ct, ⟨t.sec, mt, by simp only [Time.total, nt]; omega⟩, lt, ?_⟩
    · simp only [UtcSchedule.check, Time.lt_eq cnow cnf, hpat]
      rw [if_neg (by simp; omega), ht]
      simp [Run.ofOption, Run.bind, hpat]
    · rintro m ⟨x, hx, rfl⟩ h
      have := least x hx h
      simp only [Time.total, nt]; omega)
  · refine ⟨s, flags, ⟨N, h1 N (Nat.le_refl _)⟩, h3, fun i hi => ?_, ?_, by simpa using
      h2.2.2.2.2.1⟩
    · rw [h4 i hi]
      constructor
      · rintro ⟨m, ⟨x, hx, rfl⟩, a, b, c⟩; exact ⟨x, hx, a, b, by simpa using c⟩
      · rintro ⟨x, hx, a, b, c⟩; exact ⟨_, ⟨x, hx, rfl⟩, a, b, by simpa using c⟩
    · obtain ⟨x, hx, e⟩ := h2.2.2.1
      refine ⟨x, hx, ?_⟩
      have := Time.eq_timeOf h2.2.1
      rw [this, e]; simp [timeOf]

example : UtcSchedule.new ⟨7300, 5⟩ (.hourly 30 15) = some ⟨⟨9015, 0⟩, .hourly 30 15⟩ ∧
    UtcSchedule.checks 0 ⟨⟨9015, 0⟩, .hourly 30 15⟩ [⟨9014, 0⟩, ⟨9015, 0⟩, ⟨9015, 1⟩, ⟨30000, 0⟩] =
      .ok (⟨⟨30615, 0⟩, .hourly 30 15⟩, [false, true, false, true]) := by decide

/-! ## C17 -/

/-- C17 fails: a one-shot schedule reports a firing at every poll from its time on. -/
theorem C17_once_fails :
    ∃ s₀, UtcSchedule.new ⟨100, 0⟩ .once = some s₀ ∧
      Returns (fun n => s₀.checks n [⟨100, 0⟩, ⟨101, 0⟩, ⟨102, 0⟩]) (s₀, [true, true, true]) :=
  ⟨⟨⟨100, 0⟩, .once⟩, by decide, 0, by decide⟩

/-- C17 (part). A one-shot schedule never reports a firing before its time, and reports one at every
poll at or after it (so at least the first is right). Missing: silence after the first firing. -/
theorem C17_once_partial (start : Time .utc) (hs : start.Canon) (polls : List (Time .utc))
    (hp : ∀ t ∈ polls, t.Canon) (n : Nat) :
    ∃ s₀, UtcSchedule.new start .once = some s₀ ∧
      s₀.checks n polls = .ok (s₀, polls.map fun t => decide (start.total ≤ t.total)) := by
  refine ⟨⟨start, .once⟩, rfl, ?_⟩
  induction polls with
  | nil => rfl
  | cons t ts ih =>
    have ih := ih fun x hx => hp x (List.mem_cons_of_mem _ hx)
    have ct := hp t (List.mem_cons_self ..)
    have : UtcSchedule.check ⟨start, .once⟩ t n =
        .ok (⟨start, .once⟩, decide (start.total ≤ t.total)) := by
      simp only [UtcSchedule.check, Time.lt_eq ct hs]
      by_cases c : t.total < start.total
      · rw [if_pos (by simpa using c), decide_eq_false (by omega)]
      · rw [if_neg (by simpa using c), decide_eq_true (by omega)]; rfl
    simp only [UtcSchedule.checks, this, Run.bind, ih, List.map_cons]

example : (Time.mk 100 0 : Time .utc).Canon := by decide

end Verif.Time
