import Verif.Time.PropsTimer
import Verif.Time.PropsScale

/-!
# Timers, alarms and schedules driven by a hardware counter (C229)

A program reads a free-running 64-bit counter in a loop. It turns the readings into durations with `dt_from_ticks`
(`Epoch.polls`) and steps a timer, or it turns them into UTC with `now_utc` and checks an alarm or a schedule. The gaps
between the readings are `es` ticks; the counter may wrap. True time is ticks divided by the rate.
-/

namespace Verif.Time
open Verif.Rust

theorem polls_eq (e : Epoch) (ht : 0 < e.ticksPerSec) (es : List Int)
    (hes : ∀ x ∈ es, 0 ≤ x ∧ x < 2 ^ 64 ∧ x / e.ticksPerSec ≤ i64Max) (c : Int) (hc : 0 ≤ c) (hc' : c < 2 ^ 64) :
    e.polls c (counterReadings c es) = some (es.map fun x => durOf (x * NS / e.ticksPerSec), (c + es.sum) % 2 ^ 64) := by
  induction es generalizing c with
  | nil => simp [counterReadings, Epoch.polls]; omega
  | cons x xs ih =>
    obtain ⟨x0, x1, x2⟩ := hes x (List.mem_cons_self ..)
    have hw : wrappingSubU64 ((c + x) % 2 ^ 64) c = x := by unfold wrappingSubU64; omega
    have h := ih (fun y hy => hes y (List.mem_cons_of_mem _ hy)) ((c + x) % 2 ^ 64) (by omega) (by omega)
    have hd := ticksToDuration_eq x e.ticksPerSec x0 ht x2
    simp only [counterReadings, Epoch.polls, Epoch.dtFromTicks, hw, hd, Option.bind_eq_bind, Option.bind_some, h, pure,
      List.map_cons, List.sum_cons, Option.some.injEq, Prod.mk.injEq, true_and]
    omega

theorem crossings_length (P s : Int) (ds : List Int) : (crossings P s ds).length = ds.length := by
  induction ds generalizing s with
  | nil => rfl
  | cons d ds ih => simp [crossings, ih]

/-- A step is marked exactly if some multiple of the period lies in it. -/
theorem crossings_iff {P : Int} (hP : 0 < P) (s : Int) (ds : List Int) (i : Nat) (hi : i < ds.length) :
    (crossings P s ds)[i]? = some true ↔ ∃ k, s + (ds.take i).sum < k * P ∧ k * P ≤ s + (ds.take (i + 1)).sum := by
  induction ds generalizing s i with
  | nil => simp at hi
  | cons d ds ih =>
    cases i with
    | zero =>
      simp only [crossings, List.getElem?_cons_zero, Option.some.injEq, decide_eq_true_eq, List.take_zero, List.sum_nil,
        Int.add_zero, List.take_succ_cons, List.sum_cons]
      constructor
      · intro h
        refine ⟨(s + d) / P, ?_, Int.ediv_mul_le _ (by omega)⟩
        exact Int.lt_mul_of_ediv_lt hP h
      · rintro ⟨k, h1, h2⟩
        have a := Int.ediv_lt_of_lt_mul hP h1
        have b := (Int.le_ediv_iff_mul_le hP).2 h2
        omega
    | succ i =>
      simp only [crossings, List.getElem?_cons_succ, List.take_succ_cons, List.sum_cons]
      rw [ih (s + d) i (by simpa using hi)]
      simp only [Int.add_assoc]

theorem dur_ok {x tps : Int} (hx : 0 ≤ x) (ht : 0 < tps) (h : x / tps ≤ i64Max) :
    (durOf (x * NS / tps)).Canon ∧ 0 ≤ (durOf (x * NS / tps)).total ∧ (durOf (x * NS / tps)).sec = x / tps := by
  have h0 : 0 ≤ x / tps := Int.ediv_nonneg hx (by omega)
  have e : x * NS / tps / NS = x / tps := by
    rw [Int.ediv_ediv_of_nonneg (by omega), Int.mul_ediv_mul_of_pos_left _ _ (by decide)]
  refine ⟨durOf_canon (by rw [e]; constructor <;> omega), ?_, e⟩
  rw [durOf_total]
  exact Int.ediv_nonneg (Int.mul_nonneg hx (by decide)) (by omega)

/-- The loop: what the timer reports. -/
theorem loop_flags (e : Epoch) (p : Duration) (hp : p.Canon) (hpos : 0 < p.total) (ht : 0 < e.ticksPerSec) (es : List Int)
    (hes : ∀ x ∈ es, 0 ≤ x ∧ x < 2 ^ 64 ∧ x / e.ticksPerSec + p.sec + 1 ≤ i64Max) (c : Int) (hc : 0 ≤ c) (hc' : c < 2 ^ 64) :
    ∃ ds l ev, e.polls c (counterReadings c es) = some (ds, l) ∧
      Returns (fun n => (TimerEvent.new p).steps n ds) (ev, crossings p.total 0 (es.map fun x => x * NS / e.ticksPerSec)) := by
  have hps : 0 ≤ p.sec := by
    obtain ⟨s, n⟩ := p
    obtain ⟨_, _, _⟩ := hp
    simp only [Duration.total] at *
    omega
  have h1 := polls_eq e ht es (fun x hx => ⟨(hes x hx).1, (hes x hx).2.1, by have := (hes x hx).2.2; omega⟩) c hc hc'
  obtain ⟨ev, h2, -⟩ := C09_timer p hp hpos (es.map fun x => durOf (x * NS / e.ticksPerSec)) (by
    intro d hd
    obtain ⟨x, hx, rfl⟩ := List.mem_map.1 hd
    obtain ⟨a, b, c'⟩ := hes x hx
    obtain ⟨u, v, w⟩ := dur_ok (x := x) a ht (by omega)
    exact ⟨u, v, by rw [w]; exact c'⟩)
  refine ⟨_, _, ev, h1, ?_⟩
  rw [List.map_map, show (Duration.total ∘ fun x => durOf (x * NS / e.ticksPerSec)) = fun x => x * NS / e.ticksPerSec from
    funext fun x => durOf_total _] at h2
  exact h2

/-- C229, partial. A loop that reads the counter, takes the duration since the last reading and steps a timer: if the rate of
the counter divides 10⁹, the timer reports in exactly those passes in which true time reaches a multiple of the period, over
any number of passes and counter wraps. (Missing: other rates, see `C229_fails` and `C229_drift`.) -/
theorem C229_timer_partial (e : Epoch) (p : Duration) (hp : p.Canon) (hpos : 0 < p.total) (ht : 0 < e.ticksPerSec)
    (hdvd : e.ticksPerSec ∣ 1000000000) (es : List Int)
    (hes : ∀ x ∈ es, 0 ≤ x ∧ x < 2 ^ 64 ∧ x / e.ticksPerSec + p.sec + 1 ≤ i64Max) (c : Int) (hc : 0 ≤ c) (hc' : c < 2 ^ 64) :
    ∃ ds l ev flags, e.polls c (counterReadings c es) = some (ds, l) ∧
      Returns (fun n => (TimerEvent.new p).steps n ds) (ev, flags) ∧ flags.length = es.length ∧
      ∀ i, i < es.length → (flags[i]? = some true ↔
        ∃ k, (es.take i).sum * 1000000000 < k * p.total * e.ticksPerSec ∧
          k * p.total * e.ticksPerSec ≤ (es.take (i + 1)).sum * 1000000000) := by
  obtain ⟨ds, l, ev, h1, h2⟩ := loop_flags e p hp hpos ht es hes c hc hc'
  refine ⟨ds, l, ev, _, h1, h2, by rw [crossings_length, List.length_map], fun i hi => ?_⟩
  rw [crossings_iff hpos 0 _ i (by rw [List.length_map]; exact hi)]
  obtain ⟨q, hq⟩ := hdvd
  have hq0 : 0 < q := by
    rcases Int.lt_or_le 0 q with h | h
    · exact h
    · have := Int.mul_le_mul_of_nonneg_left h (Int.le_of_lt ht)
      omega
  have sum_eq : ∀ l : List Int, (l.map fun x => x * NS / e.ticksPerSec).sum * e.ticksPerSec = l.sum * 1000000000 := by
    intro l
    induction l with
    | nil => simp
    | cons x xs ih =>
      have : x * NS / e.ticksPerSec = x * q := by
        rw [show (NS : Int) = e.ticksPerSec * q from hq, show x * (e.ticksPerSec * q) = x * q * e.ticksPerSec by
          rw [Int.mul_comm e.ticksPerSec q, Int.mul_assoc], Int.mul_ediv_cancel _ (by omega)]
      simp only [List.map_cons, List.sum_cons, Int.add_mul, ih, this]
      rw [hq, Int.mul_assoc, Int.mul_comm q]
  have le_iff : ∀ a b : Int, a ≤ b ↔ a * e.ticksPerSec ≤ b * e.ticksPerSec := fun a b =>
    ⟨fun h => Int.mul_le_mul_of_nonneg_right h (Int.le_of_lt ht), fun h => Int.le_of_mul_le_mul_right h ht⟩
  refine exists_congr fun k => ?_
  rw [Int.zero_add, Int.zero_add, ← List.map_take, ← List.map_take, ← sum_eq, ← sum_eq, ← Int.not_le, ← Int.not_le, le_iff, le_iff (k * p.total)]

/-- A 1 kHz counter about to wrap and a period of 2.5 s, polled at uneven times. -/
example : let e : Epoch := ⟨⟨0, 0⟩, 0, 1000⟩
    (⟨2, 500000000⟩ : Duration).Canon ∧ 0 < e.ticksPerSec ∧ e.ticksPerSec ∣ 1000000000 ∧
    counterReadings 18446744073709551614 [2499, 1, 5000, 10] = [2497, 2498, 7498, 7508] ∧
    (∀ x ∈ [2499, 1, 5000, (10 : Int)], 0 ≤ x ∧ x < 2 ^ 64 ∧ x / e.ticksPerSec + 2 + 1 ≤ i64Max) ∧
    crossings 2500000000 0 ([2499, 1, 5000, 10].map fun x => x * NS / e.ticksPerSec) = [false, true, true, false] := by
  refine ⟨by decide, by decide, by decide, by decide, ?_, by decide⟩
  intro x hx
  simp only [List.mem_cons, List.not_mem_nil, or_false] at hx
  rcases hx with rfl | rfl | rfl | rfl <;> decide

/-- C229. At any rate the timer reports in exactly those passes in which the measured time `D` reaches a multiple of the
period; the measured time never runs ahead of true time and is behind it by less than one nanosecond per pass. -/
theorem C229_drift (e : Epoch) (p : Duration) (hp : p.Canon) (hpos : 0 < p.total) (ht : 0 < e.ticksPerSec) (es : List Int)
    (hes : ∀ x ∈ es, 0 ≤ x ∧ x < 2 ^ 64 ∧ x / e.ticksPerSec + p.sec + 1 ≤ i64Max) (c : Int) (hc : 0 ≤ c) (hc' : c < 2 ^ 64) :
    ∃ ds l ev flags, ∃ D : Nat → Int, e.polls c (counterReadings c es) = some (ds, l) ∧
      Returns (fun n => (TimerEvent.new p).steps n ds) (ev, flags) ∧ flags.length = es.length ∧
      (∀ i, i < es.length → (flags[i]? = some true ↔ ∃ k, D i < k * p.total ∧ k * p.total ≤ D (i + 1))) ∧
      ∀ i, i ≤ es.length → D i * e.ticksPerSec ≤ (es.take i).sum * 1000000000 ∧
        (es.take i).sum * 1000000000 ≤ D i * e.ticksPerSec + i * (e.ticksPerSec - 1) := by
  obtain ⟨ds, l, ev, h1, h2⟩ := loop_flags e p hp hpos ht es hes c hc hc'
  refine ⟨ds, l, ev, _, fun i => (((es.map fun x => x * NS / e.ticksPerSec).take i).sum), h1, h2,
    by rw [crossings_length, List.length_map], fun i hi => ?_, fun i hi => ?_⟩
  · rw [crossings_iff hpos 0 _ i (by rw [List.length_map]; exact hi)]
    simp only [Int.zero_add]
  · have key : ∀ l : List Int, (l.map fun x => x * NS / e.ticksPerSec).sum * e.ticksPerSec ≤ l.sum * 1000000000 ∧
        l.sum * 1000000000 ≤ (l.map fun x => x * NS / e.ticksPerSec).sum * e.ticksPerSec + l.length * (e.ticksPerSec - 1) := by
      intro l
      induction l with
      | nil => simp
      | cons x xs ih =>
        have a1 := Int.ediv_mul_le (x * NS) (show e.ticksPerSec ≠ 0 by omega)
        have a2 := Int.mul_ediv_add_emod (x * NS) e.ticksPerSec
        have a3 := Int.emod_lt_of_pos (x * NS) ht
        have a4 := Int.mul_comm e.ticksPerSec (x * NS / e.ticksPerSec)
        simp only [List.map_cons, List.sum_cons, Int.add_mul, List.length_cons, Int.natCast_succ] at *
        omega
    have := key (es.take i)
    rwa [List.length_take, Nat.min_eq_left hi, List.map_take] at this

/-- C229 fails for other rates: with a counter faster than 1 GHz, read at every tick, time stands still: the timer never
reports, whatever the period and however long the loop runs. -/
theorem C229_fails (e : Epoch) (p : Duration) (hp : p.Canon) (hpos : 0 < p.total) (ht : 1000000000 < e.ticksPerSec)
    (hps : p.sec + 1 ≤ i64Max) (c : Int) (hc : 0 ≤ c) (hc' : c < 2 ^ 64) (N : Nat) :
    ∃ ds l ev, e.polls c (counterReadings c (List.replicate N 1)) = some (ds, l) ∧
      Returns (fun n => (TimerEvent.new p).steps n ds) (ev, List.replicate N false) := by
  have h1 : 1 / e.ticksPerSec = 0 := Int.ediv_eq_zero_of_lt (by omega) (by omega)
  obtain ⟨ds, l, ev, a, b⟩ := loop_flags e p hp hpos (by omega) (List.replicate N 1) (by
    intro x hx
    rw [(List.mem_replicate.1 hx).2]
    exact ⟨by omega, by omega, by rw [h1]; omega⟩) c hc hc'
  refine ⟨ds, l, ev, a, ?_⟩
  have h2 : 1 * NS / e.ticksPerSec = 0 := Int.ediv_eq_zero_of_lt (by decide) (by omega)
  have h3 : ∀ n : Nat, crossings p.total 0 (List.replicate n 0) = List.replicate n false := by
    intro n
    induction n with
    | zero => rfl
    | succ n ih => simp [List.replicate_succ, crossings, ih]
  rw [List.map_replicate, h2, h3] at b
  exact b

/-- A 2 GHz counter and a period of a microsecond. -/
example : (⟨0, 1000⟩ : Duration).Canon ∧ 0 < (⟨0, 1000⟩ : Duration).total ∧ (1000000000 : Int) < (⟨⟨0, 0⟩, 0, 2000000000⟩ : Epoch).ticksPerSec := by decide

/-- UTC read from the counter `E` ticks after the start. -/
theorem now_utc (e : Epoch) (leap E : Int) (t : Time .utc) (hE : 0 ≤ E) (hE' : E < 2 ^ 64) (ht : 0 < e.ticksPerSec)
    (hs : E / e.ticksPerSec ≤ i64Max) (hc : e.startTai.Canon) (h : e.nowUtc leap ((e.ticks0 + E) % 2 ^ 64) = some t) :
    t.Canon ∧ t.total = e.startTai.total + E * NS / e.ticksPerSec - (10 + leap) * NS := by
  simp only [Epoch.nowUtc, Option.bind_eq_bind, Option.bind_eq_some_iff] at h
  obtain ⟨a, h1, h2⟩ := h
  obtain ⟨d, hd, -, -⟩ := C07_elapsed e E hE hE' ht hs
  obtain ⟨h3, h4, -⟩ := C07_now e E a ⟨d.sec, d.nano⟩ hE hE' ht hs hc h1 (by simp only [Epoch.tPlus, hd]; rfl)
  obtain ⟨-, h5, rfl⟩ := taiToUtc_some.1 h2
  refine ⟨⟨h5, h3.2⟩, ?_⟩
  rw [← h4]
  simp only [Time.total]
  omega

/-- The instant `m` (ns of UTC) is reached, in true time, `E` ticks after the start of the epoch. -/
def Reached (e : Epoch) (leap m E : Int) : Prop :=
  (m + (10 + leap) * 1000000000 - e.startTai.total) * e.ticksPerSec ≤ E * 1000000000

theorem reached_iff (e : Epoch) (ht : 0 < e.ticksPerSec) (leap m E : Int) :
    m ≤ e.startTai.total + E * NS / e.ticksPerSec - (10 + leap) * NS ↔ Reached e leap m E := by
  rw [Reached, ← show NS = 1000000000 from rfl, ← Int.le_ediv_iff_mul_le ht]
  omega

/-- The clock readings of the loop. -/
theorem readings (e : Epoch) (leap : Int) (ht : 0 < e.ticksPerSec) (hc : e.startTai.Canon) (Es : List Int)
    (hEs : ∀ E ∈ Es, 0 ≤ E ∧ E < 2 ^ 64 ∧ E / e.ticksPerSec ≤ i64Max) (ts : List (Time .utc))
    (hts : Es.map (fun E => e.nowUtc leap ((e.ticks0 + E) % 2 ^ 64)) = ts.map some) :
    (∀ t ∈ ts, t.Canon) ∧
    ts.map Time.total = Es.map fun E => e.startTai.total + E * NS / e.ticksPerSec - (10 + leap) * NS := by
  induction Es generalizing ts with
  | nil => cases ts <;> simp at hts ⊢
  | cons E Es ih =>
    cases ts with
    | nil => simp at hts
    | cons t ts =>
      simp only [List.map_cons, List.cons.injEq] at hts
      obtain ⟨a, b, c⟩ := hEs E (List.mem_cons_self ..)
      obtain ⟨u, v⟩ := now_utc e leap E t a b ht c hc hts.1
      obtain ⟨w, x⟩ := ih (fun y hy => hEs y (List.mem_cons_of_mem _ hy)) ts hts.2
      exact ⟨fun y hy => (List.mem_cons.1 hy).elim (fun h => h ▸ u) (w y), by simp [v, x]⟩

/-- What the readings say about being before or after an instant is what true time says. -/
theorem readings_at (e : Epoch) (leap : Int) (ht : 0 < e.ticksPerSec) (Es : List Int) (ts : List (Time .utc))
    (h : ts.map Time.total = Es.map fun E => e.startTai.total + E * NS / e.ticksPerSec - (10 + leap) * NS) (m : Int) (i : Nat)
    (hi : i < Es.length) (hi' : i < ts.length) :
    (m ≤ ts[i].total ↔ Reached e leap m Es[i]) ∧
    ((∀ t ∈ ts.take i, t.total < m) ↔ ∀ E ∈ Es.take i, ¬ Reached e leap m E) := by
  constructor
  · rw [← reached_iff e ht]
    have := congrArg (·[i]?) h
    simp only [List.getElem?_map, List.getElem?_eq_getElem hi, List.getElem?_eq_getElem hi', Option.map_some,
      Option.some.injEq] at this
    rw [this]
  · have h' := congrArg (List.take i) h
    rw [← List.map_take, ← List.map_take] at h'
    have h1 : (∀ t ∈ ts.take i, t.total < m) ↔ ∀ x ∈ (ts.take i).map Time.total, x < m := (List.forall_mem_map (P := fun x => x < m)).symm
    rw [h1, h']
    simp only [List.forall_mem_map, ← reached_iff e ht, Int.not_le]

/-- C229. An alarm checked with the UTC read from the counter reports in the first pass in which true time has reached the
target, and in no other; there is no drift, at any rate. -/
theorem C229_alarm (e : Epoch) (leap : Int) (target : Time .utc) (htgt : target.Canon) (ht : 0 < e.ticksPerSec)
    (hc : e.startTai.Canon) (Es : List Int) (hEs : ∀ E ∈ Es, 0 ≤ E ∧ E < 2 ^ 64 ∧ E / e.ticksPerSec ≤ i64Max)
    (ts : List (Time .utc)) (hts : Es.map (fun E => e.nowUtc leap ((e.ticks0 + E) % 2 ^ 64)) = ts.map some) :
    ((UtcAlarm.new target).checks ts).2.length = Es.length ∧
    ∀ i (h : i < Es.length), ((UtcAlarm.new target).checks ts).2[i]? = some true ↔
      Reached e leap target.total Es[i] ∧ ∀ E ∈ Es.take i, ¬ Reached e leap target.total E := by
  obtain ⟨h1, h2⟩ := readings e leap ht hc Es hEs ts hts
  obtain ⟨h3, h4, -⟩ := C11_alarm target ts htgt h1
  have hl : Es.length = ts.length := by simpa using congrArg List.length hts
  refine ⟨by rw [h3, hl], fun i h => ?_⟩
  rw [h4 i (by omega)]
  obtain ⟨a, b⟩ := readings_at e leap ht Es ts h2 target.total i h (by omega)
  rw [a, b]

/-- A 3 Hz counter started at TAI 137 s with 27 leap seconds (UTC 100 s), which wraps after two ticks; alarm at 101 s. -/
example : let e : Epoch := ⟨⟨137, 0⟩, 18446744073709551614, 3⟩
    e.startTai.Canon ∧ (⟨101, 0⟩ : Time .utc).Canon ∧
    [1, 2, 3, 7].map (fun E => e.nowUtc 27 ((e.ticks0 + E) % 2 ^ 64)) =
      [⟨100, 333333333⟩, ⟨100, 666666666⟩, ⟨101, 0⟩, ⟨102, 333333333⟩].map some ∧
    ((UtcAlarm.new ⟨101, 0⟩).checks [⟨100, 333333333⟩, ⟨100, 666666666⟩, ⟨101, 0⟩, ⟨102, 333333333⟩]).2 =
      [false, false, true, false] := by decide

/-- C229. A schedule of fixed interval checked with the UTC read from the counter reports in exactly those passes in which
true time has reached a nominal instant `start + k·period` (k ≥ 1) that it had not reached in any earlier pass. -/
theorem C229_schedule (e : Epoch) (leap : Int) (start : Time .utc) (p : Duration) (s₀ : UtcSchedule) (hs : start.Canon)
    (hp : p.Canon) (hpos : 0 < p.total) (hnew : UtcSchedule.new start (.interval p) = some s₀) (ht : 0 < e.ticksPerSec)
    (hc : e.startTai.Canon) (Es : List Int) (hEs : ∀ E ∈ Es, 0 ≤ E ∧ E < 2 ^ 64 ∧ E / e.ticksPerSec ≤ i64Max)
    (ts : List (Time .utc)) (hts : Es.map (fun E => e.nowUtc leap ((e.ticks0 + E) % 2 ^ 64)) = ts.map some)
    (hfit : ∀ t ∈ ts, t.sec + p.sec + 1 ≤ i64Max) :
    ∃ (s : UtcSchedule) (flags : List Bool), Returns (fun n => s₀.checks n ts) (s, flags) ∧ flags.length = Es.length ∧
      ∀ i (h : i < Es.length), flags[i]? = some true ↔
        ∃ k, 1 ≤ k ∧ Reached e leap (start.total + k * p.total) Es[i] ∧
          ∀ E ∈ Es.take i, ¬ Reached e leap (start.total + k * p.total) E := by
  obtain ⟨h1, h2⟩ := readings e leap ht hc Es hEs ts hts
  obtain ⟨s, flags, h3, h4, h5, -⟩ := C12_interval start p s₀ hs hp hpos hnew ts fun t h => ⟨h1 t h, hfit t h⟩
  have hl : Es.length = ts.length := by simpa using congrArg List.length hts
  refine ⟨s, flags, h3, by omega, fun i h => ?_⟩
  rw [h5 i (by omega)]
  constructor
  · rintro ⟨m, ⟨k, hk, rfl⟩, a, b⟩
    obtain ⟨c, d⟩ := readings_at e leap ht Es ts h2 (start.total + k * p.total) i h (by omega)
    exact ⟨k, hk, c.1 a, d.1 b⟩
  · rintro ⟨k, hk, a, b⟩
    obtain ⟨c, d⟩ := readings_at e leap ht Es ts h2 (start.total + k * p.total) i h (by omega)
    exact ⟨_, ⟨k, hk, rfl⟩, c.2 a, d.2 b⟩

/-- The same counter; a schedule from UTC 100 s every second. -/
example : let e : Epoch := ⟨⟨137, 0⟩, 18446744073709551614, 3⟩
    UtcSchedule.new ⟨100, 0⟩ (.interval ⟨1, 0⟩) = some ⟨⟨101, 0⟩, .interval ⟨1, 0⟩⟩ ∧ Reached e 27 101000000000 3 ∧
      ¬ Reached e 27 101000000000 2 := by
  refine ⟨by decide, ?_, ?_⟩ <;> unfold Reached <;> decide

/-- C229, partial. A daily schedule checked with the UTC read from the counter reports in exactly those passes in which true time has
reached a matching second after `start` that it had not reached in any earlier pass. (Missing: times before 1970, for which it is false, see
`C13_daily_fails`.) -/
theorem C229_daily_partial (e : Epoch) (leap : Int) (start : Time .utc) (hour minute second : Int) (s₀ : UtcSchedule)
    (hs₀ : start.Canon ∧ 0 ≤ start.sec ∧ start.sec + 172800 ≤ i64Max) (hh : 0 ≤ hour ∧ hour < 24) (hm : 0 ≤ minute ∧ minute < 60)
    (hs : 0 ≤ second ∧ second < 60) (hnew : UtcSchedule.new start (.daily hour minute second) = some s₀) (ht : 0 < e.ticksPerSec)
    (hc : e.startTai.Canon) (Es : List Int) (hEs : ∀ E ∈ Es, 0 ≤ E ∧ E < 2 ^ 64 ∧ E / e.ticksPerSec ≤ i64Max)
    (ts : List (Time .utc)) (hts : Es.map (fun E => e.nowUtc leap ((e.ticks0 + E) % 2 ^ 64)) = ts.map some)
    (hfit : ∀ t ∈ ts, 0 ≤ t.sec ∧ t.sec + 172800 ≤ i64Max) :
    ∃ (s : UtcSchedule) (flags : List Bool), Returns (fun n => s₀.checks n ts) (s, flags) ∧ flags.length = Es.length ∧
      ∀ i (h : i < Es.length), flags[i]? = some true ↔
        ∃ x, MatchesDaily hour minute second x ∧ start.total < x * NS ∧ Reached e leap (x * NS) Es[i] ∧
          ∀ E ∈ Es.take i, ¬ Reached e leap (x * NS) E := by
  obtain ⟨h1, h2⟩ := readings e leap ht hc Es hEs ts hts
  obtain ⟨s, flags, h3, h4, h5, -⟩ := C13_daily_history_partial start hour minute second s₀ hs₀ hh hm hs hnew ts fun t h => ⟨h1 t h, hfit t h⟩
  have hl : Es.length = ts.length := by simpa using congrArg List.length hts
  refine ⟨s, flags, h3, by omega, fun i h => ?_⟩
  rw [h5 i (by omega)]
  refine exists_congr fun x => ?_
  obtain ⟨c, d⟩ := readings_at e leap ht Es ts h2 (x * NS) i h (by omega)
  rw [c, d]

/-- C229, partial. An hourly schedule checked with the UTC read from the counter reports in exactly those passes in which true time has
reached a matching second after `start` that it had not reached in any earlier pass. (Missing: times before 1970, for which it is false, see
`C13_hourly_fails`.) -/
theorem C229_hourly_partial (e : Epoch) (leap : Int) (start : Time .utc) (minute second : Int) (s₀ : UtcSchedule)
    (hs₀ : start.Canon ∧ 0 ≤ start.sec ∧ start.sec + 7200 ≤ i64Max) (hm : 0 ≤ minute ∧ minute < 60)
    (hs : 0 ≤ second ∧ second < 60) (hnew : UtcSchedule.new start (.hourly minute second) = some s₀) (ht : 0 < e.ticksPerSec)
    (hc : e.startTai.Canon) (Es : List Int) (hEs : ∀ E ∈ Es, 0 ≤ E ∧ E < 2 ^ 64 ∧ E / e.ticksPerSec ≤ i64Max)
    (ts : List (Time .utc)) (hts : Es.map (fun E => e.nowUtc leap ((e.ticks0 + E) % 2 ^ 64)) = ts.map some)
    (hfit : ∀ t ∈ ts, 0 ≤ t.sec ∧ t.sec + 7200 ≤ i64Max) :
    ∃ (s : UtcSchedule) (flags : List Bool), Returns (fun n => s₀.checks n ts) (s, flags) ∧ flags.length = Es.length ∧
      ∀ i (h : i < Es.length), flags[i]? = some true ↔
        ∃ x, MatchesHourly minute second x ∧ start.total < x * NS ∧ Reached e leap (x * NS) Es[i] ∧
          ∀ E ∈ Es.take i, ¬ Reached e leap (x * NS) E := by
  obtain ⟨h1, h2⟩ := readings e leap ht hc Es hEs ts hts
  obtain ⟨s, flags, h3, h4, h5, -⟩ := C13_hourly_history_partial start minute second s₀ hs₀ hm hs hnew ts fun t h => ⟨h1 t h, hfit t h⟩
  have hl : Es.length = ts.length := by simpa using congrArg List.length hts
  refine ⟨s, flags, h3, by omega, fun i h => ?_⟩
  rw [h5 i (by omega)]
  refine exists_congr fun x => ?_
  obtain ⟨c, d⟩ := readings_at e leap ht Es ts h2 (x * NS) i h (by omega)
  rw [c, d]

/-- A 3 Hz counter started at TAI 86437 s with 27 leap seconds (UTC 86400 s); every day at 00:00:01. -/
example : let e : Epoch := ⟨⟨86437, 0⟩, 18446744073709551614, 3⟩
    UtcSchedule.new ⟨86400, 0⟩ (.daily 0 0 1) = some ⟨⟨86401, 0⟩, .daily 0 0 1⟩ ∧
    UtcSchedule.new ⟨86400, 0⟩ (.hourly 0 1) = some ⟨⟨86401, 0⟩, .hourly 0 1⟩ ∧ MatchesDaily 0 0 1 86401 ∧
    [2, 3, 4].map (fun E => e.nowUtc 27 ((e.ticks0 + E) % 2 ^ 64)) =
      [⟨86400, 666666666⟩, ⟨86401, 0⟩, ⟨86401, 333333333⟩].map some ∧
    Reached e 27 (86401 * NS) 3 ∧ ¬ Reached e 27 (86401 * NS) 2 := by
  refine ⟨by decide, by decide, ⟨by decide, by decide, by decide⟩, by decide, ?_, ?_⟩ <;> unfold Reached <;> decide

end Verif.Time
