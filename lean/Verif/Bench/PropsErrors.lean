import Verif.Bench.Errors
import Verif.Bench.Props
import Mathlib.Logic.Relation

/-!
# C187: the logs when writes to the file fail
-/

namespace Verif.Bench

variable {ι : Type} [DecidableEq ι] {header : List Char} {clock : Nat} {prog : ι → List Entry}

/-- What a call left in the file: the thread, the time, the entry and the characters written. -/
structure Trace (ι : Type) where
  thread : ι
  time : Nat
  entry : Entry
  chars : List Char

/-- The characters of all calls. -/
def traceText (ts : List (Trace ι)) : List Char := ts.flatMap Trace.chars

/-- The entries of a thread, in the order of the log. -/
def traceOf (i : ι) (ts : List (Trace ι)) : List Entry := (ts.filter fun t => t.thread = i).map Trace.entry

theorem traceOf_snoc_self (i : ι) (ts : List (Trace ι)) (n : Nat) (e : Entry) (c : List Char) :
    traceOf i (ts ++ [⟨i, n, e, c⟩]) = traceOf i ts ++ [e] := by
  simp [traceOf, List.filter_append]

theorem traceOf_snoc_other {i j : ι} (h : i ≠ j) (ts : List (Trace ι)) (n : Nat) (e : Entry) (c : List Char) :
    traceOf j (ts ++ [⟨i, n, e, c⟩]) = traceOf j ts := by
  simp [traceOf, List.filter_append, h]

/-- What holds in every state, for the calls that are over. -/
structure FInv (h : List Char) (prog : ι → List Entry) (s : St ι) (ts : List (Trace ι)) : Prop where
  sorted : (ts.map Trace.time).Pairwise (· ≤ ·)
  past : ∀ t ∈ ts, t.time ≤ s.clock
  part : ∀ t ∈ ts, t.chars <+: line t.time t.entry
  entries : ∀ i, traceOf i ts ++ s.todo i = prog i
  free : s.lock = false → (∀ i, s.pc i = .idle) ∧ s.file = h ++ traceText ts
  held : s.lock = true → ∃ i e es, s.todo i = e :: es ∧ (∀ j, j ≠ i → s.pc j = .idle) ∧
    ((s.pc i = .locked ∧ s.file = h ++ traceText ts) ∨
      ∃ n part rest, s.pc i = .writing rest ∧ part ++ rest = line n e ∧ (∀ t ∈ ts, t.time ≤ n) ∧ n ≤ s.clock ∧
        s.file = h ++ traceText ts ++ part)

theorem FInv.isHeld {h : List Char} {s : St ι} {ts : List (Trace ι)} (v : FInv h prog s ts) {i : ι} (hp : s.pc i ≠ .idle) : s.lock = true := by
  cases hl : s.lock with
  | true => rfl
  | false => exact absurd ((v.free hl).1 i) hp

/-- The end of a call, with all or a part of its line written. -/
theorem FInv.finish {h : List Char} {s : St ι} {ts : List (Trace ι)} (v : FInv h prog s ts) {i : ι} {rest : List Char}
    (hp : s.pc i = .writing rest) : ∃ n e part, part ++ rest = line n e ∧
      FInv h prog { s with lock := false, pc := Function.update s.pc i .idle, todo := Function.update s.todo i (s.todo i).tail }
        (ts ++ [⟨i, n, e, part⟩]) := by
  have hl := v.isHeld (i := i) (by rw [hp]; simp)
  obtain ⟨k, e, es, a, b, d⟩ := v.held hl
  have hk : i = k := by
    by_contra hne
    rw [b i hne] at hp
    cases hp
  subst hk
  rcases d with ⟨d, -⟩ | ⟨n, part, rest', d1, d2, d3, d4, d5⟩
  · rw [hp] at d; cases d
  · rw [hp] at d1
    cases d1
    refine ⟨n, e, part, d2, ?_, ?_, ?_, fun j => ?_, fun _ => ⟨fun j => ?_, ?_⟩, fun hl' => by cases hl'⟩
    · rw [List.map_append, List.pairwise_append]
      refine ⟨v.sorted, by simp, fun x hx y hy => ?_⟩
      obtain ⟨r, hr, rfl⟩ := List.mem_map.1 hx
      simp only [List.map_cons, List.map_nil, List.mem_singleton] at hy
      rw [hy]
      exact d3 r hr
    · intro r hr
      rcases List.mem_append.1 hr with hr | hr
      · exact v.past r hr
      · rw [List.mem_singleton.1 hr]
        exact d4
    · intro r hr
      rcases List.mem_append.1 hr with hr | hr
      · exact v.part r hr
      · rw [List.mem_singleton.1 hr]
        exact ⟨rest, d2⟩
    · show _ ++ Function.update s.todo i (s.todo i).tail j = _
      by_cases hj : j = i
      · subst hj
        rw [Function.update_self, traceOf_snoc_self, a, List.tail_cons, List.append_assoc, List.singleton_append, ← a]
        exact v.entries j
      · rw [Function.update_of_ne hj, traceOf_snoc_other (Ne.symm hj)]
        exact v.entries j
    · show Function.update s.pc i Pc.idle j = _
      by_cases hj : j = i
      · rw [hj, Function.update_self]
      · rw [Function.update_of_ne hj]
        exact b j hj
    · show s.file = _
      rw [d5, List.append_assoc]
      simp [traceText]

theorem finv_step {h : List Char} {s s' : St ι} {ts : List (Trace ι)} (v : FInv h prog s ts) (hs : Step s s') :
    ∃ new : List (Trace ι), (∀ t ∈ new, t.chars = line t.time t.entry) ∧ FInv h prog s' (ts ++ new) := by
  cases hs with
  | tick c hc =>
    refine ⟨[], by simp, ?_⟩
    rw [List.append_nil]
    refine ⟨v.sorted, fun r hr => Nat.le_trans (v.past r hr) hc, v.part, v.entries, v.free, fun hl => ?_⟩
    obtain ⟨i, e, es, a, b, d | ⟨n, part, rest, d1, d2, d3, d4, d5⟩⟩ := v.held hl
    · exact ⟨i, e, es, a, b, Or.inl d⟩
    · exact ⟨i, e, es, a, b, Or.inr ⟨n, part, rest, d1, d2, d3, Nat.le_trans d4 hc, d5⟩⟩
  | acquire i hi ht hl =>
    refine ⟨[], by simp, ?_⟩
    rw [List.append_nil]
    refine ⟨v.sorted, v.past, v.part, v.entries, fun hl' => (by cases hl'), fun _ => ?_⟩
    cases htd : s.todo i with
    | nil => exact absurd htd ht
    | cons e es =>
      refine ⟨i, e, es, htd, fun j hj => ?_, Or.inl ⟨Function.update_self .., (v.free hl).2⟩⟩
      show Function.update s.pc i Pc.locked j = _
      rw [Function.update_of_ne hj]
      exact (v.free hl).1 j
  | read i e es hp ht =>
    refine ⟨[], by simp, ?_⟩
    rw [List.append_nil]
    have hl := v.isHeld (i := i) (by rw [hp]; simp)
    obtain ⟨k, e', es', a, b, d⟩ := v.held hl
    have hk : i = k := by
      by_contra hne
      rw [b i hne] at hp
      cases hp
    subst hk
    rw [ht] at a
    obtain ⟨rfl, rfl⟩ := List.cons.inj a
    have d' : s.file = h ++ traceText ts := by
      rcases d with ⟨-, d⟩ | ⟨_, _, _, d, -⟩
      · exact d
      · rw [hp] at d; cases d
    refine ⟨v.sorted, v.past, v.part, v.entries, fun hl' => (by rw [hl] at hl'; cases hl'), fun _ => ⟨i, e, es, ht, fun j hj => ?_, Or.inr ?_⟩⟩
    · show Function.update s.pc i _ j = _
      rw [Function.update_of_ne hj]
      exact b j hj
    · exact ⟨s.clock, [], line s.clock e, Function.update_self .., rfl, v.past, Nat.le_refl _, by rw [List.append_nil]; exact d'⟩
  | write i p rest hp =>
    refine ⟨[], by simp, ?_⟩
    rw [List.append_nil]
    have hl := v.isHeld (i := i) (by rw [hp]; simp)
    obtain ⟨k, e, es, a, b, d⟩ := v.held hl
    have hk : i = k := by
      by_contra hne
      rw [b i hne] at hp
      cases hp
    subst hk
    rcases d with ⟨d, -⟩ | ⟨n, part, rest', d1, d2, d3, d4, d5⟩
    · rw [hp] at d; cases d
    · rw [hp] at d1
      cases d1
      refine ⟨v.sorted, v.past, v.part, v.entries, fun hl' => (by rw [hl] at hl'; cases hl'), fun _ => ⟨i, e, es, a, fun j hj => ?_, Or.inr ?_⟩⟩
      · show Function.update s.pc i _ j = _
        rw [Function.update_of_ne hj]
        exact b j hj
      · exact ⟨n, part ++ p, rest, Function.update_self .., by rw [List.append_assoc]; exact d2, d3, d4, by
          show s.file ++ p = _
          rw [d5, List.append_assoc _ part]⟩
  | release i hp =>
    obtain ⟨n, e, part, he, hv⟩ := v.finish hp
    rw [List.append_nil] at he
    exact ⟨[⟨i, n, e, part⟩], by simpa using he, hv⟩

theorem finv_reach {s : St ι} (h : FReach header clock prog s) : ∃ h', h' <+: header ∧ ∃ ts, FInv h' prog s ts := by
  induction h with
  | start h' hh =>
    exact ⟨h', hh, [], List.Pairwise.nil, by simp, by simp, fun i => by simp [traceOf, start],
      fun _ => ⟨fun _ => rfl, by simp [start, traceText]⟩, fun h => by cases h⟩
  | step _ hs ih =>
    obtain ⟨h', hh, ts, v⟩ := ih
    refine ⟨h', hh, ?_⟩
    cases hs with
    | ok hs =>
      obtain ⟨new, -, hv⟩ := finv_step v hs
      exact ⟨_, hv⟩
    | fail i c rest hp =>
      obtain ⟨n, e, part, -, hv⟩ := v.finish hp
      exact ⟨_, hv⟩

/-- **C187**, part: whatever writes fail, at every moment of every run the file is a beginning of the header and then, call by call in the order of
the lock, a beginning of the line of that call; times do not go back, and the calls of each thread are those of its entries in its order. -/
theorem C187_log_partial {s : St ι} (h : FReach header clock prog s) : ∃ (h' : List Char) (ts : List (Trace ι)) (part : List Char),
    h' <+: header ∧ s.file = h' ++ traceText ts ++ part ∧ (ts.map Trace.time).Pairwise (· ≤ ·) ∧
      (∀ t ∈ ts, t.time ≤ s.clock ∧ t.chars <+: line t.time t.entry) ∧ (∀ i, traceOf i ts <+: prog i) ∧
      (part = [] ∨ ∃ i n e, traceOf i ts ++ [e] <+: prog i ∧ (∀ t ∈ ts, t.time ≤ n) ∧ part <+: line n e) := by
  obtain ⟨h', hh, ts, v⟩ := finv_reach h
  have hpre : ∀ i, traceOf i ts <+: prog i := fun i => ⟨s.todo i, v.entries i⟩
  have hp : ∀ t ∈ ts, t.time ≤ s.clock ∧ t.chars <+: line t.time t.entry := fun t ht => ⟨v.past t ht, v.part t ht⟩
  cases hl : s.lock with
  | false => exact ⟨h', ts, [], hh, by rw [List.append_nil]; exact (v.free hl).2, v.sorted, hp, hpre, Or.inl rfl⟩
  | true =>
    obtain ⟨i, e, es, a, -, ⟨-, d⟩ | ⟨n, part, rest, -, d2, d3, -, d5⟩⟩ := v.held hl
    · exact ⟨h', ts, [], hh, by rw [List.append_nil]; exact d, v.sorted, hp, hpre, Or.inl rfl⟩
    · refine ⟨h', ts, part, hh, d5, v.sorted, hp, hpre, Or.inr ⟨i, n, e, ⟨es, ?_⟩, d3, rest, d2⟩⟩
      rw [List.append_assoc, List.singleton_append, ← a]
      exact v.entries i

/-- **C187**, part: a row whose write did not fail is in the file as it should be, from the moment its call returns: the file only grows, and a call
that is not cut off by an error adds exactly its line. -/
theorem C187_row_partial {s s' : St ι} {i : ι} (h : FReach header clock prog s) (hp : s.pc i = .writing [])
    (hs : s' = { s with lock := false, pc := Function.update s.pc i .idle, todo := Function.update s.todo i (s.todo i).tail }) :
    ∃ before n e es, s.todo i = e :: es ∧ s'.todo i = es ∧ s'.file = before ++ line n e ∧
      ∀ s'', Relation.ReflTransGen FStep s' s'' → s'.file <+: s''.file := by
  obtain ⟨h', hh, ts, v⟩ := finv_reach h
  have hl := v.isHeld (i := i) (by rw [hp]; simp)
  obtain ⟨k, e, es, a, b, d⟩ := v.held hl
  have hk : i = k := by
    by_contra hne
    rw [b i hne] at hp
    cases hp
  subst hk
  rcases d with ⟨d, -⟩ | ⟨n, part, rest', d1, d2, d3, d4, d5⟩
  · rw [hp] at d; cases d
  · rw [hp] at d1
    cases d1
    rw [List.append_nil] at d2
    refine ⟨h' ++ traceText ts, n, e, es, a, by rw [hs]; simp [a], by rw [hs]; exact d2 ▸ d5, fun s'' hr => ?_⟩
    induction hr with
    | refl => exact List.prefix_refl _
    | tail _ hstep ih =>
      refine ih.trans ?_
      cases hstep with
      | fail => exact List.prefix_refl _
      | ok hstep =>
        cases hstep with
        | write => exact List.prefix_append _ _
        | _ => exact List.prefix_refl _

/-- A call that has written its line after another one was cut off. -/
example : ∃ s : St Bool, FReach timingHeader 5 (fun i => [timing [if i then 'a' else 'b'] ['1']]) s ∧ s.pc false = .writing [] ∧
    s.todo true = [] := by
  have h0 : FReach timingHeader 5 (fun i : Bool => [timing [if i then 'a' else 'b'] ['1']]) _ := FReach.start _ (List.prefix_refl _)
  have h1 := h0.step (.ok (Step.acquire _ true rfl (by decide) rfl))
  have h2 := h1.step (.ok (Step.read _ true (timing ['a'] ['1']) [] (by simp) rfl))
  have h3 := h2.step (.fail _ true '5' [',', 'a', ',', '1', '\n'] (by simp [line, start]; decide))
  have h4 := h3.step (.ok (Step.acquire _ false (by simp [start]) (by simp [start]) rfl))
  have h5 := h4.step (.ok (Step.read _ false (timing ['b'] ['1']) [] (by simp) (by simp [start])))
  have h6 := h5.step (.ok (Step.write _ false ['5', ',', 'b', ',', '1', '\n'] [] (by simp [line, start]; decide)))
  exact ⟨_, h6, by simp, by simp [start]⟩

/-- **C187**, part: errors do not stop the program: while something is left to log, some thread can go on. -/
theorem C187_progress {s : St ι} (h : FReach header clock prog s) (i : ι) (hi : s.todo i ≠ []) :
    ∃ s', FStep s s' ∧ (s'.pc ≠ s.pc ∨ s'.todo ≠ s.todo) := by
  obtain ⟨h', hh, ts, hv⟩ := finv_reach h
  cases hl : s.lock with
  | false =>
    refine ⟨_, .ok (Step.acquire s i ((hv.free hl).1 i) hi hl), Or.inl fun he => ?_⟩
    have := congrFun he i
    rw [(hv.free hl).1 i] at this
    simp at this
  | true =>
    obtain ⟨k, e, es, a, -, ⟨d, -⟩ | ⟨n, part, rest, d, -⟩⟩ := hv.held hl
    · refine ⟨_, .ok (Step.read s k e es d a), Or.inl fun he => ?_⟩
      have := congrFun he k
      rw [d] at this
      simp at this
    · cases rest with
      | nil =>
        refine ⟨_, .ok (Step.release s k d), Or.inl fun he => ?_⟩
        have := congrFun he k
        rw [d] at this
        simp at this
      | cons c cs =>
        refine ⟨_, .fail s k c cs d, Or.inl fun he => ?_⟩
        have := congrFun he k
        rw [d] at this
        simp at this

/-- **C187** fails: a write that fails after the first character makes the row of another thread, whose own write succeeds, carry a wrong time. The
first thread logs at time 5 and its write fails, the second at time 8: the file is the header and one row of the right shape, with time 58. -/
theorem C187_fails : ∃ s : St Bool, FReach timingHeader 5 (fun i => [timing [if i then 'a' else 'b'] ['1']]) s ∧ (∀ i, s.todo i = []) ∧
    s.clock = 8 ∧ s.file = timingHeader ++ line 58 (timing ['b'] ['1']) := by
  have h0 : FReach timingHeader 5 (fun i : Bool => [timing [if i then 'a' else 'b'] ['1']]) _ := FReach.start _ (List.prefix_refl _)
  have h1 := h0.step (.ok (Step.acquire _ true rfl (by decide) rfl))
  have h2 := h1.step (.ok (Step.read _ true (timing ['a'] ['1']) [] (by simp) rfl))
  have h3 := h2.step (.ok (Step.write _ true ['5'] [',', 'a', ',', '1', '\n'] (by simp [line, start]; decide)))
  have h4 := h3.step (.fail _ true ',' ['a', ',', '1', '\n'] (by simp))
  have h6 := h4.step (.ok (Step.tick _ 8 (by decide)))
  have h7 := h6.step (.ok (Step.acquire _ false (by simp [start]) (by simp [start]) rfl))
  have h8 := h7.step (.ok (Step.read _ false (timing ['b'] ['1']) [] (by simp) (by simp [start])))
  have h9 := h8.step (.ok (Step.write _ false ['8', ',', 'b', ',', '1', '\n'] [] (by simp [line]; decide)))
  have h10 := h9.step (.ok (Step.release _ false (by simp)))
  refine ⟨_, h10, fun i => by cases i <;> simp [start], rfl, ?_⟩
  simp [start, line, timing]
  decide

end Verif.Bench
