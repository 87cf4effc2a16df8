import Verif.Bench.Model
import Mathlib.Tactic.Set

/-!
# C138: the timing log shared by threads
-/

namespace Verif.Bench

variable {ι : Type} [DecidableEq ι] {header : List Char} {clock : Nat} {prog : ι → List Entry}

/-- A logged row: the thread, the time and the entry. -/
abbrev Row (ι : Type) := ι × Nat × Entry

/-- The text of rows. -/
def text (rows : List (Row ι)) : List Char := rows.flatMap fun r => line r.2.1 r.2.2

/-- The entries of a thread, in the order of the log. -/
def entriesOf (i : ι) (rows : List (Row ι)) : List Entry := (rows.filter fun r => r.1 = i).map fun r => r.2.2

omit [DecidableEq ι] in
theorem text_append (a b : List (Row ι)) : text (a ++ b) = text a ++ text b := List.flatMap_append

theorem entriesOf_snoc_self (i : ι) (rows : List (Row ι)) (ts : Nat) (e : Entry) :
    entriesOf i (rows ++ [(i, ts, e)]) = entriesOf i rows ++ [e] := by
  simp [entriesOf, List.filter_append]

theorem entriesOf_snoc_other {i j : ι} (h : i ≠ j) (rows : List (Row ι)) (ts : Nat) (e : Entry) :
    entriesOf j (rows ++ [(i, ts, e)]) = entriesOf j rows := by
  simp [entriesOf, List.filter_append, h]

/-- What holds in every state, for the rows that are complete. -/
structure Inv (header : List Char) (prog : ι → List Entry) (s : St ι) (rows : List (Row ι)) : Prop where
  sorted : (rows.map fun r => r.2.1).Pairwise (· ≤ ·)
  past : ∀ r ∈ rows, r.2.1 ≤ s.clock
  entries : ∀ i, entriesOf i rows ++ s.todo i = prog i
  free : s.lock = false → (∀ i, s.pc i = .idle) ∧ s.file = header ++ text rows
  held : s.lock = true → ∃ i e es, s.todo i = e :: es ∧ (∀ j, j ≠ i → s.pc j = .idle) ∧
    ((s.pc i = .locked ∧ s.file = header ++ text rows) ∨
      ∃ ts part rest, s.pc i = .writing rest ∧ part ++ rest = line ts e ∧ (∀ r ∈ rows, r.2.1 ≤ ts) ∧ ts ≤ s.clock ∧
        s.file = header ++ text rows ++ part)

theorem inv_step {s s' : St ι} {rows : List (Row ι)} (h : Inv header prog s rows) (hs : Step s s') : ∃ rows', Inv header prog s' rows' := by
  cases hs with
  | tick c hc =>
    refine ⟨rows, h.sorted, fun r hr => Nat.le_trans (h.past r hr) hc, h.entries, h.free, fun hl => ?_⟩
    obtain ⟨i, e, es, a, b, d | ⟨ts, part, rest, d1, d2, d3, d4, d5⟩⟩ := h.held hl
    · exact ⟨i, e, es, a, b, Or.inl d⟩
    · exact ⟨i, e, es, a, b, Or.inr ⟨ts, part, rest, d1, d2, d3, Nat.le_trans d4 hc, d5⟩⟩
  | acquire i hi ht hl =>
    refine ⟨rows, h.sorted, h.past, h.entries, fun hl' => (by cases hl'), fun _ => ?_⟩
    cases htd : s.todo i with
    | nil => exact absurd htd ht
    | cons e es =>
      refine ⟨i, e, es, htd, fun j hj => ?_, Or.inl ⟨Function.update_self .., (h.free hl).2⟩⟩
      show Function.update s.pc i Pc.locked j = _
      rw [Function.update_of_ne hj]
      exact (h.free hl).1 j
  | read i e es hp ht =>
    have hl : s.lock = true := by
      cases hl : s.lock with
      | true => rfl
      | false => rw [(h.free hl).1 i] at hp; cases hp
    obtain ⟨k, e', es', a, b, d⟩ := h.held hl
    have hk : i = k := by
      by_contra hne
      rw [b i hne] at hp
      cases hp
    subst hk
    rw [ht] at a
    obtain ⟨rfl, rfl⟩ := List.cons.inj a
    have d' : s.file = header ++ text rows := by
      rcases d with ⟨-, d⟩ | ⟨_, _, _, d, -⟩
      · exact d
      · rw [hp] at d; cases d
    refine ⟨rows, h.sorted, h.past, h.entries, fun hl' => (by rw [hl] at hl'; cases hl'), fun _ => ⟨i, e, es, ht, fun j hj => ?_, Or.inr ?_⟩⟩
    · show Function.update s.pc i _ j = _
      rw [Function.update_of_ne hj]
      exact b j hj
    · exact ⟨s.clock, [], line s.clock e, Function.update_self .., rfl, h.past, Nat.le_refl _, by rw [List.append_nil]; exact d'⟩
  | write i p rest hp =>
    have hl : s.lock = true := by
      cases hl : s.lock with
      | true => rfl
      | false => rw [(h.free hl).1 i] at hp; cases hp
    obtain ⟨k, e, es, a, b, d⟩ := h.held hl
    have hk : i = k := by
      by_contra hne
      rw [b i hne] at hp
      cases hp
    subst hk
    rcases d with ⟨d, -⟩ | ⟨ts, part, rest', d1, d2, d3, d4, d5⟩
    · rw [hp] at d; cases d
    · rw [hp] at d1
      cases d1
      refine ⟨rows, h.sorted, h.past, h.entries, fun hl' => (by rw [hl] at hl'; cases hl'), fun _ => ⟨i, e, es, a, fun j hj => ?_, Or.inr ?_⟩⟩
      · show Function.update s.pc i _ j = _
        rw [Function.update_of_ne hj]
        exact b j hj
      · exact ⟨ts, part ++ p, rest, Function.update_self .., by rw [List.append_assoc]; exact d2, d3, d4, by
          show s.file ++ p = _
          rw [d5, List.append_assoc _ part]⟩
  | release i hp =>
    have hl : s.lock = true := by
      cases hl : s.lock with
      | true => rfl
      | false => rw [(h.free hl).1 i] at hp; cases hp
    obtain ⟨k, e, es, a, b, d⟩ := h.held hl
    have hk : i = k := by
      by_contra hne
      rw [b i hne] at hp
      cases hp
    subst hk
    rcases d with ⟨d, -⟩ | ⟨ts, part, rest', d1, d2, d3, d4, d5⟩
    · rw [hp] at d; cases d
    · rw [hp] at d1
      cases d1
      rw [List.append_nil] at d2
      refine ⟨rows ++ [(i, ts, e)], ?_, ?_, fun j => ?_, fun _ => ⟨fun j => ?_, ?_⟩, fun hl' => by cases hl'⟩
      · rw [List.map_append, List.pairwise_append]
        refine ⟨h.sorted, by simp, fun x hx y hy => ?_⟩
        obtain ⟨r, hr, rfl⟩ := List.mem_map.1 hx
        simp only [List.map_cons, List.map_nil, List.mem_singleton] at hy
        rw [hy]
        exact d3 r hr
      · intro r hr
        rcases List.mem_append.1 hr with hr | hr
        · exact h.past r hr
        · rw [List.mem_singleton.1 hr]
          exact d4
      · show _ ++ Function.update s.todo i (s.todo i).tail j = _
        by_cases hj : j = i
        · subst hj
          rw [Function.update_self, entriesOf_snoc_self, a, List.tail_cons, List.append_assoc, List.singleton_append, ← a]
          exact h.entries j
        · rw [Function.update_of_ne hj, entriesOf_snoc_other (Ne.symm hj)]
          exact h.entries j
      · show Function.update s.pc i Pc.idle j = _
        by_cases hj : j = i
        · rw [hj, Function.update_self]
        · rw [Function.update_of_ne hj]
          exact b j hj
      · show s.file = _
        rw [d5, text_append, d2, List.append_assoc]
        simp [text]

theorem inv_reach {s : St ι} (h : Reach header clock prog s) : ∃ rows, Inv header prog s rows := by
  induction h with
  | start =>
    exact ⟨[], List.Pairwise.nil, by simp, fun i => by simp [entriesOf, start], fun _ => ⟨fun _ => rfl, by simp [start, text]⟩, fun h => by cases h⟩
  | step _ hs ih =>
    obtain ⟨rows, hr⟩ := ih
    exact inv_step hr hs

/-- **C138**: at every moment of every run, and so also if the program is stopped there, the file is the header, complete rows with times that do not
go back, and at most one incomplete row at the end; the rows of each thread are its entries in its order, none twice and none left out. -/
theorem C138_log {s : St ι} (h : Reach header clock prog s) : ∃ (rows : List (Row ι)) (part : List Char),
    s.file = header ++ text rows ++ part ∧ (rows.map fun r => r.2.1).Pairwise (· ≤ ·) ∧
      (∀ r ∈ rows, r.2.1 ≤ s.clock) ∧ (∀ i, entriesOf i rows <+: prog i) ∧
      (part = [] ∨ ∃ i ts e, entriesOf i rows ++ [e] <+: prog i ∧ (∀ r ∈ rows, r.2.1 ≤ ts) ∧ part <+: line ts e) := by
  obtain ⟨rows, hi⟩ := inv_reach h
  have hpre : ∀ i, entriesOf i rows <+: prog i := fun i => ⟨s.todo i, hi.entries i⟩
  cases hl : s.lock with
  | false => exact ⟨rows, [], by rw [List.append_nil]; exact (hi.free hl).2, hi.sorted, hi.past, hpre, Or.inl rfl⟩
  | true =>
    obtain ⟨i, e, es, a, -, ⟨-, d⟩ | ⟨ts, part, rest, -, d2, d3, -, d5⟩⟩ := hi.held hl
    · exact ⟨rows, [], by rw [List.append_nil]; exact d, hi.sorted, hi.past, hpre, Or.inl rfl⟩
    · refine ⟨rows, part, d5, hi.sorted, hi.past, hpre, Or.inr ⟨i, ts, e, ⟨es, ?_⟩, d3, rest, d2⟩⟩
      rw [List.append_assoc, List.singleton_append, ← a]
      exact hi.entries i

/-- **C138**: when no thread has anything left to log, every entry of every thread is in the file as a complete row. -/
theorem C138_all {s : St ι} (h : Reach header clock prog s) (hd : ∀ i, s.todo i = []) : ∃ rows : List (Row ι),
    s.file = header ++ text rows ∧ (rows.map fun r => r.2.1).Pairwise (· ≤ ·) ∧ ∀ i, entriesOf i rows = prog i := by
  obtain ⟨rows, hi⟩ := inv_reach h
  have hent : ∀ i, entriesOf i rows = prog i := fun i => by
    have := hi.entries i
    rwa [hd i, List.append_nil] at this
  cases hl : s.lock with
  | false => exact ⟨rows, (hi.free hl).2, hi.sorted, hent⟩
  | true =>
    obtain ⟨i, e, es, a, -⟩ := hi.held hl
    rw [hd i] at a
    cases a

/-- **C138**: the threads never block each other for good: while something is left to log, some thread can go on. -/
theorem C138_progress {s : St ι} (h : Reach header clock prog s) (i : ι) (hi : s.todo i ≠ []) :
    ∃ s', Step s s' ∧ (s'.pc ≠ s.pc ∨ s'.todo ≠ s.todo) := by
  obtain ⟨rows, hv⟩ := inv_reach h
  cases hl : s.lock with
  | false =>
    refine ⟨_, Step.acquire s i ((hv.free hl).1 i) hi hl, Or.inl fun he => ?_⟩
    have := congrFun he i
    rw [(hv.free hl).1 i] at this
    simp at this
  | true =>
    obtain ⟨k, e, es, a, -, ⟨d, -⟩ | ⟨ts, part, rest, d, -⟩⟩ := hv.held hl
    · refine ⟨_, Step.read s k e es d a, Or.inl fun he => ?_⟩
      have := congrFun he k
      rw [d] at this
      simp at this
    · cases rest with
      | nil =>
        refine ⟨_, Step.release s k d, Or.inl fun he => ?_⟩
        have := congrFun he k
        rw [d] at this
        simp at this
      | cons c cs =>
        refine ⟨_, Step.write s k [c] cs d, Or.inl fun he => ?_⟩
        have := congrFun he k
        rw [d] at this
        simp at this

/-- Two threads, one entry each, logged in the order of the lock. -/
example : ∃ s : St Bool, Reach timingHeader 5 (fun i => [timing [if i then 'a' else 'b'] ['1']]) s ∧ (∀ i, s.todo i = []) ∧
    s.file = timingHeader ++ ['5', ',', 'a', ',', '1', '\n'] ++ ['8', ',', 'b', ',', '1', '\n'] := by
  have h0 : Reach timingHeader 5 (fun i : Bool => [timing [if i then 'a' else 'b'] ['1']]) _ := Reach.start
  have h1 := h0.step (Step.acquire _ true rfl (by decide) rfl)
  have h2 := h1.step (Step.read _ true (timing ['a'] ['1']) [] (by simp) rfl)
  have h3 := h2.step (Step.write _ true ['5', ',', 'a'] [',', '1', '\n'] (by simp [line, start]; decide))
  have h4 := h3.step (Step.write _ true [',', '1', '\n'] [] (by simp))
  have h5 := h4.step (Step.release _ true (by simp))
  have h6 := h5.step (Step.tick _ 8 (by decide))
  have h7 := h6.step (Step.acquire _ false (by simp [start]) (by simp [start]) rfl)
  have h8 := h7.step (Step.read _ false (timing ['b'] ['1']) [] (by simp) (by simp [start]))
  have h9 := h8.step (Step.write _ false ['8', ',', 'b', ',', '1', '\n'] [] (by simp [line]; decide))
  have h10 := h9.step (Step.release _ false (by simp))
  refine ⟨_, h10, fun i => by cases i <;> simp [start], ?_⟩
  simp [start]

/-- A cell that keeps its row in shape: no comma and no newline. -/
def Plain (cell : List Char) : Prop := ',' ∉ cell ∧ '\n' ∉ cell

theorem plain_toDigits (n : Nat) : Plain (Nat.toDigits 10 n) := by
  constructor <;> intro hc <;> exact absurd (Nat.isDigit_of_mem_toDigits (by decide) (by decide) hc) (by decide)

theorem splitOn_intercalate (c : List Char) (cs : List (List Char)) (h : ∀ x ∈ c :: cs, ',' ∉ x) :
    (List.intercalate [','] (c :: cs)).splitOn ',' = c :: cs := by
  induction cs generalizing c with
  | nil => simpa [List.intercalate] using List.splitOn_eq_singleton (h c (by simp))
  | cons d ds ih =>
    have e : List.intercalate [','] (c :: d :: ds) = c ++ ',' :: List.intercalate [','] (d :: ds) := by simp [List.intercalate]
    rw [e, List.splitOn_append_cons_self, List.splitOn_eq_singleton (h c (by simp)), ih d fun x hx => h x (by simp [hx])]
    rfl

theorem nl_intercalate (c : List Char) (cs : List (List Char)) (h : ∀ x ∈ c :: cs, '\n' ∉ x) : '\n' ∉ List.intercalate [','] (c :: cs) := by
  induction cs generalizing c with
  | nil => simpa [List.intercalate] using h c (by simp)
  | cons d ds ih =>
    have e : List.intercalate [','] (c :: d :: ds) = c ++ ',' :: List.intercalate [','] (d :: ds) := by simp [List.intercalate]
    rw [e]
    have := ih d fun x hx => h x (by simp [hx])
    simp [this, h c (by simp)]

omit [DecidableEq ι] in
/-- **C138** (part): if no name and no number text has a comma or a newline, a reader that splits the file at newlines and the lines at commas gets
the header, and for each row exactly its time and its cells; the time reads back. Missing: names with a comma or a newline (`C138_columns_fails`). -/
theorem C138_columns_partial (header : List Char) (hh : '\n' ∉ header) (rows : List (Row ι)) (h : ∀ r ∈ rows, ∀ c ∈ r.2.2, Plain c) :
    ((header ++ ['\n'] ++ text rows).splitOn '\n').map (·.splitOn ',') =
      header.splitOn ',' :: (rows.map fun r => Nat.toDigits 10 r.2.1 :: r.2.2) ++ [[[]]] ∧
    ∀ r ∈ rows, Nat.ofDigitChars 10 (Nat.toDigits 10 r.2.1) 0 = r.2.1 := by
  refine ⟨?_, fun r _ => Nat.ofDigitChars_ten_toDigits⟩
  have ht : ((text rows).splitOn '\n').map (·.splitOn ',') = (rows.map fun r => Nat.toDigits 10 r.2.1 :: r.2.2) ++ [[[]]] := by
    induction rows with
    | nil => rfl
    | cons r rows ih =>
      have hp : ∀ c ∈ Nat.toDigits 10 r.2.1 :: r.2.2, Plain c := by
        intro c hc
        rcases List.mem_cons.1 hc with rfl | hc
        · exact plain_toDigits _
        · exact h r (by simp) c hc
      have e : text (r :: rows) = List.intercalate [','] (Nat.toDigits 10 r.2.1 :: r.2.2) ++ '\n' :: text rows := by simp [text, line]
      rw [e, List.splitOn_append_cons_self, List.splitOn_eq_singleton (nl_intercalate _ _ fun x hx => (hp x hx).2), List.map_append,
        ih fun r hr => h r (by simp [hr]), List.map_singleton, splitOn_intercalate _ _ fun x hx => (hp x hx).1]
      rfl
  rw [List.append_assoc, List.singleton_append, List.splitOn_append_cons_self, List.splitOn_eq_singleton hh, List.map_append, ht]
  rfl

/-- The columns of both logs. -/
example : timingHeader.dropLast.splitOn ',' = ["unix_ns".toList, "stage".toList, "elapsed_ms".toList] ∧
    powerHeader.dropLast.splitOn ',' = ["unix_ns".toList, "source".toList, "power_W".toList, "energy_J_total".toList] ∧
    timingHeader = timingHeader.dropLast ++ ['\n'] ∧ powerHeader = powerHeader.dropLast ++ ['\n'] := by decide

/-- **C138**: a timing row has the cells of the timing header, and a power row those of the power header; a value is missing in the row exactly if it
was not given (the text of a number is never empty). -/
theorem C138_cells (ts : Nat) (stage ms source : List Char) (w j : Option (List Char)) (hw : w ≠ some []) (hj : j ≠ some []) :
    (Nat.toDigits 10 ts :: timing stage ms).length = (timingHeader.splitOn ',').length ∧
    (Nat.toDigits 10 ts :: power source w j).length = (powerHeader.splitOn ',').length ∧
    ((power source w j)[1]? = some [] ↔ w = none) ∧ ((power source w j)[2]? = some [] ↔ j = none) ∧
    (∀ x, w = some x → (power source w j)[1]? = some x) ∧ (∀ x, j = some x → (power source w j)[2]? = some x) ∧
    (power source w j)[0]? = some source ∧ timing stage ms = [stage, ms] := by
  refine ⟨show 3 = _ by decide, ?_, ?_, ?_, ?_, ?_, rfl, rfl⟩
  · show 4 = _
    decide
  · cases w with
    | none => simp [power]
    | some x => simpa [power] using fun h => hw (by rw [h])
  · cases j with
    | none => simp [power]
    | some x => simpa [power] using fun h => hj (by rw [h])
  · rintro x rfl
    rfl
  · rintro x rfl
    rfl

/-- C138 in full is not met: a stage name with a comma gives a row of four columns, and a name with a newline gives two lines. -/
theorem C138_columns_fails :
    (((timingHeader ++ text [((), 5, timing ['a', ',', 'b'] ['1'])]).splitOn '\n').map fun l => (l.splitOn ',').length) = [3, 4, 1] ∧
    (((timingHeader ++ text [((), 5, timing ['a', '\n', 'b'] ['1'])]).splitOn '\n').map fun l => (l.splitOn ',').length) = [3, 2, 2, 1] := by
  decide +kernel

end Verif.Bench
