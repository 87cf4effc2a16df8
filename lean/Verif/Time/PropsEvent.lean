import Verif.Time.PropsTimer

/-! # C10, with access to single timers of a set (`TimerSet::event_mut`) -/

namespace Verif.Time
open Verif.Rust

/-- What a user can do with a `TimerSet`: step the whole set, and through `event_mut(i)` (mission.rs:185-187) step timer `i` alone or put a new
timer in its place. -/
inductive SetOp where
  | step (dt : Duration)
  | stepOne (i : Nat) (dt : Duration)
  | replace (i : Nat) (period : Duration)

/-- One operation on the set, and for each timer the flag it returned, if it was stepped. `event_mut` with an index out of range is `None`, and
nothing happens. -/
def setOp (n : Nat) (es : List TimerEvent) : SetOp → Run (List TimerEvent × (Nat → Option Bool))
  | .step dt => (timerSetStep n dt es).bind fun r => .ok (r.1, fun i => r.2[i]?)
  | .stepOne j dt =>
    match es[j]? with
    | none => .ok (es, fun _ => none)
    | some e => (e.step dt n).bind fun r => .ok (es.set j r.1, fun i => if i = j then some r.2 else none)
  | .replace j p => .ok (es.set j (TimerEvent.new p), fun _ => none)

/-- A sequence of operations. -/
def setOps (n : Nat) : List TimerEvent → List SetOp → Run (List TimerEvent × List (Nat → Option Bool))
  | es, [] => .ok (es, [])
  | es, o :: os => (setOp n es o).bind fun r => (setOps n r.1 os).bind fun q => .ok (q.1, r.2 :: q.2)

/-- What happens to a timer used on its own: a step, or a new timer in its place. -/
inductive OneOp where
  | step (dt : Duration)
  | replace (period : Duration)

/-- A timer on its own, with the flags of its steps. -/
def alone (n : Nat) : TimerEvent → List OneOp → Run (TimerEvent × List Bool)
  | e, [] => .ok (e, [])
  | e, .step dt :: os => (e.step dt n).bind fun r => (alone n r.1 os).bind fun q => .ok (q.1, r.2 :: q.2)
  | _, .replace p :: os => alone n (TimerEvent.new p) os

/-- The part of an operation on the set that concerns timer `i`. -/
def SetOp.on (i : Nat) : SetOp → Option OneOp
  | .step dt => some (.step dt)
  | .stepOne j dt => if j = i then some (.step dt) else none
  | .replace j p => if j = i then some (.replace p) else none

/-- C10. Whatever is done with a set of timers, through the set and through `event_mut`, each timer ends in the state, and returned the flags, that
it would have had on its own with the operations that concern it. -/
theorem C10_single_access (n : Nat) (es es' : List TimerEvent) (os : List SetOp) (fs : List (Nat → Option Bool))
    (h : setOps n es os = .ok (es', fs)) :
    es'.length = es.length ∧
      ∀ i (hi : i < es.length), ∃ e' col, alone n es[i] (os.filterMap (SetOp.on i)) = .ok (e', col) ∧
        es'[i]? = some e' ∧ fs.filterMap (· i) = col := by
  induction os generalizing es es' fs with
  | nil =>
    simp only [setOps, Run.ok.injEq, Prod.mk.injEq] at h
    obtain ⟨rfl, rfl⟩ := h
    exact ⟨rfl, fun i hi => ⟨es[i], [], rfl, by simp [hi], rfl⟩⟩
  | cons o os ih =>
    simp only [setOps] at h
    cases h1 : setOp n es o with
    | panic => simp [h1, Run.bind] at h
    | running => simp [h1, Run.bind] at h
    | ok r =>
      obtain ⟨es₁, f⟩ := r
      cases h2 : setOps n es₁ os with
      | panic => simp [h1, h2, Run.bind] at h
      | running => simp [h1, h2, Run.bind] at h
      | ok q =>
        obtain ⟨es₂, gs⟩ := q
        simp only [h1, h2, Run.bind, Run.ok.injEq, Prod.mk.injEq] at h
        obtain ⟨rfl, rfl⟩ := h
        obtain ⟨l2, hr⟩ := ih _ _ _ h2
        cases o with
        | step dt =>
          simp only [setOp] at h1
          cases h3 : timerSetStep n dt es with
          | panic => simp [h3, Run.bind] at h1
          | running => simp [h3, Run.bind] at h1
          | ok x =>
            obtain ⟨es₃, bs⟩ := x
            simp only [h3, Run.bind, Run.ok.injEq, Prod.mk.injEq] at h1
            obtain ⟨rfl, rfl⟩ := h1
            obtain ⟨k1, -, hs⟩ := timerSetStep_ok h3
            refine ⟨by omega, fun i hi => ?_⟩
            obtain ⟨e₁, b, g1, g2, g3⟩ := hs i hi
            obtain ⟨e₂, col, g4, g5, g6⟩ := hr i (by omega)
            have e : es₃[i]'(by omega) = e₁ := by
              rw [List.getElem?_eq_getElem (by omega)] at g2; exact Option.some.inj g2
            rw [e] at g4
            refine ⟨e₂, b :: col, ?_, g5, ?_⟩
            · simp only [List.filterMap_cons, SetOp.on, alone, g1, Run.bind, g4]
            · simp only [List.filterMap_cons, g3, g6]
        | stepOne j dt =>
          simp only [setOp] at h1
          cases h3 : es[j]? with
          | none =>
            simp only [h3, Run.ok.injEq, Prod.mk.injEq] at h1
            obtain ⟨rfl, rfl⟩ := h1
            have hj : es.length ≤ j := List.getElem?_eq_none_iff.1 h3
            refine ⟨l2, fun i hi => ?_⟩
            obtain ⟨e₂, col, g4, g5, g6⟩ := hr i hi
            have hne : j ≠ i := by omega
            refine ⟨e₂, col, ?_, g5, ?_⟩
            · simp only [List.filterMap_cons, SetOp.on, if_neg hne, g4]
            · simp only [List.filterMap_cons, g6]
          | some e =>
            simp only [h3] at h1
            cases h4 : e.step dt n with
            | panic => simp [h4, Run.bind] at h1
            | running => simp [h4, Run.bind] at h1
            | ok x =>
              obtain ⟨e₁, b⟩ := x
              simp only [h4, Run.bind, Run.ok.injEq, Prod.mk.injEq] at h1
              obtain ⟨rfl, rfl⟩ := h1
              have hl : (es.set j e₁).length = es.length := List.length_set ..
              refine ⟨by omega, fun i hi => ?_⟩
              obtain ⟨e₂, col, g4, g5, g6⟩ := hr i (by omega)
              by_cases hji : j = i
              · subst hji
                have hej : es[j] = e := by
                  rw [List.getElem?_eq_getElem hi] at h3; exact Option.some.inj h3
                rw [List.getElem_set_self] at g4
                refine ⟨e₂, b :: col, ?_, g5, ?_⟩
                · simp only [List.filterMap_cons, SetOp.on, if_true, alone, hej, h4, Run.bind, g4]
                · simp only [List.filterMap_cons, if_true, g6]
              · rw [List.getElem_set_ne hji] at g4
                refine ⟨e₂, col, ?_, g5, ?_⟩
                · simp only [List.filterMap_cons, SetOp.on, if_neg hji, g4]
                · simp only [List.filterMap_cons, if_neg (Ne.symm hji), g6]
        | replace j p =>
          simp only [setOp, Run.ok.injEq, Prod.mk.injEq] at h1
          obtain ⟨rfl, rfl⟩ := h1
          have hl : (es.set j (TimerEvent.new p)).length = es.length := List.length_set ..
          refine ⟨by omega, fun i hi => ?_⟩
          obtain ⟨e₂, col, g4, g5, g6⟩ := hr i (by omega)
          by_cases hji : j = i
          · subst hji
            rw [List.getElem_set_self] at g4
            refine ⟨e₂, col, ?_, g5, ?_⟩
            · simp only [List.filterMap_cons, SetOp.on, if_true, alone, g4]
            · simp only [List.filterMap_cons, g6]
          · rw [List.getElem_set_ne hji] at g4
            refine ⟨e₂, col, ?_, g5, ?_⟩
            · simp only [List.filterMap_cons, SetOp.on, if_neg hji, g4]
            · simp only [List.filterMap_cons, g6]

/-- Two timers of one second; the second is advanced alone, then both, then the first is replaced by one of half a second. -/
example : ∃ r, setOps 5 (timerSetNew [⟨1, 0⟩, ⟨1, 0⟩])
    [.stepOne 1 ⟨0, 600000000⟩, .step ⟨0, 600000000⟩, .replace 0 ⟨0, 500000000⟩, .step ⟨0, 600000000⟩] = .ok r ∧
      r.1 = [⟨⟨0, 100000000⟩, ⟨0, 500000000⟩⟩, ⟨⟨0, 800000000⟩, ⟨1, 0⟩⟩] ∧
      r.2.filterMap (· 0) = [false, true] ∧ r.2.filterMap (· 1) = [false, true, false] :=
  ⟨_, rfl, by decide, by decide, by decide⟩

end Verif.Time
