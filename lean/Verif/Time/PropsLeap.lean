import Verif.Time.Leap
import Verif.Time.PropsScale

/-! # C176: conversions while the leap seconds change -/

namespace Verif.Time
open Verif.Rust

/-- The value the atomic holds after the events `es`. -/
def heldAfter (c : Int) (es : List LeapEvent) : Int :=
  es.foldl (fun c e => match e with | .store v => v | .load => c) c

theorem loads_append (c : Int) (es fs : List LeapEvent) : loads c (es ++ fs) = loads c es ++ loads (heldAfter c es) fs := by
  induction es generalizing c with
  | nil => rfl
  | cons e es ih => cases e <;> simp [loads, heldAfter, ih]

theorem loads_one {c x : Int} {es : List LeapEvent} (h : loads c es = [x]) :
    ∃ pre post, es = pre ++ .load :: post ∧ x = heldAfter c pre := by
  induction es generalizing c with
  | nil => simp [loads] at h
  | cons e es ih =>
    cases e with
    | store v =>
      obtain ⟨pre, post, h1, h2⟩ := ih (c := v) (by simpa [loads] using h)
      exact ⟨.store v :: pre, post, by simp [h1], by simpa [heldAfter] using h2⟩
    | load =>
      simp only [loads, List.cons.injEq] at h
      exact ⟨[], es, rfl, by simp [heldAfter, h.1]⟩

/-- C176. Between UTC and another scale: whatever the schedule, the answer is the conversion with the leap seconds in force at one moment of
the call. -/
theorem C176_once {a b : Scale} (conv : Int → Time a → Option (Time b)) (c : Int) (es : List LeapEvent) (t : Time a) (r : Option (Time b))
    (h : callOnce conv c es t = some r) : ∃ pre post, es = pre ++ .load :: post ∧ r = conv (heldAfter c pre) t := by
  unfold callOnce at h
  split at h
  · rename_i x hx
    obtain ⟨pre, post, h1, h2⟩ := loads_one hx
    exact ⟨pre, post, h1, by rw [← h2]; exact (Option.some.inj h).symm⟩
  · simp at h

example : callOnce Time.utcToTai 27 [.store 28, .load, .store 29] ⟨100, 0⟩ = some (some ⟨138, 0⟩) := by decide +kernel

/-- C176, between GPS and TAI: the two scales are 19 s apart, whatever the leap seconds. The answer of a call is off by the difference of the
two values it loads; so it is right if nothing is stored between its two loads. -/
theorem C176_twice_partial (c : Int) (es : List LeapEvent) :
    (∀ (t : Time .gps) (r : Time .tai), callTwice Time.gpsToTai c es t = some (some r) →
      ∃ x y, loads c es = [x, y] ∧ r = ⟨t.sec + 315964800 + 19 + (y - x), t.nano⟩) ∧
    (∀ (t : Time .tai) (r : Time .gps), callTwice Time.taiToGps c es t = some (some r) →
      ∃ x y, loads c es = [x, y] ∧ r = ⟨t.sec - 315964800 - 19 + (y - x), t.nano⟩) ∧
    (∀ pre post x y, es = pre ++ [.load, .load] ++ post → loads c es = [x, y] → x = y) := by
  refine ⟨fun t r h => ?_, fun t r h => ?_, fun pre post x y he h => ?_⟩
  · unfold callTwice at h
    split at h
    · rename_i x y hx
      refine ⟨x, y, hx, ?_⟩
      have h := Option.some.inj h
      simp only [Time.gpsToTai, Option.bind_eq_bind, Option.bind_eq_some_iff] at h
      obtain ⟨v, h1, h2⟩ := h
      obtain ⟨-, -, -, rfl⟩ := gpsToUtc_some.1 h1
      obtain ⟨-, -, rfl⟩ := utcToTai_some.1 h2
      simp only [Time.mk.injEq, and_true]; omega
    · simp at h
  · unfold callTwice at h
    split at h
    · rename_i x y hx
      refine ⟨x, y, hx, ?_⟩
      have h := Option.some.inj h
      simp only [Time.taiToGps, Option.bind_eq_bind, Option.bind_eq_some_iff] at h
      obtain ⟨v, h1, h2⟩ := h
      obtain ⟨-, -, rfl⟩ := taiToUtc_some.1 h1
      obtain ⟨-, -, -, rfl⟩ := utcToGps_some.1 h2
      simp only [Time.mk.injEq, and_true]; omega
    · simp at h
  · subst he
    rw [List.append_assoc, loads_append] at h
    simp only [loads, List.cons_append, List.nil_append] at h
    rcases hp : loads c pre with _ | ⟨u, _ | ⟨v, l⟩⟩ <;> rw [hp] at h <;> simp at h
    exact h.1.symm.trans h.2.1

/-- C176 is not met between GPS and TAI: if another thread counts a leap second between the two loads, the answer is a second off. -/
theorem C176_fails :
    callTwice Time.gpsToTai 27 [.load, .load] ⟨1000000000, 0⟩ = some (some ⟨1315964819, 0⟩) ∧
    callTwice Time.gpsToTai 28 [.load, .load] ⟨1000000000, 0⟩ = some (some ⟨1315964819, 0⟩) ∧
    callTwice Time.gpsToTai 27 [.load, .store 28, .load] ⟨1000000000, 0⟩ = some (some ⟨1315964820, 0⟩) ∧
    callTwice Time.taiToGps 27 [.load, .store 28, .load] ⟨1315964819, 0⟩ = some (some ⟨1000000001, 0⟩) := by decide +kernel

/-- C176 is not met by the mission clock: a reading of GPS time during which a leap second is counted is ahead of a reading half a second later.
The clock has 10 ticks a second; the readings are at ticks 100 and 105. -/
theorem C176_clock_fails :
    let e : Epoch := ⟨⟨1315964819, 0⟩, 0, 10⟩
    loads 27 [.load, .store 28, .load, .load, .load] = [27, 28, 28, 28] ∧
      e.nowGps 27 28 100 = some ⟨1000000011, 0⟩ ∧ e.nowGps 28 28 105 = some ⟨1000000010, 500000000⟩ := by decide +kernel

end Verif.Time
