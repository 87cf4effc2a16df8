import Verif.Mat.Coding
import Verif.Mat.PropsStore
import Mathlib.Tactic.FinCases

/-!
# Properties C170 to C172: encoding assertions, stored attitudes, coordinates and frames
-/

namespace Verif.Mat

/-! ## C170 -/

/-- Specification: the same number. Neither is a NaN, and the bits are equal or both are zeros. -/
def SameNumber (a b : BitVec 64) : Prop :=
  nan64 a = false ∧ nan64 b = false ∧
    (a = b ∨ (a = 0#64 ∨ a = 0x8000000000000000#64) ∧ (b = 0#64 ∨ b = 0x8000000000000000#64))

theorem shl_zero (a : BitVec 64) : a <<< 1 = 0#64 ↔ a = 0#64 ∨ a = 0x8000000000000000#64 := by
  constructor
  · intro h
    have h' := congrArg BitVec.toNat h
    have ha := a.isLt
    rw [BitVec.toNat_shiftLeft] at h'
    simp [Nat.shiftLeft_eq] at h'
    have : a.toNat = 0 ∨ a.toNat = 2 ^ 63 := by omega
    rcases this with e | e
    · exact Or.inl (BitVec.eq_of_toNat_eq (by simpa using e))
    · exact Or.inr (BitVec.eq_of_toNat_eq (by simpa using e))
  · rintro (rfl | rfl) <;> decide

theorem eq64_iff (a b : BitVec 64) : eq64 a b = true ↔ SameNumber a b := by
  unfold eq64 SameNumber
  simp [shl_zero, and_assoc]

theorem encodeVec_f64_length {n : Nat} (v : Fin n → BitVec 64) : (encodeVec f64Codec v).length = n * 8 := by
  unfold encodeVec
  refine flatMap_length _ (fun k => ?_)
  simp [f64Codec]

/-- C170. Whatever the encoding of the numbers is: the assertion passes exactly if the bytes fit the buffer and
decode to a vector of the same numbers, none of which is a NaN. -/
theorem C170_sound (c : Codec (BitVec 64)) {n : Nat} (v : Fin n → BitVec 64) :
    assertVec c v = .ok () ↔ (encodeVec c v).length ≤ 1024 ∧
      ∃ w rest, decodeVec c n (encodeVec c v) = some (w, rest) ∧ ∀ i, SameNumber (v i) (w i) := by
  unfold assertVec
  split
  · rename_i h
    constructor
    · intro e; cases e
    · intro e; omega
  · rename_i h
    cases e : decodeVec c n (encodeVec c v) with
    | none => simp
    | some p =>
      obtain ⟨w, rest⟩ := p
      have hall : ((List.finRange n).all fun i => eq64 (v i) (w i)) = true ↔ ∀ i, SameNumber (v i) (w i) := by
        simp [List.all_eq_true, eq64_iff]
      simp only
      split
      · rename_i h'
        simp only [true_iff]
        exact ⟨by omega, w, rest, rfl, hall.1 h'⟩
      · rename_i h'
        constructor
        · intro e'; cases e'
        · rintro ⟨_, w', r', e', hw⟩
          simp only [Option.some.injEq, Prod.mk.injEq] at e'
          obtain ⟨rfl, rfl⟩ := e'
          exact absurd (hall.2 hw) h'

/-- C170 (partial). With the encoding in use, the assertion passes exactly for vectors of at most 128 numbers
without a NaN, and the one for quaternions exactly for those without a NaN. Missing: longer vectors. -/
theorem C170_partial :
    (∀ {n : Nat} (v : Fin n → BitVec 64),
      assertVec f64Codec v = .ok () ↔ n ≤ 128 ∧ ∀ i, nan64 (v i) = false) ∧
    ∀ q : Fin 4 → BitVec 64, assertQuat f64Codec q = .ok () ↔ ∀ i, nan64 (q i) = false := by
  have key : ∀ {n : Nat} (v : Fin n → BitVec 64),
      assertVec f64Codec v = .ok () ↔ n ≤ 128 ∧ ∀ i, nan64 (v i) = false := by
    intro n v
    rw [C170_sound, encodeVec_f64_length]
    have hd := C73_bincode_vector f64Codec_good v []
    rw [List.append_nil] at hd
    constructor
    · rintro ⟨h, w, rest, _, hw⟩
      exact ⟨by omega, fun i => (hw i).1⟩
    · rintro ⟨h, hv⟩
      exact ⟨by omega, v, [], hd, fun i => ⟨hv i, hv i, Or.inl rfl⟩⟩
  exact ⟨key, fun q => by unfold assertQuat; rw [key]; simp⟩

/-- C170 fails. A vector of 129 zeros is decoded correctly, yet the assertion panics, because the bytes do not
fit its buffer. -/
theorem C170_fails :
    decodeVec f64Codec 129 (encodeVec f64Codec fun _ : Fin 129 => 0#64) =
        some (fun _ => 0#64, []) ∧
      assertVec f64Codec (fun _ : Fin 129 => 0#64) = .error .encode := by
  constructor
  · have hd := C73_bincode_vector f64Codec_good (fun _ : Fin 129 => 0#64) []
    rwa [List.append_nil] at hd
  · unfold assertVec
    rw [if_pos (by rw [encodeVec_f64_length]; omega)]

/-- An encoding that loses the sign of zero. -/
def unsignedZero : Codec (BitVec 64) where
  enc v := f64Codec.enc (if v = 0x8000000000000000#64 then 0#64 else v)
  dec := f64Codec.dec

/-- C170 fails. The assertion cannot tell the encoding from one that loses the sign of zero: it passes for
exactly the same vectors. -/
theorem C170_zero_fails :
    f64Codec.dec (unsignedZero.enc 0x8000000000000000#64) = some (0#64, []) ∧
    ∀ {n : Nat} (v : Fin n → BitVec 64),
      assertVec unsignedZero v = .ok () ↔ assertVec f64Codec v = .ok () := by
  constructor
  · decide
  · intro n v
    let w : Fin n → BitVec 64 := fun i => if v i = 0x8000000000000000#64 then 0#64 else v i
    have henc : encodeVec unsignedZero v = encodeVec f64Codec w := rfl
    have hdec : decodeVec unsignedZero n (encodeVec unsignedZero v) = some (w, []) := by
      have hd := C73_bincode_vector f64Codec_good w []
      rw [List.append_nil] at hd
      rw [henc, ← hd]
      have : ∀ (n : Nat) (bs : List UInt8), decodeRow unsignedZero n bs = decodeRow f64Codec n bs := by
        intro n
        induction n with
        | zero => intro bs; rfl
        | succ n ih =>
          intro bs
          rw [decodeRow, decodeRow]
          simp only [ih]
          rfl
      exact this n _
    rw [C170_partial.1, C170_sound, henc, encodeVec_f64_length, ← henc, hdec]
    have hn : ∀ i, nan64 (w i) = nan64 (v i) := by
      intro i
      show nan64 (if v i = 0x8000000000000000#64 then 0#64 else v i) = _
      split
      · rename_i h; rw [h]; decide
      · rfl
    constructor
    · rintro ⟨h, w', r, _, hw⟩
      exact ⟨by omega, fun i => (hw i).1⟩
    · rintro ⟨h, hv⟩
      refine ⟨by omega, w, [], rfl, fun i => ⟨hv i, by rw [hn, hv], ?_⟩⟩
      show v i = (if v i = 0x8000000000000000#64 then 0#64 else v i) ∨ _ ∧ (_ ∨ _)
      by_cases h : v i = 0x8000000000000000#64
      · right; exact ⟨Or.inr h, Or.inl (if_pos h)⟩
      · left; rw [if_neg h]

-- One, minus zero and the smallest positive number make a vector that passes; with a NaN it does not.
example : assertVec f64Codec ![0x3FF0000000000000#64, 0x8000000000000000#64, 1#64] = .ok () := by
  rw [C170_partial.1]; decide
example : assertVec f64Codec ![0x7FF8000000000000#64] = .error .differ := by decide +kernel

/-! ## C171 -/

variable {T : Type*}

/-- C171. Stored with bincode, whatever follows: coordinates and Euler angles (three numbers), quaternions
(four), direction cosine matrices and body frames are read back unchanged, and exactly their bytes are used. -/
theorem C171_bincode {c : Codec T} (hc : c.Good) (rest : List UInt8) :
    (∀ v : Fin 3 → T, decodeVec c 3 (encodeVec c v ++ rest) = some (v, rest)) ∧
    (∀ q : Fin 4 → T, decodeVec c 4 (encodeVec c q ++ rest) = some (q, rest)) ∧
    (∀ a : Mat T 3 3, decodeMat c 3 3 (encodeMat c a ++ rest) = some (a, rest)) ∧
    ∀ b : BodyFrame T, decodeBody c (encodeBody c b ++ rest) = some (b, rest) := by
  refine ⟨fun v => C73_bincode_vector hc v rest, fun q => C73_bincode_vector hc q rest,
    fun a => C73_bincode_matrix hc a rest, fun b => ?_⟩
  unfold decodeBody encodeBody
  rw [List.append_assoc, C73_bincode_vector hc]
  simp only
  rw [C73_bincode_vector hc]

theorem ddeVec_ser {n : Nat} (v : Fin n → T) : ddeVec n (dserVec v) = some v := by
  have := visitN_spec (de := DVal.scalar?) (ser := DVal.leaf) (fun b => rfl) v []
  rw [List.append_nil] at this
  simp only [dserVec, ddeVec]
  rw [this]; rfl

theorem ddeRow_ser {n : Nat} (v : Fin n → T) : ddeRow n (dserVec v) = some v := by
  have := visitN_spec (de := DVal.scalar?) (ser := DVal.leaf) (fun b => rfl) v []
  rw [List.append_nil] at this
  simp only [dserVec, ddeRow]
  rw [this]; rfl

theorem ddeMat_ser {m n : Nat} (a : Mat T m n) : ddeMat m n (dserMat a) = some a := by
  have := visitN_spec (de := ddeRow n) (ser := dserVec) ddeRow_ser a []
  rw [List.append_nil] at this
  simp only [dserMat, ddeMat]
  rw [this]; rfl

/-- C171. Through serde, in formats with and without field names, the same are read back unchanged. -/
theorem C171_serde (named : Bool) :
    (∀ q : Fin 4 → T, deAttitude (ddeVec 4) (serAttitude named (dserVec q)) = some q) ∧
    (∀ e : Fin 3 → T, deAttitude (ddeVec 3) (serAttitude named (dserVec e)) = some e) ∧
    (∀ a : Mat T 3 3, deAttitude (ddeMat 3 3) (serAttitude named (dserMat a)) = some a) ∧
    (∀ v : Fin 3 → T, deCart (serCart v) = some v) ∧
    ∀ b : BodyFrame T, deBody (serBody b) = some b := by
  refine ⟨fun q => ?_, fun e => ?_, fun a => ?_, fun v => ddeVec_ser v, fun b => ?_⟩
  · cases named <;> simp [serAttitude, deAttitude, visitFields, DVal.marker, ddeVec_ser]
  · cases named <;> simp [serAttitude, deAttitude, visitFields, DVal.marker, ddeVec_ser]
  · cases named <;> simp [serAttitude, deAttitude, visitFields, DVal.marker, ddeMat_ser]
  · simp [serBody, deBody, deCart, serCart, ddeVec_ser]

/-- Specification: the values stored under a field name. -/
def valuesOf (kvs : List (String × DVal T)) (k : String) : List (DVal T) :=
  (kvs.filter (fun p => p.1 = k)).map (·.2)

theorem marker_iff (x : DVal T) : x.marker = true ↔ x = .unit := by
  cases x <;> simp [DVal.marker]

theorem visitFields_iff {β : Type*} (de : DVal T → Option β) (b : β) : ∀ (kvs : List (String × DVal T))
    (d : Option β) (f t : Bool), visitFields de kvs d f t = some b ↔
      (d.toList.map some ++ (valuesOf kvs "data").map de = [some b] ∧
        (if f then valuesOf kvs "_from" = [] else valuesOf kvs "_from" = [.unit]) ∧
        (if t then valuesOf kvs "_to" = [] else valuesOf kvs "_to" = [.unit]))
  | [], d, f, t => by
    rw [visitFields]
    cases d <;> cases f <;> cases t <;> simp [valuesOf]
  | (k, x) :: rest, d, f, t => by
    rw [visitFields.eq_def]
    simp only
    split
    · rename_i hk
      subst hk
      have e1 : valuesOf (("data", x) :: rest) "data" = x :: valuesOf rest "data" := by simp [valuesOf]
      have e2 : valuesOf (("data", x) :: rest) "_from" = valuesOf rest "_from" := by simp [valuesOf]
      have e3 : valuesOf (("data", x) :: rest) "_to" = valuesOf rest "_to" := by simp [valuesOf]
      rw [e1, e2, e3]
      cases d with
      | some d0 => simp
      | none =>
        simp only
        cases hx : de x with
        | none => simp [hx]
        | some b' =>
          simp only
          rw [visitFields_iff de b rest]
          simp [hx]
    · rename_i hk
      have e1 : valuesOf ((k, x) :: rest) "data" = valuesOf rest "data" := by simp [valuesOf, hk]
      rw [e1]
      split
      · rename_i hk2
        subst hk2
        have e2 : valuesOf (("_from", x) :: rest) "_from" = x :: valuesOf rest "_from" := by simp [valuesOf]
        have e3 : valuesOf (("_from", x) :: rest) "_to" = valuesOf rest "_to" := by simp [valuesOf]
        rw [e2, e3]
        cases f with
        | true => simp
        | false =>
          simp only [Bool.false_eq_true, if_false]
          split
          · rename_i hm
            rw [visitFields_iff de b rest]
            simp [(marker_iff x).1 hm]
          · rename_i hm
            have : x ≠ .unit := fun h => hm ((marker_iff x).2 h)
            simp [this]
      · rename_i hk2
        have e2 : valuesOf ((k, x) :: rest) "_from" = valuesOf rest "_from" := by simp [valuesOf, hk2]
        rw [e2]
        split
        · rename_i hk3
          subst hk3
          have e3 : valuesOf (("_to", x) :: rest) "_to" = x :: valuesOf rest "_to" := by simp [valuesOf]
          rw [e3]
          cases t with
          | true => simp
          | false =>
            simp only [Bool.false_eq_true, if_false]
            split
            · rename_i hm
              rw [visitFields_iff de b rest]
              simp [(marker_iff x).1 hm]
            · rename_i hm
              have : x ≠ .unit := fun h => hm ((marker_iff x).2 h)
              simp [this]
        · rename_i hk3
          have e3 : valuesOf ((k, x) :: rest) "_to" = valuesOf rest "_to" := by simp [valuesOf, hk3]
          rw [e3, visitFields_iff de b rest]

/-- C171. A record is read as an attitude exactly if it has one field `data` with the numbers and one marker
for each of the two frames. The order of the fields and other fields do not matter. -/
theorem C171_record {β : Type*} (de : DVal T → Option β) (kvs : List (String × DVal T)) (b : β) :
    deAttitude de (.map kvs) = some b ↔
      (∃ x, valuesOf kvs "data" = [x] ∧ de x = some b) ∧
        valuesOf kvs "_from" = [.unit] ∧ valuesOf kvs "_to" = [.unit] := by
  unfold deAttitude
  rw [visitFields_iff]
  simp [List.map_eq_singleton_iff]

/-- C171. A sequence is read as an attitude exactly if it begins with the numbers and a marker for each of the
two frames; a scalar or a marker alone is never read as one. -/
theorem C171_sequence {β : Type*} (de : DVal T → Option β) (b : β) :
    (∀ l : List (DVal T), deAttitude de (.seq l) = some b ↔ ∃ x rest, l = x :: .unit :: .unit :: rest ∧ de x = some b) ∧
      (∀ x : T, deAttitude de (.leaf x) = none) ∧ deAttitude de (.unit : DVal T) = none := by
  refine ⟨fun l => ?_, fun x => rfl, rfl⟩
  match l with
  | [] => simp [deAttitude]
  | [_] => simp [deAttitude]
  | [_, _] => simp [deAttitude]
  | d :: f :: t :: rest =>
    unfold deAttitude
    cases hd : de d with
    | none => simp [hd]
    | some b' =>
      simp only [hd]
      constructor
      · intro h
        split at h
        · rename_i hm
          rw [Bool.and_eq_true, marker_iff, marker_iff] at hm
          exact ⟨d, rest, by rw [hm.1, hm.2], by rw [hd]; exact h⟩
        · cases h
      · rintro ⟨x, r, e, hx⟩
        simp only [List.cons.injEq] at e
        obtain ⟨rfl, rfl, rfl, -⟩ := e
        rw [hd] at hx
        exact hx

-- Three elements, the second a number in the place of a marker: not an attitude.
example : deAttitude (ddeVec 3) (.seq [dserVec ![1, 2, 3], .leaf 7, .unit]) = (none : Option (Fin 3 → Nat)) := by
  cases h : deAttitude (ddeVec 3) (.seq [dserVec ![1, 2, 3], .leaf 7, .unit]) with
  | none => rfl
  | some b =>
    obtain ⟨x, rest, e, -⟩ := ((C171_sequence (ddeVec 3) b).1 _).1 h
    simp at e

-- Fields in another order, with one more.
example : (deAttitude (ddeVec 3) (.map [("_to", .unit), ("data", dserVec ![1, 2, 3]), ("x", .leaf 7),
    ("_from", .unit)])) = some ![(1 : Nat), 2, 3] := by
  rw [C171_record]
  exact ⟨⟨_, rfl, ddeVec_ser _⟩, rfl, rfl⟩

/-! ## C172 -/

/-- C172 (partial). A stored value is never read as one of a kind with more numbers: Euler angles or
coordinates are not read as a quaternion, and coordinates not as a body frame. Missing: kinds with fewer or
equally many numbers. -/
theorem C172_partial :
    (∀ v : Fin 3 → BitVec 64, decodeVec f64Codec 4 (encodeVec f64Codec v) = none ∧
      decodeBody f64Codec (encodeVec f64Codec v) = none) ∧
    ∀ (named : Bool) (e : Fin 3 → T), deAttitude (ddeVec 4) (serAttitude named (dserVec e)) = none := by
  have short : ∀ (n : Nat) (bs : List UInt8), bs.length < n * 8 → decodeVec f64Codec n bs = none := by
    intro n bs h
    cases e : decodeVec f64Codec n bs with
    | none => rfl
    | some p =>
      have := decodeRow_exact f64Codec_exact e
      have h2 := encodeVec_f64_length p.1
      unfold encodeVec at h2
      rw [this, List.length_append, h2] at h
      omega
  refine ⟨fun v => ⟨short 4 _ (by rw [encodeVec_f64_length]; omega), ?_⟩, fun named e => ?_⟩
  · have hd := C73_bincode_vector f64Codec_good v []
    rw [List.append_nil] at hd
    unfold decodeBody
    rw [hd]
    simp only
    rw [short 3 [] (by simp)]
  · have h : ddeVec 4 (dserVec e) = none := by
      simp [ddeVec, dserVec, visitN, List.finRange_succ, DVal.scalar?]
    cases named <;> simp [serAttitude, deAttitude, visitFields, h]

/-- C172 fails. A stored quaternion is read as Euler angles or as coordinates without an error: the scalar part
becomes the roll angle. With bincode eight bytes are left unread; with serde the last number is passed over
(unless the format itself checks the end of a sequence). -/
theorem C172_fails {c : Codec T} (hc : c.Good) (q : Fin 4 → T) :
    decodeVec c 3 (encodeVec c q) = some (![q 0, q 1, q 2], c.enc (q 3)) ∧
    ∀ named, deAttitude (ddeVec 3) (serAttitude named (dserVec q)) = some ![q 0, q 1, q 2] := by
  constructor
  · have := C73_bincode_vector hc ![q 0, q 1, q 2] (c.enc (q 3))
    rw [← this]
    congr 1
    simp [encodeVec, List.finRange_succ]
  · intro named
    have h : ddeVec 3 (dserVec q) = some ![q 0, q 1, q 2] := by
      simp [ddeVec, dserVec, visitN, List.finRange_succ, DVal.scalar?]
      funext i; fin_cases i <;> rfl
    cases named <;> simp [serAttitude, deAttitude, visitFields, DVal.marker, h]

theorem scalar_exact (x : DVal T) (b : T) (h : x.scalar? = some b) : x = .leaf b := by
  cases x with
  | leaf v => rw [DVal.scalar?, Option.some.injEq] at h; rw [h]
  | unit => cases h
  | seq l => cases h
  | map l => cases h

theorem checkEnd_some {V β : Type*} {x : Option (β × List V)} {b : β} (h : checkEnd x = some b) : x = some (b, []) := by
  match x with
  | none => cases h
  | some (c, []) => rw [checkEnd, Option.some.injEq] at h; rw [h]
  | some (c, y :: ys) => cases h

theorem ddeRow_exact {n : Nat} (x : DVal T) (v : Fin n → T) (h : ddeRow n x = some v) : x = dserVec v := by
  match x with
  | .leaf _ => cases h
  | .unit => cases h
  | .map _ => cases h
  | .seq xs =>
    have := visitN_exact (ser := DVal.leaf) scalar_exact (checkEnd_some h)
    rw [List.append_nil] at this
    rw [dserVec, this]

/-- C172 (partial). Which stored values are accepted: as a matrix, exactly the stored form of that matrix, with no row
or number more or less; as a vector (and so as coordinates, Euler angles or a quaternion), exactly a sequence that
begins with its numbers; as a body frame, exactly a sequence that begins with two such sequences. -/
theorem C172_accepts_partial :
    (∀ {m n : Nat} (x : DVal T) (a : Mat T m n), ddeMat m n x = some a ↔ x = dserMat a) ∧
    (∀ {n : Nat} (x : DVal T) (v : Fin n → T), ddeVec n x = some v ↔
      ∃ more, x = .seq ((List.finRange n).map (fun i => .leaf (v i)) ++ more)) ∧
    ∀ (x : DVal T) (b : BodyFrame T), deBody x = some b ↔
      ∃ m l more, x = .seq (m :: l :: more) ∧ deCart m = some b.massCenter ∧ deCart l = some b.leverArm := by
  refine ⟨fun x a => ⟨fun h => ?_, fun h => by rw [h, ddeMat_ser]⟩, fun {n} x v => ⟨fun h => ?_, ?_⟩,
    fun x b => ⟨fun h => ?_, ?_⟩⟩
  · match x with
    | .leaf _ => cases h
    | .unit => cases h
    | .map _ => cases h
    | .seq xs =>
      have := visitN_exact (ser := dserVec) ddeRow_exact (checkEnd_some h)
      rw [List.append_nil] at this
      rw [dserMat, this]
  · match x with
    | .leaf _ => cases h
    | .unit => cases h
    | .map _ => cases h
    | .seq xs =>
      rw [ddeVec, Option.map_eq_some_iff] at h
      obtain ⟨⟨w, rest⟩, h1, h2⟩ := h
      have h2 : w = v := h2
      subst h2
      exact ⟨rest, by rw [visitN_exact (ser := DVal.leaf) scalar_exact h1]⟩
  · rintro ⟨more, rfl⟩
    rw [ddeVec, visitN_spec (de := DVal.scalar?) (ser := DVal.leaf) (fun b => rfl) v more]
    rfl
  · match x with
    | .leaf _ => cases h
    | .unit => cases h
    | .map _ => cases h
    | .seq [] => cases h
    | .seq [_] => cases h
    | .seq (m :: l :: more) =>
      rw [deBody] at h
      split at h
      · cases h
      · rename_i m' h1
        split at h
        · cases h
        · rename_i l' h2
          rw [Option.some.injEq] at h
          subst h
          exact ⟨m, l, more, rfl, h1, h2⟩
  · rintro ⟨m, l, more, rfl, h1, h2⟩
    rw [deBody, h1, h2]

-- A matrix with one row too many, and one with a row too long, are not accepted.
example : ddeMat 1 2 (.seq [dserVec ![1, 2], dserVec ![3, 4]]) = (none : Option (Mat Nat 1 2)) ∧
    ddeMat 1 2 (.seq [dserVec ![1, 2, 3]]) = (none : Option (Mat Nat 1 2)) := by
  constructor
  · cases h : ddeMat 1 2 (.seq [dserVec ![1, 2], dserVec ![3, 4]]) with
    | none => rfl
    | some a =>
      have := (C172_accepts_partial.1 _ _).1 h
      simp [dserMat, List.finRange_succ] at this
  · cases h : ddeMat 1 2 (.seq [dserVec ![1, 2, 3]]) with
    | none => rfl
    | some a =>
      have := (C172_accepts_partial.1 _ _).1 h
      simp [dserMat, dserVec, List.finRange_succ] at this

end Verif.Mat
