import Verif.Stars.Gate
import Mathlib.Tactic.Linarith

/-!
# C67: a catalogue file is parsed only if its checksum matches

Specification vocabulary: `unhex` decodes a hexadecimal string, upper or lower case, into bytes; `H.digest c` is the hash of the bytes `c` in
one piece; `Reads c l` says that the reads `l` deliver the file `c`, in non-empty pieces of any sizes.
-/

namespace Verif.Stars

/-- The value of a hexadecimal digit, upper or lower case. -/
def nibble (c : UInt8) : Option ℕ :=
  if 48 ≤ c ∧ c ≤ 57 then some (c.toNat - 48)
  else if 97 ≤ c ∧ c ≤ 102 then some (c.toNat - 87)
  else if 65 ≤ c ∧ c ≤ 70 then some (c.toNat - 55)
  else none

/-- The bytes spelled by a hexadecimal string. -/
def unhex : List UInt8 → Option (List UInt8)
  | [] => some []
  | [_] => none
  | a :: b :: rest => do
    let hi ← nibble a
    let lo ← nibble b
    let l ← unhex rest
    return UInt8.ofNat (16 * hi + lo) :: l

/-- Feeding two pieces is feeding their concatenation, and an empty piece changes nothing. -/
structure Hasher.Streaming (H : Hasher) : Prop where
  append : ∀ s a b, H.update (H.update s a) b = H.update s (a ++ b)
  nil : ∀ s, H.update s [] = s

/-- The hash of a whole file. -/
def Hasher.digest (H : Hasher) (c : List UInt8) : List UInt8 := H.finalize (H.update H.init c)

/-- The successive reads deliver exactly the file `c`, in non-empty pieces. -/
def Reads (c : List UInt8) (l : List Read) : Prop := ∃ p : List (List UInt8), (∀ b ∈ p, b ≠ []) ∧ l = p.map Read.bytes ∧ p.flatten = c

theorem drain_pieces (H : Hasher) (hs : H.Streaming) (p : List (List UInt8)) (hp : ∀ b ∈ p, b ≠ []) :
    ∀ s, drain H s (p.map Read.bytes) = some (H.update s p.flatten) := by
  induction p with
  | nil => intro s; simp [drain, hs.nil]
  | cons b p ih =>
    intro s
    simp only [List.map_cons, drain, List.flatten_cons]
    rw [if_neg (fun h => hp b List.mem_cons_self (List.length_eq_zero_iff.mp h)), ih (fun b hb => hp b (List.mem_cons_of_mem _ hb)), hs.append]

theorem drain_error (H : Hasher) (p : List (List UInt8)) (hp : ∀ b ∈ p, b ≠ []) (rest : List Read) :
    ∀ s, drain H s (p.map Read.bytes ++ Read.error :: rest) = none := by
  induction p with
  | nil => intro s; rfl
  | cons b p ih =>
    intro s
    simp only [List.map_cons, List.cons_append, drain]
    rw [if_neg (fun h => hp b List.mem_cons_self (List.length_eq_zero_iff.mp h))]
    exact ih (fun b hb => hp b (List.mem_cons_of_mem _ hb)) _

theorem nibble_iff : ∀ k : Fin 256, ∀ n : Fin 16, asciiLower (hexDigit n) = asciiLower (UInt8.ofNat k) ↔ nibble (UInt8.ofNat k) = some n.val := by
  decide +kernel

theorem nibble_spec (c : UInt8) (n : ℕ) (hn : n < 16) : asciiLower (hexDigit n) = asciiLower c ↔ nibble c = some n := by
  have := nibble_iff ⟨c.toNat, c.toNat_lt⟩ ⟨n, hn⟩
  simpa using this

theorem nibble_lt (c : UInt8) (n : ℕ) (h : nibble c = some n) : n < 16 := by
  have : ∀ k : Fin 256, ∀ n, nibble (UInt8.ofNat k) = some n → n < 16 := by
    intro k
    have : (nibble (UInt8.ofNat k)).all (· < 16) = true := by revert k; decide +kernel
    intro n hn
    rw [hn] at this
    simpa using this
  exact this ⟨c.toNat, c.toNat_lt⟩ n (by simpa using h)

theorem unhex_spec (d e : List UInt8) : eqIgnoreCase (hex d) e = true ↔ unhex e = some d := by
  unfold eqIgnoreCase
  rw [beq_iff_eq]
  induction d generalizing e with
  | nil =>
    match e with
    | [] => simp [hex, unhex]
    | [a] => simp [hex, unhex]
    | a :: b :: rest =>
      simp only [hex, List.map_nil, List.map_cons, unhex]
      constructor
      · intro h; cases h
      · intro h
        simp only [Option.bind_eq_bind, Option.bind_eq_some_iff, Option.pure_def, Option.some.injEq] at h
        obtain ⟨_, _, _, _, _, _, h⟩ := h
        cases h
  | cons x d ih =>
    have hx : x.toNat < 256 := x.toNat_lt
    match e with
    | [] => simp [hex, unhex]
    | [a] => simp [hex, unhex]
    | a :: b :: rest =>
      simp only [hex, List.map_cons, unhex, List.cons.injEq]
      rw [nibble_spec a _ (by omega), nibble_spec b _ (by omega), ih rest]
      constructor
      · rintro ⟨h1, h2, h3⟩
        rw [h1, h2, h3]
        simp only [Option.bind_eq_bind, Option.bind_some, Option.pure_def, Option.some.injEq, List.cons.injEq, and_true]
        rw [show 16 * (x.toNat / 16) + x.toNat % 16 = x.toNat by omega]
        exact UInt8.ofNat_toNat
      · intro h
        simp only [Option.bind_eq_bind, Option.bind_eq_some_iff, Option.pure_def, Option.some.injEq, List.cons.injEq] at h
        obtain ⟨hi, h1, lo, h2, l, h3, h4, rfl⟩ := h
        have := nibble_lt a hi h1
        have := nibble_lt b lo h2
        have hv : x.toNat = 16 * hi + lo := by
          rw [← h4, UInt8.toNat_ofNat']
          omega
        refine ⟨?_, ?_, h3⟩
        · rw [h1, hv]; congr 1; omega
        · rw [h2, hv]; congr 1; omega

/-- C67. Verification of a file that can be opened and read succeeds exactly when the expected string spells, in hexadecimal of either case, the
digest of the whole file, whatever pieces the reads return. If the file cannot be opened, or any read fails, it does not succeed. -/
theorem C67_checksum (H : Hasher) (hs : H.Streaming) (expected : List UInt8) :
    (∀ c l, Reads c l → (verifyChecksum H (some l) expected = some () ↔ unhex expected = some (H.digest c))) ∧
    verifyChecksum H none expected = none ∧
    (∀ c l rest, Reads c l → verifyChecksum H (some (l ++ Read.error :: rest)) expected = none) := by
  refine ⟨?_, rfl, ?_⟩
  · rintro c l ⟨p, hp, rfl, rfl⟩
    simp only [verifyChecksum, Option.bind_eq_bind, Option.bind_some, drain_pieces H hs p hp]
    rw [← unhex_spec]
    by_cases h : eqIgnoreCase (hex (H.finalize (H.update H.init p.flatten))) expected = true
    · rw [if_pos h]; exact ⟨fun _ => h, fun _ => rfl⟩
    · rw [if_neg h]; exact ⟨fun h' => (by cases h'), fun h' => absurd h' h⟩
  · rintro c l rest ⟨p, hp, rfl, rfl⟩
    simp only [verifyChecksum, Option.bind_eq_bind, Option.bind_some, drain_error H p hp]
    rfl

/-- A hash function for the examples: it keeps the last byte. -/
def lastByte : Hasher := ⟨List UInt8, [], fun s a => s ++ a, fun s => s.drop (s.length - 1)⟩

theorem lastByte_streaming : lastByte.Streaming := ⟨fun s a b => List.append_assoc s a b, fun s => List.append_nil s⟩

/-- The file `[1, 2, 175]`, read in two pieces, is accepted for the expected strings `af` and `Af`. -/
example : verifyChecksum lastByte (some [.bytes [1], .bytes [2, 175]]) [97, 102] = some () ∧
    verifyChecksum lastByte (some [.bytes [1, 2, 175]]) [65, 102] = some () := by decide

theorem keepRows_eq {Row : Type} (l : List (Option Row)) : ∀ acc, keepRows l acc = acc ++ l.filterMap id := by
  induction l with
  | nil => intro acc; simp [keepRows]
  | cons o l ih => intro acc; cases o <;> simp [keepRows, ih]

/-- C67 (in part). If the file has the same content `c` when it is hashed and when it is parsed, records are returned exactly when the expected string
spells the digest of `c`, and they are the well-formed rows of `c`, in order. Missing: a file that changes between the two, see `C67_fails`. -/
theorem C67_partial {Row : Type} (H : Hasher) (hs : H.Streaming) (parse : List UInt8 → List (Option Row)) (c : List UInt8) (l : List Read)
    (hl : Reads c l) (expected : List UInt8) :
    (unhex expected = some (H.digest c) → fromCsvWithExpected H parse (some l) (some c) expected = some ((parse c).filterMap id)) ∧
    (unhex expected ≠ some (H.digest c) → fromCsvWithExpected H parse (some l) (some c) expected = none) := by
  have h := (C67_checksum H hs expected).1 c l hl
  constructor
  · intro he
    simp only [fromCsvWithExpected, h.mpr he, fromCsv, Option.bind_eq_bind, Option.bind_some, Option.pure_def]
    rw [keepRows_eq, List.nil_append]
  · intro he
    have : verifyChecksum H (some l) expected = none := by
      rcases hv : verifyChecksum H (some l) expected with _ | u
      · rfl
      · exact absurd (h.mp hv) he
    simp only [fromCsvWithExpected, this, Option.bind_eq_bind, Option.bind_none]

/-- Whatever happens between the two, records come only from a run whose first reading of the file had the expected digest. -/
theorem C67_first_reading {Row : Type} (H : Hasher) (hs : H.Streaming) (parse : List UInt8 → List (Option Row)) (c : List UInt8) (l : List Read)
    (hl : Reads c l) (second : Option (List UInt8)) (expected : List UInt8) (r : List Row)
    (h : fromCsvWithExpected H parse (some l) second expected = some r) : unhex expected = some (H.digest c) := by
  rcases hv : verifyChecksum H (some l) expected with _ | u
  · simp only [fromCsvWithExpected, hv, Option.bind_eq_bind, Option.bind_none] at h
    cases h
  · exact ((C67_checksum H hs expected).1 c l hl).mp hv

/-- A file accepted and parsed: two rows, one of them malformed. -/
example : Reads [1, 2, 175] [.bytes [1], .bytes [2, 175]] ∧
    fromCsvWithExpected lastByte (fun c => c.map fun b => if b < 2 then none else some b) (some [.bytes [1], .bytes [2, 175]])
      (some [1, 2, 175]) [97, 102] = some [2, 175] :=
  ⟨⟨[[1], [2, 175]], by decide, rfl, rfl⟩, by decide⟩

/-- C67 fails: the file is opened once to be hashed and again to be parsed. For any two contents `c`, `c'`, if the file is replaced in between, the
rows of `c'` are returned although the expected string spells the digest of `c`; a hash function and contents with different digests exist. -/
theorem C67_fails : (∀ (Row : Type) (H : Hasher), H.Streaming → ∀ (parse : List UInt8 → List (Option Row)) (c c' : List UInt8) (l : List Read),
      Reads c l → fromCsvWithExpected H parse (some l) (some c') (hex (H.digest c)) = some ((parse c').filterMap id)) ∧
    ∃ (H : Hasher) (c c' : List UInt8), H.Streaming ∧ H.digest c ≠ H.digest c' ∧ ∃ l, Reads c l := by
  constructor
  · intro Row H hs parse c c' l hl
    have hx : unhex (hex (H.digest c)) = some (H.digest c) := by
      rw [← unhex_spec]; unfold eqIgnoreCase; exact beq_self_eq_true _
    simp only [fromCsvWithExpected, ((C67_checksum H hs _).1 c l hl).mpr hx, fromCsv, Option.bind_eq_bind, Option.bind_some, Option.pure_def]
    rw [keepRows_eq, List.nil_append]
  · exact ⟨lastByte, [1], [2], lastByte_streaming, by decide, [.bytes [1]], [[1]], by decide, rfl, rfl⟩

/-- C67. The built-in expected string spells 32 bytes, the length of a SHA-256 digest. -/
theorem C67_builtin : ∃ d, unhex gncV11 = some d ∧ d.length = 32 := by
  refine ⟨[211, 23, 38, 135, 38, 255, 95, 210, 141, 135, 214, 227, 208, 163, 170, 15, 38, 171, 192, 64, 138, 67, 231, 17, 244, 184, 117, 121, 187, 0, 182, 64], ?_, rfl⟩
  decide +kernel

end Verif.Stars
