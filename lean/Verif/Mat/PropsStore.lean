import Verif.Mat.StoreLemmas
import Verif.Mat.Lemmas
import Mathlib.Algebra.Order.Field.Basic
import Mathlib.Analysis.Real.Sqrt
import Mathlib.Data.Rat.Defs
import Mathlib.Tactic.Linarith

/-!
# C27 tensor indexing, C70 approximate equality, C73 serialisation

`InBounds idx shape`: same rank, and every index below its dimension.
-/

namespace Verif.Mat

/-- A multi-index is in bounds for a shape. -/
abbrev InBounds (idx shape : List Nat) : Prop := List.Forall₂ (· < ·) idx shape

/-! ## C27 -/

/-- C27. The offset of an in-bounds multi-index is within the storage; different in-bounds indices have
different offsets; every storage slot is the offset of an in-bounds index. -/
theorem C27_bijection (shape : List Nat) :
    (∀ idx, InBounds idx shape → ∃ o, offset shape idx = some o ∧ o < shape.prod) ∧
    (∀ idx idx', InBounds idx shape → InBounds idx' shape → offset shape idx = offset shape idx' →
      idx = idx') ∧
    ∀ o, o < shape.prod → ∃ idx, InBounds idx shape ∧ offset shape idx = some o := by
  refine ⟨?_, ?_, ?_⟩
  · intro idx h
    exact ⟨_, offset_eq h.length_eq.symm, rowMajor_lt h⟩
  · intro idx idx' h h' e
    rw [offset_eq h.length_eq.symm, offset_eq h'.length_eq.symm] at e
    exact rowMajor_inj h h' (Option.some.inj e)
  · intro o ho
    obtain ⟨idx, h1, h2⟩ := rowMajor_surj shape o ho
    exact ⟨idx, h1, by rw [offset_eq h1.length_eq.symm, h2]⟩

/-- C27. Row-major order: prefixing a dimension `d` and an index `i` adds `i` times the size of the rest. -/
theorem C27_row_major (d i : Nat) (shape idx : List Nat) (h : shape.length = idx.length) :
    offset [] [] = some 0 ∧
      offset (d :: shape) (i :: idx) = (offset shape idx).map (fun o => i * shape.prod + o) := by
  refine ⟨rfl, ?_⟩
  rw [offset_eq (by simp [h]), offset_eq h]; rfl

/-- C27. Through a view over `shape.prod` elements, reading an in-bounds index never panics; writing one
index changes what that index reads and nothing else. -/
theorem C27_view {α : Type*} (data : List α) (shape idx idx' : List Nat) (v : α)
    (hlen : data.length = shape.prod) (h : InBounds idx shape) (h' : InBounds idx' shape) :
    (∃ x, viewGet data shape idx = some x) ∧ ∃ data', viewSet data shape idx v = some data' ∧
      data'.length = data.length ∧ viewGet data' shape idx = some v ∧
      (idx' ≠ idx → viewGet data' shape idx' = viewGet data shape idx') := by
  have e := offset_eq h.length_eq.symm
  have e' := offset_eq h'.length_eq.symm
  have hlt := rowMajor_lt h
  rw [← hlen] at hlt
  refine ⟨⟨data[rowMajor shape idx], ?_⟩, data.set (rowMajor shape idx) v, ?_, ?_, ?_, ?_⟩
  · unfold viewGet; rw [e]; simp [hlt]
  · unfold viewSet; rw [e]; simp [hlt]
  · simp
  · unfold viewGet; rw [e]; simp [hlt]
  · intro hne
    unfold viewGet; rw [e']
    simp only [Option.bind_some]
    rw [List.getElem?_set_ne]
    intro heq
    exact hne (rowMajor_inj h' h heq.symm)

/-- C27. The flat slice of a rank-3 tensor, viewed with the tensor's dimensions, reads the tensor. -/
theorem C27_tensor3 {α : Type*} {d0 d1 d2 : Nat} (t : Fin d0 → Fin d1 → Fin d2 → α) (i : Fin d0)
    (j : Fin d1) (k : Fin d2) :
    (tensor3Flat t).length = d0 * d1 * d2 ∧
      viewGet (tensor3Flat t) [d0, d1, d2] [i.1, j.1, k.1] = some (t i j k) := by
  have hin : ∀ i j, ((List.finRange d2).map fun k => t i j k).length = d2 := by intro i j; simp
  have hmid : ∀ i, ((List.finRange d1).flatMap fun j => (List.finRange d2).map fun k => t i j k).length
      = d1 * d2 := fun i => flatMap_length _ (hin i)
  refine ⟨by unfold tensor3Flat; rw [flatMap_length _ hmid, Nat.mul_assoc], ?_⟩
  have hb : InBounds [j.1, k.1] [d1, d2] :=
    List.Forall₂.cons j.2 (List.Forall₂.cons k.2 List.Forall₂.nil)
  have hlt := rowMajor_lt hb
  unfold viewGet
  rw [offset_eq (by rfl)]
  simp only [Option.bind_some]
  have e1 : rowMajor [d0, d1, d2] [i.1, j.1, k.1] = i.1 * (d1 * d2) + (j.1 * d2 + k.1) := by
    simp [rowMajor]
  have hlt2 : j.1 * d2 + k.1 < d1 * d2 := by simpa [rowMajor] using hlt
  rw [e1]
  unfold tensor3Flat
  rw [flatMap_block _ hmid i _ hlt2, flatMap_block _ (hin i) j _ k.2]
  simp

/-- C27. The bounds checks are debug assertions: in a release build an out-of-range index within the storage
reads another element instead of panicking. -/
theorem C27_release_alias_fails {α : Type*} (data : List α) :
    ¬ InBounds [0, 4] [2, 3] ∧ viewGet data [2, 3] [0, 4] = viewGet data [2, 3] [1, 1] :=
  ⟨by decide, rfl⟩

example : InBounds [1, 2, 3] [2, 3, 4] ∧ offset [2, 3, 4] [1, 2, 3] = some 23 := by decide

/-! ## C73 -/

variable {T : Type*}

/-- C73. Decoding what was encoded, whatever follows it, returns the matrix and exactly what follows. -/
theorem C73_bincode_matrix {c : Codec T} (hc : c.Good) {m n : Nat} (a : Mat T m n) (rest : List UInt8) :
    decodeMat c n m (encodeMat c a ++ rest) = some (a, rest) := decodeMat_spec hc a rest

/-- C73. The same for vectors. -/
theorem C73_bincode_vector {c : Codec T} (hc : c.Good) {n : Nat} (v : Fin n → T) (rest : List UInt8) :
    decodeVec c n (encodeVec c v ++ rest) = some (v, rest) := decodeRow_spec hc v rest

/-- C73. For `f64` entries: a matrix takes `8 m n` bytes, any `8 m n` bytes are the encoding of exactly one
matrix, and a shorter input is an error. (Entries are bit patterns, so NaN payloads are preserved.) -/
theorem C73_bincode_f64 {m n : Nat} :
    (∀ a : Mat (BitVec 64) m n, (encodeMat f64Codec a).length = m * (n * 8)) ∧
    (∀ (bs rest : List UInt8) (a : Mat (BitVec 64) m n),
      decodeMat f64Codec n m bs = some (a, rest) ↔ bs = encodeMat f64Codec a ++ rest) ∧
    ∀ bs : List UInt8, bs.length < m * (n * 8) → decodeMat f64Codec n m bs = none := by
  have hlen : ∀ a : Mat (BitVec 64) m n, (encodeMat f64Codec a).length = m * (n * 8) := by
    intro a
    unfold encodeMat
    refine flatMap_length _ (fun r => flatMap_length _ (fun k => ?_))
    simp [f64Codec]
  have hiff : ∀ (bs rest : List UInt8) (a : Mat (BitVec 64) m n),
      decodeMat f64Codec n m bs = some (a, rest) ↔ bs = encodeMat f64Codec a ++ rest := by
    intro bs rest a
    constructor
    · exact fun h => decodeMat_exact f64Codec_exact h
    · rintro rfl; exact decodeMat_spec f64Codec_good a rest
  refine ⟨hlen, hiff, ?_⟩
  intro bs hbs
  cases h : decodeMat f64Codec n m bs with
  | none => rfl
  | some p =>
    have := (hiff bs p.2 p.1).1 h
    rw [this, List.length_append, hlen] at hbs
    omega

/-- C73. Through serde a matrix round-trips, and deserialising an `M × N` matrix succeeds on nothing else
than `M` rows of `N` scalars: every wrong row count, row length or nesting is an error. -/
theorem C73_serde_matrix {m n : Nat} (s : SVal T) (a : Mat T m n) :
    deMat m n s = some a ↔ s = serMat a := by
  cases s with
  | leaf w => simp [deMat, serMat]
  | seq xs =>
    have e : serMat a = .seq ((List.finRange m).map fun r => serVec (a r)) := rfl
    rw [e]
    simp only [deMat, checkEnd_iff, SVal.seq.injEq]
    constructor
    · intro h
      have := visitN_exact (ser := serVec) (fun x b hb => (deRow_iff x b).1 hb) h
      simpa using this
    · intro h
      have := visitN_spec (de := deRow n) (ser := serVec) (fun b => (deRow_iff _ b).2 rfl) a []
      rw [List.append_nil] at this
      rw [h]; exact this

/-- C73. Vectors round-trip, and a sequence that is too short is an error. Missing: a sequence that is too
long should be an error as well, see `C73_vector_too_long_fails`. -/
theorem C73_serde_vector_partial {n : Nat} (v : Fin n → T) :
    deVec n (serVec v) = some v ∧
      ∀ xs : List (SVal T), xs.length < n → deVec n (.seq xs) = none := by
  refine ⟨?_, ?_⟩
  · have := visitN_spec (de := SVal.scalar?) (ser := SVal.leaf) (fun b => rfl) v []
    rw [List.append_nil] at this
    simp only [serVec, deVec]
    rw [this]; rfl
  · intro xs hx
    simp only [deVec]
    cases h : visitN SVal.scalar? n xs with
    | none => rfl
    | some p =>
      have := visitN_exact (ser := SVal.leaf) (fun x b hb => (scalar_iff x b).1 hb) h
      rw [this] at hx
      simp at hx

/-- C73 fails for vectors that are too long: the visitor accepts any sequence with at least `n` scalars,
and drops the rest. -/
theorem C73_vector_too_long_fails {n : Nat} (v : Fin n → T) (x : SVal T) (xs : List (SVal T)) :
    deVec n (.seq ((List.finRange n).map (fun i => .leaf (v i)) ++ x :: xs)) = some v := by
  simp only [deVec]
  rw [visitN_spec (de := SVal.scalar?) (ser := SVal.leaf) (fun b => rfl) v (x :: xs)]
  rfl

/-- C73. Collecting an iterator into a vector succeeds exactly when it yields `n` items, in order. -/
theorem C73_from_iter {n : Nat} (xs : List T) (v : Fin n → T) :
    fromIter n xs = some v ↔ xs = List.ofFn v := by
  induction n generalizing xs with
  | zero =>
    cases xs with
    | nil => simp [fromIter]; funext i; exact i.elim0
    | cons x xs => simp [fromIter]
  | succ n ih =>
    cases xs with
    | nil => simp [fromIter]
    | cons x xs =>
      simp only [fromIter, Option.map_eq_some_iff, ih, List.ofFn_succ, List.cons.injEq]
      constructor
      · rintro ⟨w, rfl, rfl⟩; simp
      · rintro ⟨rfl, h⟩
        exact ⟨fun i => v i.succ, h, Fin.cons_self_tail v⟩

-- The codec hypotheses are met by the `f64` codec.
example : f64Codec.Good := f64Codec_good
example : (decodeMat f64Codec 2 1 (encodeMat f64Codec
    (fun _ j => if j = 0 then 7#64 else 0x3FF0000000000000#64 : Mat (BitVec 64) 1 2)
    ++ [1, 2, 3])).map (fun p => (p.1 0 0, p.1 0 1, p.2)) = some (7#64, 0x3FF0000000000000#64, [1, 2, 3]) := by
  decide +kernel

/-! ## C70 -/

section Approx
variable {K : Type*} [Field K] [LinearOrder K] [IsStrictOrderedRing K] {m n : Nat}

theorem find_finRange {n : Nat} (p : Fin n → Bool) (i : Fin n) :
    (List.finRange n).find? p = some i ↔ p i = true ∧ ∀ j, j < i → p j = false := by
  rw [List.find?_eq_some_iff_getElem]
  constructor
  · rintro ⟨h1, k, hk, e, h2⟩
    have hki : i.1 = k := by rw [← e]; simp
    refine ⟨h1, fun j hj => ?_⟩
    have := h2 j.1 (by rw [← hki]; exact hj)
    simpa using this
  · rintro ⟨h1, h2⟩
    refine ⟨h1, i.1, by simp, by simp, ?_⟩
    intro j hj
    have := h2 ⟨j, by omega⟩ hj
    simpa using this

omit [IsStrictOrderedRing K] in
/-- C70. Vector comparison succeeds iff every entry is within the tolerance; otherwise it reports the first
index that is not. -/
theorem C70_vector (a b : Fin n → K) (tol : K) :
    (vectorApproxEq a b tol = none ↔ ∀ i, |a i - b i| ≤ tol) ∧
      ∀ i, vectorApproxEq a b tol = some i ↔
        tol < |a i - b i| ∧ ∀ j, j < i → |a j - b j| ≤ tol := by
  unfold vectorApproxEq
  refine ⟨?_, ?_⟩
  · simp
  · intro i
    rw [find_finRange]
    simp

omit [IsStrictOrderedRing K] in
/-- C70. Matrix comparison succeeds iff every entry is within the tolerance; otherwise it reports the first
failing position in reading order (rows first). -/
theorem C70_matrix (a b : Mat K m n) (tol : K) :
    (matrixApproxEq a b tol = none ↔ ∀ r c, |a r c - b r c| ≤ tol) ∧
      ∀ r c, matrixApproxEq a b tol = some (r, c) ↔
        tol < |a r c - b r c| ∧ (∀ r' c', r' < r → |a r' c' - b r' c'| ≤ tol) ∧
          ∀ c', c' < c → |a r c' - b r c'| ≤ tol := by
  have hrow : ∀ r, ((List.finRange n).findSome?
      (fun c => if ¬ |a r c - b r c| ≤ tol then some (r, c) else none))
      = (vectorApproxEq (a r) (b r) tol).map (fun c => (r, c)) := by
    intro r
    unfold vectorApproxEq
    generalize List.finRange n = l
    induction l with
    | nil => rfl
    | cons c l ih =>
      rw [List.findSome?_cons, List.find?_cons]
      by_cases h : |a r c - b r c| ≤ tol
      · simp only [h, not_true, if_false, decide_false]
        rw [← ih]
      · simp only [h, not_false_eq_true, if_true, decide_true]
        rfl
  have hmat : matrixApproxEq a b tol = ((List.finRange m).find?
      (fun r => (vectorApproxEq (a r) (b r) tol).isSome)).bind
      (fun r => (vectorApproxEq (a r) (b r) tol).map (fun c => (r, c))) := by
    unfold matrixApproxEq
    simp only [hrow]
    generalize List.finRange m = l
    induction l with
    | nil => rfl
    | cons r l ih =>
      rw [List.findSome?_cons, List.find?_cons]
      cases h : vectorApproxEq (a r) (b r) tol with
      | none => simpa [h] using ih
      | some c => simp [h]
  have hnone : ∀ r, (vectorApproxEq (a r) (b r) tol).isSome = false ↔ ∀ c, |a r c - b r c| ≤ tol := by
    intro r
    rw [← (C70_vector (a r) (b r) tol).1, Option.isSome_eq_false_iff, Option.isNone_iff_eq_none]
  rw [hmat]
  refine ⟨?_, ?_⟩
  · rw [Option.bind_eq_none_iff]
    constructor
    · intro h r c
      by_contra hc
      cases hf : (List.finRange m).find? (fun r => (vectorApproxEq (a r) (b r) tol).isSome) with
      | none =>
        rw [List.find?_eq_none] at hf
        have h1 := hf r (List.mem_finRange r)
        rw [Bool.not_eq_true] at h1
        exact hc ((hnone r).1 h1 c)
      | some r' =>
        have h1 := h r' hf
        have h2 := ((find_finRange _ _).1 hf).1
        rw [Option.map_eq_none_iff] at h1
        rw [h1] at h2; cases h2
    · intro h r' hf
      have h2 := ((find_finRange _ _).1 hf).1
      have h3 := (hnone r').2 (h r')
      rw [h2] at h3; cases h3
  · intro r c
    rw [Option.bind_eq_some_iff]
    constructor
    · rintro ⟨r', h1, h2⟩
      rw [Option.map_eq_some_iff] at h2
      obtain ⟨c', h3, h4⟩ := h2
      obtain ⟨rfl, rfl⟩ := Prod.mk.inj h4
      obtain ⟨h5, h6⟩ := (find_finRange _ _).1 h1
      obtain ⟨h7, h8⟩ := ((C70_vector (a r') (b r') tol).2 c').1 h3
      exact ⟨h7, fun r c hr => (hnone r).1 (h6 r hr) c, h8⟩
    · rintro ⟨h1, h2, h3⟩
      have hv := ((C70_vector (a r) (b r) tol).2 c).2 ⟨h1, h3⟩
      refine ⟨r, (find_finRange _ _).2 ⟨by rw [hv]; rfl, fun r' hr' => (hnone r').2 (fun c => h2 r' c hr')⟩, ?_⟩
      rw [hv]; rfl

omit [IsStrictOrderedRing K] in
/-- `s` is the largest of `0` and the values of `f` on the list. -/
theorem max_fold {ι : Type*} (l : List ι) (f : ι → K) (s : K) (hs : 0 ≤ s) :
    let r := l.foldl (fun mx c => if f c > mx then f c else mx) s
    s ≤ r ∧ (∀ c ∈ l, f c ≤ r) ∧ (r = s ∨ ∃ c ∈ l, r = f c) := by
  induction l generalizing s with
  | nil => exact ⟨le_refl _, by simp, Or.inl rfl⟩
  | cons c l ih =>
    rw [List.foldl_cons]
    by_cases h : f c > s
    · rw [if_pos h]
      obtain ⟨h1, h2, h3⟩ := ih (f c) (le_trans hs (le_of_lt h))
      refine ⟨le_trans (le_of_lt h) h1, ?_, ?_⟩
      · intro d hd
        rcases List.mem_cons.1 hd with rfl | hd
        · exact h1
        · exact h2 d hd
      · rcases h3 with h3 | ⟨d, hd, h3⟩
        · exact Or.inr ⟨c, by simp, h3⟩
        · exact Or.inr ⟨d, by simp [hd], h3⟩
    · rw [if_neg h]
      obtain ⟨h1, h2, h3⟩ := ih s hs
      refine ⟨h1, ?_, ?_⟩
      · intro d hd
        rcases List.mem_cons.1 hd with rfl | hd
        · exact le_trans (not_lt.1 h) h1
        · exact h2 d hd
      · rcases h3 with h3 | ⟨d, hd, h3⟩
        · exact Or.inl h3
        · exact Or.inr ⟨d, by simp [hd], h3⟩

/-- C70. The reported maximum bounds every entry difference and, unless the vector is empty, is attained. -/
theorem C70_vector_max (a b : Fin n → K) :
    (∀ i, |a i - b i| ≤ vectorMaxAbsDiff a b) ∧
      (n = 0 ∧ vectorMaxAbsDiff a b = 0 ∨ ∃ i, vectorMaxAbsDiff a b = |a i - b i|) := by
  have e : vectorMaxAbsDiff a b = (List.finRange n).foldl
      (fun mx c => if |a c - b c| > mx then |a c - b c| else mx) 0 := by
    unfold vectorMaxAbsDiff
    rw [List.foldl_map]
    congr 1
    funext mx c
    by_cases h : |a c - b c| > mx
    · rw [if_pos h, max_eq_right (le_of_lt h)]
    · rw [if_neg h, max_eq_left (not_lt.1 h)]
  obtain ⟨h1, h2, h3⟩ := max_fold (List.finRange n) (fun i => |a i - b i|) (0 : K) (le_refl _)
  rw [← e] at h1 h2 h3
  have hle : ∀ i, |a i - b i| ≤ vectorMaxAbsDiff a b := fun i => h2 i (List.mem_finRange i)
  refine ⟨hle, ?_⟩
  rcases h3 with h3 | ⟨i, _, h3⟩
  · rcases Nat.eq_zero_or_pos n with h0 | h0
    · exact Or.inl ⟨h0, h3⟩
    · refine Or.inr ⟨⟨0, h0⟩, le_antisymm ?_ (hle _)⟩
      rw [h3]; exact abs_nonneg _
  · exact Or.inr ⟨i, h3⟩

omit [IsStrictOrderedRing K] in
theorem max_fold2 (f : Fin m → Fin n → K) (l : List (Fin m)) (s : K) (hs : 0 ≤ s) :
    let r := l.foldl (fun mx i => (rng n 0 n).foldl (fun mx c => if f i c > mx then f i c else mx) mx) s
    s ≤ r ∧ (∀ i ∈ l, ∀ c, f i c ≤ r) ∧ (r = s ∨ ∃ i c, r = f i c) := by
  induction l generalizing s with
  | nil => exact ⟨le_refl _, by simp, Or.inl rfl⟩
  | cons i l ih =>
    rw [List.foldl_cons]
    obtain ⟨g1, g2, g3⟩ := max_fold (rng n 0 n) (f i) s hs
    obtain ⟨h1, h2, h3⟩ := ih _ (le_trans hs g1)
    refine ⟨le_trans g1 h1, ?_, ?_⟩
    · intro j hj c
      rcases List.mem_cons.1 hj with rfl | hj
      · exact le_trans (g2 c (mem_rng.2 ⟨Nat.zero_le _, c.2⟩)) h1
      · exact h2 j hj c
    · rcases h3 with h3 | h3
      · rcases g3 with g3 | ⟨c, _, g3⟩
        · exact Or.inl (h3.trans g3)
        · exact Or.inr ⟨i, c, h3.trans g3⟩
      · exact Or.inr h3

/-- C70. The same for matrices. -/
theorem C70_matrix_max (a b : Mat K m n) :
    (∀ r c, |a r c - b r c| ≤ matrixMaxAbsDiff a b) ∧
      ((m = 0 ∨ n = 0) ∧ matrixMaxAbsDiff a b = 0 ∨ ∃ r c, matrixMaxAbsDiff a b = |a r c - b r c|) := by
  obtain ⟨h1, h2, h3⟩ := max_fold2 (fun r c => |a r c - b r c|) (rng m 0 m) (0 : K) (le_refl _)
  have hle : ∀ r c, |a r c - b r c| ≤ matrixMaxAbsDiff a b :=
    fun r c => h2 r (mem_rng.2 ⟨Nat.zero_le _, r.2⟩) c
  refine ⟨hle, ?_⟩
  rcases h3 with h3 | ⟨r, c, h3⟩
  · have h3' : matrixMaxAbsDiff a b = 0 := h3
    rcases Nat.eq_zero_or_pos m with h0 | h0
    · exact Or.inl ⟨Or.inl h0, h3'⟩
    rcases Nat.eq_zero_or_pos n with h0' | h0'
    · exact Or.inl ⟨Or.inr h0', h3'⟩
    refine Or.inr ⟨⟨0, h0⟩, ⟨0, h0'⟩, le_antisymm ?_ (hle _ _)⟩
    rw [h3']; exact abs_nonneg _
  · exact Or.inr ⟨r, c, h3⟩

/-- C70. The Frobenius helpers compute the square root of the sum of squared entries (differences), and the
difference norm vanishes only between equal matrices. -/
theorem C70_frobenius (a b : Mat ℝ m n) :
    frobenius Real.sqrt a = Real.sqrt (∑ r, ∑ c, a r c ^ 2) ∧
      diffFrobenius Real.sqrt a b = Real.sqrt (∑ r, ∑ c, (a r c - b r c) ^ 2) ∧
      (diffFrobenius Real.sqrt a b = 0 ↔ a = b) := by
  have key : ∀ f : Fin m → Fin n → ℝ, (rng m 0 m).foldl (fun s r => (rng n 0 n).foldl
      (fun s c => s + f r c * f r c) s) 0 = ∑ r, ∑ c, f r c ^ 2 := by
    intro f
    have h1 : ∀ (s : ℝ) (r : Fin m), (rng n 0 n).foldl (fun s c => s + f r c * f r c) s
        = s + ∑ c, f r c ^ 2 := by
      intro s r
      rw [foldl_add_sum, sum_rng]
      simp [sq]
    simp only [h1]
    rw [foldl_add_sum, sum_rng]
    simp
  have e2 : diffFrobenius Real.sqrt a b = Real.sqrt (∑ r, ∑ c, (a r c - b r c) ^ 2) := by
    unfold diffFrobenius; rw [key (fun r c => a r c - b r c)]
  refine ⟨by unfold frobenius; rw [key], e2, ?_⟩
  rw [e2, Real.sqrt_eq_zero (Finset.sum_nonneg fun r _ => Finset.sum_nonneg fun c _ => sq_nonneg _),
    Finset.sum_eq_zero_iff_of_nonneg (fun r _ => Finset.sum_nonneg fun c _ => sq_nonneg _)]
  constructor
  · intro h
    funext r c
    have h1 := h r (Finset.mem_univ _)
    rw [Finset.sum_eq_zero_iff_of_nonneg (fun c _ => sq_nonneg _)] at h1
    have h2 := h1 c (Finset.mem_univ _)
    have h3 : a r c - b r c = 0 := by simpa using h2
    linarith
  · rintro rfl; simp

end Approx

example : vectorApproxEq (![1, 2, 3] : Fin 3 → ℚ) ![1, 5, 9] 1 = some 1 := by decide +kernel
example : matrixMaxAbsDiff (![![1, 2], ![3, 4]] : Mat ℚ 2 2) ![![1, 0], ![8, 4]] = 5 := by decide +kernel

end Verif.Mat
