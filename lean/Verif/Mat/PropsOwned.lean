import Verif.Mat.Owned
import Mathlib.Data.List.Perm.Basic

/-!
# C106: decoding accounts for every value it makes
-/

namespace Verif.Mat

variable {T : Type}

/-! ## Specification: the values made -/

/-- The values `T::decode` returns in at most `k` calls before the first failure. -/
def made : Nat → List (Option T) → List T
  | k + 1, some v :: rest => v :: made k rest
  | _, _ => []

/-- The elements of a matrix, row by row. -/
def entries {m n : Nat} (a : Fin m → Fin n → T) : List T := (List.ofFn a).flatMap List.ofFn

/-- The values that the visitor of a row of length `k` gets. -/
def rowMade : Nat → List (Next T) → List T
  | k + 1, .item v :: rest => v :: rowMade k rest
  | _, _ => []

/-- The input of a row that is accepted: `n` items and then the end. -/
def RowOk (n : Nat) (cells : List (Next T)) : Prop := (rowMade n cells).length = n ∧ (cells.drop n = [] ∨ ∃ r, cells.drop n = .fin :: r)

/-- The values that the visitor of a matrix of `k` rows of length `n` gets: those of the rows up to and including the first that is not
accepted. -/
noncomputable def matrixMade (n : Nat) : Nat → List (Next (List (Next T))) → List T
  | k + 1, .item cells :: rest =>
    rowMade n cells ++ (open Classical in if RowOk n cells then matrixMade n k rest else [])
  | _, _ => []

/-! ## Buffers -/

/-- The buffer holds the elements of the list, at the places from 0 on, and nothing else. -/
def Holds (buf : Nat → Option T) (l : List T) : Prop := ∀ i, buf i = l[i]?

theorem Holds.empty : Holds (fun _ => none) ([] : List T) := fun i => by simp

theorem Holds.push {buf : Nat → Option T} {l : List T} (h : Holds buf l) (v : T) :
    Holds (Function.update buf l.length (some v)) (l ++ [v]) := by
  intro i
  by_cases hi : i = l.length
  · subst hi; simp
  · rw [Function.update_of_ne hi, h i, List.getElem?_append]
    split
    · rfl
    · have : l.length + 1 ≤ i := by omega
      rw [List.getElem?_eq_none (by omega), List.getElem?_eq_none (by simp; omega)]

theorem Holds.drop {buf : Nat → Option T} {l : List T} (h : Holds buf l) : dropRange 0 l.length buf = some l := by
  have key : ∀ (l : List T) (i : Nat) (buf : Nat → Option T), (∀ j, j < l.length → buf (i + j) = l[j]?) →
      dropRange i l.length buf = some l := by
    intro l
    induction l with
    | nil => intro i buf _; rfl
    | cons v l ih =>
      intro i buf hb
      have h0 : buf i = some v := by simpa using hb 0 (by simp)
      simp only [List.length_cons, dropRange, h0]
      rw [ih (i + 1)]
      · rfl
      · intro j hj
        rw [Function.update_of_ne (by omega)]
        have := hb (j + 1) (by simpa using hj)
        rw [show i + 1 + j = i + (j + 1) by omega, this]
        rfl
  exact key l 0 buf fun j _ => by rw [zero_add_nat, h j]
where
  zero_add_nat {j : Nat} : 0 + j = j := Nat.zero_add j

theorem Holds.init {n : Nat} {buf : Nat → Option T} {l : List T} (h : Holds buf l) (hl : l.length = n) :
    ∃ a : Fin n → T, assumeInit n buf = some a ∧ List.ofFn a = l := by
  subst hl
  have hs : ∀ i : Fin l.length, (buf i).isSome := fun i => by rw [h i]; simp
  refine ⟨_, dif_pos hs, ?_⟩
  have : (fun i : Fin l.length => (buf i).get (hs i)) = fun i => l[i] := by
    funext i
    have := h i
    simp only [this]
    simp
  rw [this]
  exact List.ofFn_getElem

/-! ## bincode -/

theorem made_length (k : Nat) (input : List (Option T)) : (made k input).length ≤ k := by
  induction k generalizing input with
  | zero => simp [made]
  | succ k ih =>
    match input with
    | [] => simp [made]
    | none :: _ => simp [made]
    | some v :: rest => simpa [made] using ih rest

theorem made_add (k l : Nat) (input : List (Option T)) :
    made (k + l) input = made k input ++ if (made k input).length = k then made l (input.drop k) else [] := by
  induction k generalizing input with
  | zero => simp [made]
  | succ k ih =>
    rw [Nat.succ_add]
    match input with
    | [] => simp [made]
    | none :: _ => simp [made]
    | some v :: rest => simp [made, ih rest]

theorem decodeCols_spec {n : Nat} {out : Nat → Option (Fin n → T)} {rows : List (Fin n → T)} (ho : Holds out rows)
    (k : Nat) (cs : List T) (row : Nat → Option T) (hr : Holds row cs) (input : List (Option T)) :
    ((made k input).length = k → ∃ row', decodeCols n out rows.length cs.length k row cs.length input =
        some { result := some row', drops := [], rest := input.drop k } ∧ Holds row' (cs ++ made k input)) ∧
      ((made k input).length ≠ k → ∃ rest, decodeCols n out rows.length cs.length k row cs.length input =
        some { result := none, drops := cs ++ made k input ++ rows.flatMap List.ofFn, rest }) := by
  induction k generalizing cs row input with
  | zero =>
    refine ⟨fun _ => ⟨row, by simp [decodeCols], by simpa [made] using hr⟩, fun h => absurd (by simp [made]) h⟩
  | succ k ih =>
    match input with
    | [] =>
      refine ⟨fun h => by simp [made] at h, fun _ => ⟨[], ?_⟩⟩
      simp [decodeCols, hr.drop, ho.drop, made]
    | none :: r =>
      refine ⟨fun h => by simp [made] at h, fun _ => ⟨r, ?_⟩⟩
      simp [decodeCols, hr.drop, ho.drop, made]
    | some v :: r =>
      have := ih (cs ++ [v]) _ (hr.push v) r
      simp only [List.length_append, List.length_singleton, List.append_assoc, List.singleton_append] at this
      obtain ⟨h1, h2⟩ := this
      simp only [made, List.length_cons, decodeCols, List.drop_succ_cons]
      exact ⟨fun h => h1 (Nat.succ.inj h), fun h => by
        simpa only [List.append_assoc, List.cons_append] using h2 (fun h' => h (congrArg _ h'))⟩

theorem decodeRows_spec {m n : Nat} (k : Nat) (rows : List (Fin n → T)) (out : Nat → Option (Fin n → T)) (ho : Holds out rows)
    (hm : rows.length + k = m) (input : List (Option T)) :
    ∃ l, decodeRows m n rows.length k out rows.length input = some l ∧
      (∀ a, l.result = some a → l.drops = [] ∧ entries a = rows.flatMap List.ofFn ++ made (k * n) input ∧
        (made (k * n) input).length = k * n) ∧
      (l.result = none → l.drops.Perm (rows.flatMap List.ofFn ++ made (k * n) input) ∧ (made (k * n) input).length < k * n) := by
  induction k generalizing rows out input with
  | zero =>
    obtain ⟨a, ha, he⟩ := ho.init hm
    refine ⟨_, by simp [decodeRows, ha]; rfl, ?_, by simp⟩
    intro b hb
    simp only [Option.some.injEq] at hb
    subst hb
    simp [entries, he, made]
  | succ k ih =>
    obtain ⟨h1, h2⟩ := decodeCols_spec ho n [] _ Holds.empty input
    have hadd : made ((k + 1) * n) input = made n input ++ if (made n input).length = n then made (k * n) (input.drop n) else [] := by
      rw [show (k + 1) * n = n + k * n by rw [Nat.succ_mul, Nat.add_comm], made_add]
    have hmul : (k + 1) * n = n + k * n := by rw [Nat.succ_mul, Nat.add_comm]
    simp only [List.length_nil, List.nil_append] at h1 h2
    by_cases hn : (made n input).length = n
    · obtain ⟨row', hrow, hh⟩ := h1 hn
      obtain ⟨a, ha, he⟩ := hh.init hn
      have hlen : (rows ++ [a]).length = rows.length + 1 := by simp
      obtain ⟨l, hl, p1, p2⟩ := ih (rows ++ [a]) _ (ho.push a) (by simp; omega) (input.drop n)
      rw [hlen] at hl
      rw [List.flatMap_append, List.flatMap_singleton, he] at p1 p2
      refine ⟨l, by simp only [decodeRows, hrow, Option.bind_some, ha, hl], ?_, ?_⟩
      · intro b hb
        obtain ⟨q1, q2, q3⟩ := p1 b hb
        rw [hadd, if_pos hn, ← List.append_assoc, List.length_append, hn, q3, hmul]
        exact ⟨q1, q2, rfl⟩
      · intro hb
        obtain ⟨q1, q2⟩ := p2 hb
        rw [hadd, if_pos hn, ← List.append_assoc, List.length_append, hn, hmul]
        exact ⟨q1, by omega⟩
    · obtain ⟨rest, hrow⟩ := h2 hn
      refine ⟨_, by simp only [decodeRows, hrow, Option.bind_some]; rfl, by simp, ?_⟩
      intro _
      have := made_length n input
      rw [hadd, if_neg hn, List.append_nil, hmul]
      exact ⟨List.perm_append_comm, by omega⟩

/-- C106. Decoding a matrix of any element type, on any input, never touches a place without a value. If it succeeds the result holds
exactly the values made, in order; if it fails every value made is dropped, exactly once. -/
theorem C106_bincode (m n : Nat) (input : List (Option T)) :
    ∃ l, decodeOwned m n input = some l ∧
      (∀ a, l.result = some a → l.drops = [] ∧ entries a = made (m * n) input ∧ (made (m * n) input).length = m * n) ∧
      (l.result = none → l.drops.Perm (made (m * n) input) ∧ (made (m * n) input).length < m * n) := by
  have := decodeRows_spec (m := m) (n := n) m [] _ Holds.empty (by simp) input
  simpa only [decodeOwned, deserializeOwned, List.length_nil, List.flatMap_nil, List.nil_append] using this

/-- C106 with a failure in the second row, and with success. -/
example : ((decodeOwned 2 2 [some 1, some 2, some 3, none, some 5]).map fun l => (l.result.isSome, l.drops)) = some (false, [3, 1, 2]) ∧
    ((decodeOwned 2 2 [some 1, some 2, some 3, some 4, some 5]).map fun l => (l.result.map entries, l.rest)) =
      some (some [1, 2, 3, 4], [some 5]) := by
  decide +kernel

/-! ## serde -/

theorem visitRow_spec {n : Nat} (k : Nat) (cs : List T) (row : Nat → Option T) (hr : Holds row cs) (hk : cs.length + k = n)
    (cells : List (Next T)) :
    ∃ l, visitRow n cs.length k row cs.length cells = some l ∧
      (∀ a, l.result = some a → l.drops = [] ∧ List.ofFn a = cs ++ rowMade k cells ∧ (rowMade k cells).length = k ∧
        (cells.drop k = [] ∨ ∃ r, cells.drop k = .fin :: r)) ∧
      (l.result = none → ¬ ((rowMade k cells).length = k ∧ (cells.drop k = [] ∨ ∃ r, cells.drop k = .fin :: r)) ∧
        (.error ∉ cells → l.drops = cs ++ rowMade k cells) ∧ (l.drops = [] ∨ l.drops = cs ++ rowMade k cells)) := by
  induction k generalizing cs row cells with
  | zero =>
    obtain ⟨a, ha, he⟩ := hr.init hk
    match cells with
    | [] =>
      refine ⟨_, by simp only [visitRow, ha]; rfl, ?_, by simp⟩
      intro b hb
      simp only [Option.some.injEq] at hb
      subst hb
      simp [rowMade, he]
    | .fin :: r =>
      refine ⟨_, by simp only [visitRow, ha]; rfl, ?_, by simp⟩
      intro b hb
      simp only [Option.some.injEq] at hb
      subst hb
      simp [rowMade, he]
    | .error :: r => exact ⟨_, by simp only [visitRow]; rfl, by simp, by simp⟩
    | .item v :: r => exact ⟨_, by simp only [visitRow, hr.drop]; rfl, by simp, by simp [rowMade]⟩
  | succ k ih =>
    match cells with
    | [] => exact ⟨_, by simp only [visitRow, hr.drop]; rfl, by simp, by simp [rowMade]⟩
    | .fin :: r => exact ⟨_, by simp only [visitRow, hr.drop]; rfl, by simp, by simp [rowMade]⟩
    | .error :: r => exact ⟨_, by simp only [visitRow]; rfl, by simp, by simp [rowMade]⟩
    | .item v :: r =>
      have hlen : (cs ++ [v]).length = cs.length + 1 := by simp
      obtain ⟨l, hl, p1, p2⟩ := ih (cs ++ [v]) _ (hr.push v) (by simp; omega) r
      rw [hlen] at hl
      refine ⟨l, by simpa only [visitRow] using hl, ?_, ?_⟩
      · intro a ha
        obtain ⟨q1, q2, q3, q4⟩ := p1 a ha
        exact ⟨q1, by simpa [rowMade] using q2, by simp [rowMade, q3], by simpa using q4⟩
      · intro h
        obtain ⟨q1, q2, q3⟩ := p2 h
        refine ⟨by simpa [rowMade] using q1, ?_, by simpa [rowMade] using q3⟩
        intro he
        simpa [rowMade] using q2 (fun h' => he (List.mem_cons_of_mem _ h'))

theorem visitMatrix_spec {m n : Nat} (k : Nat) (rows : List (Fin n → T)) (out : Nat → Option (Fin n → T)) (ho : Holds out rows)
    (hm : rows.length + k = m) (input : List (Next (List (Next T)))) :
    ∃ l leaked, visitMatrix m n rows.length k out rows.length input = some l ∧
      (rows.flatMap List.ofFn ++ matrixMade n k input).Perm ((l.result.map entries).getD [] ++ l.drops ++ leaked) ∧
      (∀ a, l.result = some a → l.drops = [] ∧ leaked = [] ∧ entries a = rows.flatMap List.ofFn ++ matrixMade n k input) ∧
      ((∀ x ∈ input, ∃ cells, x = .item cells ∧ RowOk n cells) → leaked = []) := by
  induction k generalizing rows out input with
  | zero =>
    obtain ⟨a, ha, he⟩ := ho.init hm
    match input with
    | [] =>
      refine ⟨_, [], by simp only [visitMatrix, ha]; rfl, by simp [matrixMade, entries, he], ?_, fun _ => rfl⟩
      intro b hb
      simp only [Option.some.injEq] at hb
      subst hb
      simp [matrixMade, entries, he]
    | .fin :: r =>
      refine ⟨_, [], by simp only [visitMatrix, ha]; rfl, by simp [matrixMade, entries, he], ?_, fun _ => rfl⟩
      intro b hb
      simp only [Option.some.injEq] at hb
      subst hb
      simp [matrixMade, entries, he]
    | .error :: r =>
      refine ⟨_, rows.flatMap List.ofFn, by simp only [visitMatrix]; rfl, by simp [matrixMade], by simp, ?_⟩
      intro h
      obtain ⟨_, h, _⟩ := h _ List.mem_cons_self
      cases h
    | .item v :: r => exact ⟨_, [], by simp only [visitMatrix, ho.drop]; rfl, by simp [matrixMade], by simp, fun _ => rfl⟩
  | succ k ih =>
    match input with
    | [] => exact ⟨_, [], by simp only [visitMatrix, ho.drop]; rfl, by simp [matrixMade], by simp, fun _ => rfl⟩
    | .fin :: r => exact ⟨_, [], by simp only [visitMatrix, ho.drop]; rfl, by simp [matrixMade], by simp, fun _ => rfl⟩
    | .error :: r =>
      refine ⟨_, rows.flatMap List.ofFn, by simp only [visitMatrix]; rfl, by simp [matrixMade], by simp, ?_⟩
      intro h
      obtain ⟨_, h, _⟩ := h _ List.mem_cons_self
      cases h
    | .item cells :: r =>
      obtain ⟨l, hl, p1, p2⟩ := visitRow_spec (n := n) n [] _ Holds.empty (by simp) cells
      simp only [List.length_nil, List.nil_append] at hl p1 p2
      cases hres : l.result with
      | none =>
        obtain ⟨q1, _, q3⟩ := p2 hres
        have hno : ¬ RowOk n cells := q1
        refine ⟨_, rows.flatMap List.ofFn ++ if l.drops = [] then rowMade n cells else [],
          by simp only [visitMatrix, hl, Option.bind_some, hres]; rfl, ?_, by simp, ?_⟩
        · simp only [matrixMade, if_neg hno, List.append_nil, Option.map_none, Option.getD_none, List.nil_append]
          by_cases hd : l.drops = []
          · simp [hd]
          · rw [if_neg hd, List.append_nil, q3.resolve_left hd]
            exact List.perm_append_comm
        · intro h
          obtain ⟨c, hc, hok⟩ := h _ List.mem_cons_self
          cases hc
          exact absurd hok hno
      | some row =>
        obtain ⟨q1, q2, q3, q4⟩ := p1 row hres
        have hok : RowOk n cells := ⟨q3, q4⟩
        have hlen : (rows ++ [row]).length = rows.length + 1 := by simp
        obtain ⟨l', leaked, hl', r1, r2, r3⟩ := ih (rows ++ [row]) _ (ho.push row) (by simp; omega) r
        rw [hlen] at hl'
        rw [List.flatMap_append, List.flatMap_singleton, q2] at r1 r2
        refine ⟨l', leaked, by simp only [visitMatrix, hl, Option.bind_some, hres, hl'], ?_, ?_, ?_⟩
        · simpa only [matrixMade, if_pos hok, List.append_assoc] using r1
        · intro a ha
          obtain ⟨s1, s2, s3⟩ := r2 a ha
          exact ⟨s1, s2, by simpa only [matrixMade, if_pos hok, List.append_assoc] using s3⟩
        · exact fun h => r3 fun x hx => h x (List.mem_cons_of_mem _ hx)

/-- C106. Deserialising a matrix never touches a place without a value and never drops a value twice; every value made is in the
result, dropped, or leaked. It leaks nothing if it succeeds, and nothing if all rows are of the right form (so that only their number
can be wrong). Missing: no leak for other malformed inputs, see `C106_serde_fails`. -/
theorem C106_serde_partial (m n : Nat) (input : List (Next (List (Next T)))) :
    ∃ l leaked, deserializeOwned m n input = some l ∧
      (matrixMade n m input).Perm ((l.result.map entries).getD [] ++ l.drops ++ leaked) ∧
      (∀ a, l.result = some a → l.drops = [] ∧ leaked = [] ∧ entries a = matrixMade n m input) ∧
      ((∀ x ∈ input, ∃ cells, x = .item cells ∧ RowOk n cells) → leaked = []) := by
  have := visitMatrix_spec (m := m) (n := n) m [] _ Holds.empty (by simp) input
  simpa only [decodeOwned, deserializeOwned, List.length_nil, List.flatMap_nil, List.nil_append] using this

/-- C106 with one row too many. -/
example : (∀ x ∈ [Next.item [.item 1], .item [.item 2]], ∃ cells, x = .item cells ∧ RowOk 1 cells) ∧
    ((deserializeOwned 1 1 [.item [.item 1], .item [.item 2]]).map fun l => (l.result.isSome, l.drops)) = some (false, [1]) := by
  refine ⟨?_, by decide +kernel⟩
  simp [RowOk, rowMade]

/-- C106 in full is not met by serde: an element that cannot be read in the second row leaks the first row. -/
theorem C106_serde_fails :
    ∃ input : List (Next (List (Next Nat))), matrixMade 2 2 input = [1, 2, 3] ∧
      ((deserializeOwned 2 2 input).map fun l => (l.result.isSome, l.drops)) = some (false, []) := by
  refine ⟨[.item [.item 1, .item 2], .item [.item 3, .error]], ?_, by decide +kernel⟩
  simp [matrixMade, rowMade, RowOk]

/-! ## Collecting an iterator -/

theorem collectLoop_spec {n : Nat} (k : Nat) (vs : List T) (buf : Nat → Option T) (hb : Holds buf vs) (hk : vs.length + k = n)
    (items : List T) :
    (items.length = k → ∃ a : Fin n → T, collectLoop n vs.length k buf items = some { result := some a, drops := [], rest := [] } ∧
        List.ofFn a = vs ++ items) ∧
      (items.length < k → collectLoop n vs.length k buf items = some { result := none, drops := [], rest := [] }) ∧
      (k < items.length → ∃ v r, items.drop k = v :: r ∧
        collectLoop n vs.length k buf items = some { result := none, drops := [v], rest := r }) := by
  induction k generalizing vs buf items with
  | zero =>
    obtain ⟨a, ha, he⟩ := hb.init hk
    match items with
    | [] => exact ⟨fun _ => ⟨a, by simp [collectLoop, ha], by simp [he]⟩, by simp, by simp⟩
    | v :: r => exact ⟨by simp, by simp, fun _ => ⟨v, r, rfl, rfl⟩⟩
  | succ k ih =>
    match items with
    | [] => exact ⟨by simp, fun _ => rfl, by simp⟩
    | v :: r =>
      have hlen : (vs ++ [v]).length = vs.length + 1 := by simp
      obtain ⟨h1, h2, h3⟩ := ih (vs ++ [v]) _ (hb.push v) (by simp; omega) r
      rw [hlen] at h1 h2 h3
      simp only [List.length_cons, collectLoop, List.drop_succ_cons]
      refine ⟨fun h => ?_, fun h => h2 (by omega), fun h => h3 (by omega)⟩
      obtain ⟨a, ha, he⟩ := h1 (by omega)
      exact ⟨a, ha, by simpa using he⟩

/-- C106. Collecting an iterator into a vector never touches a place without a value, and with `n` items the vector holds them. -/
theorem C106_collect_partial (n : Nat) (items : List T) :
    ∃ l, collectOwned n items = some l ∧ (l.result = none ↔ items.length ≠ n) ∧
      ∀ a, l.result = some a → List.ofFn a = items ∧ l.drops = [] := by
  obtain ⟨h1, h2, h3⟩ := collectLoop_spec (n := n) n [] _ Holds.empty (by simp) items
  simp only [List.length_nil, List.nil_append] at h1 h2 h3
  rcases Nat.lt_trichotomy items.length n with h | h | h
  · exact ⟨_, h2 h, by simp; omega, by simp⟩
  · obtain ⟨a, ha, he⟩ := h1 h
    refine ⟨_, ha, by simp [h], ?_⟩
    intro b hb
    simp only [Option.some.injEq] at hb
    subst hb
    exact ⟨he, rfl⟩
  · obtain ⟨v, r, _, hc⟩ := h3 h
    exact ⟨_, hc, by simp; omega, by simp⟩

/-- C106 in full is not met by `from_iter`: when the number of items is wrong, every item taken before is leaked. -/
theorem C106_collect_fails :
    (∀ (n : Nat) (items : List T), items.length < n → collectOwned n items = some { result := none, drops := [], rest := [] }) ∧
    ((collectOwned 2 [1, 2, 3, 4]).map fun l => (l.result.isSome, l.drops, l.rest)) = some (false, [3], [4]) := by
  refine ⟨fun n items h => ?_, by decide +kernel⟩
  have := (collectLoop_spec (n := n) n [] _ Holds.empty (by simp) items).2.1 h
  simpa only [collectOwned, List.length_nil] using this

end Verif.Mat
