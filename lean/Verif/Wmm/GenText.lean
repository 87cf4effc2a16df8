import Verif.Wmm.Generator

/-!
# C94: the text of a coefficient file

Specification of the fields of a line and of the data rows of a file, and the proof that the generator's reading agrees with it.
-/

namespace Verif.Wmm

/-- The fields of a line: its maximal pieces without white space. -/
def fields (line : List Char) : List (List Char) := (line.splitOnP isWs).filter fun f => !f.isEmpty

/-- A row of data: six fields, the first of which starts with a digit. -/
def isDataRow (f : List (List Char)) : Bool := f.length == 6 && ((f.head?.bind List.head?).any Char.isDigit)

/-- The data rows of a file: those among the fields of each line after the first. -/
def dataRows (contents : List Char) : List (List (List Char)) := (((contents.splitOn '\n').drop 1).map fields).filter isDataRow

/-- The header of a file: the fields of the first line that has any. -/
def headerRow (contents : List Char) : Option (List (List Char)) :=
  ((contents.splitOn '\n').map fields).find? fun f => !f.isEmpty

/-- `r` is the record of a row of data. -/
def IsRecord {α : Type} (parse : List Char → Option α) (f : List (List Char)) (r : GenRecord α) : Prop :=
  ∃ degree order g h gDot hDot, f = [degree, order, g, h, gDot, hDot] ∧ parseUsize degree = some r.degree ∧
    parseUsize order = some r.order ∧ parse g = some r.g ∧ parse h = some r.h ∧ parse gDot = some r.gDot ∧ parse hDot = some r.hDot

theorem wordsAux_eq (s : List Char) : ∀ acc, wordsAux s acc = (List.splitOnPPrepend isWs s acc).filter fun f => !f.isEmpty := by
  induction s with
  | nil =>
    intro acc
    cases acc <;> simp [wordsAux]
  | cons c r ih =>
    intro acc
    rw [wordsAux]
    by_cases h : isWs c = true
    · rw [if_pos h, List.splitOnPPrepend_cons_pos h, List.filter_cons, ih]
      cases acc <;> simp
    · rw [if_neg h, ih, List.splitOnPPrepend_cons_neg (by simpa using h)]

theorem words_eq (s : List Char) : words s = fields s := wordsAux_eq s []

theorem fields_nil : fields [] = [] := rfl

theorem fields_cons_ws {c : Char} {s : List Char} (h : isWs c = true) : fields (c :: s) = fields s := by
  simp [fields, List.splitOnP_cons_eq_if_modifyHead, h]

theorem fields_snoc_ws {c : Char} {s : List Char} (h : isWs c = true) : fields (s ++ [c]) = fields s := by
  simp [fields, List.splitOnP_append_cons s [] h]

theorem fields_dropWhile (s : List Char) : fields (s.dropWhile isWs) = fields s := by
  induction s with
  | nil => rfl
  | cons c r ih =>
    by_cases h : isWs c = true
    · rw [List.dropWhile_cons_of_pos h, ih, fields_cons_ws h]
    · rw [List.dropWhile_cons_of_neg h]

theorem fields_rdropWhile (s : List Char) : fields (s.dropWhile isWs).reverse = fields s.reverse := by
  induction s with
  | nil => rfl
  | cons c r ih =>
    by_cases h : isWs c = true
    · rw [List.dropWhile_cons_of_pos h, ih, List.reverse_cons, fields_snoc_ws h]
    · rw [List.dropWhile_cons_of_neg h]

theorem fields_trim (s : List Char) : fields (trim s) = fields s := by
  unfold trim
  rw [fields_rdropWhile, List.reverse_reverse, fields_dropWhile]

theorem trim_head {s : List Char} {c : Char} {w : List Char} (h : trim s = c :: w) : isWs c = false := by
  have hpre : trim s <+: s.dropWhile isWs := by
    unfold trim
    have := List.dropWhile_suffix (l := (s.dropWhile isWs).reverse) isWs
    rw [← List.reverse_prefix, List.reverse_reverse] at this
    exact this
  rw [h] at hpre
  obtain ⟨t, ht⟩ := hpre
  have := List.head?_dropWhile_not isWs s
  rw [← ht] at this
  simpa using this

theorem fields_head {c : Char} {w : List Char} (h : isWs c = false) : ∃ v rest, fields (c :: w) = (c :: v) :: rest := by
  unfold fields
  rw [List.splitOnP_cons_eq_if_modifyHead, if_neg (by simp [h])]
  rcases hs : List.splitOnP isWs w with _ | ⟨a, b⟩
  · exact absurd hs (List.splitOnP_ne_nil _ _)
  · exact ⟨a, b.filter fun f => !f.isEmpty, by simp [List.modifyHead]⟩

theorem isDigit_eq (c : Char) : isDigit c = c.isDigit := by
  simp only [isDigit, Char.isDigit, Char.toNat, ge_iff_le, UInt32.le_iff_toNat_le]
  rfl

theorem dataTokens_eq (raw : List Char) : dataTokens raw = if isDataRow (fields raw) then some (fields raw) else none := by
  unfold dataTokens
  dsimp only
  rw [words_eq, fields_trim]
  rcases ht : trim raw with _ | ⟨c, w⟩
  · have : fields raw = [] := by rw [← fields_trim, ht]; rfl
    simp [this, isDataRow]
  · obtain ⟨v, rest, hf⟩ := fields_head (w := w) (trim_head ht)
    have hf' : fields raw = (c :: v) :: rest := by rw [← fields_trim, ht, hf]
    rw [hf']
    have hrow : isDataRow ((c :: v) :: rest) = (((c :: v) :: rest).length == 6 && c.isDigit) := rfl
    simp only [List.headD_cons, List.isEmpty_cons, Bool.false_or, isDigit_eq]
    by_cases hd : c.isDigit = true
    · by_cases hl : ((c :: v) :: rest).length = 6
      · rw [if_neg (by simp [hd]), if_neg (by simp [hl]), if_pos (by rw [hrow]; simp [hl, hd])]
      · rw [if_neg (by simp [hd]), if_pos hl, if_neg (by rw [hrow]; simp at hl; simp [hl])]
    · rw [if_pos (by simp [hd]), if_neg (by rw [hrow]; simp [hd])]

/-- The lines of the code and the pieces between newlines give the same for a function that ignores empty lines and a final carriage
return. -/
theorem linesAux_filterMap {β : Type} (φ : List Char → Option β) (h0 : φ [] = none) (h1 : ∀ l, φ (l ++ ['\r']) = φ l)
    (s : List Char) : ∀ acc, (linesAux s acc).filterMap φ = (List.splitOnPPrepend (· == '\n') s acc).filterMap φ ∧
      ((linesAux s acc).drop 1).filterMap φ = ((List.splitOnPPrepend (· == '\n') s acc).drop 1).filterMap φ := by
  induction s with
  | nil =>
    intro acc
    cases acc <;> simp [linesAux, h0]
  | cons c r ih =>
    intro acc
    by_cases h : c = '\n'
    · subst h
      have e : ∃ l, linesAux ('\n' :: r) acc = l :: linesAux r [] ∧ φ l = φ acc.reverse := by
        rcases acc with _ | ⟨d, acc'⟩
        · exact ⟨[], by simp [linesAux], rfl⟩
        · by_cases hd : d = '\r'
          · subst hd
            exact ⟨acc'.reverse, by simp [linesAux], by rw [List.reverse_cons, h1]⟩
          · exact ⟨(d :: acc').reverse, by simp [linesAux, hd], rfl⟩
      obtain ⟨l, e1, e2⟩ := e
      rw [e1, List.splitOnPPrepend_cons_pos (by simp)]
      have hi := (ih []).1
      rw [List.splitOnPPrepend_nil_right] at hi
      constructor
      · rw [List.filterMap_cons, List.filterMap_cons, e2, hi]
      · simpa using hi
    · have e : linesAux (c :: r) acc = linesAux r (c :: acc) := by simp [linesAux, h]
      rw [e, List.splitOnPPrepend_cons_neg (by simp [h])]
      exact ih _

theorem dataLines_eq (contents : List Char) : ((lines contents).drop 1).filterMap dataTokens = dataRows contents := by
  have h1 : ∀ l, dataTokens (l ++ ['\r']) = dataTokens l := by
    intro l; rw [dataTokens_eq, dataTokens_eq, fields_snoc_ws (by decide)]
  have := (linesAux_filterMap dataTokens (by decide) h1 contents []).2
  unfold lines
  rw [this, List.splitOnPPrepend_nil_right]
  unfold dataRows List.splitOn
  rw [List.filter_map, ← List.filterMap_eq_map, ← List.filterMap_eq_filter, List.filterMap_filterMap]
  congr 1
  funext l
  rw [dataTokens_eq]
  by_cases h : isDataRow (fields l) = true <;> simp [Option.guard, h]

theorem header_eq (contents : List Char) :
    (((lines contents).filter fun line => !(trim line).isEmpty).head?).map words = headerRow contents := by
  let φ : List Char → Option (List (List Char)) := fun l => if (fields l).isEmpty then none else some (fields l)
  have htrim : ∀ l, (trim l).isEmpty = (fields l).isEmpty := by
    intro l
    rcases ht : trim l with _ | ⟨c, w⟩
    · have : fields l = [] := by rw [← fields_trim, ht]; rfl
      simp [this]
    · obtain ⟨v, rest, hf⟩ := fields_head (w := w) (trim_head ht)
      have hf' : fields l = (c :: v) :: rest := by rw [← fields_trim, ht, hf]
      simp [hf']
  have h := (linesAux_filterMap φ rfl (fun l => by simp only [φ]; rw [fields_snoc_ws (by decide)]) contents []).1
  rw [List.splitOnPPrepend_nil_right] at h
  have hl : ∀ l : List (List Char), ((l.filter fun line => !(trim line).isEmpty).head?).map words = (l.filterMap φ).head? := by
    intro l
    induction l with
    | nil => rfl
    | cons a r ih =>
      rw [List.filter_cons, List.filterMap_cons, htrim]
      by_cases ha : (fields a).isEmpty = true
      · simp only [φ, ha, if_true]
        simpa [φ] using ih
      · have hφ : φ a = some (fields a) := if_neg ha
        rw [hφ]
        simp [ha, words_eq]
  have hr : ∀ l : List (List Char), (l.filterMap φ).head? = (l.map fields).find? fun f => !f.isEmpty := by
    intro l
    induction l with
    | nil => rfl
    | cons a r ih =>
      rw [List.filterMap_cons, List.map_cons, List.find?_cons]
      by_cases ha : (fields a).isEmpty = true
      · simp only [φ, ha, if_true]
        simpa [φ] using ih
      · have hφ : φ a = some (fields a) := if_neg ha
        rw [hφ]
        simp [ha]
  unfold lines headerRow List.splitOn
  rw [hl, h, hr]

theorem parseTokens_isRecord {α : Type} {parse : List Char → Option α} {f : List (List Char)} {r : GenRecord α}
    (hf : f.length = 6) (h : parseTokens parse f = some r) : IsRecord parse f r := by
  match f, hf with
  | [a, b, c, d, e, g], _ =>
    unfold parseTokens at h
    simp only [Option.bind_eq_bind, Option.bind_eq_some_iff, List.getD_cons_zero, List.getD_cons_succ] at h
    obtain ⟨n, h1, m, h2, h⟩ := h
    by_cases ho : m ≤ n
    · rw [if_pos ho] at h
      simp only [Option.bind_eq_some_iff, Option.pure_def, Option.some.injEq] at h
      obtain ⟨_, h3, _, h4, _, h5, _, h6, rfl⟩ := h
      exact ⟨a, b, c, d, e, g, rfl, h1, h2, h3, h4, h5, h6⟩
    · rw [if_neg ho] at h; cases h

end Verif.Wmm
