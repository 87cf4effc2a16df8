import Verif.Wmm.GenText
import Verif.Wmm.Cof
import Verif.Wmm.Coeff

/-!
# C94: the embedded coefficients are those of the coefficient file
-/

namespace Verif.Wmm

/-- A record of the embedded data. -/
def GenRecord.raw (r : GenRecord ℤ) : RawRecord := ⟨r.degree, r.order, r.g, r.h, r.gDot, r.hDot⟩

/-- C94. Running the generator on the coefficient file of the repository gives exactly the embedded header, records and tables. -/
theorem C94_embedded : ∃ out, render parseTenths cofText = some out ∧ out.epoch = 20250 ∧
    out.modelName = "WMM-2025".toList ∧ out.releaseDate = "11/13/2024".toList ∧
    out.records.map GenRecord.raw = rawRecords ∧ out.g = rawG ∧ out.h = rawH ∧ out.gDot = rawGDot ∧ out.hDot = rawHDot := by
  have h : (render parseTenths cofText).any (fun out => decide (out.epoch = 20250 ∧
    out.modelName = "WMM-2025".toList ∧ out.releaseDate = "11/13/2024".toList ∧
    out.records.map GenRecord.raw = rawRecords ∧ out.g = rawG ∧ out.h = rawH ∧ out.gDot = rawGDot ∧ out.hDot = rawHDot)) = true := by
    decide +kernel
  rw [Option.any_eq_true] at h
  obtain ⟨out, h1, h2⟩ := h
  exact ⟨out, h1, of_decide_eq_true h2⟩

/-- The last of the records for the pair `(n, m)`, if there is one. -/
def lastFor {α : Type} (l : List (GenRecord α)) (n m : ℕ) : Option (GenRecord α) := l.reverse.find? fun r => r.degree = n ∧ r.order = m

theorem lastFor_snoc {α : Type} (l : List (GenRecord α)) (r : GenRecord α) (n m : ℕ) :
    lastFor (l ++ [r]) n m = if r.degree = n ∧ r.order = m then some r else lastFor l n m := by
  unfold lastFor
  rw [List.reverse_append, List.reverse_singleton, List.singleton_append, List.find?_cons]
  by_cases h : r.degree = n ∧ r.order = m
  · simp [h]
  · simp [h]

theorem parseTokens_order {α : Type} {parse : List Char → Option α} {t : List (List Char)} {r : GenRecord α}
    (h : parseTokens parse t = some r) : r.order ≤ r.degree := by
  unfold parseTokens at h
  simp only [Option.bind_eq_bind, Option.bind_eq_some_iff] at h
  obtain ⟨d, _, o, _, h⟩ := h
  by_cases ho : o ≤ d
  · rw [if_pos ho] at h
    simp only [Option.bind_eq_some_iff, Option.pure_def, Option.some.injEq] at h
    obtain ⟨_, _, _, _, _, _, _, _, rfl⟩ := h
    exact ho
  · rw [if_neg ho] at h
    cases h

/-- What holds after the lines `l` have been processed. -/
structure GenInv {α : Type} [Zero α] (parse : List Char → Option α) (l : List (List Char)) (s : GenState α) : Prop where
  parsed : (l.filterMap dataTokens).map (parseTokens parse) = s.records.map some
  valid : ∀ r ∈ s.records, r.order ≤ r.degree ∧ r.degree ≤ 12
  bound : ∀ r ∈ s.records, r.degree ≤ s.maxDegree
  attained : s.maxDegree = 0 ∨ ∃ r ∈ s.records, r.degree = s.maxDegree
  size : s.g.length = 91 ∧ s.h.length = 91 ∧ s.gDot.length = 91 ∧ s.hDot.length = 91
  table : ∀ n m, m ≤ n → n ≤ 12 →
    s.g[genIndex n m]? = some (((lastFor s.records n m).map (·.g)).getD 0) ∧
    s.h[genIndex n m]? = some (((lastFor s.records n m).map (·.h)).getD 0) ∧
    s.gDot[genIndex n m]? = some (((lastFor s.records n m).map (·.gDot)).getD 0) ∧
    s.hDot[genIndex n m]? = some (((lastFor s.records n m).map (·.hDot)).getD 0)

theorem getElem?_set_table {α : Type} {t : List α} {f : GenRecord α → α} {z : α} {l : List (GenRecord α)} {r : GenRecord α} {n m : ℕ} (hm : m ≤ n)
    (hr : r.order ≤ r.degree) (hi : genIndex r.degree r.order < t.length) (h : t[genIndex n m]? = some (((lastFor l n m).map f).getD z)) :
    (t.set (genIndex r.degree r.order) (f r))[genIndex n m]? = some (((lastFor (l ++ [r]) n m).map f).getD z) := by
  rw [lastFor_snoc, List.getElem?_set]
  by_cases he : genIndex r.degree r.order = genIndex n m
  · have := index_injective hr hm he
    rw [if_pos he, if_pos hi, if_pos this]
    rfl
  · rw [if_neg he, if_neg (fun hh => he (by rw [hh.1, hh.2])), h]

theorem genStep_inv {α : Type} [Zero α] {parse : List Char → Option α} {l : List (List Char)} {s s' : GenState α} {raw : List Char}
    (hs : GenInv parse l s) (h : genStep parse s raw = some s') : GenInv parse (l ++ [raw]) s' := by
  unfold genStep at h
  rcases ht : dataTokens raw with _ | tokens
  · rw [ht] at h
    cases h
    exact { hs with parsed := by rw [List.filterMap_append, List.filterMap_cons_none ht, List.filterMap_nil, List.append_nil]; exact hs.parsed }
  · rw [ht] at h
    simp only [Option.bind_eq_bind, Option.bind_eq_some_iff] at h
    obtain ⟨r, hr, h⟩ := h
    by_cases hi : genIndex r.degree r.order < genCount
    · rw [if_pos hi] at h
      cases h
      have ho := parseTokens_order hr
      have hd : r.degree ≤ 12 := (index_bound ho).mp hi
      have hi' : genIndex r.degree r.order < 91 := hi
      obtain ⟨z1, z2, z3, z4⟩ := hs.size
      refine ⟨?_, ?_, ?_, ?_, ?_, ?_⟩
      · rw [List.filterMap_append, List.filterMap_cons_some ht, List.filterMap_nil, List.map_append, List.map_append, hs.parsed]
        simp [hr]
      · intro q hq
        rcases List.mem_append.mp hq with hq | hq
        · exact hs.valid q hq
        · rw [List.mem_singleton] at hq; subst hq; exact ⟨ho, hd⟩
      · intro q hq
        rcases List.mem_append.mp hq with hq | hq
        · exact (hs.bound q hq).trans (le_max_left _ _)
        · rw [List.mem_singleton] at hq; subst hq; exact le_max_right _ _
      · right
        rcases le_total r.degree s.maxDegree with hle | hle
        · rcases hs.attained with h0 | ⟨q, hq, hqd⟩
          · exact ⟨r, by simp, by simp only; omega⟩
          · exact ⟨q, by simp [hq], by simp only; omega⟩
        · exact ⟨r, by simp, by simp only; omega⟩
      · simp only [List.length_set]
        exact hs.size
      · intro n m hm hn
        obtain ⟨t1, t2, t3, t4⟩ := hs.table n m hm hn
        exact ⟨getElem?_set_table hm ho (by rw [z1]; exact hi') t1, getElem?_set_table hm ho (by rw [z2]; exact hi') t2,
          getElem?_set_table hm ho (by rw [z3]; exact hi') t3, getElem?_set_table hm ho (by rw [z4]; exact hi') t4⟩
    · rw [if_neg hi] at h
      cases h

theorem genFold_inv {α : Type} [Zero α] {parse : List Char → Option α} (rest : List (List Char)) : ∀ {l : List (List Char)} {s s' : GenState α},
    GenInv parse l s → rest.foldlM (genStep parse) s = some s' → GenInv parse (l ++ rest) s' := by
  induction rest with
  | nil => intro l s s' hs h; cases h; rwa [List.append_nil]
  | cons a r ih =>
    intro l s s' hs h
    rw [List.foldlM_cons, Option.bind_eq_bind, Option.bind_eq_some_iff] at h
    obtain ⟨s1, h1, h2⟩ := h
    have := ih (genStep_inv hs h1) h2
    rwa [List.append_assoc, List.singleton_append] at this

/-- C94. For every file the generator accepts, and every parser of numbers: the header values are the first three fields of the first line with any;
the records are the rows of data of the file, in order, each parsed; there are 90, with order at most degree at most 12, and degree 12 occurs; each table holds, at the slot of a pair, the value of the last record of that
pair, and 0 if there is none; and a pair with a single record has its values in the tables. -/
theorem C94_generator {α : Type} [Zero α] (parse : List Char → Option α) (contents : List Char) (out : Generated α)
    (h : render parse contents = some out) :
    (∃ epoch model date rest, headerRow contents = some (epoch :: model :: date :: rest) ∧ parse epoch = some out.epoch ∧
      out.modelName = model ∧ out.releaseDate = date) ∧
    List.Forall₂ (IsRecord parse) (dataRows contents) out.records ∧ out.records.length = 90 ∧
    (∀ r ∈ out.records, r.order ≤ r.degree ∧ r.degree ≤ 12) ∧ (∃ r ∈ out.records, r.degree = 12) ∧
    (out.g.length = 91 ∧ out.h.length = 91 ∧ out.gDot.length = 91 ∧ out.hDot.length = 91) ∧
    (∀ n m, m ≤ n → n ≤ 12 →
      out.g[genIndex n m]? = some (((lastFor out.records n m).map (·.g)).getD 0) ∧
      out.h[genIndex n m]? = some (((lastFor out.records n m).map (·.h)).getD 0) ∧
      out.gDot[genIndex n m]? = some (((lastFor out.records n m).map (·.gDot)).getD 0) ∧
      out.hDot[genIndex n m]? = some (((lastFor out.records n m).map (·.hDot)).getD 0)) ∧
    (∀ r ∈ out.records, (∀ q ∈ out.records, q.degree = r.degree → q.order = r.order → q = r) →
      out.g[genIndex r.degree r.order]? = some r.g ∧ out.h[genIndex r.degree r.order]? = some r.h ∧
      out.gDot[genIndex r.degree r.order]? = some r.gDot ∧ out.hDot[genIndex r.degree r.order]? = some r.hDot) := by
  unfold render at h
  simp only [Option.bind_eq_bind, Option.bind_eq_some_iff] at h
  obtain ⟨hl, hhl, h⟩ := h
  by_cases h3 : (words hl).length < 3
  · rw [if_pos h3] at h; cases h
  rw [if_neg h3] at h
  simp only [Option.bind_eq_some_iff] at h
  obtain ⟨e, he, s, hs, h⟩ := h
  by_cases hmax : s.maxDegree ≠ 12
  · rw [if_pos hmax] at h; cases h
  rw [if_neg hmax] at h
  by_cases hlen : s.records.length ≠ 90
  · rw [if_pos hlen] at h; cases h
  rw [if_neg hlen] at h
  cases h
  rw [not_not] at hmax hlen
  have h0 : GenInv parse [] (⟨[], List.replicate genCount (0 : α), List.replicate genCount 0, List.replicate genCount 0, List.replicate genCount 0, 0⟩ : GenState α) := by
    refine ⟨rfl, by simp, by simp, .inl rfl, by simp [genCount], fun n m hm hn => ?_⟩
    have : genIndex n m < genCount := (index_bound hm).mpr hn
    simp [lastFor, this]
  have inv := genFold_inv _ h0 hs
  rw [List.nil_append] at inv
  have hhead : headerRow contents = some (words hl) := by rw [← header_eq, hhl]; rfl
  have hrec : List.Forall₂ (IsRecord parse) (dataRows contents) s.records := by
    rw [← dataLines_eq]
    have hp := inv.parsed
    have hsix : ∀ f ∈ ((lines contents).drop 1).filterMap dataTokens, f.length = 6 := by
      intro f hf
      rw [dataLines_eq] at hf
      have := (List.mem_filter.mp hf).2
      simp only [isDataRow, Bool.and_eq_true, beq_iff_eq] at this
      exact this.1
    generalize ((lines contents).drop 1).filterMap dataTokens = fs at hp hsix
    generalize s.records = rs at hp
    clear * - hp hsix
    induction fs generalizing rs with
    | nil =>
      cases rs with
      | nil => exact List.Forall₂.nil
      | cons a b => cases hp
    | cons f fs ih =>
      cases rs with
      | nil => cases hp
      | cons a b =>
        rw [List.map_cons, List.map_cons, List.cons.injEq] at hp
        exact List.Forall₂.cons (parseTokens_isRecord (hsix f (by simp)) hp.1)
          (ih (fun g hg => hsix g (List.mem_cons_of_mem _ hg)) b hp.2)
  refine ⟨?_, hrec, hlen, inv.valid, ?_, inv.size, inv.table, fun r hr hu => ?_⟩
  · match hw : words hl, h3 with
    | a :: b :: c :: t, _ =>
      rw [hw] at hhead he
      exact ⟨a, b, c, t, hhead, he, rfl, rfl⟩
    | [], h3 | [_], h3 | [_, _], h3 => simp at h3
  · rcases inv.attained with h0 | ⟨r, hr, hd⟩
    · omega
    · exact ⟨r, hr, hd.trans hmax⟩
  · obtain ⟨ho, hd⟩ := inv.valid r hr
    have hl : lastFor s.records r.degree r.order = some r := by
      unfold lastFor
      rcases hf : s.records.reverse.find? (fun q => decide (q.degree = r.degree ∧ q.order = r.order)) with _ | q
      · have := List.find?_eq_none.mp hf r (List.mem_reverse.mpr hr)
        simp at this
      · have h1 := List.find?_some hf
        have h2 := List.mem_of_find?_eq_some hf
        simp only [decide_eq_true_eq] at h1
        rw [hf, hu q (List.mem_reverse.mp h2) h1.1 h1.2]
    obtain ⟨t1, t2, t3, t4⟩ := inv.table r.degree r.order ho hd
    rw [hl] at t1 t2 t3 t4
    exact ⟨t1, t2, t3, t4⟩

/-- The file of the repository with its third line, the record of the pair (1, 1), replaced by a copy of the second. -/
def badText : List Char := (((cofLines.set 2 (cofLines.getD 1 [])).flatMap fun l => l ++ [10]).map Char.ofNat)

/-- C94 fails: a file in which a pair of degree and order appears twice and another not at all is accepted, and the missing coefficient becomes zero. -/
theorem C94_fails : ∃ contents out, render parseTenths contents = some out ∧ (∀ r ∈ out.records, ¬ (r.degree = 1 ∧ r.order = 1)) ∧
    out.g[genIndex 1 1]? = some 0 ∧ out.h[genIndex 1 1]? = some 0 := by
  have h : (render parseTenths badText).any (fun out => decide ((∀ r ∈ out.records, ¬ (r.degree = 1 ∧ r.order = 1)) ∧
    out.g[genIndex 1 1]? = some 0 ∧ out.h[genIndex 1 1]? = some 0)) = true := by
    decide +kernel
  rw [Option.any_eq_true] at h
  obtain ⟨out, h1, h2⟩ := h
  exact ⟨badText, out, h1, of_decide_eq_true h2⟩

end Verif.Wmm
