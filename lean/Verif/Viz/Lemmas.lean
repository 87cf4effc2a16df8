import Verif.Viz.Spec

/-! # Helper lemmas for the CSV tail -/

namespace Verif.Viz

variable {F : Type} (env : Env F) (cfg : Config)

/-! ## Lines -/

theorem splitChar_ne (c : Char) (t : List Char) : splitChar c t ≠ [] := by
  cases t with
  | nil => simp [splitChar]
  | cons d t =>
    simp only [splitChar]
    split
    · simp
    · cases splitChar c t <;> simp

/-- Put a character in front of the first piece. -/
def consHead (d : Char) : List (List Char) → List (List Char)
  | [] => [[d]]
  | h :: r => (d :: h) :: r

theorem splitChar_cons {c d : Char} (h : ¬ d = c) (t : List Char) :
    splitChar c (d :: t) = consHead d (splitChar c t) := by
  rw [splitChar, if_neg h]; cases splitChar c t <;> rfl

/-- The unterminated rest of a text. -/
def restOf (t : List Char) : List Char := (splitChar '\n' t).getLast (splitChar_ne _ _)

theorem splitChar_append (c : Char) (a b : List Char) :
    splitChar c (a ++ b) =
      (splitChar c a).dropLast ++ splitChar c ((splitChar c a).getLast (splitChar_ne _ _) ++ b) := by
  induction a with
  | nil => simp [splitChar]
  | cons d a ih =>
    by_cases h : d = c
    · subst h
      have hs : splitChar d (d :: a) = [] :: splitChar d a := by simp [splitChar]
      have hs' : splitChar d (d :: a ++ b) = [] :: splitChar d (a ++ b) := by simp [splitChar]
      rw [hs', ih]
      simp only [hs]
      rw [List.dropLast_cons_of_ne_nil (splitChar_ne _ _), List.getLast_cons (splitChar_ne _ _)]
      rfl
    · cases hA : splitChar c a with
      | nil => exact absurd hA (splitChar_ne _ _)
      | cons x r =>
        have hs : splitChar c (d :: a) = (d :: x) :: r := by rw [splitChar_cons h, hA]; rfl
        rw [List.cons_append, splitChar_cons h, ih]
        simp only [hs, hA]
        cases r with
        | nil =>
          simp only [List.dropLast_singleton, List.nil_append, List.getLast_singleton,
            List.cons_append]
          rw [splitChar_cons h]
        | cons y r =>
          simp [List.dropLast_cons_of_ne_nil, consHead]

theorem completeLines_append (a b : List Char) :
    completeLines (a ++ b) = completeLines a ++ completeLines (restOf a ++ b) := by
  unfold completeLines restOf
  rw [splitChar_append, List.dropLast_append_of_ne_nil (splitChar_ne _ _), List.map_append]

theorem restOf_append (a b : List Char) : restOf (a ++ b) = restOf (restOf a ++ b) := by
  have h : ∀ x y (e : x = y) (hx : x ≠ []) (hy : y ≠ []),
      List.getLast (α := List Char) x hx = y.getLast hy := by
    intro x y e; subst e; intros; rfl
  unfold restOf
  rw [h _ _ (splitChar_append '\n' a b) _ (by simp [splitChar_ne]),
    List.getLast_append_of_ne_nil _ (splitChar_ne _ _)]

/-- Closing the list of pieces as `str::lines` does. -/
def finish : List (List Char) → List (List Char)
  | [] => []
  | [l] => if l = [] then [] else [l]
  | l :: ls => stripCR l :: finish ls

theorem rustLinesAux_eq (cur t : List Char) :
    rustLinesAux cur t = match splitChar '\n' t with
      | [] => []
      | h :: r => finish ((cur.reverse ++ h) :: r) := by
  induction t generalizing cur with
  | nil => simp [rustLinesAux, splitChar, finish]
  | cons c t ih =>
    by_cases h : c = '\n'
    · subst h
      have : splitChar '\n' ('\n' :: t) = [] :: splitChar '\n' t := by simp [splitChar]
      rw [this]
      simp only [rustLinesAux, if_true, ih]
      cases hA : splitChar '\n' t with
      | nil => exact absurd hA (splitChar_ne _ _)
      | cons x r => simp [finish]
    · simp only [rustLinesAux, if_neg h, ih, splitChar]
      cases hA : splitChar '\n' t with
      | nil => exact absurd hA (splitChar_ne _ _)
      | cons x r => simp

theorem rustLines_eq (t : List Char) : rustLines t = finish (splitChar '\n' t) := by
  rw [rustLines, rustLinesAux_eq]
  cases hA : splitChar '\n' t with
  | nil => rfl
  | cons x r => simp

theorem finish_eq (ls : List (List Char)) (h : ls ≠ []) :
    finish ls = ls.dropLast.map stripCR ++ (if ls.getLast h = [] then [] else [ls.getLast h]) := by
  induction ls with
  | nil => exact absurd rfl h
  | cons l ls ih =>
    cases ls with
    | nil => by_cases hl : l = [] <;> simp [finish, hl]
    | cons m ls =>
      rw [finish, ih (by simp)]
      · simp only [List.dropLast_cons_cons, List.map_cons, List.cons_append,
          List.getLast_cons (List.cons_ne_nil m ls)]
      · simp

theorem rustLines_split (t : List Char) :
    rustLines t = completeLines t ++ (if restOf t = [] then [] else [restOf t]) := by
  rw [rustLines_eq, finish_eq _ (splitChar_ne _ _)]; rfl

theorem restOf_nil_iff (t : List Char) : restOf t = [] ↔ t = [] ∨ t.getLast? = some '\n' := by
  induction t with
  | nil => simp [restOf, splitChar]
  | cons c t ih =>
    by_cases h : c = '\n'
    · subst h
      have : restOf ('\n' :: t) = restOf t := by
        have e : splitChar '\n' ('\n' :: t) = [] :: splitChar '\n' t := by simp [splitChar]
        simp only [restOf, e]
        rw [List.getLast_cons (splitChar_ne _ _)]
      rw [this, ih]
      cases t with
      | nil => simp
      | cons d t => simp [List.getLast?_cons_cons]
    · cases t with
      | nil => simp [restOf, splitChar, h]
      | cons d t =>
        have : restOf (c :: d :: t) = [] ↔ restOf (d :: t) = [] := by
          have hg : ∀ x y (e : x = y) (hx : x ≠ []), List.getLast (α := List Char) x hx =
              y.getLast (e ▸ hx) := by intro x y e; subst e; intros; rfl
          cases hA : splitChar '\n' (d :: t) with
          | nil => exact absurd hA (splitChar_ne _ _)
          | cons x r =>
            have e : splitChar '\n' (c :: d :: t) = (c :: x) :: r := by
              rw [splitChar_cons h, hA]; rfl
            unfold restOf
            rw [hg _ _ e, hg _ _ hA]
            cases r with
            | nil =>
              simp only [List.getLast_singleton]
              simp only [reduceCtorEq, false_iff]
              intro hx
              subst hx
              by_cases hd : d = '\n'
              · rw [splitChar, if_pos hd] at hA
                simp at hA
                exact splitChar_ne _ _ hA
              · rw [splitChar, if_neg hd] at hA
                cases hB : splitChar '\n' t with
                | nil => exact absurd hB (splitChar_ne _ _)
                | cons y s => rw [hB] at hA; simp at hA
            | cons y r => simp
        rw [this, ih]
        simp [List.getLast?_cons_cons]

theorem restOf_idem (t : List Char) : restOf (restOf t) = restOf t := by
  have := restOf_append t []
  simpa using this.symm

theorem completeLines_restOf (t : List Char) : completeLines (restOf t) = [] := by
  have := completeLines_append t []
  simp only [List.append_nil] at this
  have h : (completeLines t).length = (completeLines t).length + (completeLines (restOf t)).length := by
    rw [← List.length_append, ← this]
  exact List.length_eq_zero_iff.1 (by omega)

/-! ## The loop does not look at the partial line -/

/-- Replace the partial line. -/
def St.setP (st : St F) (p : List Char) : St F := { st with partialLine := p }

theorem pushY_setP (st : St F) (p : List Char) (ys : List (List Char)) :
    pushY (st.setP p) ys = ((pushY st ys).1.setP p, (pushY st ys).2) := by
  induction ys generalizing st with
  | nil => rfl
  | cons y ys ih =>
    simp only [pushY]
    rw [show (st.setP p).headers = st.headers from rfl]
    cases st.headers.findIdx? (· == y) with
    | none => rfl
    | some yi => exact ih { st with yIndices := st.yIndices ++ [yi] }

theorem resolve_setP (st : St F) (p : List Char) :
    resolve env cfg (st.setP p) = ((resolve env cfg st).1.setP p, (resolve env cfg st).2) := by
  unfold resolve
  rw [show (st.setP p).headers = st.headers from rfl]
  by_cases h : cfg.hasHeader = true
  · rw [if_pos h, if_pos h]
    by_cases h2 : st.headers = []
    · rw [if_pos h2, if_pos h2]
    · rw [if_neg h2, if_neg h2]
      cases st.headers.findIdx? (· == cfg.xColumn) with
      | none => rfl
      | some xi => exact pushY_setP { st with xIndex := some xi, yIndices := [] } p cfg.yColumns
  · rw [if_neg h, if_neg h]
    cases env.parseUsize cfg.xColumn with
    | none => rfl
    | some xi =>
      cases hq : cfg.yColumns.mapM env.parseUsize with
      | none => simp only []; rfl
      | some yis => simp only []; rfl

theorem trimIfNeeded_setP (st : St F) (p : List Char) :
    trimIfNeeded cfg (st.setP p) = (trimIfNeeded cfg st).setP p := by
  unfold trimIfNeeded
  cases cfg.maxPoints with
  | none => rfl
  | some m =>
    simp only [show (st.setP p).xs = st.xs from rfl]
    by_cases h : st.xs.length ≤ m
    · rw [if_pos h, if_pos h]
    · rw [if_neg h, if_neg h]; rfl

theorem dataLine_setP (st : St F) (p line : List Char) :
    dataLine env cfg (st.setP p) line =
      ((dataLine env cfg st line).1.setP p, (dataLine env cfg st line).2) := by
  unfold dataLine
  rw [show (st.setP p).xIndex = st.xIndex from rfl, show (st.setP p).yIndices = st.yIndices from rfl]
  cases st.xIndex with
  | none => rfl
  | some xi =>
    simp only []
    cases (splitCsvLine env line)[xi]?.bind env.parseF with
    | none => rfl
    | some x =>
      simp only []
      cases st.yIndices.mapM (fun yi => (splitCsvLine env line)[yi]?.bind env.parseF) with
      | none => rfl
      | some row =>
        simp only []
        rw [← trimIfNeeded_setP]; rfl

theorem lineStep_setP (st : St F) (p raw : List Char) :
    lineStep env cfg (st.setP p) raw =
      ((lineStep env cfg st raw).1.setP p, (lineStep env cfg st raw).2) := by
  unfold lineStep
  by_cases h : trim env raw = []
  · simp only [if_pos h]
  · simp only [if_neg h, show (st.setP p).headers = st.headers from rfl,
      show (st.setP p).xIndex = st.xIndex from rfl, show (st.setP p).yIndices = st.yIndices from rfl]
    by_cases h2 : (cfg.hasHeader && st.headers.isEmpty) = true
    · simp only [if_pos h2]
      have := resolve_setP env cfg { st with headers := splitCsvLine env (trim env raw) } p
      rw [show St.mk (splitCsvLine env (trim env raw)) st.xIndex st.yIndices (st.setP p).xs (st.setP p).ys
        (st.setP p).partialLine = ({ st with headers := splitCsvLine env (trim env raw) } : St F).setP p from
        rfl, this]
    · simp only [if_neg h2]
      by_cases h3 : (st.xIndex.isNone || st.yIndices.isEmpty) = true
      · simp only [if_pos h3, resolve_setP]
        by_cases h4 : (resolve env cfg st).2 = true
        · simp only [if_pos h4, dataLine_setP]
        · simp only [if_neg h4]
      · simp only [if_neg h3, dataLine_setP, if_true]

theorem linesLoop_setP (st : St F) (p : List Char) (c : Bool) (ls : List (List Char)) :
    linesLoop env cfg (st.setP p) c ls =
      ((linesLoop env cfg st c ls).1.setP p, (linesLoop env cfg st c ls).2) := by
  induction ls generalizing st c with
  | nil => rfl
  | cons l ls ih =>
    simp only [linesLoop, lineStep_setP]
    cases h : lineStep env cfg st l with
    | mk st' r =>
      cases r with
      | none => rfl
      | some c' => exact ih st' (c || c')

theorem parseTextChunk_eq (st : St F) (text : List Char) :
    parseTextChunk env cfg st text =
      linesLoop env cfg (st.setP (restOf (st.partialLine ++ text))) false
        (completeLines (st.partialLine ++ text)) := by
  unfold parseTextChunk
  simp only []
  generalize st.partialLine ++ text = buf
  have hl := rustLines_split buf
  by_cases h : restOf buf = []
  · rw [if_pos h, List.append_nil] at hl
    rw [h]
    rcases (restOf_nil_iff buf).1 h with rfl | h2
    · rfl
    · rw [if_pos h2, hl]; rfl
  · rw [if_neg h] at hl
    have h2 : ¬ buf.getLast? = some '\n' := fun e => h ((restOf_nil_iff buf).2 (Or.inr e))
    rw [if_neg h2, hl]
    simp only [List.getLast?_concat, List.dropLast_concat]
    rfl

/-- Forget the `changed` flag. -/
def okPart (r : St F × Option Bool) : St F × Bool := (r.1, r.2.isSome)

theorem linesLoop_changed (st : St F) (c c' : Bool) (ls : List (List Char)) :
    okPart (linesLoop env cfg st c ls) = okPart (linesLoop env cfg st c' ls) := by
  induction ls generalizing st c c' with
  | nil => rfl
  | cons l ls ih =>
    simp only [linesLoop]
    cases lineStep env cfg st l with
    | mk st' r =>
      cases r with
      | none => rfl
      | some d => exact ih st' _ _

/-- The loop over lines without the `changed` flag. -/
def runLines (st : St F) : List (List Char) → St F × Bool
  | [] => (st, true)
  | l :: ls =>
    match lineStep env cfg st l with
    | (st', none) => (st', false)
    | (st', some _) => runLines st' ls

theorem runLines_eq (st : St F) (c : Bool) (ls : List (List Char)) :
    okPart (linesLoop env cfg st c ls) = runLines env cfg st ls := by
  induction ls generalizing st c with
  | nil => rfl
  | cons l ls ih =>
    simp only [linesLoop, runLines]
    cases lineStep env cfg st l with
    | mk st' r =>
      cases r with
      | none => rfl
      | some d => exact ih st' _

theorem runLines_setP (st : St F) (p : List Char) (ls : List (List Char)) :
    runLines env cfg (st.setP p) ls = ((runLines env cfg st ls).1.setP p, (runLines env cfg st ls).2) := by
  rw [← runLines_eq env cfg _ false, ← runLines_eq env cfg _ false, linesLoop_setP]; rfl

theorem runLines_append (st : St F) (l₁ l₂ : List (List Char)) :
    runLines env cfg st (l₁ ++ l₂) =
      if (runLines env cfg st l₁).2 then runLines env cfg (runLines env cfg st l₁).1 l₂
      else runLines env cfg st l₁ := by
  induction l₁ generalizing st with
  | nil => rfl
  | cons l ls ih =>
    have e : ∀ ms, runLines env cfg st (l :: ms) =
        if (lineStep env cfg st l).2.isSome then runLines env cfg (lineStep env cfg st l).1 ms
        else ((lineStep env cfg st l).1, false) := by
      intro ms
      simp only [runLines]
      rcases lineStep env cfg st l with ⟨st', _ | d⟩ <;> rfl
    rw [List.cons_append, e, e]
    by_cases h : (lineStep env cfg st l).2.isSome = true
    · simp only [if_pos h]; exact ih _
    · simp only [if_neg h]; rfl

theorem parse_ok (st : St F) (text : List Char) :
    okPart (parseTextChunk env cfg st text) =
      ((runLines env cfg st (completeLines (st.partialLine ++ text))).1.setP
        (restOf (st.partialLine ++ text)),
       (runLines env cfg st (completeLines (st.partialLine ++ text))).2) := by
  rw [parseTextChunk_eq, runLines_eq, runLines_setP]

theorem setP_setP (st : St F) (p q : List Char) : (st.setP p).setP q = st.setP q := rfl

theorem setP_self (st : St F) : st.setP st.partialLine = st := rfl

/-- Feeding chunks is feeding the lines of the concatenation. -/
theorem parseChunks_eq (st : St F) (ts : List (List Char)) (hp : restOf st.partialLine = st.partialLine)
    (hc : completeLines st.partialLine = []) :
    ((parseChunks env cfg st ts).2 =
      (runLines env cfg st (completeLines (st.partialLine ++ ts.flatten))).2) ∧
    ((parseChunks env cfg st ts).2 = true →
      (parseChunks env cfg st ts).1 =
        (runLines env cfg st (completeLines (st.partialLine ++ ts.flatten))).1.setP
          (restOf (st.partialLine ++ ts.flatten))) ∧
    ∃ p, (parseChunks env cfg st ts).1 =
        (runLines env cfg st (completeLines (st.partialLine ++ ts.flatten))).1.setP p := by
  induction ts generalizing st with
  | nil =>
    simp only [parseChunks, List.flatten_nil, List.append_nil, hc, hp, runLines, setP_self]
    exact ⟨trivial, fun _ => trivial, st.partialLine, rfl⟩
  | cons t ts ih =>
    have hok := parse_ok env cfg st t
    rw [List.flatten_cons, ← List.append_assoc, completeLines_append, runLines_append,
      restOf_append (st.partialLine ++ t)]
    simp only [parseChunks]
    cases hA : parseTextChunk env cfg st t with
    | mk st' r =>
      rw [hA] at hok
      have h1 := congrArg Prod.fst hok
      have h2 := congrArg Prod.snd hok
      simp only [okPart] at h1 h2
      rw [← h2]
      cases r with
      | none =>
        simp only [Option.isSome_none, Bool.false_eq_true, if_false]
        refine ⟨by rw [← h2]; rfl, fun h => (by cases h), _, h1⟩
      | some c =>
        simp only [Option.isSome_some, if_true]
        have hp' : st'.partialLine = restOf (st.partialLine ++ t) := by rw [h1]; rfl
        have := ih st' (by rw [hp', restOf_idem]) (by rw [hp', completeLines_restOf])
        rw [hp'] at this
        have e : runLines env cfg st' (completeLines (restOf (st.partialLine ++ t) ++ ts.flatten)) =
            ((runLines env cfg (runLines env cfg st (completeLines (st.partialLine ++ t))).1
              (completeLines (restOf (st.partialLine ++ t) ++ ts.flatten))).1.setP
                (restOf (st.partialLine ++ t)),
             (runLines env cfg (runLines env cfg st (completeLines (st.partialLine ++ t))).1
              (completeLines (restOf (st.partialLine ++ t) ++ ts.flatten))).2) := by
          rw [h1, runLines_setP]
        rw [e] at this
        simp only [setP_setP] at this
        exact this

/-! ## Pushing rows -/

theorem pushRow_length (cs : List (List F)) (vs : List F) : (pushRow cs vs).length = cs.length := by
  induction cs generalizing vs with
  | nil => cases vs <;> rfl
  | cons c cs ih => cases vs <;> simp [pushRow, ih]

theorem pushRow_get (cs : List (List F)) (vs : List F) (j : Nat) :
    (pushRow cs vs)[j]? = cs[j]?.map fun c => c ++ vs[j]?.toList := by
  induction cs generalizing vs j with
  | nil => cases vs <;> simp [pushRow]
  | cons c cs ih =>
    cases vs with
    | nil => simp [pushRow]
    | cons v vs => cases j <;> simp [pushRow, ih]

theorem lastN_length {α : Type} (m : Option Nat) (l : List α) :
    (lastN m l).length = match m with | none => l.length | some m => min m l.length := by
  cases m with
  | none => rfl
  | some m => simp [lastN]; omega

theorem lastN_push {α : Type} (m : Nat) (l : List α) (a : α) :
    (lastN (some m) l ++ [a]).drop ((lastN (some m) l ++ [a]).length - m) =
      lastN (some m) (l ++ [a]) := by
  simp only [lastN, List.length_append, List.length_drop, List.length_singleton]
  have : l.drop (l.length - m) ++ [a] = (l ++ [a]).drop (l.length - m) := by
    rw [List.drop_append_of_le_length (by omega)]
  rw [this, List.drop_drop]
  congr 1
  omega

/-- Every row has one value per y column. -/
def Full (n : Nat) (rs : List (F × List F)) : Prop := ∀ r ∈ rs, r.2.length = n

theorem filterMap_col {n : Nat} {rs : List (F × List F)} (h : Full n rs) {j : Nat} (hj : j < n) :
    (rs.filterMap fun r => r.2[j]?).length = rs.length := by
  induction rs with
  | nil => rfl
  | cons r rs ih =>
    have h1 : r.2[j]? = some (r.2[j]'(by rw [h r (by simp)]; exact hj)) :=
      List.getElem?_eq_getElem _
    rw [List.filterMap_cons_some (f := fun r : F × List F => r.2[j]?) h1, List.length_cons,
      ih (fun r' hr' => h r' (List.mem_cons_of_mem _ hr')), List.length_cons]

theorem filterMap_drop {n : Nat} {rs : List (F × List F)} (h : Full n rs) {j : Nat} (hj : j < n)
    (k : Nat) :
    ((rs.drop k).filterMap fun r => r.2[j]?) = (rs.filterMap fun r => r.2[j]?).drop k := by
  induction rs generalizing k with
  | nil => simp
  | cons r rs ih =>
    cases k with
    | zero => rfl
    | succ k =>
      have h1 : r.2[j]? = some (r.2[j]'(by rw [h r (by simp)]; exact hj)) :=
        List.getElem?_eq_getElem _
      rw [List.filterMap_cons_some (f := fun r : F × List F => r.2[j]?) h1, List.drop_succ_cons, List.drop_succ_cons,
        ih (fun r' hr' => h r' (List.mem_cons_of_mem _ hr'))]

theorem full_lastN {n : Nat} {rs : List (F × List F)} (h : Full n rs) (m : Option Nat) :
    Full n (lastN m rs) := by
  cases m with
  | none => exact h
  | some m => exact fun r hr => h r (List.mem_of_mem_drop hr)

/-- One row pushed and trimmed gives the series of one more row. -/
theorem push_series (st : St F) (rs : List (F × List F)) (x : F) (row : List F)
    (hs : (st.xs, st.ys) = series cfg rs) (hf : Full cfg.yColumns.length rs)
    (hr : row.length = cfg.yColumns.length) :
    ((trimIfNeeded cfg { st with xs := st.xs ++ [x], ys := pushRow st.ys row }).xs,
     (trimIfNeeded cfg { st with xs := st.xs ++ [x], ys := pushRow st.ys row }).ys) =
      series cfg (rs ++ [(x, row)]) := by
  have hx : st.xs = (lastN cfg.maxPoints rs).map (·.1) := congrArg Prod.fst hs
  have hy : st.ys = (List.range cfg.yColumns.length).map fun j =>
      (lastN cfg.maxPoints rs).filterMap fun r => r.2[j]? := congrArg Prod.snd hs
  have hpx : st.xs ++ [x] = (lastN cfg.maxPoints rs ++ [(x, row)]).map (·.1) := by simp [hx]
  have hpy : pushRow st.ys row = (List.range cfg.yColumns.length).map fun j =>
      (lastN cfg.maxPoints rs ++ [(x, row)]).filterMap fun r => r.2[j]? := by
    apply List.ext_getElem?
    intro j
    rw [pushRow_get, hy, List.getElem?_map, List.getElem?_map]
    by_cases hj : j < cfg.yColumns.length
    · rw [List.getElem?_range hj]
      have hq : row[j]? = some (row[j]'(by omega)) := List.getElem?_eq_getElem _
      simp [List.filterMap_append, hq]
    · rw [List.getElem?_eq_none (l := List.range _) (by simpa using hj)]; rfl
  rw [hpx, hpy]
  unfold trimIfNeeded series
  have hl := full_lastN hf cfg.maxPoints
  have hfull : Full cfg.yColumns.length (lastN cfg.maxPoints rs ++ [(x, row)]) := by
    intro r hr'
    rcases List.mem_append.1 hr' with h | h
    · exact hl r h
    · rw [List.mem_singleton.1 h]; exact hr
  cases hm : cfg.maxPoints with
  | none => simp [lastN]
  | some m =>
    rw [hm] at hfull
    rw [← lastN_push]
    generalize lastN (some m) rs ++ [(x, row)] = ks at hfull
    simp only [List.length_map]
    by_cases hk : ks.length ≤ m
    · simp only [if_pos hk]
      rw [show ks.length - m = 0 by omega]
      rfl
    · simp only [if_neg hk, List.map_drop, List.map_map]
      congr 1
      apply List.map_congr_left
      intro j hj
      have hj' := List.mem_range.1 hj
      simp only [Function.comp]
      rw [if_pos (by rw [filterMap_col hfull hj']; omega), filterMap_drop hfull hj']

/-! ## Resolved states -/

/-- The columns are known and the series is that of `rs`. -/
structure Resolved (xi : Nat) (yis : List Nat) (st : St F) (rs : List (F × List F)) : Prop where
  hdr : (cfg.hasHeader && st.headers.isEmpty) = false
  x : st.xIndex = some xi
  y : st.yIndices = yis
  len : yis.length = cfg.yColumns.length
  res : resolve env cfg st = (st, true)
  ser : (st.xs, st.ys) = series cfg rs
  full : Full cfg.yColumns.length rs

theorem pushY_ok (st : St F) (ys : List (List Char)) (yis : List Nat)
    (h : ys.mapM (fun y => st.headers.findIdx? (· == y)) = some yis) :
    pushY st ys = ({ st with yIndices := st.yIndices ++ yis }, true) := by
  induction ys generalizing st yis with
  | nil =>
    simp at h; subst h; simp [pushY]
  | cons y ys ih =>
    simp only [List.mapM_cons, Option.bind_eq_bind, Option.bind_eq_some_iff, Option.pure_def,
      Option.some.injEq] at h
    obtain ⟨yi, h1, r, h2, h3⟩ := h
    simp only [pushY, h1]
    rw [ih { st with yIndices := st.yIndices ++ [yi] } r h2, ← h3]
    simp

theorem pushY_err (st : St F) (ys : List (List Char))
    (h : ys.mapM (fun y => st.headers.findIdx? (· == y)) = none) : (pushY st ys).2 = false := by
  induction ys generalizing st with
  | nil => simp at h
  | cons y ys ih =>
    simp only [List.mapM_cons, Option.bind_eq_bind, Option.pure_def] at h
    simp only [pushY]
    cases h1 : st.headers.findIdx? (· == y) with
    | none => rfl
    | some yi =>
      rw [h1] at h
      simp only [Option.bind_some] at h
      apply ih { st with yIndices := st.yIndices ++ [yi] }
      cases h2 : List.mapM (fun y => st.headers.findIdx? (· == y)) ys with
      | none => rfl
      | some r => rw [h2] at h; cases h

theorem mapM_length {α β : Type} (f : α → Option β) (l : List α) (r : List β)
    (h : l.mapM f = some r) : r.length = l.length := by
  induction l generalizing r with
  | nil => simp at h; subst h; rfl
  | cons a l ih =>
    simp only [List.mapM_cons, Option.bind_eq_bind, Option.bind_eq_some_iff, Option.pure_def,
      Option.some.injEq] at h
    obtain ⟨b, _, r', h2, h3⟩ := h
    rw [← h3, List.length_cons, ih r' h2, List.length_cons]

theorem trimIfNeeded_keeps (st : St F) :
    (trimIfNeeded cfg st).headers = st.headers ∧ (trimIfNeeded cfg st).xIndex = st.xIndex ∧
    (trimIfNeeded cfg st).yIndices = st.yIndices := by
  unfold trimIfNeeded
  cases cfg.maxPoints with
  | none => exact ⟨rfl, rfl, rfl⟩
  | some m =>
    by_cases h : st.xs.length ≤ m
    · simp only [if_pos h]; exact ⟨trivial, trivial, trivial⟩
    · simp only [if_neg h]; exact ⟨trivial, trivial, trivial⟩

/-- Whether `resolve` succeeds without changing the indices depends only on header and indices. -/
theorem resolve_stable (st st' : St F) (h : resolve env cfg st = (st, true))
    (h1 : st'.headers = st.headers) (h2 : st'.xIndex = st.xIndex) (h3 : st'.yIndices = st.yIndices) :
    resolve env cfg st' = (st', true) := by
  obtain ⟨hd, xi, yis, xs, ys, p⟩ := st
  obtain ⟨hd', xi', yis', xs', ys', p'⟩ := st'
  simp only at h1 h2 h3
  subst h1 h2 h3
  unfold resolve at h ⊢
  simp only at h ⊢
  by_cases hh : cfg.hasHeader = true
  · rw [if_pos hh] at h ⊢
    by_cases h2 : hd' = []
    · rw [if_pos h2]
    · rw [if_neg h2] at h ⊢
      cases hx : hd'.findIdx? (· == cfg.xColumn) with
      | none => rw [hx] at h; simp at h
      | some xj =>
        rw [hx] at h
        simp only at h ⊢
        cases hm : cfg.yColumns.mapM (fun y => hd'.findIdx? (· == y)) with
        | none =>
          have := pushY_err (F := F) ⟨hd', some xj, [], xs, ys, p⟩ cfg.yColumns hm
          rw [h] at this; cases this
        | some r =>
          rw [pushY_ok _ _ r hm] at h ⊢
          simp only [Prod.mk.injEq, St.mk.injEq, List.nil_append, true_and, and_true] at h ⊢
          exact h
  · rw [if_neg hh] at h ⊢
    cases hx : env.parseUsize cfg.xColumn with
    | none => rw [hx] at h; simp at h
    | some xj =>
      rw [hx] at h
      simp only at h ⊢
      cases hm : cfg.yColumns.mapM env.parseUsize with
      | none => rw [hm] at h; simp at h
      | some r =>
        rw [hm] at h
        simp only [Prod.mk.injEq, St.mk.injEq, true_and, and_true] at h ⊢
        exact h

theorem dataLine_resolved {xi : Nat} {yis : List Nat} {st : St F} {rs : List (F × List F)}
    (H : Resolved env cfg xi yis st rs) (line : List Char) :
    Resolved env cfg xi yis (dataLine env cfg st line).1 (rs ++ (rowOf env xi yis line).toList) := by
  obtain ⟨hd, xI, yI, sx, sy, p⟩ := st
  have e1 : xI = some xi := H.x
  have e2 : yI = yis := H.y
  subst e1 e2
  unfold dataLine rowOf
  simp only [Option.bind_eq_bind, Option.pure_def]
  cases h1 : (splitCsvLine env line)[xi]?.bind env.parseF with
  | none => simp only [Option.bind_none, Option.toList_none, List.append_nil]; exact H
  | some x =>
    simp only [Option.bind_some]
    cases h2 : List.mapM (fun yi => (splitCsvLine env line)[yi]?.bind env.parseF) yI with
    | none => simp only [Option.bind_none, Option.toList_none, List.append_nil]; exact H
    | some row =>
      simp only [Option.bind_some, Option.toList_some]
      have hlen : row.length = cfg.yColumns.length := by rw [mapM_length _ _ _ h2, H.len]
      obtain ⟨k1, k2, k3⟩ := trimIfNeeded_keeps cfg
        ⟨hd, some xi, yI, sx ++ [x], pushRow sy row, p⟩
      refine ⟨?_, ?_, ?_, H.len, ?_, push_series cfg ⟨hd, some xi, yI, sx, sy, p⟩ rs x row H.ser H.full hlen, ?_⟩
      · rw [k1]; exact H.hdr
      · rw [k2]
      · rw [k3]
      · exact resolve_stable env cfg _ _ H.res k1 k2 k3
      · intro r hr
        rcases List.mem_append.1 hr with h | h
        · exact H.full r h
        · rw [List.mem_singleton.1 h]; exact hlen

theorem lineStep_resolved {xi : Nat} {yis : List Nat} {st : St F} {rs : List (F × List F)}
    (H : Resolved env cfg xi yis st rs) (raw : List Char) :
    (lineStep env cfg st raw).2.isSome = true ∧
    Resolved env cfg xi yis (lineStep env cfg st raw).1
      (rs ++ (([trim env raw].filter (· ≠ [])).filterMap (rowOf env xi yis))) := by
  unfold lineStep
  by_cases h : trim env raw = []
  · simp only [h]
    simpa using H
  · have hr : (if (st.xIndex.isNone || st.yIndices.isEmpty) = true then resolve env cfg st
        else (st, true)) = (st, true) := by
      by_cases h3 : (st.xIndex.isNone || st.yIndices.isEmpty) = true
      · rw [if_pos h3, H.res]
      · rw [if_neg h3]
    simp only [if_neg h, H.hdr, Bool.false_eq_true, if_false, hr, if_true]
    refine ⟨rfl, ?_⟩
    have := dataLine_resolved env cfg H (trim env raw)
    have e : ([trim env raw].filter (· ≠ [])).filterMap (rowOf env xi yis) =
        (rowOf env xi yis (trim env raw)).toList := by
      simp only [ne_eq, decide_not, List.filter_cons, h, decide_false, Bool.not_false, if_true,
        List.filter_nil]
      cases hq : rowOf env xi yis (trim env raw) <;> simp [hq]
    rw [e]; exact this

theorem runLines_cons (st : St F) (l : List Char) (ls : List (List Char)) :
    runLines env cfg st (l :: ls) =
      if (lineStep env cfg st l).2.isSome then runLines env cfg (lineStep env cfg st l).1 ls
      else ((lineStep env cfg st l).1, false) := by
  simp only [runLines]
  rcases lineStep env cfg st l with ⟨st', _ | d⟩ <;> rfl

/-- Trimmed non-blank lines. -/
def useful (ls : List (List Char)) : List (List Char) := (ls.map (trim env)).filter (· ≠ [])

theorem runLines_resolved {xi : Nat} {yis : List Nat} (ls : List (List Char)) {st : St F}
    {rs : List (F × List F)} (H : Resolved env cfg xi yis st rs) :
    (runLines env cfg st ls).2 = true ∧
    Resolved env cfg xi yis (runLines env cfg st ls).1
      (rs ++ (useful env ls).filterMap (rowOf env xi yis)) := by
  induction ls generalizing st rs with
  | nil => simpa [runLines, useful] using H
  | cons l ls ih =>
    obtain ⟨h1, h2⟩ := lineStep_resolved env cfg H l
    rw [runLines_cons, if_pos h1]
    obtain ⟨h3, h4⟩ := ih h2
    refine ⟨h3, ?_⟩
    have e : useful env (l :: ls) = [trim env l].filter (· ≠ []) ++ useful env ls := by
      unfold useful
      rw [List.map_cons, ← List.filter_append]; rfl
    rw [e, List.filterMap_append, ← List.append_assoc]
    exact h4

theorem splitCsvLine_ne (l : List Char) : splitCsvLine env l ≠ [] := by
  simp [splitCsvLine, splitChar_ne]

theorem series_nil : series (F := F) cfg [] = ([], List.replicate cfg.yColumns.length []) := by
  unfold series
  have : lastN (α := F × List F) cfg.maxPoints [] = [] := by cases cfg.maxPoints <;> simp [lastN]
  rw [this]
  simp only [List.map_nil, List.filterMap_nil, List.map_const', List.length_range]

/-- `rows` from the list of useful lines. -/
def rowsL (us : List (List Char)) : Option (List (F × List F)) :=
  match us with
  | [] => some []
  | h :: rest =>
    if cfg.hasHeader then
      (headerCols env cfg h).map fun (xi, yis) => rest.filterMap (rowOf env xi yis)
    else
      (numericCols env cfg).map fun (xi, yis) => (h :: rest).filterMap (rowOf env xi yis)

theorem rows_eq (t : List Char) : rows env cfg t = rowsL env cfg (useful env (completeLines t)) := rfl

/-- A fresh state: nothing seen but blank lines. -/
structure Fresh (st : St F) : Prop where
  hd : st.headers = []
  x : st.xIndex = none
  y : st.yIndices = []
  xs : st.xs = []
  ys : st.ys = List.replicate cfg.yColumns.length []

theorem runLines_fresh (ls : List (List Char)) (st : St F) (H : Fresh cfg st) :
    match rowsL env cfg (useful env ls) with
    | none => (runLines env cfg st ls).2 = false ∧
        ((runLines env cfg st ls).1.xs, (runLines env cfg st ls).1.ys) = series cfg []
    | some rs => (runLines env cfg st ls).2 = true ∧
        ((runLines env cfg st ls).1.xs, (runLines env cfg st ls).1.ys) = series cfg rs ∧
        Full cfg.yColumns.length rs := by
  induction ls with
  | nil =>
    simp only [useful, List.map_nil, List.filter_nil, rowsL, runLines, series_nil, H.xs, H.ys]
    exact ⟨trivial, trivial, fun r hr => by cases hr⟩
  | cons l ls ih =>
    by_cases hb : trim env l = []
    · have e : useful env (l :: ls) = useful env ls := by simp [useful, hb]
      have e2 : lineStep env cfg st l = (st, some false) := by simp [lineStep, hb]
      rw [e, runLines_cons, e2]
      exact ih
    · have e : useful env (l :: ls) = trim env l :: useful env ls := by simp [useful, hb]
      rw [e]
      by_cases hh : cfg.hasHeader = true
      · have e2 : lineStep env cfg st l =
            ((resolve env cfg { st with headers := splitCsvLine env (trim env l) }).1,
             if (resolve env cfg { st with headers := splitCsvLine env (trim env l) }).2 then some false
             else none) := by
          simp [lineStep, hb, hh, H.hd]
        rw [runLines_cons, e2]
        simp only [rowsL, hh, if_true]
        have er : resolve env cfg { st with headers := splitCsvLine env (trim env l) } =
          match (splitCsvLine env (trim env l)).findIdx? (· == cfg.xColumn) with
          | none => ({ st with headers := splitCsvLine env (trim env l) }, false)
          | some xi =>
            pushY ⟨splitCsvLine env (trim env l), some xi, [], st.xs, st.ys, st.partialLine⟩
              cfg.yColumns := by
          unfold resolve
          rw [if_pos hh, if_neg (splitCsvLine_ne _ _)]
          rfl
        rw [er]
        unfold headerCols
        simp only [Option.bind_eq_bind, Option.pure_def]
        cases hx : (splitCsvLine env (trim env l)).findIdx? (· == cfg.xColumn) with
        | none =>
          simp only [Option.bind_none, Option.map_none, Bool.false_eq_true, if_false,
            Option.isSome_none]
          rw [series_nil, H.xs, H.ys]
          exact ⟨trivial, rfl⟩
        | some xi =>
          simp only [Option.bind_some]
          cases hm : List.mapM (fun y => (splitCsvLine env (trim env l)).findIdx? (· == y))
              cfg.yColumns with
          | none =>
            have h2 := pushY_err (F := F)
              ⟨splitCsvLine env (trim env l), some xi, [], st.xs, st.ys, st.partialLine⟩
              cfg.yColumns hm
            have h3 : ∀ (ys : List (List Char)) (s : St F), (pushY s ys).1.xs = s.xs ∧
                (pushY s ys).1.ys = s.ys := by
              intro ys
              induction ys with
              | nil => intro s; exact ⟨rfl, rfl⟩
              | cons y ys ih =>
                intro s
                simp only [pushY]
                cases s.headers.findIdx? (· == y) with
                | none => exact ⟨rfl, rfl⟩
                | some yi => exact ih _
            simp only [h2, Option.bind_none, Option.map_none, Bool.false_eq_true, if_false,
              Option.isSome_none, (h3 _ _).1, (h3 _ _).2]
            rw [series_nil, H.xs, H.ys]
            exact ⟨trivial, rfl⟩
          | some yis =>
            have hok := pushY_ok (F := F)
              ⟨splitCsvLine env (trim env l), some xi, [], st.xs, st.ys, st.partialLine⟩
              cfg.yColumns yis hm
            simp only [hok, Option.bind_some, Option.map_some, if_true, Option.isSome_some,
              List.nil_append]
            have HR : Resolved env cfg xi yis
                ⟨splitCsvLine env (trim env l), some xi, yis, st.xs, st.ys, st.partialLine⟩ [] := by
              refine ⟨?_, rfl, rfl, mapM_length _ _ _ hm, ?_, ?_, fun r hr => by cases hr⟩
              · simp [splitCsvLine_ne]
              · unfold resolve
                rw [if_pos hh, if_neg (splitCsvLine_ne _ _)]
                simp only [hx]
                rw [pushY_ok _ _ yis hm]
                rfl
              · rw [series_nil]; simp only [H.xs, H.ys]
            have := runLines_resolved env cfg ls HR
            exact ⟨this.1, this.2.ser, this.2.full⟩
      · have hh' : cfg.hasHeader = false := by simpa using hh
        have er : resolve env cfg st =
            match env.parseUsize cfg.xColumn with
            | none => (st, false)
            | some xi =>
              match cfg.yColumns.mapM env.parseUsize with
              | none => ({ st with xIndex := some xi }, false)
              | some yis => ({ st with xIndex := some xi, yIndices := yis }, true) := by
          unfold resolve; rw [if_neg hh]
          cases env.parseUsize cfg.xColumn with
          | none => rfl
          | some xi => cases cfg.yColumns.mapM env.parseUsize <;> rfl
        have e2 : lineStep env cfg st l =
            if (resolve env cfg st).2 then
              ((dataLine env cfg (resolve env cfg st).1 (trim env l)).1,
                some (dataLine env cfg (resolve env cfg st).1 (trim env l)).2)
            else ((resolve env cfg st).1, none) := by
          simp [lineStep, hb, hh', H.x]
        rw [runLines_cons, e2]
        simp only [rowsL, hh', Bool.false_eq_true, if_false]
        unfold numericCols
        simp only [Option.bind_eq_bind, Option.pure_def]
        cases hx : env.parseUsize cfg.xColumn with
        | none =>
          rw [hx] at er
          simp only at er
          rw [er]
          simp only [Option.bind_none, Option.map_none, Bool.false_eq_true, if_false,
            Option.isSome_none]
          rw [series_nil, H.xs, H.ys]
          exact ⟨trivial, rfl⟩
        | some xi =>
          rw [hx] at er
          simp only at er
          simp only [Option.bind_some]
          cases hm : cfg.yColumns.mapM env.parseUsize with
          | none =>
            rw [hm] at er
            simp only at er
            rw [er]
            simp only [Option.bind_none, Option.map_none, Bool.false_eq_true, if_false,
              Option.isSome_none]
            rw [series_nil, H.xs, H.ys]
            exact ⟨trivial, rfl⟩
          | some yis =>
            rw [hm] at er
            simp only at er
            rw [er]
            simp only [Option.bind_some, Option.map_some, if_true, Option.isSome_some]
            have HR : Resolved env cfg xi yis { st with xIndex := some xi, yIndices := yis } [] := by
              refine ⟨by simp [hh'], rfl, rfl, mapM_length _ _ _ hm, ?_, ?_,
                fun r hr => by cases hr⟩
              · unfold resolve
                rw [if_neg hh]
                simp only [hx, hm]
              · rw [series_nil]; simp only [H.xs, H.ys]
            have h1 := dataLine_resolved env cfg HR (trim env l)
            have := runLines_resolved env cfg ls h1
            refine ⟨this.1, ?_⟩
            have e3 : (trim env l :: useful env ls).filterMap (rowOf env xi yis) =
                [] ++ (rowOf env xi yis (trim env l)).toList ++
                  (useful env ls).filterMap (rowOf env xi yis) := by
              cases hq : rowOf env xi yis (trim env l) <;> simp [hq]
            rw [e3]
            exact ⟨this.2.ser, this.2.full⟩

theorem fresh_new : Fresh (F := F) cfg (St.new cfg) := ⟨rfl, rfl, rfl, rfl, rfl⟩

/-! ## Tracking a text -/

/-- The state is the one reached by reading the text `s` in one go. -/
def Tracks (st : St F) (s : List Char) : Prop :=
  (runLines env cfg (St.new cfg) (completeLines s)).2 = true ∧
  st = (runLines env cfg (St.new cfg) (completeLines s)).1.setP (restOf s)

theorem tracks_nil : Tracks env cfg (St.new (F := F) cfg) [] := ⟨rfl, rfl⟩

theorem rows_ok (s : List Char) :
    (runLines env cfg (St.new cfg) (completeLines s)).2 = (rows env cfg s).isSome := by
  have := runLines_fresh env cfg (completeLines s) (St.new cfg) (fresh_new cfg)
  rw [← rows_eq] at this
  cases h : rows env cfg s with
  | none => rw [h] at this; exact this.1
  | some rs => rw [h] at this; exact this.1

theorem tracks_series {st : St F} {s : List Char} (h : Tracks env cfg st s) :
    ∃ rs, rows env cfg s = some rs ∧ (st.xs, st.ys) = series cfg rs ∧
      Full cfg.yColumns.length rs := by
  have := runLines_fresh env cfg (completeLines s) (St.new cfg) (fresh_new cfg)
  rw [← rows_eq] at this
  have h1 := rows_ok env cfg s
  rw [h.1] at h1
  cases hr : rows env cfg s with
  | none => rw [hr] at h1; cases h1
  | some rs =>
    rw [hr] at this
    exact ⟨rs, rfl, by rw [h.2]; exact this.2.1, this.2.2⟩

theorem tracks_step {st : St F} {s : List Char} (h : Tracks env cfg st s) (t : List Char) :
    (parseTextChunk env cfg st t).2.isSome = (rows env cfg (s ++ t)).isSome ∧
    ((rows env cfg (s ++ t)).isSome = true → Tracks env cfg (parseTextChunk env cfg st t).1 (s ++ t)) := by
  have hok := parse_ok env cfg st t
  have hp : st.partialLine = restOf s := by rw [h.2]; rfl
  have e : runLines env cfg (St.new cfg) (completeLines (s ++ t)) =
      runLines env cfg (runLines env cfg (St.new cfg) (completeLines s)).1
        (completeLines (restOf s ++ t)) := by
    rw [completeLines_append, runLines_append, if_pos h.1]
  rw [hp] at hok
  have h1 := congrArg Prod.fst hok
  have h2 := congrArg Prod.snd hok
  have e2 : runLines env cfg st (completeLines (restOf s ++ t)) =
      ((runLines env cfg (St.new cfg) (completeLines (s ++ t))).1.setP (restOf s),
       (runLines env cfg (St.new cfg) (completeLines (s ++ t))).2) := by
    conv => lhs; rw [h.2]
    rw [runLines_setP, e]
  rw [e2] at h1 h2
  simp only [okPart, setP_setP] at h1 h2
  rw [← restOf_append] at h1
  exact ⟨by rw [h2, rows_ok], fun hr => ⟨by rw [rows_ok, hr], h1⟩⟩

/-- A chunked run from a fresh plotter tracks the concatenation. -/
theorem parseChunks_new (ts : List (List Char)) :
    (parseChunks env cfg (St.new cfg) ts).2 = (rows env cfg ts.flatten).isSome ∧
    ((parseChunks env cfg (St.new cfg) ts).2 = true →
      Tracks env cfg (parseChunks env cfg (St.new cfg) ts).1 ts.flatten) ∧
    ((parseChunks env cfg (St.new cfg) ts).2 = false →
      ((parseChunks env cfg (St.new cfg) ts).1.xs, (parseChunks env cfg (St.new cfg) ts).1.ys) =
        series cfg []) := by
  obtain ⟨h1, h2, p, h3⟩ := parseChunks_eq env cfg (St.new cfg) ts rfl rfl
  simp only [show (St.new (F := F) cfg).partialLine = [] from rfl, List.nil_append] at h1 h2 h3
  refine ⟨by rw [h1, rows_ok], fun h => ⟨by rw [← h1, h], h2 h⟩, fun h => ?_⟩
  rw [h3]
  have := runLines_fresh env cfg (completeLines ts.flatten) (St.new cfg) (fresh_new cfg)
  rw [← rows_eq] at this
  have h4 := rows_ok env cfg ts.flatten
  rw [← h1, h] at h4
  cases hr : rows env cfg ts.flatten with
  | none => rw [hr] at this; exact this.2
  | some rs => rw [hr] at h4; cases h4

theorem series_lengths {rs : List (F × List F)} (hf : Full cfg.yColumns.length rs) :
    (series cfg rs).2.length = cfg.yColumns.length ∧
    ∀ c ∈ (series cfg rs).2, c.length = (series cfg rs).1.length := by
  unfold series
  refine ⟨by simp, ?_⟩
  intro c hc
  obtain ⟨j, hj, rfl⟩ := List.mem_map.1 hc
  simp only [List.length_map]
  exact filterMap_col (full_lastN hf _) (List.mem_range.1 hj)

/-! ## Polling a file -/

/-- What is assumed of UTF-8 decoding. -/
structure Utf8 (dec : List UInt8 → Option (List Char)) : Prop where
  nil : dec [] = some []
  split : ∀ a b s, dec a = some s → ∀ u, dec (a ++ b) = some u → ∃ t, dec b = some t
  append : ∀ a b s t, dec a = some s → dec b = some t → dec (a ++ b) = some (s ++ t)

theorem utf8Decode_iff (b : List UInt8) (s : List Char) :
    utf8Decode b = some s ↔ b.toByteArray = s.utf8Encode := by
  unfold utf8Decode
  constructor
  · intro h
    cases hd : b.toByteArray.utf8Decode? with
    | none => rw [hd] at h; cases h
    | some a =>
      rw [hd] at h
      simp only [Option.map_some, Option.some.injEq] at h
      have := @ByteArray.utf8Encode_get_utf8Decode? b.toByteArray (by rw [hd]; rfl)
      simp only [hd, Option.get_some, h] at this
      exact this.symm
  · intro h
    rw [h, List.utf8Decode?_utf8Encode]; simp

theorem utf8_real : Utf8 utf8Decode where
  nil := by rw [utf8Decode_iff]; simp
  append a b s t ha hb := by
    rw [utf8Decode_iff] at *
    rw [List.utf8Encode_append, ← ha, ← hb]; simp
  split a b s ha u hu := by
    rw [utf8Decode_iff] at ha hu
    rw [List.toByteArray_append, ha] at hu
    obtain ⟨t, rfl⟩ := List.isPrefix_of_utf8Encode_append_eq_utf8Encode _ hu
    refine ⟨t, ?_⟩
    rw [utf8Decode_iff]
    rw [List.utf8Encode_append] at hu
    simpa using hu

/-- Part of the content whose text the state tracks. -/
def TracksBytes (st : St F) (c : List UInt8) : Prop :=
  ∃ s, utf8Decode c = some s ∧ Tracks env cfg st s

/-- Invariant of a polling history. -/
structure PInv (p : Plotter F) (last : Option Obs) : Prop where
  noId : p.lastId = none → p.pos = 0
  id : ∀ i, p.lastId = some i → ∃ l, last = some l ∧ i = l.id
  bytes : ∃ c, c.length = p.pos ∧ (∀ l, last = some l → c <+: l.content) ∧ TracksBytes env cfg p.st c

theorem reset_eq {p : Plotter F} {c : List UInt8} (h : TracksBytes env cfg p.st c) :
    p.reset = Plotter.new cfg := by
  obtain ⟨s, _, h⟩ := h
  obtain ⟨rs, _, h2, h3⟩ := tracks_series env cfg h
  have hl : p.st.ys.length = cfg.yColumns.length := by
    have := congrArg Prod.snd h2
    simp only at this
    rw [this]; exact (series_lengths cfg h3).1
  unfold Plotter.reset Plotter.new St.new
  rw [List.map_const', hl]

theorem reload_new (hu : Utf8 utf8Decode) (o : Obs) (hg : GoodObs env cfg o) :
    PInv env cfg (Plotter.reload env cfg (Plotter.new cfg) o).1 (some o) ∧
    (utf8Decode o.content ≠ none → (Plotter.reload env cfg (Plotter.new cfg) o).2 = some () ∧
      (Plotter.reload env cfg (Plotter.new cfg) o).1.pos = o.content.length) ∧
    (utf8Decode o.content = none → (Plotter.reload env cfg (Plotter.new cfg) o) =
      (Plotter.new cfg, none)) := by
  unfold Plotter.reload
  cases hd : utf8Decode o.content with
  | none =>
    refine ⟨⟨fun _ => rfl, fun i hi => (by cases hi), [], rfl, fun l _ => List.nil_prefix,
      [], hu.nil, tracks_nil env cfg⟩, fun h => absurd rfl h, fun _ => rfl⟩
  | some s =>
    have hr := hg o.content s (List.prefix_refl _) hd
    have ht := tracks_step env cfg (tracks_nil env cfg) s
    simp only [List.nil_append] at ht
    have hs : (rows env cfg s).isSome = true := by
      cases h : rows env cfg s with
      | none => exact absurd h hr
      | some _ => rfl
    refine ⟨⟨fun h => (by cases h), fun i hi => ⟨o, rfl, ?_⟩, o.content, rfl,
      fun l hl => ?_, s, hd, ht.2 hs⟩, fun _ => ⟨?_, rfl⟩, fun h => (by cases h)⟩
    · simpa using hi.symm
    · cases hl; exact List.prefix_refl _
    · rw [hs] at ht
      simp only []
      cases hq : (parseTextChunk env cfg (Plotter.new cfg).st s).2 with
      | none =>
        have := ht.1
        rw [show (Plotter.new (F := F) cfg).st = St.new cfg from rfl] at hq
        rw [hq] at this; cases this
      | some _ => rfl

theorem prefix_drop {c d : List UInt8} (h : c <+: d) : d = c ++ d.drop c.length := by
  obtain ⟨t, rfl⟩ := h
  simp

theorem poll_inv (hu : Utf8 utf8Decode) {p : Plotter F} {last : Option Obs}
    (H : PInv env cfg p last) (o : Obs) (hl : o.len ≤ o.content.length) (hg : GoodObs env cfg o)
    (hf : ∀ l, last = some l →
      (o.id = l.id ∧ l.content <+: o.content ∧ l.content.length ≤ o.len) ∨ o.id ≠ l.id ∨ o.len < p.pos) :
    PInv env cfg (Plotter.updateOnce env cfg p (some o)).1 (some o) ∧
    (utf8Decode o.content ≠ none → o.len = o.content.length →
      (Plotter.updateOnce env cfg p (some o)).2 ≠ none ∧
      (Plotter.updateOnce env cfg p (some o)).1.pos = o.content.length) ∧
    ((Plotter.updateOnce env cfg p (some o)).2 = none → utf8Decode o.content = none) := by
  obtain ⟨c, hc1, hc2, hc3⟩ := H.bytes
  unfold Plotter.updateOnce
  by_cases hr : p.shouldReset o = true
  · simp only [if_pos hr, reset_eq env cfg hc3]
    obtain ⟨h1, h2, h3⟩ := reload_new env cfg hu o hg
    refine ⟨h1, fun hd _ => ?_, fun h => ?_⟩
    · obtain ⟨h4, h5⟩ := h2 hd
      exact ⟨by rw [h4]; simp, h5⟩
    · cases hd : utf8Decode o.content with
      | none => rfl
      | some s =>
        rw [(h2 (by rw [hd]; simp)).1] at h
        cases h
  · simp only [if_neg hr]
    -- the bytes read so far are a beginning of the content now seen, no longer than the length seen
    have hpre : c <+: o.content ∧ p.pos ≤ o.len := by
      cases hi : p.lastId with
      | none =>
        have h0 := H.noId hi
        have : c = [] := List.length_eq_zero_iff.1 (by omega)
        subst this
        exact ⟨List.nil_prefix, by omega⟩
      | some i =>
        obtain ⟨l, hl1, hl2⟩ := H.id i hi
        unfold Plotter.shouldReset at hr
        rw [hi] at hr
        simp only [Bool.or_eq_true, decide_eq_true_eq, bne_iff_ne, ne_eq, not_or,
          Decidable.not_not] at hr
        rcases hf l hl1 with h | h | h
        · have h5 := (hc2 l hl1).length_le
          exact ⟨(hc2 l hl1).trans h.2.1, by omega⟩
        · exact absurd (hl2 ▸ hr.2.symm) h
        · exact absurd h hr.1
    by_cases hgt : o.len > p.pos
    · simp only [if_pos hgt]
      unfold Plotter.readNew
      have hsplit := prefix_drop hpre.1
      rw [hc1] at hsplit
      obtain ⟨s, hs1, hs2⟩ := hc3
      cases hd : utf8Decode (o.content.drop p.pos) with
      | none =>
        refine ⟨⟨H.noId, fun i hi => ?_, c, hc1, fun l h => (by cases h; exact hpre.1), s, hs1, hs2⟩,
          fun hne _ => ?_, fun _ => ?_⟩
        · obtain ⟨l, hl1, hl2⟩ := H.id i hi
          refine ⟨o, rfl, ?_⟩
          unfold Plotter.shouldReset at hr
          rw [hi] at hr
          simp only [Bool.or_eq_true, decide_eq_true_eq, bne_iff_ne, ne_eq, not_or,
            Decidable.not_not] at hr
          exact hr.2
        · exfalso
          cases hu' : utf8Decode o.content with
          | none => exact hne hu'
          | some u =>
            rw [hsplit] at hu'
            obtain ⟨t, ht⟩ := hu.split c _ s hs1 u hu'
            rw [hd] at ht; cases ht
        · cases hu' : utf8Decode o.content with
          | none => rfl
          | some u =>
            rw [hsplit] at hu'
            obtain ⟨t, ht⟩ := hu.split c _ s hs1 u hu'
            rw [hd] at ht; cases ht
      | some t =>
        have hall : utf8Decode o.content = some (s ++ t) := by
          rw [hsplit]; exact hu.append _ _ _ _ hs1 hd
        have hmax : max p.pos o.content.length = o.content.length := by omega
        simp only []
        by_cases ht : t = []
        · simp only [if_pos ht, hmax]
          refine ⟨⟨fun h => (by cases h), fun i hi => ⟨o, rfl, by simpa using hi.symm⟩, o.content, rfl,
            fun l h => (by cases h; exact List.prefix_refl _), s, ?_, hs2⟩, fun _ _ => ⟨by simp, trivial⟩,
            fun h => (by cases h)⟩
          rw [hall, ht, List.append_nil]
        · simp only [if_neg ht, hmax]
          have hst := tracks_step env cfg hs2 t
          have hrow := hg o.content (s ++ t) (List.prefix_refl _) hall
          have hsome : (rows env cfg (s ++ t)).isSome = true := by
            cases h : rows env cfg (s ++ t) with
            | none => exact absurd h hrow
            | some _ => rfl
          rw [hsome] at hst
          cases hq : parseTextChunk env cfg p.st t with
          | mk st' r =>
            rw [hq] at hst
            cases r with
            | none => cases hst.1
            | some b =>
              refine ⟨⟨fun h => (by cases h), fun i hi => ⟨o, rfl, by simpa using hi.symm⟩, o.content,
                rfl, fun l h => (by cases h; exact List.prefix_refl _), s ++ t, hall, hst.2 rfl⟩,
                fun _ _ => ⟨by simp, rfl⟩, fun h => (by cases h)⟩
    · simp only [if_neg hgt]
      refine ⟨⟨fun h => (by cases h), fun i hi => ⟨o, rfl, by simpa using hi.symm⟩, c, hc1,
        fun l h => (by cases h; exact hpre.1), hc3⟩, fun _ he => ⟨by simp, ?_⟩, fun h => (by cases h)⟩
      show p.pos = o.content.length
      omega

end Verif.Viz
