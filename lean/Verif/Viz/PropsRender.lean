import Verif.Viz.Render
import Verif.Viz.Props

/-!
# C135: the picture on disk shows the current data
-/

namespace Verif.Viz

variable {F : Type} (env : Env F) (cfg : Config)

/-- Columns are aligned, and the positions of the columns are all known or not used yet. -/
structure Aligned (st : St F) : Prop where
  cols : st.ys.length = cfg.yColumns.length
  rows : ∀ c ∈ st.ys, c.length = st.xs.length
  idx : st.xIndex = none ∨ st.yIndices.length = cfg.yColumns.length

theorem resolve_aligned {st : St F} (h : Aligned cfg st) (hr : (resolve env cfg st).2 = true) :
    Aligned cfg (resolve env cfg st).1 ∧ (resolve env cfg st).1.xs = st.xs ∧ (resolve env cfg st).1.ys = st.ys := by
  unfold resolve at hr ⊢
  by_cases hh : cfg.hasHeader = true
  · rw [if_pos hh] at hr ⊢
    by_cases h2 : st.headers = []
    · rw [if_pos h2]
      exact ⟨h, rfl, rfl⟩
    · rw [if_neg h2] at hr ⊢
      cases hx : st.headers.findIdx? (· == cfg.xColumn) with
      | none => rw [hx] at hr; simp at hr
      | some xi =>
        rw [hx] at hr
        simp only at hr ⊢
        cases hm : cfg.yColumns.mapM (fun y => st.headers.findIdx? (· == y)) with
        | none =>
          have := pushY_err (F := F) { st with xIndex := some xi, yIndices := [] } cfg.yColumns hm
          rw [hr] at this; cases this
        | some r =>
          rw [pushY_ok (F := F) { st with xIndex := some xi, yIndices := [] } _ r hm]
          exact ⟨⟨h.cols, h.rows, Or.inr (by simpa using mapM_length _ _ _ hm)⟩, rfl, rfl⟩
  · rw [if_neg hh] at hr ⊢
    cases hx : env.parseUsize cfg.xColumn with
    | none => rw [hx] at hr; simp at hr
    | some xi =>
      rw [hx] at hr
      simp only at hr ⊢
      cases hm : cfg.yColumns.mapM env.parseUsize with
      | none => rw [hm] at hr; simp at hr
      | some r => exact ⟨⟨h.cols, h.rows, Or.inr (mapM_length _ _ _ hm)⟩, rfl, rfl⟩

theorem pushRow_rows (cs : List (List F)) (vs : List F) (h : vs.length = cs.length) {n : Nat} (hn : ∀ c ∈ cs, c.length = n) :
    ∀ c ∈ pushRow cs vs, c.length = n + 1 := by
  induction cs generalizing vs with
  | nil =>
    cases vs with
    | nil => simp [pushRow]
    | cons => simp at h
  | cons c cs ih =>
    cases vs with
    | nil => simp at h
    | cons v vs =>
      intro d hd
      rw [pushRow, List.mem_cons] at hd
      rcases hd with rfl | hd
      · simp [hn c (by simp)]
      · exact ih vs (by simpa using h) (fun c hc => hn c (List.mem_cons_of_mem _ hc)) d hd

theorem trim_aligned {st : St F} (h : Aligned cfg st) : Aligned cfg (trimIfNeeded cfg st) := by
  unfold trimIfNeeded
  cases cfg.maxPoints with
  | none => exact h
  | some m =>
    simp only
    by_cases hm : st.xs.length ≤ m
    · rw [if_pos hm]
      exact h
    · rw [if_neg hm]
      refine ⟨by simpa using h.cols, fun c hc => ?_, h.idx⟩
      obtain ⟨d, hd, rfl⟩ := List.mem_map.1 hc
      rw [if_pos (by rw [h.rows d hd]; omega)]
      simp [h.rows d hd]

theorem dataLine_aligned {st : St F} (h : Aligned cfg st) (line : List Char) :
    Aligned cfg (dataLine env cfg st line).1 ∧
      ((dataLine env cfg st line).2 = false → (dataLine env cfg st line).1.xs = st.xs ∧ (dataLine env cfg st line).1.ys = st.ys) ∧
      (cfg.maxPoints = none → (dataLine env cfg st line).2 = true → (dataLine env cfg st line).1.xs.length = st.xs.length + 1) := by
  unfold dataLine
  cases hx : st.xIndex with
  | none => exact ⟨h, fun _ => ⟨rfl, rfl⟩, fun _ h => by simp at h⟩
  | some xi =>
    simp only
    cases (splitCsvLine env line)[xi]?.bind env.parseF with
    | none => exact ⟨h, fun _ => ⟨rfl, rfl⟩, fun _ h => by simp at h⟩
    | some x =>
      simp only
      cases hm : st.yIndices.mapM (fun yi => (splitCsvLine env line)[yi]?.bind env.parseF) with
      | none => exact ⟨h, fun _ => ⟨rfl, rfl⟩, fun _ h => by simp at h⟩
      | some row =>
        have hl : row.length = st.ys.length := by
          rw [mapM_length _ _ _ hm, h.cols]
          rcases h.idx with h' | h'
          · rw [hx] at h'
            cases h'
          · exact h'
        refine ⟨trim_aligned cfg ⟨?_, ?_, Or.inr (by rw [← h.cols, ← hl, mapM_length _ _ _ hm])⟩, by simp, ?_⟩
        · rw [pushRow_length]
          exact h.cols
        · intro c hc
          rw [pushRow_rows _ _ hl h.rows c hc]
          simp
        · intro hn _
          simp [trimIfNeeded, hn]

theorem lineStep_aligned {st st' : St F} {c : Bool} (h : Aligned cfg st) (raw : List Char) (he : lineStep env cfg st raw = (st', some c)) :
    Aligned cfg st' ∧ (c = false → st'.xs = st.xs ∧ st'.ys = st.ys) ∧ (cfg.maxPoints = none → c = true → st'.xs.length = st.xs.length + 1) := by
  unfold lineStep at he
  by_cases h1 : trim env raw = []
  · simp only [h1, if_true] at he
    cases he
    exact ⟨h, fun _ => ⟨rfl, rfl⟩, fun _ h => by cases h⟩
  · simp only [if_neg h1] at he
    by_cases h2 : (cfg.hasHeader && st.headers.isEmpty) = true
    · simp only [if_pos h2] at he
      have hA : Aligned cfg { st with headers := splitCsvLine env (trim env raw) } := ⟨h.cols, h.rows, h.idx⟩
      by_cases hr : (resolve env cfg { st with headers := splitCsvLine env (trim env raw) }).2 = true
      · rw [if_pos hr] at he
        obtain ⟨r1, r2, r3⟩ := resolve_aligned env cfg hA hr
        cases he
        exact ⟨r1, fun _ => ⟨r2, r3⟩, fun _ h => by cases h⟩
      · rw [if_neg hr] at he
        simp at he
    · rw [if_neg h2] at he
      by_cases h3 : (st.xIndex.isNone || st.yIndices.isEmpty) = true
      · simp only [if_pos h3] at he
        by_cases hr : (resolve env cfg st).2 = true
        · rw [if_pos hr] at he
          obtain ⟨r1, r2, r3⟩ := resolve_aligned env cfg h hr
          obtain ⟨d1, d2, d3⟩ := dataLine_aligned env cfg r1 (trim env raw)
          rw [r2, r3] at d2
          rw [r2] at d3
          cases he
          exact ⟨d1, d2, d3⟩
        · rw [if_neg hr] at he
          simp at he
      · simp only [if_neg h3, if_true] at he
        cases he
        exact dataLine_aligned env cfg h (trim env raw)

theorem linesLoop_aligned (ls : List (List Char)) {st st' : St F} {b c : Bool} (h : Aligned cfg st)
    (he : linesLoop env cfg st b ls = (st', some c)) :
    Aligned cfg st' ∧ (c = false → b = false ∧ st'.xs = st.xs ∧ st'.ys = st.ys) ∧
      (cfg.maxPoints = none → st.xs.length ≤ st'.xs.length ∧ (c = true → b = true ∨ st.xs.length < st'.xs.length)) := by
  induction ls generalizing st b with
  | nil =>
    rw [linesLoop] at he
    cases he
    exact ⟨h, fun hc => ⟨hc, rfl, rfl⟩, fun _ => ⟨Nat.le_refl _, Or.inl⟩⟩
  | cons l ls ih =>
    rw [linesLoop] at he
    rcases hs : lineStep env cfg st l with ⟨st₁, _ | c₁⟩
    · rw [hs] at he
      simp at he
    · rw [hs] at he
      simp only at he
      obtain ⟨a1, a2, a3⟩ := lineStep_aligned env cfg h l hs
      obtain ⟨b1, b2, b3⟩ := ih a1 he
      refine ⟨b1, fun hc => ?_, fun hn => ?_⟩
      · obtain ⟨e1, e2, e3⟩ := b2 hc
        rw [Bool.or_eq_false_iff] at e1
        obtain ⟨f1, f2⟩ := a2 e1.2
        exact ⟨e1.1, e2.trans f1, e3.trans f2⟩
      · obtain ⟨e1, e2⟩ := b3 hn
        have a3 := a3 hn
        cases c₁ with
        | false =>
          have := (a2 rfl).1
          rw [this] at e1 e2
          exact ⟨e1, by simpa using e2⟩
        | true =>
          have := a3 rfl
          exact ⟨by omega, fun _ => Or.inr (by omega)⟩

theorem parse_aligned {st st' : St F} {c : Bool} (h : Aligned cfg st) (text : List Char) (he : parseTextChunk env cfg st text = (st', some c)) :
    Aligned cfg st' ∧ (c = false → st'.xs = st.xs ∧ st'.ys = st.ys) ∧
      (cfg.maxPoints = none → c = true → st.xs.length < st'.xs.length) := by
  have hA : ∀ p, Aligned cfg { st with partialLine := p } := fun p => ⟨h.cols, h.rows, h.idx⟩
  have fin : ∀ p ls, linesLoop env cfg { st with partialLine := p } false ls = (st', some c) →
      Aligned cfg st' ∧ (c = false → st'.xs = st.xs ∧ st'.ys = st.ys) ∧ (cfg.maxPoints = none → c = true → st.xs.length < st'.xs.length) := by
    intro p ls hl
    obtain ⟨b1, b2, b3⟩ := linesLoop_aligned env cfg ls (hA p) hl
    refine ⟨b1, fun hc => (b2 hc).2, fun hn hc => ?_⟩
    rcases (b3 hn).2 hc with h | h
    · cases h
    · exact h
  unfold parseTextChunk at he
  simp only at he
  by_cases h1 : (st.partialLine ++ text).getLast? = some '\n'
  · rw [if_pos h1] at he
    exact fin _ _ he
  · rw [if_neg h1] at he
    cases hl : (rustLines (st.partialLine ++ text)).getLast? with
    | none =>
      rw [hl] at he
      exact fin _ _ he
    | some last =>
      rw [hl] at he
      exact fin _ _ he

theorem new_aligned : Aligned cfg (St.new (F := F) cfg) := by
  refine ⟨by simp [St.new], fun c hc => ?_, Or.inl rfl⟩
  rw [St.new] at hc
  rw [List.eq_of_mem_replicate hc]
  rfl

theorem reset_aligned {p : Plotter F} (h : Aligned cfg p.st) : Aligned cfg p.reset.st := by
  refine ⟨by simpa [Plotter.reset] using h.cols, fun c hc => ?_, Or.inl rfl⟩
  simp only [Plotter.reset, List.mem_map] at hc
  obtain ⟨_, _, rfl⟩ := hc
  rfl

theorem reload_aligned {p p' : Plotter F} {o : Obs} (h : Aligned cfg p.st) (he : Plotter.reload env cfg p o = (p', some ())) : Aligned cfg p'.st := by
  unfold Plotter.reload at he
  cases hd : utf8Decode o.content with
  | none => rw [hd] at he; simp at he
  | some text =>
    rw [hd] at he
    simp only at he
    rcases hp : parseTextChunk env cfg p.st text with ⟨st', _ | c⟩
    · rw [hp] at he; simp at he
    · rw [hp] at he
      cases he
      exact (parse_aligned env cfg h text hp).1

theorem update_aligned {p p' : Plotter F} {o : Option Obs} {c : Bool} (h : Aligned cfg p.st)
    (he : Plotter.updateOnce env cfg p o = (p', some c)) :
    Aligned cfg p'.st ∧ (c = false → p'.st.xs = p.st.xs ∧ p'.st.ys = p.st.ys) ∧
      (cfg.maxPoints = none → (∀ x, o = some x → p.shouldReset x = false) → c = true → p.st.xs.length < p'.st.xs.length) := by
  cases o with
  | none =>
    rw [Plotter.updateOnce] at he
    cases he
    exact ⟨h, fun _ => ⟨rfl, rfl⟩, fun _ _ h => by cases h⟩
  | some o =>
    rw [Plotter.updateOnce] at he
    by_cases h1 : p.shouldReset o = true
    · rw [if_pos h1] at he
      simp only at he
      rcases hr : Plotter.reload env cfg p.reset o with ⟨q, _ | _⟩
      · rw [hr] at he; simp at he
      · rw [hr] at he
        cases he
        refine ⟨reload_aligned env cfg (reset_aligned cfg h) hr, fun h => by simp at h, fun _ h _ => ?_⟩
        rw [h o rfl] at h1
        cases h1
    · rw [if_neg h1] at he
      by_cases h2 : o.len > p.pos
      · rw [if_pos h2] at he
        unfold Plotter.readNew at he
        cases hd : utf8Decode (o.content.drop p.pos) with
        | none => rw [hd] at he; simp at he
        | some text =>
          rw [hd] at he
          simp only at he
          by_cases h3 : text = []
          · simp only [if_pos h3] at he
            cases he
            exact ⟨h, fun _ => ⟨rfl, rfl⟩, fun _ _ h => by cases h⟩
          · simp only [if_neg h3] at he
            rcases hp : parseTextChunk env cfg p.st text with ⟨st', _ | c'⟩
            · rw [hp] at he; simp at he
            · rw [hp] at he
              simp only at he
              cases he
              obtain ⟨a1, a2, a3⟩ := parse_aligned env cfg h text hp
              exact ⟨a1, a2, fun hn _ => a3 hn⟩
      · rw [if_neg h2] at he
        cases he
        exact ⟨h, fun _ => ⟨rfl, rfl⟩, fun _ _ h => by cases h⟩

/-- The picture a user expects: for each selected column a curve with its name through all points. -/
def expected (st : St F) : Picture F := (cfg.yColumns.zip st.ys).map fun (name, ys) => (some name, st.xs.zip ys)

theorem zipIdx_expected (names : List (List Char)) (cols : List (List F)) (xs : List F) (k : Nat) (pre : List (List Char)) (hk : pre.length = k)
    (hl : cols.length = names.length) (hr : ∀ c ∈ cols, c.length = xs.length) :
    (cols.zipIdx k).filterMap (fun (ys, idx) => if ys.length ≠ xs.length then none else some ((pre ++ names)[idx]?, xs.zip ys)) =
      (names.zip cols).map fun (name, ys) => (some name, xs.zip ys) := by
  induction cols generalizing names k pre with
  | nil =>
    cases names with
    | nil => rfl
    | cons => simp at hl
  | cons c cols ih =>
    cases names with
    | nil => simp at hl
    | cons name names =>
      rw [List.zipIdx_cons, List.filterMap_cons]
      have := ih names (k + 1) (pre ++ [name]) (by simp [hk]) (by simpa using hl) (fun c hc => hr c (List.mem_cons_of_mem _ hc))
      simp only [List.append_assoc, List.singleton_append] at this
      simp only [hr c (by simp), ne_eq, not_true_eq_false, if_false, this]
      subst hk
      simp

theorem render_eq {st : St F} (h : Aligned cfg st) (hx : st.xs ≠ []) (hc : cfg.yColumns ≠ []) (old : Option (Picture F)) :
    render cfg st old = some (expected cfg st) := by
  unfold render
  rw [if_neg (by simpa using hx)]
  have e := zipIdx_expected cfg.yColumns st.ys st.xs 0 [] rfl h.cols h.rows
  rw [List.nil_append] at e
  simp only [e]
  rw [if_neg]
  · rfl
  · rw [List.isEmpty_iff, List.map_eq_nil_iff]
    intro hz
    have := congrArg List.length hz
    rw [List.length_zip, h.cols, Nat.min_self] at this
    exact hc (List.length_eq_zero_iff.1 this)

theorem runLoop_inv (hc : cfg.yColumns ≠ []) (os : List (Option Obs)) {p p' : Plotter F} {pic pic' : Option (Picture F)} (h : Aligned cfg p.st)
    (hp : p.st.xs ≠ [] → pic = some (expected cfg p.st)) (he : runLoop env cfg p pic os = some (p', pic')) :
    Aligned cfg p'.st ∧ (p'.st.xs ≠ [] → pic' = some (expected cfg p'.st)) := by
  induction os generalizing p pic with
  | nil =>
    rw [runLoop] at he
    cases he
    exact ⟨h, hp⟩
  | cons o os ih =>
    rw [runLoop] at he
    rcases hu : Plotter.updateOnce env cfg p o with ⟨q, _ | c⟩
    · rw [hu] at he; simp at he
    · rw [hu] at he
      simp only at he
      obtain ⟨a1, a2, -⟩ := update_aligned env cfg h hu
      refine ih a1 (fun hx => ?_) he
      cases c with
      | true =>
        rw [if_pos rfl]
        exact render_eq cfg a1 hx hc pic
      | false =>
        rw [if_neg (by simp)]
        obtain ⟨e1, e2⟩ := a2 rfl
        rw [e1] at hx
        rw [hp hx]
        simp [expected, e1, e2]

/-- **C135** (part): whatever the file does — grows, is truncated, replaced, removed, read in the middle of a line — while `run_forever` goes
on, the picture on disk shows, whenever it sleeps and there is data, exactly the current points of every selected column under its name.
Missing: when the data has become empty the old picture stays, see `C135_fails`. -/
theorem C135_shown_partial (hc : cfg.yColumns ≠ []) (pic : Option (Picture F)) (first : Option Obs) (os : List (Option Obs)) {p : Plotter F}
    {pic' : Option (Picture F)} (h : runForever env cfg pic first os = some (p, pic')) (hx : p.st.xs ≠ []) :
    pic' = some ((cfg.yColumns.zip p.st.ys).map fun (name, ys) => (some name, p.st.xs.zip ys)) ∧
      p.st.ys.length = cfg.yColumns.length ∧ ∀ c ∈ p.st.ys, c.length = p.st.xs.length := by
  unfold runForever at h
  rcases hi : Plotter.initialize env cfg (Plotter.new cfg) first with ⟨q, _ | _⟩
  · rw [hi] at h; simp at h
  · rw [hi] at h
    simp only at h
    have hA : Aligned cfg q.st := by
      cases first with
      | none =>
        rw [Plotter.initialize] at hi
        cases hi
        exact new_aligned cfg
      | some o =>
        rw [Plotter.initialize] at hi
        exact reload_aligned env cfg (new_aligned cfg) hi
    obtain ⟨b1, b2⟩ := runLoop_inv env cfg hc os hA (fun hx => render_eq cfg hA hx hc pic) h
    exact ⟨b2 hx, b1.cols, b1.rows⟩

/-- Polls of a file: a plotter that has been polled any number of times without an error. -/
inductive Polled : Plotter F → Prop
  | new : Polled (Plotter.new cfg)
  | init {p o} : Plotter.initialize env cfg (Plotter.new cfg) o = (p, some ()) → Polled p
  | poll {p p' o c} : Polled p → Plotter.updateOnce env cfg p o = (p', some c) → Polled p'

theorem polled_aligned {p : Plotter F} (h : Polled env cfg p) : Aligned cfg p.st := by
  induction h with
  | new => exact new_aligned cfg
  | @init p o hi =>
    cases o with
    | none =>
      rw [Plotter.initialize] at hi
      cases hi
      exact new_aligned cfg
    | some o => exact reload_aligned env cfg (new_aligned cfg) hi
  | poll _ hu ih => exact (update_aligned env cfg ih hu).1

/-- **C135**: `update_once` tells whether there is something new to draw. If it answers no, the series are as before. If it answers yes and the
file was not replaced or truncated (and no points are dropped), there are more points than before. -/
theorem C135_changed {p p' : Plotter F} {o : Option Obs} {c : Bool} (h : Polled env cfg p)
    (he : Plotter.updateOnce env cfg p o = (p', some c)) :
    (c = false → p'.st.xs = p.st.xs ∧ p'.st.ys = p.st.ys) ∧
      (cfg.maxPoints = none → (∀ x, o = some x → p.lastId = some x.id ∧ p.pos ≤ x.len) → c = true → p.st.xs.length < p'.st.xs.length) := by
  obtain ⟨-, a2, a3⟩ := update_aligned env cfg (polled_aligned env cfg h) he
  refine ⟨a2, fun hn ho => a3 hn fun x hx => ?_⟩
  obtain ⟨h1, h2⟩ := ho x hx
  simp only [Plotter.shouldReset, h1]
  simp [h2]

/-- A run of two polls, the second of which brings new rows. -/
example : (runForever toyEnv toyCfg none (some (toyObs 9)) [some (toyObs 20), none, some (toyObs 38)]).map (·.2) =
    some (some [(some ['a'], [(2, 4), (3, 6)]), (some ['b'], [(2, 5), (3, 7)])]) := rfl

/-- C135 in full is not met: when the file is replaced by one without rows, there is no data any more, but the picture of the old file stays. -/
theorem C135_fails :
    ∃ (o₁ o₂ : Obs) (p : Plotter Nat), runForever toyEnv toyCfg none (some o₁) [some o₂] =
      some (p, some [(some ['a'], [(1, 2)]), (some ['b'], [(1, 3)])]) ∧ o₂.id ≠ o₁.id ∧ p.st.xs = [] ∧ p.st.ys = [[], []] :=
  ⟨toyObs 20, ⟨8, 7, (toyText.take 7).map fun c => c.val.toUInt8⟩, _, rfl, by decide +kernel, by decide +kernel, by decide +kernel⟩

end Verif.Viz
