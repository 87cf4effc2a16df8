import Verif.Viz.ViewerRun
import Mathlib.Tactic.Linarith
import Mathlib.Tactic.FieldSimp
import Mathlib.Tactic.Ring
import Mathlib.Algebra.Order.Ring.Rat
import Mathlib.Data.List.Lex
import Mathlib.Data.Char

/-!
# Properties of the live viewer (C99–C104; C105 and the start of C104 are in `Viz/PropsSources`)

`Run` (in `Viz/ViewerRun`) describes the histories of the viewer in which every file has the columns selected; `rows` (in `Viz/Spec`)
is what a text contains.
-/

namespace Verif.Viz

section
variable {F : Type} (env : Env F)

/-! ## C100: changing the columns is a fresh load -/

/-- C100. Whatever the plotter has done before, `set_y_columns` leaves it exactly as a new plotter with these columns that has
loaded the file: same result, same series, same position. -/
theorem C100_set_columns (s : Source F) (ys : List Name) (seen : Option Obs) :
    let r := s.setYColumns env ys seen
    let fresh := Plotter.initialize env { s.cfg with yColumns := ys } (Plotter.new { s.cfg with yColumns := ys }) seen
    r.1.plotter = fresh.1 ∧ r.2 = fresh.2.isSome ∧ r.1.cfg = { s.cfg with yColumns := ys } ∧ r.1.path = s.path ∧ r.1.name = s.name :=
  setYColumns_fresh env s ys seen

/-- C100. Hence on a readable file with the columns it succeeds and gives the rows of the whole file. -/
theorem C100_series (s : Source F) (ys : List Name) (o : Obs) (text : List Char) (hs : utf8Decode o.content = some text)
    (hg : GoodObs env { s.cfg with yColumns := ys } o) :
    ∃ rs, rows env { s.cfg with yColumns := ys } text = some rs ∧ (s.setYColumns env ys (some o)).2 = true ∧
      ((s.setYColumns env ys (some o)).1.plotter.st.xs, (s.setYColumns env ys (some o)).1.plotter.st.ys) =
        series { s.cfg with yColumns := ys } rs := by
  obtain ⟨rs, h1, h2, h3⟩ := C68_initialize env { s.cfg with yColumns := ys } o hg text hs
  obtain ⟨e1, e2, _⟩ := C100_set_columns env s ys (some o)
  exact ⟨rs, h1, by rw [e2, h2]; rfl, by rw [e1, h3]⟩

end

/-! ## C99: lines and their names -/

section
variable {K : Type} [Field K] [LinearOrder K] (env : Env K)

omit [Field K] [LinearOrder K] in
/-- What a source of a run holds: one series per label, all as long as the x series, and they are the rows of a beginning of the
file last seen. -/
theorem run_source {v : Viewer K} {last : List Name → Option Obs} (h : Run env v last) {s : Source K} (hs : s ∈ v.sources) :
    s.name = deriveRunLabel s.path ∧ s.plotter.st.ys.length = v.yLabels.length ∧
      (∀ c ∈ s.plotter.st.ys, c.length = s.plotter.st.xs.length) ∧
      ∃ content text rs, (∀ l, last s.path = some l → content <+: l.content) ∧ utf8Decode content = some text ∧
        rows env (viewCfg v.xLabel v.yLabels) text = some rs ∧ Full v.yLabels.length rs ∧ s.plotter.st.xs = rs.map (·.1) ∧
        ∀ (i : Nat) ys, s.plotter.st.ys[i]? = some ys → ys = rs.filterMap fun r => r.2[i]? := by
  obtain ⟨h1, h2, h3⟩ := run_inv env h s hs
  rw [h1] at h3
  obtain ⟨k1, k2, _⟩ := C69_poll_aligned_bounded env _ h3
  obtain ⟨c, c1, c2, t, c3, c4⟩ := (history_inv env _ h3).bytes
  obtain ⟨rs, r1, r2, r3⟩ := tracks_series env _ c4
  have hx : s.plotter.st.xs = (series (viewCfg v.xLabel v.yLabels) rs).1 := congrArg Prod.fst r2
  have hy : s.plotter.st.ys = (series (viewCfg v.xLabel v.yLabels) rs).2 := congrArg Prod.snd r2
  refine ⟨h2, k1, k2, c, t, rs, c2, c3, r1, r3, hx, ?_⟩
  intro i ys hi
  rw [hy] at hi
  simp only [series, lastN, viewCfg, List.getElem?_map, Option.map_eq_some_iff] at hi
  obtain ⟨j, hj, rfl⟩ := hi
  rw [List.getElem?_range (by
    by_contra hlt
    rw [List.getElem?_eq_none (by simpa using hlt)] at hj
    cases hj)] at hj
  cases hj
  rfl

omit [Field K] [LinearOrder K] in
theorem zip_col {n i : Nat} {rs : List (K × List K)} (h : Full n rs) (hi : i < n) :
    (rs.map (·.1)).zip (rs.filterMap fun r => r.2[i]?) = rs.filterMap fun r => r.2[i]?.map fun y => (r.1, y) := by
  induction rs with
  | nil => rfl
  | cons r rs ih =>
    have hr : i < r.2.length := by rw [h r List.mem_cons_self]; exact hi
    have hrs : Full n rs := fun t ht => h t (List.mem_cons_of_mem _ ht)
    simp only [List.map_cons, List.filterMap_cons, List.getElem?_eq_getElem hr, Option.map_some, List.zip_cons_cons]
    rw [ih hrs]

/-- Where a line of a run comes from. -/
theorem draw_mem (ws : Char → Bool) (eps : K) {v : Viewer K} {last : List Name → Option Obs} (h : Run env v last)
    {line : PlotLine K} (hl : line ∈ draw ws eps v) :
    ∃ s ∈ v.sources, ∃ (i : Nat) (ys : List K), s.plotter.st.ys[i]? = some ys ∧ ys.length = s.plotter.st.xs.length ∧
      v.yLabels[i]? = some line.column ∧ line.source = s.name ∧
      line.points = if (useDualAxis ws v && mapOn v.selY line.column) = true then
          (s.plotter.st.xs.zip ys).map fun p => (p.1, mapRange eps p.2
            (minMax eps v.sources v.yLabels (selectedCols v.yLabels v.selY)).1
            (minMax eps v.sources v.yLabels (selectedCols v.yLabels v.selY)).2
            (minMax eps v.sources v.yLabels (selectedCols v.yLabels v.selX)).1
            (minMax eps v.sources v.yLabels (selectedCols v.yLabels v.selX)).2)
        else s.plotter.st.xs.zip ys := by
  simp only [draw, List.mem_flatMap] at hl
  obtain ⟨s, hs, hl⟩ := hl
  obtain ⟨_, n2, _⟩ := run_source env h hs
  by_cases he : s.plotter.st.xs = [] ∨ s.plotter.st.ys = []
  · rw [if_pos he] at hl; cases hl
  · rw [if_neg he, List.mem_filterMap] at hl
    obtain ⟨⟨ys, i⟩, hz, hl⟩ := hl
    have hz' : s.plotter.st.ys[i]? = some ys := List.mem_zipIdx_iff_getElem?.1 hz
    have hi : i < v.yLabels.length := by
      rw [← n2]
      by_contra hlt
      rw [List.getElem?_eq_none (by omega)] at hz'
      cases hz'
    dsimp only at hl
    by_cases hlen : ys.length ≠ s.plotter.st.xs.length
    · rw [if_pos hlen] at hl; cases hl
    · rw [if_neg hlen, Option.some.injEq] at hl
      have hcol : v.yLabels[i]? = some v.yLabels[i] := List.getElem?_eq_getElem hi
      rw [hcol, Option.getD_some] at hl
      subst hl
      exact ⟨s, hs, i, ys, hz', not_not.1 hlen, hcol, rfl, rfl⟩

/-- C99. In every run in which each file has the selected columns, every line drawn is named after its file and a selected column,
and its points are those of that column (as a function of the x column) in a beginning of the file last seen. (Lines of the second
axis group, when it is scaled, are the subject of `C101_drawn`.) -/
theorem C99_lines_partial (ws : Char → Bool) (eps : K) {v : Viewer K} {last : List Name → Option Obs} (h : Run env v last)
    {line : PlotLine K} (hl : line ∈ draw ws eps v) (hd : useDualAxis ws v = false ∨ mapOn v.selY line.column = false) :
    ∃ s ∈ v.sources, ∃ i : Nat, line.source = deriveRunLabel s.path ∧ v.yLabels[i]? = some line.column ∧
      ∃ content text rs, (∀ l, last s.path = some l → content <+: l.content) ∧ utf8Decode content = some text ∧
        rows env (viewCfg v.xLabel v.yLabels) text = some rs ∧
        line.points = rs.filterMap fun r => r.2[i]?.map fun y => (r.1, y) := by
  obtain ⟨s, hs, i, ys, d1, d2, d3, d4, d5⟩ := draw_mem env ws eps h hl
  obtain ⟨n1, n2, n3, content, text, rs, p1, p2, p3, p4, p5, p6⟩ := run_source env h hs
  have hi : i < v.yLabels.length := (List.getElem?_eq_some_iff.1 d3).1
  refine ⟨s, hs, i, d4.trans n1, d3, content, text, rs, p1, p2, p3, ?_⟩
  have : (useDualAxis ws v && mapOn v.selY line.column) = false := by
    rcases hd with hd | hd <;> simp [hd]
  rw [d5, this, p5, p6 i ys d1, zip_col p4 hi]
  rfl

/-- C99. Nothing is left out: the lines drawn are, in order, one for every source that has rows and every selected column. -/
theorem C99_complete_partial (ws : Char → Bool) (eps : K) {v : Viewer K} {last : List Name → Option Obs} (h : Run env v last) :
    (draw ws eps v).map (fun line => (line.source, line.column)) =
      v.sources.flatMap fun s => if s.plotter.st.xs = [] then [] else v.yLabels.map fun c => (deriveRunLabel s.path, c) := by
  simp only [draw, List.map_flatMap]
  have hcongr : ∀ (l : List (Source K)) (f g : Source K → List (Name × Name)), (∀ s ∈ l, f s = g s) → l.flatMap f = l.flatMap g := by
    intro l f g hfg
    induction l with
    | nil => rfl
    | cons s l ih =>
      rw [List.flatMap_cons, List.flatMap_cons, hfg s List.mem_cons_self, ih fun t ht => hfg t (List.mem_cons_of_mem _ ht)]
  apply hcongr
  intro s hs
  obtain ⟨n1, n2, n3, _⟩ := run_source env h hs
  by_cases hx : s.plotter.st.xs = []
  · simp [hx]
  by_cases hy : s.plotter.st.ys = []
  · have : v.yLabels = [] := by rw [← List.length_eq_zero_iff, ← n2, hy]; rfl
    simp [hy, this]
  · rw [if_neg (by simp [hx, hy]), if_neg hx, List.map_filterMap]
    have hall : ∀ p ∈ s.plotter.st.ys.zipIdx, p.1.length = s.plotter.st.xs.length ∧ p.2 < v.yLabels.length := by
      intro p hp
      have := List.mem_zipIdx_iff_getElem?.1 (show (p.1, p.2) ∈ _ from hp)
      obtain ⟨hlt, he⟩ := List.getElem?_eq_some_iff.1 this
      exact ⟨n3 _ (List.mem_of_getElem? this), n2 ▸ hlt⟩
    rw [show (v.yLabels.map fun c => (deriveRunLabel s.path, c)) =
      s.plotter.st.ys.zipIdx.map fun p => (deriveRunLabel s.path, (v.yLabels[p.2]?).getD []) from ?_]
    · conv_rhs => rw [← List.filterMap_eq_map]
      apply List.filterMap_congr
      intro p hp
      obtain ⟨a, b⟩ := hall p hp
      simp only [a, ne_eq, not_true_eq_false, if_false, Option.map_some, List.getElem?_eq_getElem b, Option.getD_some, n1,
        Function.comp_apply]
    · apply List.ext_getElem
      · simp [n2]
      · intro i h1 h2
        simp only [List.length_map] at h1
        simp [List.getElem?_eq_getElem h1]


/-! ## C101: the second axis -/

omit [Field K] in
theorem foldRange (l : List K) (r : Option (K × K)) (hr : ∀ p, r = some p → p.1 ≤ p.2) :
    let res := l.foldl (fun (r : Option (K × K)) y => match r with
        | none => some (y, y)
        | some (lo, hi) => some (min lo y, max hi y)) r
    (res = none → r = none ∧ l = []) ∧
      ∀ p, res = some p → p.1 ≤ p.2 ∧ (∀ y ∈ l, p.1 ≤ y ∧ y ≤ p.2) ∧ (∀ q, r = some q → p.1 ≤ q.1 ∧ q.2 ≤ p.2) ∧
        (p.1 ∈ l ∨ ∃ q, r = some q ∧ p.1 = q.1) ∧ (p.2 ∈ l ∨ ∃ q, r = some q ∧ p.2 = q.2) := by
  induction l generalizing r with
  | nil =>
    refine ⟨fun h => ⟨h, rfl⟩, fun p hp => ⟨hr p hp, by simp, fun q hq => ?_, .inr ⟨p, hp, rfl⟩, .inr ⟨p, hp, rfl⟩⟩⟩
    simp only [List.foldl_nil] at hp
    rw [hp] at hq; cases hq; exact ⟨le_rfl, le_rfl⟩
  | cons y l ih =>
    intro res
    cases r with
    | none =>
      obtain ⟨h1, h2⟩ := ih (some (y, y)) (by rintro p ⟨⟩; exact le_rfl)
      refine ⟨fun h => absurd (h1 h).1 (by simp), fun p hp => ?_⟩
      obtain ⟨a, b, c, d, e⟩ := h2 p hp
      obtain ⟨c1, c2⟩ := c _ rfl
      refine ⟨a, ?_, by simp, .inl ?_, .inl ?_⟩
      · intro z hz
        rcases List.mem_cons.1 hz with rfl | hz
        · exact ⟨c1, c2⟩
        · exact b z hz
      · rcases d with d | ⟨q, hq, d⟩
        · exact List.mem_cons_of_mem _ d
        · cases hq; rw [d]; exact List.mem_cons_self
      · rcases e with e | ⟨q, hq, e⟩
        · exact List.mem_cons_of_mem _ e
        · cases hq; rw [e]; exact List.mem_cons_self
    | some q =>
      have hq := hr q rfl
      obtain ⟨h1, h2⟩ := ih (some (min q.1 y, max q.2 y)) (by
        rintro p ⟨⟩; exact (min_le_left _ _).trans (hq.trans (le_max_left _ _)))
      refine ⟨fun h => absurd (h1 h).1 (by simp), fun p hp => ?_⟩
      obtain ⟨a, b, c, d, e⟩ := h2 p hp
      obtain ⟨c1, c2⟩ := c _ rfl
      dsimp only at c1 c2
      refine ⟨a, ?_, ?_, ?_, ?_⟩
      · intro z hz
        rcases List.mem_cons.1 hz with rfl | hz
        · exact ⟨c1.trans (min_le_right _ _), (le_max_right _ _).trans c2⟩
        · exact b z hz
      · rintro q' ⟨⟩
        exact ⟨c1.trans (min_le_left _ _), (le_max_left _ _).trans c2⟩
      · rcases d with d | ⟨q', hq', d⟩
        · exact .inl (List.mem_cons_of_mem _ d)
        · cases hq'
          rcases min_choice q.1 y with hm | hm
          · exact .inr ⟨q, rfl, d.trans hm⟩
          · exact .inl (by rw [d, hm]; exact List.mem_cons_self)
      · rcases e with e | ⟨q', hq', e⟩
        · exact .inl (List.mem_cons_of_mem _ e)
        · cases hq'
          rcases max_choice q.2 y with hm | hm
          · exact .inr ⟨q, rfl, e.trans hm⟩
          · exact .inl (by rw [e, hm]; exact List.mem_cons_self)

/-- `y` is a value shown in one of the columns of `selected`. -/
def Shown (sources : List (Source K)) (labels selected : List Name) (y : K) : Prop :=
  ∃ s ∈ sources, ∃ (i : Nat) (ys : List K) (c : Name), s.plotter.st.ys[i]? = some ys ∧ ys.length = s.plotter.st.xs.length ∧
    labels[i]? = some c ∧ c ∈ selected ∧ y ∈ ys

omit [Field K] [LinearOrder K] in
theorem mem_rangeValues (sources : List (Source K)) (labels selected : List Name) (y : K) :
    y ∈ rangeValues sources labels selected ↔ Shown sources labels selected y := by
  unfold rangeValues Shown
  simp only [List.mem_flatMap]
  constructor
  · rintro ⟨s, hs, ⟨ys, i⟩, hz, hy⟩
    dsimp only at hy
    cases hc : labels[i]? with
    | none => rw [hc] at hy; cases hy
    | some c =>
      rw [hc] at hy
      dsimp only at hy
      by_cases h : ¬ selected.contains c ∨ ys.length ≠ s.plotter.st.xs.length
      · rw [if_pos h] at hy; cases hy
      · rw [if_neg h] at hy
        rw [not_or, not_not, not_not] at h
        exact ⟨s, hs, i, ys, c, List.mem_zipIdx_iff_getElem?.1 hz, h.2, hc, by simpa using h.1, hy⟩
  · rintro ⟨s, hs, i, ys, c, h1, h2, h3, h4, h5⟩
    refine ⟨s, hs, (ys, i), List.mem_zipIdx_iff_getElem?.2 h1, ?_⟩
    dsimp only
    rw [h3]
    dsimp only
    rw [if_neg]
    · exact h5
    · rw [not_or, not_not, not_not]
      exact ⟨by simpa using h4, h2⟩

variable [IsStrictOrderedRing K]

/-- C101. The range of a group of columns contains every value shown in them; its ends are values shown in them, unless all values
agree up to `eps`, when it has length one, or there is no value, when it is `[0, 1]`. -/
theorem C101_range {eps : K} (h1 : eps ≤ 1) (sources : List (Source K)) (labels selected : List Name) :
    let r := minMax eps sources labels selected
    r.1 + eps ≤ r.2 ∧
      (∀ y, Shown sources labels selected y → r.1 ≤ y ∧ y ≤ r.2) ∧
      ((∀ y, ¬ Shown sources labels selected y) ∧ r = (0, 1) ∨
        Shown sources labels selected r.1 ∧
          (Shown sources labels selected r.2 ∨ r.2 = r.1 + 1 ∧ ∀ y, Shown sources labels selected y → y < r.1 + eps)) := by
  intro r
  obtain ⟨a, b⟩ := foldRange (rangeValues sources labels selected) none (by simp)
  simp only [← mem_rangeValues]
  simp only [r, minMax]
  generalize hres : (rangeValues sources labels selected).foldl (fun (r : Option (K × K)) y => match r with
        | none => some (y, y)
        | some (lo, hi) => some (min lo y, max hi y)) none = res at a b
  cases res with
  | none =>
    have := (a rfl).2
    rw [this]
    exact ⟨by simpa using h1, by simp, .inl ⟨by simp, rfl⟩⟩
  | some p =>
    obtain ⟨lo, hi⟩ := p
    obtain ⟨c1, c2, _, c4, c5⟩ := b _ rfl
    dsimp only at c1 c2 c4 c5 ⊢
    have c4' : lo ∈ rangeValues sources labels selected := by
      rcases c4 with c4 | ⟨q, hq, _⟩
      · exact c4
      · cases hq
    have c5' : hi ∈ rangeValues sources labels selected := by
      rcases c5 with c5 | ⟨q, hq, _⟩
      · exact c5
      · cases hq
    have habs : |hi - lo| = hi - lo := abs_of_nonneg (by linarith)
    by_cases hlt : |hi - lo| < eps
    · rw [if_pos hlt]
      rw [habs] at hlt
      refine ⟨by dsimp only; linarith, fun y hy => ?_, .inr ⟨c4', .inr ⟨rfl, fun y hy => ?_⟩⟩⟩
      · exact ⟨(c2 y hy).1, by dsimp only; linarith [(c2 y hy).2]⟩
      · dsimp only; linarith [(c2 y hy).2]
    · rw [if_neg hlt]
      rw [habs, not_lt] at hlt
      exact ⟨by dsimp only; linarith, c2, .inr ⟨c4', .inl c5'⟩⟩

/-- C101. The scaling maps the ends of one range to the ends of the other, keeps the order of values, and can be undone. -/
theorem C101_scale {eps s₁ s₂ d₁ d₂ : K} (h0 : 0 < eps) (hs : s₁ + eps ≤ s₂) (hd : d₁ < d₂) :
    mapRange eps s₁ s₁ s₂ d₁ d₂ = d₁ ∧ mapRange eps s₂ s₁ s₂ d₁ d₂ = d₂ ∧
      StrictMono (fun y => mapRange eps y s₁ s₂ d₁ d₂) ∧
      ∀ y, s₁ + (mapRange eps y s₁ s₂ d₁ d₂ - d₁) / (d₂ - d₁) * (s₂ - s₁) = y := by
  have hpos : 0 < s₂ - s₁ := by linarith
  have hpos' : 0 < d₂ - d₁ := by linarith
  have hn : ¬ |s₂ - s₁| < eps := by rw [abs_of_pos hpos]; linarith
  simp only [mapRange, if_neg hn]
  refine ⟨by simp, ?_, ?_, ?_⟩
  · field_simp; ring
  · intro a b hab
    dsimp only
    have : (a - s₁) / (s₂ - s₁) < (b - s₁) / (s₂ - s₁) := by
      apply div_lt_div_of_pos_right _ hpos; linarith
    have := mul_lt_mul_of_pos_right this hpos'
    linarith
  · intro y
    field_simp
    ring

/-- C101. When the second group has its own axis, each of its lines stays inside the range of the first group, and reading the line
against the two ranges shown gives back the points of the file (as in `C99_lines_partial`). -/
theorem C101_drawn (ws : Char → Bool) {eps : K} (h0 : 0 < eps) (h1 : eps ≤ 1) {v : Viewer K} {last : List Name → Option Obs}
    (h : Run env v last) {line : PlotLine K} (hl : line ∈ draw ws eps v) (hd : useDualAxis ws v = true)
    (hy : mapOn v.selY line.column = true) :
    let xr := minMax eps v.sources v.yLabels (selectedCols v.yLabels v.selX)
    let yr := minMax eps v.sources v.yLabels (selectedCols v.yLabels v.selY)
    (∀ p ∈ line.points, xr.1 ≤ p.2 ∧ p.2 ≤ xr.2) ∧
    ∃ s ∈ v.sources, ∃ i : Nat, line.source = deriveRunLabel s.path ∧ v.yLabels[i]? = some line.column ∧
      ∃ content text rs, (∀ l, last s.path = some l → content <+: l.content) ∧ utf8Decode content = some text ∧
        rows env (viewCfg v.xLabel v.yLabels) text = some rs ∧
        (line.points.map fun p => (p.1, yr.1 + (p.2 - xr.1) / (xr.2 - xr.1) * (yr.2 - yr.1))) =
          rs.filterMap fun r => r.2[i]?.map fun y => (r.1, y) := by
  intro xr yr
  obtain ⟨s, hs, i, ys, d1, d2, d3, d4, d5⟩ := draw_mem env ws eps h hl
  obtain ⟨n1, n2, n3, content, text, rs, p1, p2, p3, p4, p5, p6⟩ := run_source env h hs
  have hi : i < v.yLabels.length := (List.getElem?_eq_some_iff.1 d3).1
  obtain ⟨x1, _, _⟩ := C101_range h1 v.sources v.yLabels (selectedCols v.yLabels v.selX)
  obtain ⟨y1, y2, _⟩ := C101_range h1 v.sources v.yLabels (selectedCols v.yLabels v.selY)
  obtain ⟨e1, e2, e3, e4⟩ := C101_scale h0 y1 (show xr.1 < xr.2 by linarith)
  rw [d5, hd, hy]
  simp only [Bool.and_self, if_true]
  constructor
  · intro p hp
    obtain ⟨⟨a, y⟩, hz, rfl⟩ := List.mem_map.1 hp
    have hmem : y ∈ ys := (List.of_mem_zip hz).2
    obtain ⟨b1, b2⟩ := y2 y ⟨s, hs, i, ys, line.column, d1, d2, d3,
      List.mem_filter.2 ⟨List.mem_of_getElem? d3, hy⟩, hmem⟩
    exact ⟨le_trans e1.ge (e3.monotone b1), le_trans (e3.monotone b2) e2.le⟩
  · refine ⟨s, hs, i, d4.trans n1, d3, content, text, rs, p1, p2, p3, ?_⟩
    rw [List.map_map]
    rw [show ((fun p : K × K => (p.1, yr.1 + (p.2 - xr.1) / (xr.2 - xr.1) * (yr.2 - yr.1))) ∘ fun p : K × K => (p.1, mapRange eps p.2
      (minMax eps v.sources v.yLabels (selectedCols v.yLabels v.selY)).1
      (minMax eps v.sources v.yLabels (selectedCols v.yLabels v.selY)).2
      (minMax eps v.sources v.yLabels (selectedCols v.yLabels v.selX)).1
      (minMax eps v.sources v.yLabels (selectedCols v.yLabels v.selX)).2)) = id from ?_]
    · rw [List.map_id, p5, p6 i ys d1, zip_col p4 hi]
    · funext p
      exact Prod.ext rfl (e4 p.2)

end

/-- C101. The unit of a group of columns is the unit all of them have. -/
theorem C101_unit (ws : Char → Bool) (cols : List Name) (u : Name) :
    commonUnit ws cols = some u ↔ cols ≠ [] ∧ u ≠ [] ∧ ∀ c ∈ cols, extractUnit ws c = some u := by
  have key : ∀ (cols : List Name) (w : Name), w ≠ [] →
      ((∀ c ∈ cols, extractUnit ws c = some w) → commonUnitLoop ws (some w) cols = some (some w)) ∧
      (∀ x, commonUnitLoop ws (some w) cols = some x → x = some w ∧ ∀ c ∈ cols, extractUnit ws c = some w) := by
    intro cols w hw
    induction cols with
    | nil => exact ⟨fun _ => rfl, fun x hx => ⟨by simpa [commonUnitLoop] using hx.symm, by simp⟩⟩
    | cons c cols ih =>
      constructor
      · intro h
        have hc := h c List.mem_cons_self
        simp only [commonUnitLoop, hc, if_true]
        exact ih.1 fun d hd => h d (List.mem_cons_of_mem _ hd)
      · intro x hx
        simp only [commonUnitLoop] at hx
        cases he : extractUnit ws c with
        | none => rw [he] at hx; simp [hw] at hx
        | some v =>
          rw [he] at hx
          dsimp only at hx
          by_cases hv : w = v
          · rw [if_pos hv] at hx
            obtain ⟨a, b⟩ := ih.2 x hx
            refine ⟨a, fun d hd => ?_⟩
            rcases List.mem_cons.1 hd with rfl | hd
            · rw [he, hv]
            · exact b d hd
          · rw [if_neg hv] at hx; cases hx
  have key0 : ∀ (cols : List Name) (x : Option Name), commonUnitLoop ws (some []) cols = some x → x = some [] := by
    intro cols x
    induction cols with
    | nil => intro h; simpa [commonUnitLoop] using h.symm
    | cons c cols ih =>
      intro h
      simp only [commonUnitLoop] at h
      cases he : extractUnit ws c with
      | none => rw [he] at h; exact ih (by simpa using h)
      | some v =>
        rw [he] at h
        dsimp only at h
        by_cases hv : [] = v
        · rw [if_pos hv] at h; exact ih h
        · rw [if_neg hv] at h; cases h
  unfold commonUnit
  cases cols with
  | nil => simp [commonUnitLoop]
  | cons c cols =>
    simp only [commonUnitLoop]
    cases he : extractUnit ws c with
    | none =>
      dsimp only
      constructor
      · intro h
        cases hl : commonUnitLoop ws (some []) cols with
        | none => rw [hl] at h; cases h
        | some x => rw [hl, key0 cols x hl] at h; simp at h
      · rintro ⟨_, _, h⟩
        have := h c List.mem_cons_self
        rw [he] at this; cases this
    | some w =>
      dsimp only
      by_cases hw : w = []
      · subst hw
        constructor
        · intro h
          cases hl : commonUnitLoop ws (some []) cols with
          | none => rw [hl] at h; cases h
          | some x => rw [hl, key0 cols x hl] at h; simp at h
        · rintro ⟨_, hu, h⟩
          have := h c List.mem_cons_self
          rw [he] at this; cases this; exact absurd rfl hu
      · obtain ⟨k1, k2⟩ := key cols w hw
        constructor
        · intro h
          cases hl : commonUnitLoop ws (some w) cols with
          | none => rw [hl] at h; cases h
          | some x =>
            obtain ⟨rfl, hx⟩ := k2 x hl
            rw [hl] at h
            have : w = u := by
              dsimp only at h
              rw [Option.filter_some, if_pos (by simpa using hw)] at h
              exact Option.some.inj h
            subst this
            refine ⟨by simp, hw, fun d hd => ?_⟩
            rcases List.mem_cons.1 hd with rfl | hd
            · exact he
            · exact hx d hd
        · rintro ⟨_, hu, h⟩
          have h1 := h c List.mem_cons_self
          rw [he] at h1; cases h1
          rw [k1 fun d hd => h d (List.mem_cons_of_mem _ hd)]
          dsimp only
          rw [Option.filter_some, if_pos (by simpa using hu)]

theorem rfind_append (c : Char) (a b : List Char) (hb : c ∉ b) : rfind c (a ++ c :: b) = some a.length := by
  unfold rfind
  have hr : (a ++ c :: b).reverse = b.reverse ++ c :: a.reverse := by simp
  rw [hr, List.findIdx?_append]
  have h1 : b.reverse.findIdx? (· == c) = none := by
    rw [List.findIdx?_eq_none_iff]
    intro x hx
    have : x ≠ c := fun h => hb (h ▸ List.mem_reverse.1 hx)
    simp [this]
  rw [h1]
  simp only [List.findIdx?_cons, beq_self_eq_true, if_true, Option.map_some, Option.none_or, List.length_append, List.length_cons,
    List.length_reverse, zero_add, Option.some.injEq]
  omega

/-- C101. The unit of `base[unit]rest` is what stands between the brackets, without surrounding white space; a name without a
bracket has none. -/
theorem C101_extract (ws : Char → Bool) (base unit rest : Name) (hu : unit ≠ [])
    (h1 : '[' ∉ unit) (h2 : '[' ∉ rest) (h3 : ']' ∉ rest) :
    extractUnit ws (base ++ '[' :: (unit ++ ']' :: rest)) = some ((unit.dropWhile ws).reverse.dropWhile ws).reverse ∧
      ('[' ∉ base → extractUnit ws base = none) := by
  have e1 : rfind '[' (base ++ '[' :: (unit ++ ']' :: rest)) = some base.length := by
    apply rfind_append
    simp only [List.mem_append, List.mem_cons, not_or]
    exact ⟨h1, by decide, h2⟩
  have e2 : rfind ']' (base ++ '[' :: (unit ++ ']' :: rest)) = some (base.length + 1 + unit.length) := by
    have := rfind_append ']' (base ++ '[' :: unit) rest h3
    simp only [List.append_assoc, List.cons_append, List.length_append, List.length_cons] at this
    rw [this]; congr 1; omega
  have hpos : 0 < unit.length := List.length_pos_iff.2 hu
  constructor
  · simp only [extractUnit, e1, e2]
    rw [if_neg (by omega)]
    have : ((base ++ '[' :: (unit ++ ']' :: rest)).take (base.length + 1 + unit.length)).drop (base.length + 1) = unit := by
      rw [show base ++ '[' :: (unit ++ ']' :: rest) = ((base ++ ['[']) ++ unit) ++ ']' :: rest by simp]
      rw [List.take_left' (by simp; omega), List.drop_left' (by simp)]
    rw [this]
  · intro hb
    have : rfind '[' base = none := by
      unfold rfind
      rw [Option.map_eq_none_iff, List.findIdx?_eq_none_iff]
      intro x hx
      have : x ≠ '[' := fun h => hb (h ▸ List.mem_reverse.1 hx)
      simp [this]
    simp only [extractUnit, this]

/-! ## C102: errors -/

section
variable {F : Type} (env : Env F)

/-- C102. After the poll timer has fired, an error is shown exactly if the poll of a source failed, and it names such a source. -/
theorem C102_poll_partial (v : Viewer F) (due : Bool) (paths : Option (List (List Name))) (fs₁ fs₂ fs : List Name → Option Obs) :
    let w := if due then refresh env paths fs₁ fs₂ v else v
    ((tick env due paths fs₁ fs₂ fs v).lastError = none ↔
        ∀ s ∈ w.sources, (Plotter.updateOnce env s.cfg s.plotter (fs s.path)).2 ≠ none) ∧
      ∀ e, (tick env due paths fs₁ fs₂ fs v).lastError = some e →
        ∃ s ∈ w.sources, e = .plotter s.path ∧ (Plotter.updateOnce env s.cfg s.plotter (fs s.path)).2 = none := by
  intro w
  show ((w.sources.foldl (fun e s => if (s.poll env (fs s.path)).2 then e else some (Err.plotter s.path)) none = none) ↔ _) ∧
    ∀ e, (w.sources.foldl (fun e s => if (s.poll env (fs s.path)).2 then e else some (Err.plotter s.path)) none = some e) → _
  have hp : ∀ s : Source F, (s.poll env (fs s.path)).2 = true ↔ (Plotter.updateOnce env s.cfg s.plotter (fs s.path)).2 ≠ none := by
    intro s
    exact Option.isSome_iff_ne_none
  have key : ∀ (l : List (Source F)) (e₀ : Option Err),
      ((l.foldl (fun e s => if (s.poll env (fs s.path)).2 then e else some (Err.plotter s.path)) e₀ = none) ↔
        e₀ = none ∧ ∀ s ∈ l, (s.poll env (fs s.path)).2 = true) ∧
      ∀ e, (l.foldl (fun e s => if (s.poll env (fs s.path)).2 then e else some (Err.plotter s.path)) e₀ = some e) →
        e₀ = some e ∨ ∃ s ∈ l, e = .plotter s.path ∧ ¬ (s.poll env (fs s.path)).2 = true := by
    intro l
    induction l with
    | nil => intro e₀; exact ⟨by simp, fun e he => .inl he⟩
    | cons s l ih =>
      intro e₀
      rw [List.foldl_cons]
      by_cases hs : (s.poll env (fs s.path)).2 = true
      · rw [if_pos hs]
        obtain ⟨a, b⟩ := ih e₀
        refine ⟨a.trans ?_, fun e he => ?_⟩
        · simp [hs]
        · rcases b e he with h | ⟨t, ht, h⟩
          · exact .inl h
          · exact .inr ⟨t, List.mem_cons_of_mem _ ht, h⟩
      · rw [if_neg hs]
        obtain ⟨a, b⟩ := ih (some (Err.plotter s.path))
        refine ⟨a.trans ?_, fun e he => ?_⟩
        · simp [hs]
        · rcases b e he with h | ⟨t, ht, h⟩
          · cases h; exact .inr ⟨s, List.mem_cons_self, rfl, hs⟩
          · exact .inr ⟨t, List.mem_cons_of_mem _ ht, h⟩
  obtain ⟨a, b⟩ := key w.sources none
  refine ⟨a.trans ?_, fun e he => ?_⟩
  · simp [hp]
  · rcases b e he with h | ⟨s, hs, h1, h2⟩
    · cases h
    · exact ⟨s, hs, h1, by rw [hp, not_not] at h2; exact h2⟩

/-! ## C103: names of sources -/

/-- C103. The name of a source is the last part of its path that begins with `run_`. -/
theorem C103_run_partial (before after : List Name) (r : Name) (hr : "run_".toList <+: r)
    (ha : ∀ s ∈ after, ¬ "run_".toList <+: s) : deriveRunLabel (before ++ r :: after) = r := by
  unfold deriveRunLabel
  have : ((before ++ r :: after).reverse.find? fun s => "run_".toList.isPrefixOf s) = some r := by
    rw [List.reverse_append, List.reverse_cons, List.append_assoc, List.find?_append]
    have h1 : (after.reverse.find? fun s => "run_".toList.isPrefixOf s) = none := by
      rw [List.find?_eq_none]
      intro s hs h
      exact ha s (List.mem_reverse.1 hs) (List.isPrefixOf_iff_prefix.1 h)
    rw [h1, Option.none_or, List.singleton_append, List.find?_cons, List.isPrefixOf_iff_prefix.2 hr]
  rw [this]

/-- C103. Without such a part it is the file name up to its last dot. -/
theorem C103_stem_partial (dir : List Name) (stem ext : Name) (hs : stem ≠ []) (he : '.' ∉ ext)
    (hn : ∀ s ∈ dir ++ [stem ++ '.' :: ext], ¬ "run_".toList <+: s) : deriveRunLabel (dir ++ [stem ++ '.' :: ext]) = stem := by
  unfold deriveRunLabel
  have : ((dir ++ [stem ++ '.' :: ext]).reverse.find? fun s => "run_".toList.isPrefixOf s) = none := by
    rw [List.find?_eq_none]
    intro s hs h
    exact hn s (List.mem_reverse.1 hs) (List.isPrefixOf_iff_prefix.1 h)
  rw [this, List.getLast?_concat]
  simp only [fileStem, rfind_append '.' stem ext he]
  cases hl : stem.length with
  | zero => exact absurd (List.length_eq_zero_iff.1 hl) hs
  | succ n =>
    exact List.take_left' hl

/-- C103 in full is not met: two files of one run have the same name, so their lines cannot be told apart. -/
theorem C103_fails :
    ∃ p q : List Name, p ≠ q ∧ deriveRunLabel p = deriveRunLabel q :=
  ⟨["run_1".toList, "earth.csv".toList], ["run_1".toList, "moon.csv".toList], by decide +kernel, by decide +kernel⟩

end

/-! ## C104: the columns shown are those ticked -/

/-- The keys of a sorted map increase. -/
def Increasing (m : List (Name × Bool)) : Prop := m.Pairwise fun a b => a.1 < b.1

theorem mapInsert_mem {k : Name} {b : Bool} {m : List (Name × Bool)} {e : Name × Bool} (h : e ∈ mapInsert k b m) :
    e.1 = k ∨ e ∈ m := by
  induction m with
  | nil => simp only [mapInsert, List.mem_singleton] at h; exact .inl (by rw [h])
  | cons e' m ih =>
    obtain ⟨k', b'⟩ := e'
    simp only [mapInsert] at h
    by_cases h1 : k < k'
    · rw [if_pos h1] at h
      rcases List.mem_cons.1 h with rfl | h
      · exact .inl rfl
      · exact .inr h
    · rw [if_neg h1] at h
      by_cases h2 : k = k'
      · rw [if_pos h2] at h
        rcases List.mem_cons.1 h with rfl | h
        · exact .inl rfl
        · exact .inr (List.mem_cons_of_mem _ h)
      · rw [if_neg h2] at h
        rcases List.mem_cons.1 h with rfl | h
        · exact .inr List.mem_cons_self
        · rcases ih h with h | h
          · exact .inl h
          · exact .inr (List.mem_cons_of_mem _ h)

theorem mapInsert_increasing (k : Name) (b : Bool) {m : List (Name × Bool)} (h : Increasing m) : Increasing (mapInsert k b m) := by
  induction m with
  | nil => exact List.pairwise_singleton _ _
  | cons e m ih =>
    obtain ⟨k', b'⟩ := e
    obtain ⟨h1, h2⟩ := List.pairwise_cons.1 h
    simp only [mapInsert]
    by_cases c1 : k < k'
    · rw [if_pos c1]
      refine List.pairwise_cons.2 ⟨fun e he => ?_, h⟩
      rcases List.mem_cons.1 he with rfl | he
      · exact c1
      · exact lt_trans c1 (h1 e he)
    · rw [if_neg c1]
      by_cases c2 : k = k'
      · rw [if_pos c2]
        exact List.pairwise_cons.2 ⟨fun e he => by rw [c2]; exact h1 e he, h2⟩
      · rw [if_neg c2]
        refine List.pairwise_cons.2 ⟨fun e he => ?_, ih h2⟩
        rcases mapInsert_mem he with he | he
        · rw [he]; exact lt_of_le_of_ne (not_lt.1 c1) (Ne.symm c2)
        · exact h1 e he

theorem mapInsert_on (k : Name) (b : Bool) (m : List (Name × Bool)) (c : Name) :
    mapOn (mapInsert k b m) c = if c = k then b else mapOn m c := by
  unfold mapOn
  induction m with
  | nil =>
    simp only [mapInsert, List.find?_cons, List.find?_nil]
    by_cases h : c = k
    · subst h; simp
    · have : (k == c) = false := by simp [Ne.symm h]
      simp [this, h]
  | cons e m ih =>
    obtain ⟨k', b'⟩ := e
    simp only [mapInsert]
    by_cases c1 : k < k'
    · rw [if_pos c1, List.find?_cons]
      by_cases h : c = k
      · subst h; simp
      · have : (k == c) = false := by simp [Ne.symm h]
        simp only [this, if_neg h]
    · rw [if_neg c1]
      by_cases c2 : k = k'
      · subst c2
        rw [if_pos rfl, List.find?_cons, List.find?_cons]
        by_cases h : c = k
        · subst h; simp
        · have : (k == c) = false := by simp [Ne.symm h]
          simp only [this, if_neg h]
      · rw [if_neg c2, List.find?_cons, List.find?_cons]
        by_cases h : k' = c
        · subst h; simp [Ne.symm c2]
        · have : (k' == c) = false := by simp [h]
          simp only [this, ih]

theorem mapOn_iff {m : List (Name × Bool)} (h : Increasing m) (c : Name) : mapOn m c = true ↔ (c, true) ∈ m := by
  unfold mapOn
  induction m with
  | nil => simp
  | cons e m ih =>
    obtain ⟨k, b⟩ := e
    obtain ⟨h1, h2⟩ := List.pairwise_cons.1 h
    rw [List.find?_cons]
    by_cases hk : k = c
    · subst hk
      simp only [beq_self_eq_true, Option.map_some, Option.getD_some, List.mem_cons, Prod.mk.injEq, true_and]
      constructor
      · exact fun hb => .inl hb.symm
      · rintro (hb | hm)
        · exact hb.symm
        · exact absurd (h1 _ hm) (lt_irrefl _)
    · have : (k == c) = false := by simp [hk]
      simp only [this]
      rw [ih h2, List.mem_cons]
      constructor
      · exact .inr
      · rintro (he | hm)
        · cases he; exact absurd rfl hk
        · exact hm

theorem setInsert_mem (k c : Name) (l : List Name) : c ∈ setInsert k l ↔ c = k ∨ c ∈ l := by
  induction l with
  | nil => simp [setInsert]
  | cons a l ih =>
    simp only [setInsert]
    by_cases c1 : k < a
    · rw [if_pos c1]; simp
    · rw [if_neg c1]
      by_cases c2 : k = a
      · rw [if_pos c2, c2]; simp
      · rw [if_neg c2, List.mem_cons, ih, List.mem_cons]; tauto

theorem setInsert_sorted (k : Name) {l : List Name} (h : l.Pairwise (· < ·)) : (setInsert k l).Pairwise (· < ·) := by
  induction l with
  | nil => exact List.pairwise_singleton _ _
  | cons a l ih =>
    obtain ⟨h1, h2⟩ := List.pairwise_cons.1 h
    simp only [setInsert]
    by_cases c1 : k < a
    · rw [if_pos c1]
      refine List.pairwise_cons.2 ⟨fun b hb => ?_, h⟩
      rcases List.mem_cons.1 hb with rfl | hb
      · exact c1
      · exact lt_trans c1 (h1 b hb)
    · rw [if_neg c1]
      by_cases c2 : k = a
      · rw [if_pos c2]; exact h
      · rw [if_neg c2]
        refine List.pairwise_cons.2 ⟨fun b hb => ?_, ih h2⟩
        rcases (setInsert_mem k b l).1 hb with rfl | hb
        · exact lt_of_le_of_ne (not_lt.1 c1) (Ne.symm c2)
        · exact h1 b hb

theorem newCols_spec (selX selY : List (Name × Bool)) :
    (newCols selX selY).Pairwise (· < ·) ∧ ∀ c, c ∈ newCols selX selY ↔ (c, true) ∈ selX ∨ (c, true) ∈ selY := by
  have key : ∀ (m : List (Name × Bool)) (l : List Name), l.Pairwise (· < ·) →
      (m.foldl (fun set e => if e.2 then setInsert e.1 set else set) l).Pairwise (· < ·) ∧
      ∀ c, c ∈ m.foldl (fun set e => if e.2 then setInsert e.1 set else set) l ↔ c ∈ l ∨ (c, true) ∈ m := by
    intro m
    induction m with
    | nil => intro l hl; exact ⟨hl, by simp⟩
    | cons e m ih =>
      intro l hl
      obtain ⟨k, b⟩ := e
      rw [List.foldl_cons]
      cases b with
      | true =>
        simp only [if_true]
        obtain ⟨a1, a2⟩ := ih _ (setInsert_sorted k hl)
        refine ⟨a1, fun c => (a2 c).trans ?_⟩
        rw [setInsert_mem]
        simp only [List.mem_cons, Prod.mk.injEq, and_true]
        tauto
      | false =>
        simp only [Bool.false_eq_true, if_false]
        obtain ⟨a1, a2⟩ := ih _ hl
        refine ⟨a1, fun c => (a2 c).trans ?_⟩
        simp
  obtain ⟨a1, a2⟩ := key selX [] List.Pairwise.nil
  obtain ⟨b1, b2⟩ := key selY _ a1
  refine ⟨b1, fun c => (b2 c).trans ?_⟩
  rw [a2]; simp

section
variable {F : Type} (env : Env F)

theorem toggle_increasing (v : Viewer F) (b : Axis × Name) (h : Increasing v.selX ∧ Increasing v.selY) :
    Increasing (toggle v b).selX ∧ Increasing (toggle v b).selY := by
  unfold toggle
  split
  · split
    · split
      · exact ⟨mapInsert_increasing _ _ h.1, h.2⟩
      · exact h
    · exact ⟨h.1, mapInsert_increasing _ _ h.2⟩
  · exact h

theorem mapOrInsert_increasing (k : Name) (b : Bool) {m : List (Name × Bool)} (h : Increasing m) :
    Increasing (mapOrInsert k b m) := by
  unfold mapOrInsert
  split
  · exact h
  · exact mapInsert_increasing k b h

theorem refresh_sel (paths : Option (List (List Name))) (fs₁ fs₂ : List Name → Option Obs) (v : Viewer F) :
    (refresh env paths fs₁ fs₂ v).selX = v.selX ∧ (refresh env paths fs₁ fs₂ v).selY = v.selY := by
  have key : ∀ (ps : List (List Name)) (v : Viewer F),
      (refreshLoop env fs₁ fs₂ v ps).selX = v.selX ∧ (refreshLoop env fs₁ fs₂ v ps).selY = v.selY := by
    intro ps
    induction ps with
    | nil => intro v; exact ⟨rfl, rfl⟩
    | cons p ps ih =>
      intro v
      simp only [refreshLoop]
      split
      · exact ih v
      · split
        · exact ih _
        · exact ih _
  unfold refresh
  split
  · split
    · exact ⟨rfl, rfl⟩
    · exact key _ v
  · exact ⟨rfl, rfl⟩

theorem run_increasing {v : Viewer F} {last : List Name → Option Obs} (h : Run env v last) :
    Increasing v.selX ∧ Increasing v.selY := by
  have keyI : ∀ (l : List Name) (m : List (Name × Bool)), Increasing m → Increasing (l.foldl (fun m c => mapInsert c true m) m) := by
    intro l
    induction l with
    | nil => intro m hm; exact hm
    | cons c l ih => intro m hm; exact ih _ (mapInsert_increasing c true hm)
  have keyT : ∀ (bs : List (Axis × Name)) (v : Viewer F), Increasing v.selX ∧ Increasing v.selY →
      Increasing (bs.foldl toggle v).selX ∧ Increasing (bs.foldl toggle v).selY := by
    intro bs
    induction bs with
    | nil => intro v hv; exact hv
    | cons b bs ih => intro v hv; exact ih _ (toggle_increasing v b hv)
  induction h with
  | start paths pattern x ys fs hs _ =>
    unfold start at hs
    split at hs
    · cases hs
    · obtain ⟨sources, _, rfl⟩ := Option.map_eq_some_iff.1 hs
      exact ⟨keyI _ _ List.Pairwise.nil, keyI _ _ List.Pairwise.nil⟩
  | refresh paths fs₁ fs₂ _ _ _ ih =>
    rw [(refresh_sel env paths fs₁ fs₂ _).1, (refresh_sel env paths fs₁ fs₂ _).2]
    exact ih
  | poll fs _ _ ih => exact ih
  | auto fs _ hi _ ih =>
    unfold autoSelect
    simp only [hi, Bool.false_eq_true, if_false, applySelection]
    constructor
    · split <;> split <;> first | exact mapOrInsert_increasing _ _ ih.1 | exact ih.1
    · split <;> split <;> first | exact mapOrInsert_increasing _ _ ih.2 | exact ih.2
  | @click v last boxes fs _ _ ih => exact keyT boxes v ih

/-- C104. Clicking the box of a column offered changes that box and no other. -/
theorem C104_click (v : Viewer F) (axis : Axis) (c d : Name) (hc : c ∈ columns v) (hx : c ≠ v.xLabel)
    (ha : axis = .X → classify c = some .X) :
    mapOn (toggle v (axis, c)).selX d = (if axis = .X ∧ d = c then !mapOn v.selX d else mapOn v.selX d) ∧
    mapOn (toggle v (axis, c)).selY d = (if axis = .Y ∧ d = c then !mapOn v.selY d else mapOn v.selY d) := by
  unfold toggle
  rw [if_pos ⟨hc, hx⟩]
  cases axis with
  | X =>
    simp only [ha rfl, if_true, true_and, reduceCtorEq, false_and, if_false, and_true, mapInsert_on]
    by_cases h : d = c
    · subst h; simp
    · simp [h]
  | Y =>
    simp only [reduceCtorEq, false_and, if_false, true_and, mapInsert_on]
    by_cases h : d = c
    · subst h; simp
    · simp [h]

/-- C104. After a changed selection (in a run: every file has the columns) the columns shown are those ticked in either list, in
alphabetical order without repetition, and no error is shown. -/
theorem C104_shown_partial {v : Viewer F} {last : List Name → Option Obs} (h : Run env v last) (boxes : List (Axis × Name))
    (fs : List Name → Option Obs)
    (hl : ∀ path, Loadable env v.xLabel (newCols (boxes.foldl toggle v).selX (boxes.foldl toggle v).selY) fs path) :
    let w := applySelection env fs (boxes.foldl toggle v)
    w.yLabels.Pairwise (· < ·) ∧ (∀ c, c ∈ w.yLabels ↔ mapOn w.selX c = true ∨ mapOn w.selY c = true) ∧ w.lastError = none := by
  intro w
  have hr := Run.click boxes fs h hl
  obtain ⟨i1, i2⟩ := run_increasing env hr
  obtain ⟨k1, k2, k3⟩ := toggles_keep boxes v
  have hinv := run_inv env h
  have herr : w.lastError = none := by
    have hok : ∀ s ∈ (boxes.foldl toggle v).sources, (s.setYColumns env
        (newCols (boxes.foldl toggle v).selX (boxes.foldl toggle v).selY) (fs s.path)).2 = true :=
      fun s hs => (setYColumns_ok env s (hinv s (k1 ▸ hs)).1 (hl _)).1
    have : ∀ l : List (Source F), (∀ s ∈ l, (s.setYColumns env
        (newCols (boxes.foldl toggle v).selX (boxes.foldl toggle v).selY) (fs s.path)).2 = true) →
        l.foldl (fun e s => if (s.setYColumns env (newCols (boxes.foldl toggle v).selX (boxes.foldl toggle v).selY) (fs s.path)).2
          then e else some (Err.plotter s.path)) none = none := by
      intro l
      induction l with
      | nil => intro _; rfl
      | cons s l ih =>
        intro h
        rw [List.foldl_cons, if_pos (h s List.mem_cons_self)]
        exact ih fun t ht => h t (List.mem_cons_of_mem _ ht)
    exact this _ hok
  have hy : w.yLabels = newCols w.selX w.selY := by
    show (if w.lastError.isNone then newCols (boxes.foldl toggle v).selX (boxes.foldl toggle v).selY
      else (boxes.foldl toggle v).yLabels) = _
    rw [herr]; rfl
  obtain ⟨a1, a2⟩ := newCols_spec w.selX w.selY
  rw [hy]
  refine ⟨a1, fun c => (a2 c).trans ?_, herr⟩
  rw [mapOn_iff i1, mapOn_iff i2]

end

/-! ## Concrete cases and counterexamples -/

/-- One-digit numbers as rationals. -/
def viewEnv : Env ℚ :=
  { ws := fun c => c.isWhitespace, parseF := fun l => (toyParse l).map fun n => (n : ℚ), parseUsize := toyParse }

/-- A file system of text files. -/
def textFs (files : List (List Name × String)) (path : List Name) : Option Obs :=
  (files.find? fun f => f.1 == path).map fun f =>
    { id := 1, len := f.2.length, content := f.2.toList.map fun c => c.val.toUInt8 }

/-- Two runs. -/
def pathA : List Name := ["run_1".toList, "log.csv".toList]
/-- The second run. -/
def pathB : List Name := ["run_2".toList, "log.csv".toList]

/-- A viewer of the given files, started with the given columns. -/
def startView (files : List (List Name × String)) (ys : List String) : Option (Viewer ℚ) :=
  start viewEnv (files.map (·.1)) true "t".toList (ys.map String.toList) (textFs files)

/-- The lines drawn, as plain data. -/
def lines (v : Viewer ℚ) : List (String × String × List (ℚ × ℚ)) :=
  (draw viewEnv.ws (1 / 100) v).map fun l => (String.ofList l.source, String.ofList l.column, l.points)

/-- Every file is ASCII text and has the columns. -/
def filesOk (files : List (List Name × String)) (x : Name) (ys : List Name) : Bool :=
  files.all fun f => decide (utf8Decode (f.2.toList.map fun c => c.val.toUInt8) = some f.2.toList) &&
    (rows viewEnv (viewCfg x ys) f.2.toList).isSome

theorem textFs_loadable {files : List (List Name × String)} {x : Name} {ys : List Name} (h : filesOk files x ys = true) :
    ∀ path, Loadable viewEnv x ys (textFs files) path := by
  intro path o ho
  obtain ⟨f, hf, rfl⟩ := Option.map_eq_some_iff.1 ho
  have := List.all_eq_true.1 h f (List.mem_of_find?_eq_some hf)
  rw [Bool.and_eq_true, decide_eq_true_iff] at this
  obtain ⟨h1, h2⟩ := this
  exact ⟨by rw [h1]; rfl, goodObs_of_file viewEnv _ _ _ h1 (by
    intro h0; rw [h0] at h2; cases h2)⟩

/-- Two files with the same columns. -/
def filesSame : List (List Name × String) :=
  [(pathA, "t,p_x[m],q_y[s]\n1,2,3\n2,4,9\n"), (pathB, "t,q_y[s],p_x[m]\n1,5,6\n")]

/-- The hypotheses of C99, C101 and C104 are met: a run that starts with one column, has a second one ticked, and then draws on two
axes (`q_y` values 3…9 scaled onto the range 2…6 of `p_x`). -/
example : ∃ v w, startView filesSame ["p_x[m]"] = some v ∧ Run viewEnv v (textFs filesSame) ∧
    w = applySelection viewEnv (textFs filesSame) ([(Axis.Y, "q_y[s]".toList)].foldl toggle v) ∧
    Run viewEnv w (textFs filesSame) ∧ useDualAxis viewEnv.ws w = true ∧
    lines w = [("run_1", "p_x[m]", [(1, 2), (2, 4)]), ("run_1", "q_y[s]", [(1, 2), (2, 6)]),
      ("run_2", "p_x[m]", [(1, 6)]), ("run_2", "q_y[s]", [(1, 10 / 3)])] := by
  obtain ⟨v, hv⟩ : ∃ v, startView filesSame ["p_x[m]"] = some v := Option.isSome_iff_exists.1 (by decide +kernel)
  have hv' : v = (startView filesSame ["p_x[m]"]).get (by decide +kernel) := by simp [hv]
  have hr : Run viewEnv v (textFs filesSame) := Run.start _ _ _ _ _ hv (textFs_loadable (by decide +kernel))
  refine ⟨v, _, hv, hr, rfl, Run.click _ _ hr (textFs_loadable ?_), ?_, ?_⟩
  · rw [hv']; decide +kernel
  · rw [hv']; decide +kernel
  · rw [hv']; decide +kernel

/-- Two files, the second without column `a`. -/
def filesOther : List (List Name × String) := [(pathA, "t,a,b\n1,2,3\n"), (pathB, "t,b\n1,4\n")]

/-- C99 in full is not met: when a box is ticked whose column is missing in one of the files, the other sources change their columns
but the labels stay. Here column `a` of the first run is drawn under the name `b` (whose value in that file is 3). -/
theorem C99_fails :
    ∃ v, startView filesOther ["b"] = some v ∧ Run viewEnv v (textFs filesOther) ∧
      lines v = [("run_1", "b", [(1, 3)]), ("run_2", "b", [(1, 4)])] ∧
      lines (toolbar viewEnv [(.Y, "a".toList)] (textFs filesOther) (textFs filesOther) v) = [("run_1", "b", [(1, 2)])] := by
  obtain ⟨v, hv⟩ : ∃ v, startView filesOther ["b"] = some v := Option.isSome_iff_exists.1 (by decide +kernel)
  have hv' : v = (startView filesOther ["b"]).get (by decide +kernel) := by simp [hv]
  refine ⟨v, hv, Run.start _ _ _ _ _ hv (textFs_loadable (by decide +kernel)), ?_, ?_⟩
  · rw [hv']; decide +kernel
  · rw [hv']; decide +kernel

/-- Four columns with four units. -/
def filesUnits : List (List Name × String) := [(pathA, "t,p_x[m],q_x[s],p_y[K],q_y[A]\n1,1,2,3,4\n")]

/-- C101 in full is not met: when neither group has a common unit, both are drawn on one axis although no unit of one group occurs in
the other. -/
theorem C101_units_fails :
    ∃ v, startView filesUnits ["p_x[m]", "q_x[s]", "p_y[K]", "q_y[A]"] = some v ∧ Run viewEnv v (textFs filesUnits) ∧
      (∀ c ∈ selectedCols v.yLabels v.selX, ∀ d ∈ selectedCols v.yLabels v.selY,
        extractUnit viewEnv.ws c ≠ extractUnit viewEnv.ws d) ∧
      selectedCols v.yLabels v.selX ≠ [] ∧ selectedCols v.yLabels v.selY ≠ [] ∧ useDualAxis viewEnv.ws v = false := by
  obtain ⟨v, hv⟩ : ∃ v, startView filesUnits ["p_x[m]", "q_x[s]", "p_y[K]", "q_y[A]"] = some v :=
    Option.isSome_iff_exists.1 (by decide +kernel)
  have hv' : v = (startView filesUnits ["p_x[m]", "q_x[s]", "p_y[K]", "q_y[A]"]).get (by decide +kernel) := by simp [hv]
  refine ⟨v, hv, Run.start _ _ _ _ _ hv (textFs_loadable (by decide +kernel)), ?_, ?_, ?_, ?_⟩ <;>
    rw [hv'] <;> decide +kernel

/-- A column of the first group, with values 0 and 2, and one without unit. -/
def filesBoth : List (List Name × String) := [(pathA, "t,p_x[m],h\n1,0,8\n2,2,8\n")]

/-- C101 in full is not met: a column ticked in both lists is scaled as if it did not belong to the first axis (the value 2 is drawn
at 1/2 of the axis that shows the range 0…2 of this very column). -/
theorem C101_both_fails :
    ∃ v, startView filesBoth ["p_x[m]"] = some v ∧ Run viewEnv v (textFs filesBoth) ∧
      lines v = [("run_1", "p_x[m]", [(1, 0), (2, 2)])] ∧
      lines (toolbar viewEnv [(.Y, "p_x[m]".toList), (.Y, "h".toList)] (textFs filesBoth) (textFs filesBoth) v) =
        [("run_1", "h", [(1, 2), (2, 2)]), ("run_1", "p_x[m]", [(1, 0), (2, 1 / 2)])] := by
  obtain ⟨v, hv⟩ : ∃ v, startView filesBoth ["p_x[m]"] = some v := Option.isSome_iff_exists.1 (by decide +kernel)
  have hv' : v = (startView filesBoth ["p_x[m]"]).get (by decide +kernel) := by simp [hv]
  refine ⟨v, hv, Run.start _ _ _ _ _ hv (textFs_loadable (by decide +kernel)), ?_, ?_⟩ <;>
    rw [hv'] <;> decide +kernel

/-- One file with column `b`. -/
def filesOne : List (List Name × String) := [(pathA, "t,a,b\n1,2,3\n")]

/-- C102 in full is not met: the message that a new file cannot be loaded is never shown, because the polls that follow in the same
step overwrite it. (No firing of the timer leaves such a message; and here is one in which a file matching the pattern lacks the
column and is left out.) -/
theorem C102_load_fails :
    (∀ {F : Type} (env : Env F) (v : Viewer F) due paths fs₁ fs₂ fs path,
      (tick env due paths fs₁ fs₂ fs v).lastError ≠ some (.load path)) ∧
    ∃ v, startView filesOne ["a"] = some v ∧
      let fs := textFs filesOther
      (refresh viewEnv (some [pathA, pathB]) fs fs v).lastError.isSome = true ∧
      (tick viewEnv true (some [pathA, pathB]) fs fs fs v).lastError.isNone = true ∧
      ((tick viewEnv true (some [pathA, pathB]) fs fs fs v).sources.map fun s => s.path) = [pathA] := by
  refine ⟨fun env v due paths fs₁ fs₂ fs path h => ?_, ?_⟩
  · obtain ⟨s, _, h1, _⟩ := (C102_poll_partial env v due paths fs₁ fs₂ fs).2 _ h
    cases h1
  · obtain ⟨v, hv⟩ : ∃ v, startView filesOne ["a"] = some v := Option.isSome_iff_exists.1 (by decide +kernel)
    have hv' : v = (startView filesOne ["a"]).get (by decide +kernel) := by simp [hv]
    refine ⟨v, hv, ?_, ?_, ?_⟩ <;> rw [hv'] <;> decide +kernel

/-- C104 in full is not met: a column asked for on the command line that is not called an x or y component is shown, but its box is
not ticked, and it disappears when another box is ticked. -/
theorem C104_start_fails :
    ∃ v, startView filesOne ["a"] = some v ∧ Run viewEnv v (textFs filesOne) ∧
      v.yLabels = ["a".toList] ∧ mapOn v.selX "a".toList = false ∧ mapOn v.selY "a".toList = false ∧
      (toolbar viewEnv [(.Y, "b".toList)] (textFs filesOne) (textFs filesOne) v).yLabels = ["b".toList] := by
  obtain ⟨v, hv⟩ : ∃ v, startView filesOne ["a"] = some v := Option.isSome_iff_exists.1 (by decide +kernel)
  have hv' : v = (startView filesOne ["a"]).get (by decide +kernel) := by simp [hv]
  refine ⟨v, hv, Run.start _ _ _ _ _ hv (textFs_loadable (by decide +kernel)), ?_, ?_, ?_, ?_⟩ <;>
    rw [hv'] <;> decide +kernel

/-- C105 with one new file that loads, one that lacks the column, and one already shown. -/
example : ∃ v, startView filesOne ["a"] = some v ∧ v.pattern = true ∧
    ((refresh viewEnv (some [pathA, pathB, ["c".toList]]) (textFs (filesOther ++ [(["c".toList], "t,a\n")]))
      (textFs (filesOther ++ [(["c".toList], "t,a\n")])) v).sources.map fun s => s.path) = [pathA, ["c".toList]] := by
  obtain ⟨v, hv⟩ : ∃ v, startView filesOne ["a"] = some v := Option.isSome_iff_exists.1 (by decide +kernel)
  have hv' : v = (startView filesOne ["a"]).get (by decide +kernel) := by simp [hv]
  refine ⟨v, hv, ?_, ?_⟩ <;> rw [hv'] <;> decide +kernel

example : deriveRunLabel ["runs".toList, "run_12".toList, "states".toList, "earth.crab".toList] = "run_12".toList ∧
    deriveRunLabel ["data".toList, "a.b.csv".toList] = "a.b".toList := by decide +kernel

example : extractUnit viewEnv.ws "vel[x] [ m/s ]".toList = some "m/s".toList := by decide +kernel

/-- C104, C105: started without columns. -/
example : ∃ v, startView filesSame [] = some v ∧ columns v ≠ [] ∧
    ((toolbar viewEnv [] (textFs filesSame) (textFs filesSame) v).selX, (toolbar viewEnv [] (textFs filesSame) (textFs filesSame) v).selY)
      = ([("p_x[m]".toList, true)], [("p_x[m]".toList, true)]) := by
  obtain ⟨v, hv⟩ : ∃ v, startView filesSame [] = some v := Option.isSome_iff_exists.1 (by decide +kernel)
  have hv' : v = (startView filesSame []).get (by decide +kernel) := by simp [hv]
  refine ⟨v, hv, ?_, ?_⟩ <;> rw [hv'] <;> decide +kernel

end Verif.Viz
