import Verif.Viz.Plot
import Verif.Float.Lemmas

/-!
# C136: plots show every finite point inside their axes
-/

namespace Verif.Viz.Plot

open Verif.Float

variable {p : ℕ} {fl : ℝ → ℝ}

/-- `l` is the least and `h` the greatest of the values. -/
def Least (f : ℝ × ℝ → ℝ) (ps : List (ℝ × ℝ)) (l h : ℝ) : Prop := (∃ q ∈ ps, f q = l) ∧ (∃ q ∈ ps, f q = h) ∧ ∀ q ∈ ps, l ≤ f q ∧ f q ≤ h

theorem fold_minmax {β : Type*} (f : β → ℝ) (ps : List β) (l h : ℝ) :
    ∃ l' h', ps.foldl (fun (b : Option ℝ × Option ℝ) q => (minO b.1 (f q), maxO b.2 (f q))) (some l, some h) = (some l', some h') ∧
      l' ≤ l ∧ h ≤ h' ∧ (∀ q ∈ ps, l' ≤ f q ∧ f q ≤ h') ∧ (l' = l ∨ ∃ q ∈ ps, f q = l') ∧ (h' = h ∨ ∃ q ∈ ps, f q = h') := by
  induction ps generalizing l h with
  | nil => exact ⟨l, h, rfl, le_rfl, le_rfl, by simp, Or.inl rfl, Or.inl rfl⟩
  | cons q ps ih =>
    obtain ⟨l', h', e, a1, a2, a3, a4, a5⟩ := ih (if l < f q then l else f q) (if f q < h then h else f q)
    refine ⟨l', h', e, ?_, ?_, ?_, ?_, ?_⟩
    · split_ifs at a1 <;> linarith
    · split_ifs at a2 <;> linarith
    · intro r hr
      rcases List.mem_cons.1 hr with rfl | hr
      · constructor
        · split_ifs at a1 <;> linarith
        · split_ifs at a2 <;> linarith
      · exact a3 r hr
    · rcases a4 with a4 | ⟨r, hr, e⟩
      · by_cases h1 : l < f q
        · rw [if_pos h1] at a4
          exact Or.inl a4
        · rw [if_neg h1] at a4
          exact Or.inr ⟨q, by simp, a4.symm⟩
      · exact Or.inr ⟨r, List.mem_cons_of_mem _ hr, e⟩
    · rcases a5 with a5 | ⟨r, hr, e⟩
      · by_cases h1 : f q < h
        · rw [if_pos h1] at a5
          exact Or.inl a5
        · rw [if_neg h1] at a5
          exact Or.inr ⟨q, by simp, a5.symm⟩
      · exact Or.inr ⟨r, List.mem_cons_of_mem _ hr, e⟩

theorem bounds_spec {ps : List (ℝ × ℝ)} (h : ps ≠ []) :
    ∃ xl xh yl yh, bounds ps = (some xl, some xh, some yl, some yh) ∧ Least Prod.fst ps xl xh ∧ Least Prod.snd ps yl yh := by
  cases ps with
  | nil => exact absurd rfl h
  | cons q ps =>
    obtain ⟨xl, xh, e1, a1, a2, a3, a4, a5⟩ := fold_minmax Prod.fst ps q.1 q.1
    obtain ⟨yl, yh, e2, b1, b2, b3, b4, b5⟩ := fold_minmax Prod.snd ps q.2 q.2
    have key : ∀ (l : List (ℝ × ℝ)) (b : Option ℝ × Option ℝ × Option ℝ × Option ℝ),
        l.foldl (fun b p => (minO b.1 p.1, maxO b.2.1 p.1, minO b.2.2.1 p.2, maxO b.2.2.2 p.2)) b =
          ((l.foldl (fun (c : Option ℝ × Option ℝ) q => (minO c.1 q.1, maxO c.2 q.1)) (b.1, b.2.1)).1,
           (l.foldl (fun (c : Option ℝ × Option ℝ) q => (minO c.1 q.1, maxO c.2 q.1)) (b.1, b.2.1)).2,
           (l.foldl (fun (c : Option ℝ × Option ℝ) q => (minO c.1 q.2, maxO c.2 q.2)) (b.2.2.1, b.2.2.2)).1,
           (l.foldl (fun (c : Option ℝ × Option ℝ) q => (minO c.1 q.2, maxO c.2 q.2)) (b.2.2.1, b.2.2.2)).2) := by
      intro l
      induction l with
      | nil => intro b; rfl
      | cons r l ih => intro b; rw [List.foldl_cons, ih]; rfl
    refine ⟨xl, xh, yl, yh, ?_, ⟨?_, ?_, ?_⟩, ?_, ?_, ?_⟩
    · unfold bounds
      rw [List.foldl_cons, key]
      simp only [minO, maxO] at e1 e2 ⊢
      rw [e1, e2]
    · rcases a4 with rfl | ⟨r, hr, e⟩
      · exact ⟨q, by simp, rfl⟩
      · exact ⟨r, List.mem_cons_of_mem _ hr, e⟩
    · rcases a5 with rfl | ⟨r, hr, e⟩
      · exact ⟨q, by simp, rfl⟩
      · exact ⟨r, List.mem_cons_of_mem _ hr, e⟩
    · intro r hr
      rcases List.mem_cons.1 hr with rfl | hr
      · exact ⟨a1, a2⟩
      · exact a3 r hr
    · rcases b4 with rfl | ⟨r, hr, e⟩
      · exact ⟨q, by simp, rfl⟩
      · exact ⟨r, List.mem_cons_of_mem _ hr, e⟩
    · rcases b5 with rfl | ⟨r, hr, e⟩
      · exact ⟨q, by simp, rfl⟩
      · exact ⟨r, List.mem_cons_of_mem _ hr, e⟩
    · intro r hr
      rcases List.mem_cons.1 hr with rfl | hr
      · exact ⟨b1, b2⟩
      · exact b3 r hr

/-- A finite point of a series. -/
def Point (s : XYSeries) (x y : ℝ) : Prop := ∃ i : ℕ, s.xs[i]? = some (some x) ∧ s.ys[i]? = some (some y)

theorem mem_points (s : XYSeries) (x y : ℝ) : (x, y) ∈ (prepareOne s).points ↔ Point s x y := by
  unfold prepareOne Point
  simp only [List.mem_filterMap, Prod.exists]
  constructor
  · rintro ⟨a, b, hm, he⟩
    obtain ⟨i, hi⟩ := List.mem_iff_getElem?.1 hm
    rw [List.getElem?_zip_eq_some] at hi
    cases a with
    | none => simp at he
    | some a =>
      cases b with
      | none => simp at he
      | some b =>
        simp only [Option.some.injEq, Prod.mk.injEq] at he
        obtain ⟨rfl, rfl⟩ := he
        exact ⟨i, hi⟩
  · rintro ⟨i, hi⟩
    exact ⟨some x, some y, List.mem_iff_getElem?.2 ⟨i, List.getElem?_zip_eq_some.2 hi⟩, rfl⟩

theorem prepare_ok {ss : List XYSeries} (h : ∀ s ∈ ss, s.xs.length = s.ys.length) :
    prepare ss = .ok ((ss.map prepareOne).filter fun q => !q.points.isEmpty) := by
  induction ss with
  | nil => rfl
  | cons s ss ih =>
    rw [prepare, if_neg (not_not.2 (h s (by simp))), ih fun s hs => h s (List.mem_cons_of_mem _ hs)]
    simp only [bind, Except.bind, List.map_cons]
    by_cases he : (prepareOne s).points.isEmpty = true
    · rw [if_pos he, List.filter_cons_of_neg (by simp [he])]
    · rw [if_neg he, List.filter_cons_of_pos (by simp [he])]

theorem prepare_err {ss : List XYSeries} (h : ∃ s ∈ ss, s.xs.length ≠ s.ys.length) : prepare ss = .error .panic := by
  induction ss with
  | nil => simp at h
  | cons s ss ih =>
    rw [prepare]
    by_cases hs : s.xs.length ≠ s.ys.length
    · rw [if_pos hs]
    · rw [if_neg hs]
      obtain ⟨t, ht, hn⟩ := h
      rcases List.mem_cons.1 ht with rfl | ht
      · exact absurd hn hs
      · rw [ih ⟨t, ht, hn⟩]
        rfl

theorem mem_prepared (ss : List XYSeries) (x y : ℝ) :
    (x, y) ∈ ((ss.map prepareOne).filter fun q => !q.points.isEmpty).flatMap (·.points) ↔ ∃ s ∈ ss, Point s x y := by
  simp only [List.mem_flatMap, List.mem_filter, List.mem_map]
  constructor
  · rintro ⟨q, ⟨⟨s, hs, rfl⟩, -⟩, hm⟩
    exact ⟨s, hs, (mem_points s x y).1 hm⟩
  · rintro ⟨s, hs, hp⟩
    have := (mem_points s x y).2 hp
    refine ⟨_, ⟨⟨s, hs, rfl⟩, ?_⟩, this⟩
    cases hq : (prepareOne s).points with
    | nil => rw [hq] at this; simp at this
    | cons => simp

theorem range_contains (h : Nearest p fl) {lo hi v : ℝ} (h1 : IsFloat p lo) (h2 : IsFloat p hi) (hv : lo ≤ v ∧ v ≤ hi) :
    (range fl lo hi).1 ≤ v ∧ v ≤ (range fl lo hi).2 := by
  have f0 : fl 0 = 0 := h.fix isFloat_zero
  have hpad : ∀ d : ℝ, 0 ≤ fl (|fl d| * fl (3 / 100)) := by
    intro d
    rw [← f0]
    refine h.mono (mul_nonneg (abs_nonneg _) ?_)
    rw [← f0]
    exact h.mono (by norm_num)
  unfold range
  dsimp only
  constructor
  · refine le_trans ?_ hv.1
    conv_rhs => rw [← h.fix h1]
    refine h.mono ?_
    have := hpad ((if lo = hi then fl (lo + 1) else hi) - lo)
    linarith
  · refine hv.2.trans ?_
    by_cases he : lo = hi
    · rw [if_pos he]
      have h3 : hi ≤ fl (lo + 1) := by
        conv_lhs => rw [← h.fix h2]
        exact h.mono (by linarith)
      have h4 : fl (lo + 1) ≤ fl (fl (lo + 1) + fl (|fl (fl (lo + 1) - lo)| * fl (3 / 100))) := by
        conv_lhs => rw [← h.fix (h.float (lo + 1))]
        refine h.mono ?_
        have := hpad (fl (lo + 1) - lo)
        linarith
      exact h3.trans h4
    · rw [if_neg he]
      conv_lhs => rw [← h.fix h2]
      refine h.mono ?_
      have := hpad (hi - lo)
      linarith

theorem range_pos (h : Nearest p fl) (hp : 1 ≤ p) {lo hi : ℝ} (h1 : IsFloat p lo) (h2 : IsFloat p hi) (hle : lo ≤ hi)
    (hs : lo = hi → |lo + 1| < 2 ^ p) : (range fl lo hi).1 < (range fl lo hi).2 := by
  by_cases he : lo = hi
  · subst he
    have hacc := h.accurate hp (lo + 1)
    have h3 : lo < fl (lo + 1) := by
      have e : (2 : ℝ) ^ (-p : ℤ) * |lo + 1| < 1 := by
        rw [zpow_neg, zpow_natCast, inv_mul_lt_iff₀ (by positivity), mul_one]
        exact hs rfl
      have := (abs_le.1 hacc).1
      linarith
    have e : range fl lo lo = range fl lo (fl (lo + 1)) := by
      unfold range
      dsimp only
      rw [if_pos rfl, if_neg (ne_of_lt h3)]
    rw [e]
    have a := range_contains h h1 (h.float (lo + 1)) ⟨le_rfl, h3.le⟩
    have b := range_contains h h1 (h.float (lo + 1)) ⟨h3.le, le_rfl⟩
    linarith [a.1, b.2]
  · have hlt := lt_of_le_of_ne hle he
    have a := range_contains h h1 h2 ⟨le_rfl, hle⟩
    have b := range_contains h h1 h2 ⟨hle, le_rfl⟩
    linarith [a.1, b.2]

/-- **C136**: `plot_series` gives a picture exactly if there is a series, all of them have as many x as y values, and some point is finite. It
panics if there is no series or a length differs, and returns an error if no point is finite. -/
theorem C136_outcome (series : List XYSeries) :
    ((∃ c, plotSeries fl series = .ok c) ↔ (∀ s ∈ series, s.xs.length = s.ys.length) ∧ ∃ s ∈ series, ∃ x y, Point s x y) ∧
    (plotSeries fl series = .error .panic ↔ series = [] ∨ ∃ s ∈ series, s.xs.length ≠ s.ys.length) := by
  unfold plotSeries
  by_cases h0 : series.isEmpty = true
  · rw [if_pos h0]
    rw [List.isEmpty_iff] at h0
    subst h0
    simp
  · rw [if_neg h0]
    rw [List.isEmpty_iff] at h0
    by_cases hl : ∀ s ∈ series, s.xs.length = s.ys.length
    · rw [prepare_ok hl]
      simp only [bind, Except.bind]
      have hne : ¬ (series = [] ∨ ∃ s ∈ series, s.xs.length ≠ s.ys.length) := by
        rintro (h | ⟨s, hs, h⟩)
        · exact h0 h
        · exact h (hl s hs)
      by_cases he : ((series.map prepareOne).filter fun q => !q.points.isEmpty).isEmpty = true
      · rw [if_pos he]
        have : ¬ ∃ s ∈ series, ∃ x y, Point s x y := by
          rintro ⟨s, hs, x, y, hp⟩
          have := (mem_prepared series x y).2 ⟨s, hs, hp⟩
          rw [List.isEmpty_iff] at he
          rw [he] at this
          simp at this
        simp [hne, this]
      · rw [if_neg he]
        rw [List.isEmpty_iff] at he
        obtain ⟨q, hq⟩ := List.exists_mem_of_ne_nil _ he
        have hqp := (List.mem_filter.1 hq).2
        have hne2 : ((series.map prepareOne).filter fun q => !q.points.isEmpty).flatMap (·.points) ≠ [] := by
          intro h
          rw [List.flatMap_eq_nil_iff] at h
          rw [h q hq] at hqp
          simp at hqp
        obtain ⟨xl, xh, yl, yh, e, -, -⟩ := bounds_spec hne2
        rw [e]
        obtain ⟨⟨x, y⟩, hm⟩ := List.exists_mem_of_ne_nil _ hne2
        obtain ⟨s, hs, hp⟩ := (mem_prepared series x y).1 hm
        simp only [hne, reduceCtorEq, and_true]
        exact ⟨fun _ => ⟨hl, s, hs, x, y, hp⟩, fun _ => ⟨_, rfl⟩⟩
    · have hx : ∃ s ∈ series, s.xs.length ≠ s.ys.length := by
        push Not at hl
        exact hl
      rw [prepare_err hx]
      simp only [bind, Except.bind, reduceCtorEq, exists_false, false_iff, not_and, true_iff]
      exact ⟨fun h => absurd h hl, Or.inr hx⟩

theorem plot_data {series : List XYSeries} {c : Chart} (h : plotSeries fl series = .ok c) :
    c.drawn = (series.map prepareOne).filter (fun q => !q.points.isEmpty) ∧
      ∃ xl xh yl yh, c.xRange = range fl xl xh ∧ c.yRange = range fl yl yh ∧
        Least Prod.fst (c.drawn.flatMap (·.points)) xl xh ∧ Least Prod.snd (c.drawn.flatMap (·.points)) yl yh := by
  obtain ⟨hl, s, hs, x, y, hp⟩ := (C136_outcome (fl := fl) series).1.1 ⟨c, h⟩
  unfold plotSeries at h
  have h0 : ¬ series.isEmpty = true := by
    rw [List.isEmpty_iff]
    rintro rfl
    simp at hs
  rw [if_neg h0, prepare_ok hl] at h
  simp only [bind, Except.bind] at h
  have hm := (mem_prepared series x y).2 ⟨s, hs, hp⟩
  obtain ⟨xl, xh, yl, yh, e, h1, h2⟩ := bounds_spec (List.ne_nil_of_mem hm)
  rw [e] at h
  by_cases he : ((series.map prepareOne).filter fun q => !q.points.isEmpty).isEmpty = true
  · rw [if_pos he] at h
    simp at h
  · rw [if_neg he] at h
    cases h
    exact ⟨rfl, xl, xh, yl, yh, rfl, rfl, h1, h2⟩

/-- **C136**: the drawn curves are the series with a finite point, in their order and with their own label and style, and each shows exactly the
finite points of its series, in their order. -/
theorem C136_drawn {series : List XYSeries} {c : Chart} (h : plotSeries fl series = .ok c) :
    List.Forall₂ (fun (s : XYSeries) (q : Prepared) => q.label = s.label ∧ q.style = s.style ∧
      (∀ x y, (x, y) ∈ q.points ↔ Point s x y) ∧ (q.points.map fun z => (some z.1, some z.2)).Sublist (s.xs.zip s.ys))
      (series.filter fun s => (s.xs.zip s.ys).any fun z => z.1.isSome && z.2.isSome) c.drawn := by
  rw [(plot_data h).1]
  clear h
  induction series with
  | nil => exact List.Forall₂.nil
  | cons s ss ih =>
    have hsub : ∀ l : List (Option ℝ × Option ℝ), ((l.filterMap fun
        | (some x, some y) => some (x, y)
        | _ => none).map fun z : ℝ × ℝ => (some z.1, some z.2)).Sublist l := by
      intro l
      induction l with
      | nil => exact List.Sublist.slnil
      | cons z l ih =>
        rcases z with ⟨_ | x, _ | y⟩
        · exact List.Sublist.cons _ ih
        · exact List.Sublist.cons _ ih
        · exact List.Sublist.cons _ ih
        · exact List.Sublist.cons_cons _ ih
    have hany : ((s.xs.zip s.ys).any fun z => z.1.isSome && z.2.isSome) = !(prepareOne s).points.isEmpty := by
      unfold prepareOne
      generalize s.xs.zip s.ys = l
      induction l with
      | nil => rfl
      | cons z l ih =>
        rcases z with ⟨_ | x, _ | y⟩
        · simpa using ih
        · simpa using ih
        · simpa using ih
        · simp
    rw [List.map_cons, List.filter_cons, List.filter_cons, hany]
    by_cases he : (!(prepareOne s).points.isEmpty) = true
    · rw [if_pos he, if_pos he]
      exact List.Forall₂.cons ⟨rfl, rfl, mem_points s, hsub _⟩ ih
    · rw [if_neg he, if_neg he]
      exact ih

/-- All values of the series are floating-point numbers. -/
def Floats (p : ℕ) (series : List XYSeries) : Prop := ∀ s ∈ series, ∀ x y, Point s x y → IsFloat p x ∧ IsFloat p y

theorem least_float {series : List XYSeries} (hf : Floats p series) {l h : ℝ} {c : Chart} (hc : plotSeries fl series = .ok c) :
    (Least Prod.fst (c.drawn.flatMap (·.points)) l h → IsFloat p l ∧ IsFloat p h ∧ l ≤ h) ∧
      (Least Prod.snd (c.drawn.flatMap (·.points)) l h → IsFloat p l ∧ IsFloat p h ∧ l ≤ h) := by
  rw [(plot_data hc).1]
  constructor
  · rintro ⟨⟨⟨x, y⟩, hq, rfl⟩, ⟨⟨x', y'⟩, hr, rfl⟩, h⟩
    obtain ⟨s, hs, hp⟩ := (mem_prepared series x y).1 hq
    obtain ⟨t, ht, hp'⟩ := (mem_prepared series x' y').1 hr
    exact ⟨(hf s hs _ _ hp).1, (hf t ht _ _ hp').1, (h _ hq).2⟩
  · rintro ⟨⟨⟨x, y⟩, hq, rfl⟩, ⟨⟨x', y'⟩, hr, rfl⟩, h⟩
    obtain ⟨s, hs, hp⟩ := (mem_prepared series x y).1 hq
    obtain ⟨t, ht, hp'⟩ := (mem_prepared series x' y').1 hr
    exact ⟨(hf s hs _ _ hp).2, (hf t ht _ _ hp').2, (h _ hq).2⟩

/-- **C136**: every finite point of every series lies inside the axes, in floating point as well. -/
theorem C136_inside (h : Nearest p fl) {series : List XYSeries} (hf : Floats p series) {c : Chart} (hc : plotSeries fl series = .ok c)
    {s : XYSeries} (hs : s ∈ series) {x y : ℝ} (hp : Point s x y) :
    (c.xRange.1 ≤ x ∧ x ≤ c.xRange.2) ∧ (c.yRange.1 ≤ y ∧ y ≤ c.yRange.2) := by
  obtain ⟨hd, xl, xh, yl, yh, e1, e2, h1, h2⟩ := plot_data hc
  have hm : (x, y) ∈ c.drawn.flatMap (·.points) := by
    rw [hd]
    exact (mem_prepared series x y).2 ⟨s, hs, hp⟩
  obtain ⟨a1, a2, -⟩ := (least_float hf hc).1 h1
  obtain ⟨b1, b2, -⟩ := (least_float hf hc).2 h2
  rw [e1, e2]
  exact ⟨range_contains h a1 a2 (h1.2.2 _ hm), range_contains h b1 b2 (h2.2.2 _ hm)⟩

/-- **C136** (part): the axes have a positive length, if not all x values (all y values) are equal to one number that is `2 ^ p - 1` or more in
size. Missing: such numbers, see `C136_axis_fails`. -/
theorem C136_axes_partial (h : Nearest p fl) (hp : 1 ≤ p) {series : List XYSeries} (hf : Floats p series) {c : Chart}
    (hc : plotSeries fl series = .ok c)
    (hx : ∀ v, (∀ s ∈ series, ∀ x y, Point s x y → x = v) → |v + 1| < 2 ^ p)
    (hy : ∀ v, (∀ s ∈ series, ∀ x y, Point s x y → y = v) → |v + 1| < 2 ^ p) :
    c.xRange.1 < c.xRange.2 ∧ c.yRange.1 < c.yRange.2 := by
  obtain ⟨hd, xl, xh, yl, yh, e1, e2, h1, h2⟩ := plot_data hc
  obtain ⟨a1, a2, a3⟩ := (least_float hf hc).1 h1
  obtain ⟨b1, b2, b3⟩ := (least_float hf hc).2 h2
  have hm : ∀ s ∈ series, ∀ x y, Point s x y → (x, y) ∈ c.drawn.flatMap (·.points) := by
    intro s hs x y hp
    rw [hd]
    exact (mem_prepared series x y).2 ⟨s, hs, hp⟩
  rw [e1, e2]
  refine ⟨range_pos h hp a1 a2 a3 fun he => hx xl fun s hs x y hp => ?_, range_pos h hp b1 b2 b3 fun he => hy yl fun s hs x y hp => ?_⟩
  · have := h1.2.2 _ (hm s hs x y hp)
    exact le_antisymm (he ▸ this.2) this.1
  · have := h2.2.2 _ (hm s hs x y hp)
    exact le_antisymm (he ▸ this.2) this.1

/-- C136 in full is not met: for a single point at `2 ^ 60` the x axis has length zero in `f64`, because adding one changes nothing. -/
theorem C136_axis_fails (h : Nearest 53 fl) :
    ∃ c, plotSeries fl [⟨[some (2 ^ 60)], [some 0], none, .line⟩] = .ok c ∧ c.xRange.1 = 2 ^ 60 ∧ c.xRange.2 = 2 ^ 60 := by
  have f0 : fl 0 = 0 := h.fix isFloat_zero
  have f60 : fl (2 ^ 60) = 2 ^ 60 := by
    have := h.fix (isFloat_zpow (p := 53) (by norm_num) 60)
    exact_mod_cast this
  have f1 : fl (2 ^ 60 + 1) = 2 ^ 60 := by
    have := h.eq_grid (by norm_num) (x := 2 ^ 60 + 1) (k := 60) (m := 2 ^ 52) (by norm_num) (by norm_num) (by norm_num)
    rw [this]
    norm_num
  refine ⟨⟨range fl (2 ^ 60) (2 ^ 60), range fl 0 0, _⟩, rfl, ?_, ?_⟩
  · simp [range, f1, f0, f60]
  · simp [range, f1, f0, f60]

/-! ## The error plot -/

theorem fold_error (g : ℕ → ℝ × ℝ) (l : List ℕ) (r : (Option ℝ × Option ℝ) × List (ℝ × ℝ)) :
    l.foldl (fun (r : (Option ℝ × Option ℝ) × List (ℝ × ℝ)) i => ((minO r.1.1 (g i).2, maxO r.1.2 (g i).2), r.2 ++ [g i])) r =
      (l.foldl (fun (b : Option ℝ × Option ℝ) i => (minO b.1 (g i).2, maxO b.2 (g i).2)) r.1, r.2 ++ l.map g) := by
  induction l generalizing r with
  | nil => simp
  | cons i l ih => rw [List.foldl_cons, ih]; simp

/-- **C136**: the error plot has one point more than samples, at places that begin at `a` and go up, each with the difference of the two functions
there, and the error axis holds all of them. -/
theorem C136_error (h : Nearest p fl) (fApprox fTrue : ℝ → ℝ) {a b : ℝ} (ha : IsFloat p a) (hab : a ≤ b) {samples : ℕ} (_ : 0 < samples) :
    let r := plotError fl fApprox fTrue a b samples
    r.2.length = samples + 1 ∧ (r.2.map Prod.fst).head? = some a ∧ (r.2.map Prod.fst).Pairwise (· ≤ ·) ∧
      ∀ q ∈ r.2, q.2 = fl (fApprox q.1 - fTrue q.1) ∧ r.1.1 ≤ q.2 ∧ q.2 ≤ r.1.2 := by
  intro r
  set g := gridPoint fl fApprox fTrue a b samples with hg
  have f0 : fl 0 = 0 := h.fix isFloat_zero
  obtain ⟨lo, hi, e, a1, a2, a3, -, -⟩ := fold_minmax (fun i => (g i).2) ((List.range samples).map (· + 1)) (g 0).2 (g 0).2
  have hr : r = ((lo, if lo = hi then fl (lo + 1) else hi), (List.range (samples + 1)).map g) := by
    show plotError fl fApprox fTrue a b samples = _
    unfold plotError
    rw [fold_error g]
    rw [List.range_succ_eq_map, List.foldl_cons]
    simp only [minO, maxO] at e ⊢
    have e' : List.map Nat.succ (List.range samples) = (List.range samples).map (· + 1) := rfl
    rw [e']
    simp only [e]
    simp
  have hlo : ∀ i ≤ samples, lo ≤ (g i).2 ∧ (g i).2 ≤ hi := by
    intro i hi
    cases i with
    | zero => exact ⟨a1, a2⟩
    | succ i => exact a3 (i + 1) (List.mem_map.2 ⟨i, List.mem_range.2 (by omega), rfl⟩)
  rw [hr]
  refine ⟨by simp, ?_, ?_, ?_⟩
  · rw [List.range_succ_eq_map]
    simp [hg, gridPoint, f0, h.fix ha]
  · rw [List.map_map]
    refine List.Pairwise.map (R := fun i j => i < j) _ (fun i j hij => ?_) List.pairwise_lt_range
    simp only [Function.comp, hg, gridPoint]
    refine h.mono (add_le_add le_rfl (h.mono (mul_le_mul_of_nonneg_left (h.mono ?_) ?_)))
    · gcongr
    · rw [← f0]
      exact h.mono (by linarith)
  · intro q hq
    simp only [List.mem_map, List.mem_range] at hq
    obtain ⟨i, hi', rfl⟩ := hq
    obtain ⟨b1, b2⟩ := hlo i (by omega)
    refine ⟨rfl, b1, b2.trans ?_⟩
    by_cases he : lo = hi
    · simp only [if_pos he]
      have hfl : IsFloat p hi := by
        have : (g 0).2 = hi := le_antisymm (hlo 0 (by omega)).2 (he ▸ (hlo 0 (by omega)).1)
        rw [← this]
        exact h.float _
      conv_lhs => rw [← h.fix hfl]
      exact h.mono (by linarith)
    · simp only [if_neg he]
      exact le_rfl

/-- **C136** (part): without rounding, the places lie between `a` and `b` and the last is `b`. Missing: floating point, see `C136_error_fails`. -/
theorem C136_error_partial (fApprox fTrue : ℝ → ℝ) {a b : ℝ} (hab : a ≤ b) {samples : ℕ} (hs : 0 < samples) :
    let r := plotError id fApprox fTrue a b samples
    (∀ q ∈ r.2, a ≤ q.1 ∧ q.1 ≤ b) ∧ (r.2.map Prod.fst).getLast? = some b := by
  intro r
  have hr : r.2 = (List.range (samples + 1)).map (gridPoint id fApprox fTrue a b samples) := by
    show (plotError id fApprox fTrue a b samples).2 = _
    unfold plotError
    rw [fold_error]
    simp
  have hs' : (0 : ℝ) < samples := by exact_mod_cast hs
  rw [hr]
  constructor
  · intro q hq
    simp only [List.mem_map, List.mem_range] at hq
    obtain ⟨i, hi, rfl⟩ := hq
    have h1 : (i : ℝ) / samples ≤ 1 := by
      rw [div_le_one hs']
      exact_mod_cast Nat.lt_succ_iff.1 hi
    have h0 : 0 ≤ (i : ℝ) / samples := by positivity
    simp only [gridPoint, id]
    constructor <;> nlinarith
  · rw [List.range_succ, List.map_append, List.map_append]
    simp [gridPoint, hs'.ne']

/-- C136 in full is not met: on the interval from `-3` to `-49 / 2 ^ 53` the last place of the error plot lies beyond the end of the x axis,
in `f64` with any rounding to nearest. -/
theorem C136_error_fails (h : Nearest 53 fl) (fApprox fTrue : ℝ → ℝ) :
    IsFloat 53 (-3) ∧ IsFloat 53 (-49 / 2 ^ 53) ∧
      ∃ q ∈ (plotError fl fApprox fTrue (-3) (-49 / 2 ^ 53) 1).2, -49 / 2 ^ 53 < q.1 := by
  refine ⟨⟨-3, 0, by norm_num, by norm_num⟩, ⟨-49, -53, by norm_num, by norm_num⟩, gridPoint fl fApprox fTrue (-3) (-49 / 2 ^ 53) 1 1, ?_, ?_⟩
  · unfold plotError
    rw [fold_error]
    simp [List.range_succ]
  · have h1 : fl 1 = 1 := h.fix (isFloat_one (by norm_num))
    have h2 : fl (-49 / 2 ^ 53 - -3) = 3 - 12 / 2 ^ 51 := by
      have := h.eq_grid (by norm_num) (x := -49 / 2 ^ 53 - -3) (k := 1) (m := 3 * 2 ^ 51 - 12) (by norm_num) (by norm_num) (by norm_num [abs_lt])
      rw [this]
      norm_num
    have h3 : fl (3 - 12 / 2 ^ 51) = 3 - 12 / 2 ^ 51 := h.fix ⟨3 * 2 ^ 51 - 12, -51, by norm_num, by norm_num⟩
    have h4 : fl (-12 / 2 ^ 51) = -12 / 2 ^ 51 := h.fix ⟨-12, -51, by norm_num, by norm_num⟩
    have e : (-3 : ℝ) + (3 - 12 / 2 ^ 51) = -12 / 2 ^ 51 := by norm_num
    simp only [gridPoint, Nat.cast_one, div_one, h1, mul_one, h2, h3, e, h4]
    norm_num

/-- A chart of two series, one with a missing value, and one that has no finite point. -/
example : ∃ c, plotSeries (rnd 53) [⟨[some 1, none, some 3], [some 5, some 1, some 2], none, .line⟩, ⟨[none], [some 1], none, .points⟩] = .ok c ∧
    c.drawn.map (·.points) = [[(1, 5), (3, 2)]] := by
  refine ⟨_, rfl, rfl⟩

end Verif.Viz.Plot
