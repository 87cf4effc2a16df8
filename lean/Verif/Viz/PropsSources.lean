import Verif.Viz.ViewerLemmas
import Mathlib.Data.List.Nodup

/-!
# C105: which files the live viewer shows; C104: the initial selection

Concrete cases are in `Viz/PropsViewer`.
-/

namespace Verif.Viz

section
variable {F : Type} (env : Env F)

/-- The file can be loaded with these columns. -/
def Loads (x : Name) (ys : List Name) (seen : Option Obs) : Prop :=
  (Plotter.initialize env (viewCfg x ys) (Plotter.new (viewCfg x ys)) seen).2 ≠ none

theorem createSource_loads (path : List Name) (x : Name) (ys : List Name) (seen : Option Obs) :
    (Loads env x ys seen → ∃ s, createSource env path x ys seen = some s ∧ s.path = path) ∧
      (¬ Loads env x ys seen → createSource env path x ys seen = none) := by
  unfold Loads createSource
  dsimp only
  generalize Plotter.initialize env (viewCfg x ys) (Plotter.new (viewCfg x ys)) seen = r
  obtain ⟨p, u⟩ := r
  cases u with
  | none => exact ⟨fun h => absurd rfl h, fun _ => rfl⟩
  | some _ => exact ⟨fun _ => ⟨_, rfl, rfl⟩, fun h => absurd (by simp) h⟩

/-- C105. A look at the pattern keeps every source and its place, adds exactly the matching files that are not shown yet and can be
loaded, and adds none twice. -/
theorem C105_refresh (v : Viewer F) (hp : v.pattern = true) (paths : List (List Name)) (fs₁ fs₂ : List Name → Option Obs) :
    let w := refresh env (some paths) fs₁ fs₂ v
    v.sources <+: w.sources ∧
      (∀ p, p ∈ w.sources.map (·.path) ↔
        p ∈ v.sources.map (·.path) ∨ p ∈ paths ∧ Loads env v.xLabel v.yLabels (fs₁ p)) ∧
      ((v.sources.map (·.path)).Nodup → (w.sources.map (·.path)).Nodup) := by
  have key : ∀ (ps : List (List Name)) (v : Viewer F),
      let w := refreshLoop env fs₁ fs₂ v ps
      v.sources <+: w.sources ∧
        (∀ p, p ∈ w.sources.map (·.path) ↔ p ∈ v.sources.map (·.path) ∨ p ∈ ps ∧ Loads env v.xLabel v.yLabels (fs₁ p)) ∧
        ((v.sources.map (·.path)).Nodup → (w.sources.map (·.path)).Nodup) := by
    intro ps
    induction ps with
    | nil => intro v; exact ⟨List.prefix_refl _, by simp [refreshLoop], id⟩
    | cons q ps ih =>
      intro v
      simp only [refreshLoop]
      have hany : (v.sources.any fun s => s.path == q) = true ↔ q ∈ v.sources.map (·.path) := by
        simp [List.any_eq_true]
      by_cases hq : q ∈ v.sources.map (·.path)
      · rw [if_pos (hany.2 hq)]
        obtain ⟨a, b, c⟩ := ih v
        refine ⟨a, fun p => (b p).trans ?_, c⟩
        rw [List.mem_cons]
        constructor
        · rintro (h | ⟨h, h'⟩)
          · exact .inl h
          · exact .inr ⟨.inr h, h'⟩
        · rintro (h | ⟨rfl | h, h'⟩)
          · exact .inl h
          · exact .inl hq
          · exact .inr ⟨h, h'⟩
      · rw [if_neg (fun h => hq (hany.1 h))]
        obtain ⟨l1, l2⟩ := createSource_loads env q v.xLabel v.yLabels (fs₁ q)
        by_cases hl : Loads env v.xLabel v.yLabels (fs₁ q)
        · obtain ⟨s, hs, hsp⟩ := l1 hl
          rw [hs]
          dsimp only
          generalize hs' : (if v.yLabels = [] then s else (s.setYColumns env v.yLabels (fs₂ q)).1) = s'
          have hsp' : s'.path = q := by
            rw [← hs']
            split
            · exact hsp
            · exact hsp
          obtain ⟨a, b, c⟩ := ih { v with sources := v.sources ++ [s'] }
          dsimp only at a b c
          rw [List.map_append, List.map_singleton, hsp'] at b c
          refine ⟨(List.prefix_append _ _).trans a, fun p => (b p).trans ?_, fun hn => c ?_⟩
          · rw [List.mem_append, List.mem_singleton, List.mem_cons]
            constructor
            · rintro ((h | rfl) | ⟨h, h'⟩)
              · exact .inl h
              · exact .inr ⟨.inl rfl, hl⟩
              · exact .inr ⟨.inr h, h'⟩
            · rintro (h | ⟨rfl | h, h'⟩)
              · exact .inl (.inl h)
              · exact .inl (.inr rfl)
              · exact .inr ⟨h, h'⟩
          · exact List.nodup_append.2 ⟨hn, by simp, by
              intro a ha b hb hab
              rw [List.mem_singleton] at hb
              exact hq (hb ▸ hab ▸ ha)⟩
        · rw [l2 hl]
          dsimp only
          obtain ⟨a, b, c⟩ := ih { v with lastError := some (.load q) }
          refine ⟨a, fun p => (b p).trans ?_, c⟩
          rw [List.mem_cons]
          constructor
          · rintro (h | ⟨h, h'⟩)
            · exact .inl h
            · exact .inr ⟨.inr h, h'⟩
          · rintro (h | ⟨rfl | h, h'⟩)
            · exact .inl h
            · exact absurd h' hl
            · exact .inr ⟨h, h'⟩
  intro w
  have : w = refreshLoop env fs₁ fs₂ v paths := by simp only [w, refresh, hp, if_true]
  rw [this]
  exact key paths v

/-- C105. Nothing else adds, removes or reorders sources. -/
theorem C105_kept (v : Viewer F) (boxes : List (Axis × Name)) (fs₁ fs₂ : List Name → Option Obs) :
    ((pollAll env fs₁ v).sources.map fun s => (s.path, s.name)) = v.sources.map (fun s => (s.path, s.name)) ∧
      ((toolbar env boxes fs₁ fs₂ v).sources.map fun s => (s.path, s.name)) = v.sources.map (fun s => (s.path, s.name)) := by
  have happ : ∀ (v : Viewer F) fs, ((applySelection env fs v).sources.map fun s => (s.path, s.name)) =
      v.sources.map (fun s => (s.path, s.name)) := by
    intro v fs
    simp only [applySelection, List.map_map]
    rfl
  have hauto : ((autoSelect env fs₁ v).sources.map fun s => (s.path, s.name)) = v.sources.map (fun s => (s.path, s.name)) := by
    unfold autoSelect
    split
    · rfl
    · dsimp only
      rw [happ]
      split <;> split <;> rfl
  refine ⟨by simp only [pollAll, List.map_map]; rfl, ?_⟩
  unfold toolbar
  split
  · rfl
  · dsimp only
    split
    · exact hauto
    · rw [happ, (toggles_keep boxes _).1, hauto]

/-- C105. The viewer starts exactly if there are files and all of them can be loaded, and then shows them in the order given. -/
theorem C105_start (paths : List (List Name)) (pattern : Bool) (x : Name) (ys : List Name) (fs : List Name → Option Obs) :
    ((start env paths pattern x ys fs).isSome ↔ paths ≠ [] ∧ ∀ p ∈ paths, Loads env x ys (fs p)) ∧
      ∀ v, start env paths pattern x ys fs = some v → v.sources.map (·.path) = paths ∧ v.yLabels = ys ∧ v.xLabel = x := by
  have key : ∀ paths : List (List Name),
      ((startSources env x ys fs paths).isSome ↔ ∀ p ∈ paths, Loads env x ys (fs p)) ∧
        ∀ l, startSources env x ys fs paths = some l → l.map (·.path) = paths := by
    intro paths
    induction paths with
    | nil => exact ⟨by simp [startSources], by intro l h; simp only [startSources, Option.some.injEq] at h; subst h; rfl⟩
    | cons p ps ih =>
      obtain ⟨l1, l2⟩ := createSource_loads env p x ys (fs p)
      simp only [startSources, List.forall_mem_cons]
      by_cases hl : Loads env x ys (fs p)
      · obtain ⟨s, hs, hsp⟩ := l1 hl
        simp only [hs, Option.isSome_map, Option.map_eq_some_iff]
        refine ⟨by rw [ih.1]; simp [hl], ?_⟩
        rintro l ⟨r, hr, rfl⟩
        rw [List.map_cons, hsp, ih.2 r hr]
      · simp only [l2 hl]
        exact ⟨by simp [hl], by simp⟩
  unfold start
  by_cases h0 : paths = []
  · rw [if_pos h0]; exact ⟨by simp [h0], by simp⟩
  · rw [if_neg h0]
    obtain ⟨k1, k2⟩ := key paths
    refine ⟨by rw [Option.isSome_map, k1]; simp [h0], ?_⟩
    intro v hv
    obtain ⟨l, hl, rfl⟩ := Option.map_eq_some_iff.1 hv
    exact ⟨k2 l hl, rfl, rfl⟩

/-- C104. Started without columns, the viewer ticks, the first time columns are offered, the first column named like an x component
in the first list and the first column other than the x axis in the second, and nothing else; afterwards it ticks nothing by itself. -/
theorem C104_auto (paths : List (List Name)) (pattern : Bool) (x : Name) (fs fs₁ fs₂ gs₁ gs₂ : List Name → Option Obs) (v : Viewer F)
    (hv : start env paths pattern x [] fs = some v) (hc : columns v ≠ []) :
    let w := toolbar env [] fs₁ fs₂ v
    (∀ c, mapOn w.selX c = true ↔ (columns v).find? (fun c => classify c = some .X) = some c) ∧
      (∀ c, mapOn w.selY c = true ↔ (columns v).find? (fun c => c ≠ x) = some c) ∧
      toolbar env [] gs₁ gs₂ w = w := by
  have hx : v.selX = [] ∧ v.selY = [] ∧ v.initialized = false ∧ v.xLabel = x := by
    unfold start at hv
    by_cases h0 : paths = []
    · rw [if_pos h0] at hv; cases hv
    · rw [if_neg h0] at hv
      obtain ⟨l, hl, rfl⟩ := Option.map_eq_some_iff.1 hv
      exact ⟨rfl, rfl, rfl, rfl⟩
  obtain ⟨hx, hy, hi, hxl⟩ := hx
  have hone : ∀ c d : Name, mapOn (mapOrInsert c true []) d = true ↔ c = d := by
    intro c d
    by_cases h : c = d
    · simp [mapOrInsert, mapInsert, mapOn, h]
    · simp [mapOrInsert, mapInsert, mapOn, h, beq_eq_false_iff_ne.2 h]
  intro w
  have hw : w = autoSelect env fs₁ v := by simp only [w, toolbar, if_neg hc, if_true]
  have hini : w.initialized = true := by rw [hw, autoSelect, hi]; rfl
  have hsel : w.selX = (match (columns v).find? fun c => classify c = some .X with
        | some c => mapOrInsert c true [] | none => []) ∧
      w.selY = (match (columns v).find? fun c => c ≠ x with | some c => mapOrInsert c true [] | none => []) := by
    rw [hw, autoSelect, hi]
    simp only [Bool.false_eq_true, if_false, applySelection]
    cases h1 : (columns v).find? fun c => classify c = some .X with
    | none =>
      dsimp only
      rw [hxl]
      cases h2 : (columns v).find? fun c => c ≠ x with
      | none => exact ⟨hx, hy⟩
      | some d => exact ⟨hx, by rw [← hy]⟩
    | some c =>
      dsimp only
      have hcol : ∀ m i e l p, columns ({ v with selX := m, initialized := i, lastError := e, xLabel := l, pattern := p }) = columns v :=
        fun _ _ _ _ _ => rfl
      rw [hxl, hcol]
      cases h2 : (columns v).find? fun c => c ≠ x with
      | none => exact ⟨by rw [← hx], hy⟩
      | some d => exact ⟨by rw [← hx], by rw [← hy]⟩
  refine ⟨fun c => ?_, fun c => ?_, ?_⟩
  · rw [hsel.1]
    cases (columns v).find? fun c => classify c = some .X with
    | none => simp [mapOn]
    | some d => rw [Option.some.injEq]; exact hone d c
  · rw [hsel.2]
    cases (columns v).find? fun c => c ≠ x with
    | none => simp [mapOn]
    | some d => rw [Option.some.injEq]; exact hone d c
  · simp only [toolbar, if_true, autoSelect, hini]
    split <;> rfl

end

end Verif.Viz
