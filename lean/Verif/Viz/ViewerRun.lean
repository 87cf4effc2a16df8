import Verif.Viz.Props
import Verif.Viz.ViewerLemmas

/-!
# Histories of the live viewer (specification) and their invariant

`Run` describes the histories of the viewer in which every file has the columns selected.
-/

namespace Verif.Viz

/-! ## Specification -/

section
variable {F : Type} (env : Env F)

/-- What a load of `path` sees is readable and has the columns (a missing file is allowed). -/
def Loadable (x : Name) (ys : List Name) (fs : List Name → Option Obs) (path : List Name) : Prop :=
  ∀ o, fs path = some o → (utf8Decode o.content).isSome ∧ GoodObs env (viewCfg x ys) o

/-- What a poll of a source sees is a file with the columns that has grown since the last look, or has been replaced, or cut below
the position already read. -/
def Pollable (fs : List Name → Option Obs) (last : Option Obs) (s : Source F) : Prop :=
  ∀ o, fs s.path = some o → o.len ≤ o.content.length ∧ GoodObs env s.cfg o ∧
    ∀ l, last = some l →
      (o.id = l.id ∧ l.content <+: o.content ∧ l.content.length ≤ o.len) ∨ o.id ≠ l.id ∨ o.len < s.plotter.pos

/-- Histories of the viewer. `Run v last`: the viewer is in state `v`, and `last path` is what it saw when it last looked at `path`.
A firing of the timer (`tick`) is `poll`, or `refresh` and then `poll`. -/
inductive Run : Viewer F → (List Name → Option Obs) → Prop
  | start {v} (paths : List (List Name)) (pattern : Bool) (x : Name) (ys : List Name) (fs : List Name → Option Obs) :
      start env paths pattern x ys fs = some v → (∀ path, Loadable env x ys fs path) → Run v fs
  | refresh {v last} (paths : Option (List (List Name))) (fs₁ fs₂ : List Name → Option Obs) : Run v last →
      (∀ path, Loadable env v.xLabel v.yLabels fs₁ path) → (∀ path, Loadable env v.xLabel v.yLabels fs₂ path) →
      Run (refresh env paths fs₁ fs₂ v) fun path =>
        if (v.sources.any fun s => s.path == path) then last path else if v.yLabels = [] then fs₁ path else fs₂ path
  | poll {v last} (fs : List Name → Option Obs) : Run v last → (∀ s ∈ v.sources, Pollable env fs (last s.path) s) →
      Run (pollAll env fs v) fun path => (fs path).or (last path)
  | auto {v last} (fs : List Name → Option Obs) : Run v last → v.initialized = false →
      (∀ path, Loadable env v.xLabel (newCols (autoSelect env fs v).selX (autoSelect env fs v).selY) fs path) →
      Run (autoSelect env fs v) fs
  | click {v last} (boxes : List (Axis × Name)) (fs : List Name → Option Obs) : Run v last →
      (∀ path, Loadable env v.xLabel (newCols (boxes.foldl toggle v).selX (boxes.foldl toggle v).selY) fs path) →
      Run (applySelection env fs (boxes.foldl toggle v)) fs

/-- Whatever the plotter has done before, `set_y_columns` is a fresh load. -/
theorem setYColumns_fresh (s : Source F) (ys : List Name) (seen : Option Obs) :
    let r := s.setYColumns env ys seen
    let fresh := Plotter.initialize env { s.cfg with yColumns := ys } (Plotter.new { s.cfg with yColumns := ys }) seen
    r.1.plotter = fresh.1 ∧ r.2 = fresh.2.isSome ∧ r.1.cfg = { s.cfg with yColumns := ys } ∧ r.1.path = s.path ∧ r.1.name = s.name := by
  have e : ({ s.plotter with st := { s.plotter.st with ys := List.replicate ys.length [] } } : Plotter F).reset =
      Plotter.new { s.cfg with yColumns := ys } := by
    simp [Plotter.reset, Plotter.new, St.new]
  simp only [Source.setYColumns, e, and_self]

/-! ## The invariant of the viewer -/

/-- Every source has the columns that the labels name, and its plotter has a history. -/
def VInv (v : Viewer F) (last : List Name → Option Obs) : Prop :=
  ∀ s ∈ v.sources, s.cfg = viewCfg v.xLabel v.yLabels ∧ s.name = deriveRunLabel s.path ∧ History env s.cfg s.plotter (last s.path)

theorem createSource_ok {path : List Name} {x : Name} {ys : List Name} {fs : List Name → Option Obs} {s : Source F}
    (h : createSource env path x ys (fs path) = some s) (hl : Loadable env x ys fs path) :
    s.path = path ∧ s.cfg = viewCfg x ys ∧ s.name = deriveRunLabel s.path ∧ History env s.cfg s.plotter (fs path) := by
  unfold createSource at h
  dsimp only at h
  cases hf : fs path with
  | none =>
    rw [hf] at h
    simp only [Plotter.initialize, Option.some.injEq] at h
    subst h
    exact ⟨rfl, rfl, rfl, .new⟩
  | some o =>
    rw [hf] at h
    have H := History.init (env := env) (cfg := viewCfg x ys) o (hl o hf).2
    generalize Plotter.initialize env (viewCfg x ys) (Plotter.new (viewCfg x ys)) (some o) = r at h H
    obtain ⟨p, u⟩ := r
    cases u with
    | none => simp at h
    | some _ =>
      simp only [Option.some.injEq] at h
      subst h
      exact ⟨rfl, rfl, rfl, H⟩

theorem setYColumns_ok (s : Source F) {x : Name} {ys ys' : List Name} {fs : List Name → Option Obs}
    (hc : s.cfg = viewCfg x ys) (hl : Loadable env x ys' fs s.path) :
    (s.setYColumns env ys' (fs s.path)).2 = true ∧ (s.setYColumns env ys' (fs s.path)).1.cfg = viewCfg x ys' ∧
      History env (viewCfg x ys') (s.setYColumns env ys' (fs s.path)).1.plotter (fs s.path) := by
  have hc' : ({ s.cfg with yColumns := ys' } : Config) = viewCfg x ys' := by rw [hc]; rfl
  obtain ⟨e1, e2, e3, _⟩ := setYColumns_fresh env s ys' (fs s.path)
  rw [hc'] at e1 e2 e3
  refine ⟨?_, e3, ?_⟩
  · rw [e2]
    cases hf : fs s.path with
    | none => rfl
    | some o =>
      obtain ⟨h1, h2⟩ := hl o hf
      obtain ⟨t, ht⟩ := Option.isSome_iff_exists.1 h1
      obtain ⟨_, _, h3, _⟩ := C68_initialize env _ o h2 t ht
      rw [h3]; rfl
  · rw [e1]
    cases hf : fs s.path with
    | none => exact .new
    | some o => exact .init o (hl o hf).2

theorem setYColumns_keeps (s : Source F) (ys : List Name) (o : Option Obs) :
    (s.setYColumns env ys o).1.path = s.path ∧ (s.setYColumns env ys o).1.name = s.name := ⟨rfl, rfl⟩

theorem startSources_ok {x : Name} {ys : List Name} {fs : List Name → Option Obs} (hl : ∀ path, Loadable env x ys fs path)
    {paths : List (List Name)} {sources : List (Source F)} (h : startSources env x ys fs paths = some sources) :
    ∀ s ∈ sources, s.cfg = viewCfg x ys ∧ s.name = deriveRunLabel s.path ∧ History env s.cfg s.plotter (fs s.path) := by
  induction paths generalizing sources with
  | nil => simp only [startSources, Option.some.injEq] at h; subst h; simp
  | cons path rest ih =>
    simp only [startSources] at h
    cases hc : createSource env path x ys (fs path) with
    | none => rw [hc] at h; simp at h
    | some s =>
      rw [hc] at h
      simp only [Option.map_eq_some_iff] at h
      obtain ⟨r, hr, rfl⟩ := h
      intro t ht
      rcases List.mem_cons.1 ht with rfl | ht
      · obtain ⟨h1, h2, h3, h4⟩ := createSource_ok env hc (hl path)
        exact ⟨h2, h3, by rw [h1]; exact h4⟩
      · exact ih hr t ht

theorem refreshLoop_ok {fs₁ fs₂ : List Name → Option Obs} (paths : List (List Name)) (v₀ v : Viewer F)
    (last : List Name → Option Obs) (hx : v.xLabel = v₀.xLabel) (hy : v.yLabels = v₀.yLabels)
    (hsub : ∀ s ∈ v₀.sources, ∃ t ∈ v.sources, t.path = s.path)
    (h₁ : ∀ path, Loadable env v₀.xLabel v₀.yLabels fs₁ path) (h₂ : ∀ path, Loadable env v₀.xLabel v₀.yLabels fs₂ path)
    (H : VInv env v fun path =>
      if (v₀.sources.any fun s => s.path == path) then last path else if v₀.yLabels = [] then fs₁ path else fs₂ path) :
    VInv env (refreshLoop env fs₁ fs₂ v paths) (fun path =>
      if (v₀.sources.any fun s => s.path == path) then last path else if v₀.yLabels = [] then fs₁ path else fs₂ path) := by
  induction paths generalizing v with
  | nil => exact H
  | cons path rest ih =>
    simp only [refreshLoop]
    by_cases hp : (v.sources.any fun s => s.path == path) = true
    · rw [if_pos hp]
      exact ih v hx hy hsub H
    · rw [if_neg hp]
      have hp0 : ¬ (v₀.sources.any fun s => s.path == path) = true := by
        intro h
        obtain ⟨s, hs, he⟩ := List.any_eq_true.1 h
        obtain ⟨t, ht, hte⟩ := hsub s hs
        exact hp (List.any_eq_true.2 ⟨t, ht, by rw [hte]; exact he⟩)
      cases hc : createSource env path v.xLabel v.yLabels (fs₁ path) with
      | none => exact ih _ hx hy hsub H
      | some source =>
        dsimp only
        rw [hx, hy] at hc
        obtain ⟨c1, c2, c3, c4⟩ := createSource_ok env hc (h₁ path)
        refine ih _ hx hy (fun s hs => ?_) ?_
        · obtain ⟨t, ht, hte⟩ := hsub s hs
          exact ⟨t, List.mem_append_left _ ht, hte⟩
        · intro s hs
          rcases List.mem_append.1 hs with hs | hs
          · exact H s hs
          · rw [List.mem_singleton] at hs
            dsimp only
            rw [hx, hy]
            by_cases hy0 : v.yLabels = []
            · rw [if_pos hy0] at hs
              subst hs
              rw [c1, if_neg hp0, if_pos (hy ▸ hy0)]
              exact ⟨c2, by rw [← c1]; exact c3, c4⟩
            · rw [if_neg hy0] at hs
              subst hs
              obtain ⟨_, d2, d3⟩ := setYColumns_ok env source (fs := fs₂) (ys' := v₀.yLabels) c2 (by rw [c1]; exact h₂ path)
              rw [c1] at d2 d3
              rw [← hy] at d2 d3
              rw [← hy]
              rw [(setYColumns_keeps env source v.yLabels (fs₂ path)).1, (setYColumns_keeps env source v.yLabels (fs₂ path)).2,
                c1, if_neg hp0, if_neg hy0, d2]
              exact ⟨rfl, by rw [← c1]; exact c3, d3⟩

theorem applySelection_ok (v : Viewer F) {last fs : List Name → Option Obs} (H : VInv env v last)
    (hl : ∀ path, Loadable env v.xLabel (newCols v.selX v.selY) fs path) : VInv env (applySelection env fs v) fs := by
  have hok : ∀ s ∈ v.sources, (s.setYColumns env (newCols v.selX v.selY) (fs s.path)).2 = true :=
    fun s hs => (setYColumns_ok env s (H s hs).1 (hl _)).1
  have herr : ∀ l : List (Source F), (∀ s ∈ l, (s.setYColumns env (newCols v.selX v.selY) (fs s.path)).2 = true) →
      l.foldl (fun e s => if (s.setYColumns env (newCols v.selX v.selY) (fs s.path)).2 then e else some (Err.plotter s.path)) none
        = none := by
    intro l
    induction l with
    | nil => intro _; rfl
    | cons s l ih =>
      intro h
      rw [List.foldl_cons, if_pos (h s List.mem_cons_self)]
      exact ih fun t ht => h t (List.mem_cons_of_mem _ ht)
  intro s hs
  simp only [applySelection, herr v.sources hok, Option.isNone_none, if_true] at hs ⊢
  obtain ⟨t, ht, rfl⟩ := List.mem_map.1 hs
  obtain ⟨h1, h2, h3⟩ := H t ht
  obtain ⟨_, e2, e3⟩ := setYColumns_ok env t (fs := fs) h1 (hl _)
  rw [(setYColumns_keeps env t _ _).1, (setYColumns_keeps env t _ _).2, e2]
  exact ⟨rfl, h2, e3⟩

theorem run_inv {v : Viewer F} {last : List Name → Option Obs} (h : Run env v last) : VInv env v last := by
  induction h with
  | start paths pattern x ys fs hs hl =>
    unfold start at hs
    split at hs
    · cases hs
    · obtain ⟨sources, h1, rfl⟩ := Option.map_eq_some_iff.1 hs
      exact startSources_ok env hl h1
  | @refresh v last paths fs₁ fs₂ _ h₁ h₂ ih =>
    have base : VInv env v fun path =>
        if (v.sources.any fun s => s.path == path) then last path else if v.yLabels = [] then fs₁ path else fs₂ path := by
      intro s hs
      have : (v.sources.any fun t => t.path == s.path) = true := List.any_eq_true.2 ⟨s, hs, by simp⟩
      simp only [this, if_true]
      exact ih s hs
    unfold refresh
    split
    · cases paths with
      | none => exact base
      | some paths => exact refreshLoop_ok env paths v v last rfl rfl (fun s hs => ⟨s, hs, rfl⟩) h₁ h₂ base
    · exact base
  | @poll v last fs _ hp ih =>
    intro s hs
    obtain ⟨t, ht, rfl⟩ := List.mem_map.1 hs
    obtain ⟨h1, h2, h3⟩ := ih t ht
    refine ⟨h1, h2, ?_⟩
    show History env t.cfg (Plotter.updateOnce env t.cfg t.plotter (fs t.path)).1 ((fs t.path).or (last t.path))
    cases hf : fs t.path with
    | none => exact .missing h3
    | some o =>
      obtain ⟨a, b, c⟩ := hp t ht o hf
      exact .poll o h3 a b c
  | @auto v last fs _ hi hl ih =>
    have key : ∀ w : Viewer F, w.sources = v.sources → w.xLabel = v.xLabel → w.yLabels = v.yLabels →
        autoSelect env fs v = { applySelection env fs w with initialized := true } → VInv env (autoSelect env fs v) fs := by
      intro w w1 w2 w3 he
      have hw : VInv env w last := by intro s hs; rw [w2, w3]; exact ih s (w1 ▸ hs)
      rw [he] at hl ⊢
      exact applySelection_ok env w hw (by rw [w2]; exact hl)
    unfold autoSelect at key ⊢
    simp only [hi, Bool.false_eq_true, if_false] at key ⊢
    refine key _ ?_ ?_ ?_ rfl
    all_goals
      split <;> split <;> rfl
  | @click v last boxes fs _ hl ih =>
    obtain ⟨k1, k2, k3⟩ := toggles_keep boxes v
    refine applySelection_ok env _ (last := last) ?_ (by rw [k2]; exact hl)
    intro s hs
    rw [k2, k3]
    exact ih s (k1 ▸ hs)

end

end Verif.Viz
