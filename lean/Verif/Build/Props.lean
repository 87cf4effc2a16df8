import Verif.Build.Model
import Mathlib.Tactic.Set

/-!
# C137: catalogue files are complete after a build
-/

namespace Verif.Build

variable {t : Tools}

/-- The true catalogue files: what the servers hold, and what the script should make of it. -/
structure Truth (t : Tools) where
  csv : Bytes
  zip : Bytes
  members : List (String × Bytes)
  source : Bytes
  gen : Bytes
  unzip : t.unzip zip = some members
  nonempty : members ≠ []
  found : findSource ⟨none, none, some members, none⟩ = some source
  render : t.render source = some gen

/-- Every file that is there is complete and right. -/
def Sound (T : Truth t) (fs : Fs) : Prop :=
  (fs.csv = none ∨ fs.csv = some T.csv) ∧ (fs.zip = none ∨ fs.zip = some T.zip) ∧ (fs.dir = none ∨ fs.dir = some T.members) ∧
    (fs.gen = none ∨ fs.gen = some T.gen)

/-- The servers send the true files. (How much arrives is open.) -/
def Honest (T : Truth t) (e : Env) : Prop := e.csvBody = T.csv ∧ e.zipBody = T.zip

/-- Histories in which every build runs to its end without a panic; the network may be different each time. -/
inductive Built (T : Truth t) : Fs → Prop
  | clean : Built T Fs.clean
  | run {fs} (e : Env) : Built T fs → Honest T e → (main t e fs).2 = true → Built T (final (main t e) fs)

/-- Histories in which builds can also panic or be stopped at any point. -/
inductive Reached (T : Truth t) : Fs → Prop
  | clean : Reached T Fs.clean
  | run {fs} (e : Env) : Reached T fs → Honest T e → Reached T (final (main t e) fs)
  | stop {fs fs'} (e : Env) : Reached T fs → Honest T e → fs' ∈ (main t e fs).1 → Reached T fs'

theorem final_andThen {a b : Act} {fs : Fs} (h : (a.andThen b fs).2 = true) :
    (a fs).2 = true ∧ (b (final a fs)).2 = true ∧ final (a.andThen b) fs = final b (final a fs) := by
  by_cases ha : (a fs).2 = true
  · have e : a.andThen b fs = ((a fs).1 ++ (b (final a fs)).1, (b (final a fs)).2) := by rw [Act.andThen, if_pos ha]
    rw [e] at h
    refine ⟨ha, h, ?_⟩
    unfold final
    rw [e]
    simp only
    cases hb : (b ((a fs).1.getLastD fs)).1 with
    | nil =>
      simp only [final, hb, List.append_nil, List.getLastD_nil]
    | cons x xs =>
      simp only [final, hb]
      rw [List.getLastD_eq_getLast?, List.getLastD_eq_getLast?, List.getLast?_append]
      simp [List.getLast?_cons]
  · rw [Act.andThen, if_neg ha] at h
    exact absurd h ha

theorem ok_andThen {a b : Act} {fs : Fs} (ha : (a fs).2 = true) (hb : (b (final a fs)).2 = true) : (a.andThen b fs).2 = true := by
  rw [Act.andThen, if_pos ha]
  exact hb

theorem final_when_true {a : Act} {fs : Fs} : final (Act.when true a) fs = final a fs := rfl

theorem final_when_false {a : Act} {fs : Fs} : final (Act.when false a) fs = fs := rfl

theorem download_ok {get : Fs → Option Bytes} {put : Fs → Bytes → Fs} {body : Bytes} {arrive : Nat} {fs : Fs}
    (h : (download get put body arrive fs).2 = true) :
    final (download get put body arrive) fs = if (get fs).isSome then fs else put fs body := by
  unfold final download at *
  by_cases hg : (get fs).isSome = true
  · rw [if_pos hg, if_pos hg]
    rfl
  · rw [if_neg hg] at h ⊢
    rw [if_neg hg]
    simp only [decide_eq_true_eq] at h
    rw [Nat.min_eq_right h, List.range_succ, List.map_append, List.getLastD_eq_getLast?, List.getLast?_append]
    simp

theorem extractStates_last (ms : List (String × Bytes)) (h : ms ≠ []) : (extractStates ms).getLast? = some ms := by
  induction ms with
  | nil => exact absurd rfl h
  | cons m ms ih =>
    obtain ⟨name, b⟩ := m
    rw [extractStates, List.getLast?_append, List.getLast?_map]
    cases ms with
    | nil => simp [extractStates, List.range_succ]
    | cons m' ms => simp [ih (by simp)]

theorem extract_ok {fs : Fs} (h : (extract t fs).2 = true) :
    (¬ (fs.dir.getD []).isEmpty = true ∧ final (extract t) fs = fs) ∨
      ((fs.dir.getD []).isEmpty = true ∧ ∃ ms, fs.zip.bind t.unzip = some ms ∧ final (extract t) fs = { fs with dir := some ms }) := by
  unfold final extract at *
  by_cases hd : (fs.dir.getD []).isEmpty = true
  · rw [if_pos hd] at h ⊢
    right
    refine ⟨hd, ?_⟩
    cases hz : fs.zip.bind t.unzip with
    | none => rw [hz] at h; simp at h
    | some ms =>
      refine ⟨ms, rfl, ?_⟩
      simp only
      cases ms with
      | nil => rfl
      | cons m ms =>
        rw [List.getLastD_eq_getLast?, List.getLast?_cons, List.getLast?_map, extractStates_last _ (by simp)]
        rfl
  · rw [if_neg hd]
    exact Or.inl ⟨hd, rfl⟩

theorem generate_ok {fs : Fs} (h : (generate t fs).2 = true) :
    (fs.gen.isSome = true ∧ final (generate t) fs = fs) ∨
      (fs.gen = none ∧ ∃ text, (findSource fs).bind t.render = some text ∧ final (generate t) fs = { fs with gen := some text }) := by
  unfold final generate at *
  by_cases hd : fs.gen.isSome = true
  · rw [if_pos hd]
    exact Or.inl ⟨hd, rfl⟩
  · rw [if_neg hd] at h ⊢
    right
    refine ⟨by simpa using hd, ?_⟩
    cases hz : (findSource fs).bind t.render with
    | none => rw [hz] at h; simp at h
    | some text =>
      refine ⟨text, rfl, ?_⟩
      simp only
      rw [List.range_succ, List.map_append, List.getLastD_eq_getLast?, List.getLast?_append]
      simp

/-- The effect of a build that does not panic, part by part. -/
theorem main_ok {e : Env} {fs : Fs} (h : (main t e fs).2 = true) :
    ∃ f1 f2 f3, f1 = (if (e.gnc || e.all) = true ∧ fs.csv = none then { fs with csv := some e.csvBody } else fs) ∧
      f2 = (if (e.wmmDownload || e.all) = true ∧ f1.zip = none then { f1 with zip := some e.zipBody } else f1) ∧
      ((((e.wmmDownload || e.all) = false ∨ (f2.dir.getD []).isEmpty = false) ∧ f3 = f2) ∨
        ((e.wmmDownload || e.all) = true ∧ (f2.dir.getD []).isEmpty = true ∧ ∃ ms, f2.zip.bind t.unzip = some ms ∧ f3 = { f2 with dir := some ms })) ∧
      ((((e.wmm || e.wmmDownload || e.all) = false ∨ f3.gen.isSome = true) ∧ final (main t e) fs = f3) ∨
        ((e.wmm || e.wmmDownload || e.all) = true ∧ f3.gen = none ∧ ∃ text, (findSource f3).bind t.render = some text ∧
          final (main t e) fs = { f3 with gen := some text })) := by
  unfold main at h ⊢
  obtain ⟨h1, h2, e1⟩ := final_andThen h
  rw [e1]
  obtain ⟨h3, h4, e2⟩ := final_andThen h1
  rw [e2] at h2 ⊢
  clear h h1 e1 e2
  have hf1 : final (Act.when (e.gnc || e.all) (usnoGncCatalog e)) fs =
      (if (e.gnc || e.all) = true ∧ fs.csv = none then { fs with csv := some e.csvBody } else fs) := by
    cases hc : (e.gnc || e.all) with
    | false => simp [final_when_false]
    | true =>
      rw [hc] at h3
      rw [final_when_true]
      have := download_ok (show (download (·.csv) (fun fs b => { fs with csv := some b }) e.csvBody e.csvArrive fs).2 = true from h3)
      rw [usnoGncCatalog, this]
      cases fs.csv <;> simp
  refine ⟨_, _, final (Act.when (e.wmmDownload || e.all) (worldMagneticModel t e)) (final (Act.when (e.gnc || e.all) (usnoGncCatalog e)) fs),
    rfl, rfl, ?_, ?_⟩
  · rw [← hf1]
    generalize final (Act.when (e.gnc || e.all) (usnoGncCatalog e)) fs = f1 at *
    cases hc : (e.wmmDownload || e.all) with
    | false => exact Or.inl ⟨Or.inl rfl, by simp [final_when_false]⟩
    | true =>
      rw [hc] at h4
      rw [final_when_true]
      obtain ⟨k1, k2, e3⟩ := final_andThen (show (worldMagneticModel t e f1).2 = true from h4)
      rw [worldMagneticModel, e3]
      have hd := download_ok k1
      have hd' : final (download (·.zip) (fun fs b => { fs with zip := some b }) e.zipBody e.zipArrive) f1 =
          (if True ∧ f1.zip = none then { f1 with zip := some e.zipBody } else f1) := by
        rw [hd]
        cases f1.zip <;> simp
      rw [hd'] at k2 ⊢
      rcases extract_ok k2 with ⟨a, b⟩ | ⟨a, ms, b, c⟩
      · exact Or.inl ⟨Or.inr (by simpa using a), by simpa using b⟩
      · exact Or.inr ⟨rfl, by simpa using a, ms, by simpa using b, by simpa using c⟩
  · generalize final (Act.when (e.wmmDownload || e.all) (worldMagneticModel t e)) (final (Act.when (e.gnc || e.all) (usnoGncCatalog e)) fs) = f3 at *
    cases hc : (e.wmm || e.wmmDownload || e.all) with
    | false => exact Or.inl ⟨Or.inl rfl, by simp [final_when_false]⟩
    | true =>
      rw [hc] at h2
      rw [final_when_true]
      rcases generate_ok (show (generate t f3).2 = true from h2) with ⟨a, b⟩ | ⟨a, text, b, c⟩
      · exact Or.inl ⟨Or.inr a, b⟩
      · exact Or.inr ⟨rfl, a, text, b, c⟩

theorem findSource_congr {a b : Fs} (h : a.dir = b.dir) : findSource a = findSource b := by
  unfold findSource
  rw [h]

theorem main_sound (T : Truth t) {e : Env} {fs : Fs} (hs : Sound T fs) (he : Honest T e) (h : (main t e fs).2 = true) :
    Sound T (final (main t e) fs) ∧ ((e.gnc || e.all) = true → (final (main t e) fs).csv = some T.csv) ∧
      ((e.wmmDownload || e.all) = true → (final (main t e) fs).zip = some T.zip ∧ (final (main t e) fs).dir = some T.members) ∧
      ((e.wmm || e.wmmDownload || e.all) = true → (final (main t e) fs).gen = some T.gen) := by
  obtain ⟨f1, f2, f3, e1, e2, h3, h4⟩ := main_ok h
  obtain ⟨s1, s2, s3, s4⟩ := hs
  have hf1 : (f1.csv = none ∨ f1.csv = some T.csv) ∧ f1.zip = fs.zip ∧ f1.dir = fs.dir ∧ f1.gen = fs.gen ∧
      ((e.gnc || e.all) = true → f1.csv = some T.csv) := by
    rw [e1]
    by_cases hc : (e.gnc || e.all) = true ∧ fs.csv = none
    · rw [if_pos hc]
      exact ⟨Or.inr (by rw [he.1]), rfl, rfl, rfl, fun _ => by rw [he.1]⟩
    · rw [if_neg hc]
      exact ⟨s1, rfl, rfl, rfl, fun hg => s1.resolve_left fun hn => hc ⟨hg, hn⟩⟩
  have hf2 : (f2.zip = none ∨ f2.zip = some T.zip) ∧ f2.csv = f1.csv ∧ f2.dir = fs.dir ∧ f2.gen = fs.gen ∧
      ((e.wmmDownload || e.all) = true → f2.zip = some T.zip) := by
    rw [e2]
    by_cases hc : (e.wmmDownload || e.all) = true ∧ f1.zip = none
    · rw [if_pos hc]
      exact ⟨Or.inr (by rw [he.2]), rfl, hf1.2.2.1, hf1.2.2.2.1, fun _ => by rw [he.2]⟩
    · rw [if_neg hc]
      rw [hf1.2.1] at hc ⊢
      exact ⟨s2, rfl, hf1.2.2.1, hf1.2.2.2.1, fun hg => s2.resolve_left fun hn => hc ⟨hg, hn⟩⟩
  have hf3 : (f3.dir = none ∨ f3.dir = some T.members) ∧ f3.csv = f1.csv ∧ f3.zip = f2.zip ∧ f3.gen = fs.gen ∧
      ((e.wmmDownload || e.all) = true → f3.dir = some T.members) := by
    rcases h3 with ⟨a, rfl⟩ | ⟨a, b, ms, c, rfl⟩
    · rw [hf2.2.2.1]
      refine ⟨s3, hf2.2.1, rfl, hf2.2.2.2.1, fun hg => s3.resolve_left fun hn => ?_⟩
      rw [hf2.2.2.1, hn, hg] at a
      simp at a
    · have : ms = T.members := by
        rw [hf2.2.2.2.2 a] at c
        simp only [Option.bind_some, T.unzip, Option.some.injEq] at c
        exact c.symm
      exact ⟨Or.inr (by rw [this]), hf2.2.1, rfl, hf2.2.2.2.1, fun _ => by rw [this]⟩
  rcases h4 with ⟨a, hfin⟩ | ⟨a, b, text, c, hfin⟩
  · rw [hfin]
    refine ⟨⟨hf3.2.1 ▸ hf1.1, hf3.2.2.1 ▸ hf2.1, hf3.1, hf3.2.2.2.1 ▸ s4⟩, fun hg => ?_, fun hg => ⟨?_, hf3.2.2.2.2 hg⟩, fun hg => ?_⟩
    · rw [hf3.2.1]
      exact hf1.2.2.2.2 hg
    · rw [hf3.2.2.1]
      exact hf2.2.2.2.2 hg
    · rw [hg, hf3.2.2.2.1] at a
      rcases a with a | a
      · cases a
      · rw [hf3.2.2.2.1]
        refine s4.resolve_left fun hn => ?_
        rw [hn] at a
        cases a
  · have ht : text = T.gen := by
      rcases hf3.1 with hd | hd
      · have : findSource f3 = none := by
          unfold findSource
          rw [hd]
          rfl
        rw [this] at c
        cases c
      · rw [findSource_congr (b := ⟨none, none, some T.members, none⟩) hd, T.found, Option.bind_some, T.render] at c
        exact (Option.some.inj c).symm
    rw [hfin, ht]
    refine ⟨⟨hf3.2.1 ▸ hf1.1, hf3.2.2.1 ▸ hf2.1, hf3.1, Or.inr rfl⟩, fun hg => ?_, fun hg => ⟨?_, hf3.2.2.2.2 hg⟩, fun _ => rfl⟩
    · show f3.csv = _
      rw [hf3.2.1]
      exact hf1.2.2.2.2 hg
    · show f3.zip = _
      rw [hf3.2.2.1]
      exact hf2.2.2.2.2 hg

/-- **C137** (part): after any number of builds, each of which ran to its end without a panic while the servers sent the true files, every file
there is complete, and the files of the features enabled in the last build are there. Missing: builds that are stopped or panic in between
(`C137_fails`), and servers that send something else (`C137_page_fails`). -/
theorem C137_complete_partial (T : Truth t) {fs : Fs} (h : Built T fs) :
    Sound T fs ∧ ∀ e, Honest T e → (main t e fs).2 = true →
      ((e.gnc || e.all) = true → (final (main t e) fs).csv = some T.csv) ∧
      ((e.wmmDownload || e.all) = true → (final (main t e) fs).zip = some T.zip ∧ (final (main t e) fs).dir = some T.members) ∧
      ((e.wmm || e.wmmDownload || e.all) = true → (final (main t e) fs).gen = some T.gen) := by
  have hs : Sound T fs := by
    induction h with
    | clean => exact ⟨Or.inl rfl, Or.inl rfl, Or.inl rfl, Or.inl rfl⟩
    | run e _ he hok ih => exact (main_sound T ih he hok).1
  exact ⟨hs, fun e he hok => (main_sound T hs he hok).2⟩

/-- **C137**: a file that is there is never changed by a build, however it ends and whatever the network does. -/
theorem C137_kept (e : Env) (fs fs' : Fs) (h : fs' ∈ (main t e fs).1) :
    (fs.csv.isSome = true → fs'.csv = fs.csv) ∧ (fs.zip.isSome = true → fs'.zip = fs.zip) ∧
      ((fs.dir.getD []).isEmpty = false → fs'.dir = fs.dir) ∧ (fs.gen.isSome = true → fs'.gen = fs.gen) := by
  let K : Fs → Fs → Prop := fun a b => (a.csv.isSome = true → b.csv = a.csv) ∧ (a.zip.isSome = true → b.zip = a.zip) ∧
      ((a.dir.getD []).isEmpty = false → b.dir = a.dir) ∧ (a.gen.isSome = true → b.gen = a.gen)
  have hrefl : ∀ a, K a a := fun a => ⟨fun _ => rfl, fun _ => rfl, fun _ => rfl, fun _ => rfl⟩
  have htrans : ∀ {a b c}, K a b → K b c → K a c := by
    rintro a b c ⟨x1, x2, x3, x4⟩ ⟨y1, y2, y3, y4⟩
    refine ⟨fun h => ?_, fun h => ?_, fun h => ?_, fun h => ?_⟩
    · rw [y1 (by rw [x1 h]; exact h), x1 h]
    · rw [y2 (by rw [x2 h]; exact h), x2 h]
    · rw [y3 (by rw [x3 h]; exact h), x3 h]
    · rw [y4 (by rw [x4 h]; exact h), x4 h]
  let Keeps : Act → Prop := fun act => ∀ a b, b ∈ (act a).1 → K a b
  have hfinal : ∀ {act : Act}, Keeps act → ∀ a, K a (final act a) := by
    intro act hk a
    unfold final
    rw [List.getLastD_eq_getLast?]
    cases hl : (act a).1.getLast? with
    | none => exact hrefl a
    | some b => exact hk a b (List.mem_of_getLast? hl)
  have hand : ∀ {a b : Act}, Keeps a → Keeps b → Keeps (a.andThen b) := by
    intro a b ha hb x y hy
    unfold Act.andThen at hy
    by_cases hc : (a x).2 = true
    · rw [if_pos hc] at hy
      rcases List.mem_append.1 hy with hy | hy
      · exact ha x y hy
      · exact htrans (hfinal ha x) (hb _ y hy)
    · rw [if_neg hc] at hy
      exact ha x y hy
  have hwhen : ∀ {a : Act} (c : Bool), Keeps a → Keeps (Act.when c a) := by
    intro a c ha x y hy
    cases c with
    | true => exact ha x y hy
    | false => simp [Act.when] at hy
  have hcsv : ∀ body n, Keeps (download (·.csv) (fun fs b => { fs with csv := some b }) body n) := by
    intro body n x y hy
    unfold download at hy
    by_cases hc : x.csv.isSome = true
    · rw [if_pos hc] at hy
      simp at hy
    · rw [if_neg hc] at hy
      obtain ⟨k, -, rfl⟩ := List.mem_map.1 hy
      exact ⟨fun h => absurd h hc, fun _ => rfl, fun _ => rfl, fun _ => rfl⟩
  have hzip : ∀ body n, Keeps (download (·.zip) (fun fs b => { fs with zip := some b }) body n) := by
    intro body n x y hy
    unfold download at hy
    by_cases hc : x.zip.isSome = true
    · rw [if_pos hc] at hy
      simp at hy
    · rw [if_neg hc] at hy
      obtain ⟨k, -, rfl⟩ := List.mem_map.1 hy
      exact ⟨fun _ => rfl, fun h => absurd h hc, fun _ => rfl, fun _ => rfl⟩
  have hext : Keeps (extract t) := by
    intro x y hy
    unfold extract at hy
    by_cases hc : (x.dir.getD []).isEmpty = true
    · rw [if_pos hc] at hy
      have : ∃ d, y = { x with dir := d } := by
        cases hz : x.zip.bind t.unzip with
        | none =>
          rw [hz] at hy
          exact ⟨_, by simpa using hy⟩
        | some ms =>
          rw [hz] at hy
          rcases List.mem_cons.1 hy with rfl | hy
          · exact ⟨_, rfl⟩
          · obtain ⟨d, -, rfl⟩ := List.mem_map.1 hy
            exact ⟨_, rfl⟩
      obtain ⟨d, rfl⟩ := this
      exact ⟨fun _ => rfl, fun _ => rfl, fun h => absurd (hc.symm.trans h) (by simp), fun _ => rfl⟩
    · rw [if_neg hc] at hy
      simp at hy
  have hgen : Keeps (generate t) := by
    intro x y hy
    unfold generate at hy
    by_cases hc : x.gen.isSome = true
    · rw [if_pos hc] at hy
      simp at hy
    · rw [if_neg hc] at hy
      cases hz : (findSource x).bind t.render with
      | none => rw [hz] at hy; simp at hy
      | some text =>
        rw [hz] at hy
        obtain ⟨k, -, rfl⟩ := List.mem_map.1 hy
        exact ⟨fun _ => rfl, fun _ => rfl, fun _ => rfl, fun h => absurd h hc⟩
  exact hand (hand (hwhen _ (hcsv _ _)) (hwhen _ (hand (hzip _ _) hext))) (hwhen _ hgen) fs fs' h

/-- **C137**: after a build without a panic, the same build needs no network: it ends without a panic and without a change, even if nothing arrives. -/
theorem C137_offline (e e' : Env) (fs : Fs) (h : (main t e fs).2 = true) (hg : e'.gnc = e.gnc) (hw : e'.wmmDownload = e.wmmDownload)
    (ha : e'.all = e.all) (hm : e'.wmm = e.wmm) :
    (main t e' (final (main t e) fs)).2 = true ∧ final (main t e') (final (main t e) fs) = final (main t e) fs := by
  obtain ⟨f1, f2, f3, e1, e2, h3, h4⟩ := main_ok h
  set g := final (main t e) fs with hgdef
  have c1 : (e.gnc || e.all) = true → g.csv.isSome = true := by
    intro hc
    have : f1.csv.isSome = true := by
      rw [e1]
      cases hcs : fs.csv with
      | none => simp [hc]
      | some x => simp [hcs]
    have h12 : f2.csv = f1.csv := by rw [e2]; split <;> rfl
    have h23 : f3.csv = f2.csv := by rcases h3 with ⟨-, rfl⟩ | ⟨-, -, _, -, rfl⟩ <;> rfl
    have h34 : g.csv = f3.csv := by rcases h4 with ⟨-, e⟩ | ⟨-, -, _, -, e⟩ <;> rw [e]
    rw [h34, h23, h12]
    exact this
  have hz : g.zip = f2.zip := by
    have h23 : f3.zip = f2.zip := by rcases h3 with ⟨-, rfl⟩ | ⟨-, -, _, -, rfl⟩ <;> rfl
    have h34 : g.zip = f3.zip := by rcases h4 with ⟨-, e⟩ | ⟨-, -, _, -, e⟩ <;> rw [e]
    rw [h34, h23]
  have hdir : g.dir = f3.dir := by rcases h4 with ⟨-, e⟩ | ⟨-, -, _, -, e⟩ <;> rw [e]
  have c2 : (e.wmmDownload || e.all) = true → g.zip.isSome = true := by
    intro hc
    rw [hz, e2]
    cases hcs : f1.zip with
    | none => simp [hc]
    | some x => simp [hcs]
  have c3 : (e.wmmDownload || e.all) = true → (g.dir.getD []).isEmpty = true → g.zip.bind t.unzip = some [] ∧ g.dir = some [] := by
    intro hc hd
    rw [hdir] at hd ⊢
    rcases h3 with ⟨a, rfl⟩ | ⟨-, -, ms, c, rfl⟩
    · rw [hc, hd] at a
      simp at a
    · have : ms = [] := by simpa using hd
      subst this
      exact ⟨by rw [hz]; exact c, rfl⟩
  have c4 : (e.wmm || e.wmmDownload || e.all) = true → g.gen.isSome = true := by
    intro hc
    rcases h4 with ⟨a, e⟩ | ⟨-, -, text, -, e⟩
    · rw [e]
      rcases a with a | a
      · rw [hc] at a; cases a
      · exact a
    · rw [e]
      rfl
  have k1 : (Act.when (e'.gnc || e'.all) (usnoGncCatalog e')) g = ([], true) := by
    rw [hg, ha]
    cases hc : (e.gnc || e.all) with
    | false => rfl
    | true =>
      show download (·.csv) (fun fs b => { fs with csv := some b }) e'.csvBody e'.csvArrive g = _
      rw [download, if_pos (c1 hc)]
  have k2 : ((Act.when (e'.wmmDownload || e'.all) (worldMagneticModel t e')) g).2 = true ∧
      final (Act.when (e'.wmmDownload || e'.all) (worldMagneticModel t e')) g = g := by
    rw [hw, ha]
    cases hc : (e.wmmDownload || e.all) with
    | false => exact ⟨rfl, rfl⟩
    | true =>
      have hd : download (·.zip) (fun fs b => { fs with zip := some b }) e'.zipBody e'.zipArrive g = ([], true) := by
        rw [download, if_pos (c2 hc)]
      have hx : (extract t g).2 = true ∧ final (extract t) g = g := by
        unfold final extract
        by_cases hd : (g.dir.getD []).isEmpty = true
        · obtain ⟨u1, u2⟩ := c3 hc hd
          rw [if_pos hd, u1]
          refine ⟨rfl, ?_⟩
          simp only [extractStates, List.map_nil]
          show { g with dir := some [] } = g
          rw [← u2]
        · rw [if_neg hd]
          exact ⟨rfl, rfl⟩
      have hfd : final (download (·.zip) (fun fs b => { fs with zip := some b }) e'.zipBody e'.zipArrive) g = g := by
        unfold final
        rw [hd]
        rfl
      have hok : (worldMagneticModel t e' g).2 = true := ok_andThen (by rw [hd]) (by rw [hfd]; exact hx.1)
      refine ⟨hok, ?_⟩
      rw [final_when_true]
      obtain ⟨-, -, e3⟩ := final_andThen hok
      rw [worldMagneticModel, e3, hfd, hx.2]
  have k3 : (Act.when (e'.wmm || e'.wmmDownload || e'.all) (generate t)) g = ([], true) := by
    rw [hm, hw, ha]
    cases hc : (e.wmm || e.wmmDownload || e.all) with
    | false => rfl
    | true =>
      show generate t g = _
      rw [generate, if_pos (c4 hc)]
  have f1' : final (Act.when (e'.gnc || e'.all) (usnoGncCatalog e')) g = g := by
    unfold final
    rw [k1]
    rfl
  have f3' : final (Act.when (e'.wmm || e'.wmmDownload || e'.all) (generate t)) g = g := by
    unfold final
    rw [k3]
    rfl
  have o1 : ((Act.when (e'.gnc || e'.all) (usnoGncCatalog e')).andThen (Act.when (e'.wmmDownload || e'.all) (worldMagneticModel t e')) g).2 = true :=
    ok_andThen (by rw [k1]) (by rw [f1']; exact k2.1)
  obtain ⟨-, -, e12⟩ := final_andThen o1
  rw [f1', k2.2] at e12
  have o2 : (main t e' g).2 = true := ok_andThen o1 (by rw [e12, k3])
  obtain ⟨-, -, e123⟩ := final_andThen o2
  refine ⟨o2, ?_⟩
  rw [main, e123, e12, f3']

/-- A toy archive: the bytes are the content of the only member. -/
def toyTools : Tools := { unzip := fun b => if b.isEmpty then none else some [("WMM.COF", b)], render := fun b => if b.length < 2 then none else some (7 :: b) }

/-- The true files of the toy. -/
def toyTruth : Truth toyTools :=
  { csv := [1, 2, 3], zip := [4, 5, 6], members := [("WMM.COF", [4, 5, 6])], source := [4, 5, 6], gen := [7, 4, 5, 6]
    unzip := rfl, nonempty := by simp, found := by decide, render := rfl }

/-- All features, and a network on which everything arrives. -/
def toyEnv : Env := { gnc := false, wmmDownload := false, all := true, wmm := false, csvBody := [1, 2, 3], csvArrive := 3, zipBody := [4, 5, 6], zipArrive := 3 }

/-- A build from nothing. -/
example : Built toyTruth (final (main toyTools toyEnv) Fs.clean) ∧
    final (main toyTools toyEnv) Fs.clean = ⟨some [1, 2, 3], some [4, 5, 6], some [("WMM.COF", [4, 5, 6])], some [7, 4, 5, 6]⟩ :=
  ⟨Built.run toyEnv Built.clean ⟨rfl, rfl⟩ (by decide), by decide⟩

/-- C137 in full is not met: a build stopped during a download leaves a truncated file, which every later build takes as complete; the same with
the archive, the extracted files and the generated source. The next build, with a perfect network, ends without a panic. -/
theorem C137_fails :
    (∃ fs, Reached toyTruth fs ∧ (main toyTools toyEnv fs).2 = true ∧ (final (main toyTools toyEnv) fs).csv = some [1]) ∧
    (∃ fs, Reached toyTruth fs ∧ (main toyTools toyEnv fs).2 = true ∧ (final (main toyTools toyEnv) fs).zip = some [4, 5]) ∧
    (∃ fs, Reached toyTruth fs ∧ (main toyTools toyEnv fs).2 = true ∧ (final (main toyTools toyEnv) fs).zip = some [4, 5, 6] ∧
      (final (main toyTools toyEnv) fs).dir = some [("WMM.COF", [4, 5])]) ∧
    (∃ fs, Reached toyTruth fs ∧ (main toyTools toyEnv fs).2 = true ∧ (final (main toyTools toyEnv) fs).gen = some [7]) := by
  refine ⟨⟨⟨some [1], none, none, none⟩, ?_, by decide, by decide⟩, ⟨⟨some [1, 2, 3], some [4, 5], none, none⟩, ?_, by decide, by decide⟩,
    ⟨⟨some [1, 2, 3], some [4, 5, 6], some [("WMM.COF", [4, 5])], none⟩, ?_, by decide, by decide, by decide⟩,
    ⟨⟨some [1, 2, 3], some [4, 5, 6], some [("WMM.COF", [4, 5, 6])], some [7]⟩, ?_, by decide, by decide⟩⟩ <;>
  exact Reached.stop toyEnv Reached.clean ⟨rfl, rfl⟩ (by decide)

/-- C137 in full is not met: if the server answers with an error page, the page is stored as the catalogue, the build ends without a panic, and
every later build keeps it, although the servers then send the true files. -/
theorem C137_page_fails : ∃ e : Env, e.csvBody = [9] ∧ (main toyTools e Fs.clean).2 = true ∧ (final (main toyTools e) Fs.clean).csv = some [9] ∧
    ∀ e', Honest toyTruth e' → (final (main toyTools e') (final (main toyTools e) Fs.clean)).csv = some [9] := by
  refine ⟨{ toyEnv with csvBody := [9] }, rfl, by decide, by decide, fun e' _ => ?_⟩
  set fs := final (main toyTools { toyEnv with csvBody := [9] }) Fs.clean with hfs
  have hc : fs.csv = some [9] := by decide
  unfold final
  rw [List.getLastD_eq_getLast?]
  cases hl : (main toyTools e' fs).1.getLast? with
  | none => exact hc
  | some b => exact ((C137_kept e' fs b (List.mem_of_getLast? hl)).1 (by rw [hc]; rfl)).trans hc

end Verif.Build
