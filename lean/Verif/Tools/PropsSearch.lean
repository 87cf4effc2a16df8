import Verif.Tools.Search
import Mathlib.Data.Finset.Card
import Mathlib.Data.Finset.Image
import Mathlib.Tactic.Ring

/-!
# C109: the search for a power sensor ends and finds what is there
-/

namespace Verif.Tools

/-! ## Specification -/

/-- A directory the search may enter: the root or a subdirectory, listed by its parent, of such a directory. -/
inductive Below (fs : Fs) (root : Path) : Path → Prop
  | root : Below fs root root
  | sub {d : Path} {names : List String} {name : String} : Below fs root d → fs.readDir d = some names → name ∈ names →
      fs.isDir (name :: d) = true → Below fs root (name :: d)

/-- A file of the given name in such a directory. -/
def FileBelow (fs : Fs) (root : Path) (filename : String) (p : Path) : Prop :=
  ∃ d names, Below fs root d ∧ fs.readDir d = some names ∧ filename ∈ names ∧ p = filename :: d ∧ fs.isDir p = false

/-! ## Lemmas -/

theorem scanDir_found {fs : Fs} {filename : String} {dir p : Path} (names : List String) (stack : List Path)
    (h : scanDir fs filename dir names stack = .inl p) : filename ∈ names ∧ p = filename :: dir ∧ fs.isDir p = false := by
  induction names generalizing stack with
  | nil => simp [scanDir] at h
  | cons name rest ih =>
    simp only [scanDir] at h
    by_cases hd : fs.isDir (name :: dir) = true
    · rw [if_pos hd] at h
      obtain ⟨a, b⟩ := ih _ h
      exact ⟨List.mem_cons_of_mem _ a, b⟩
    · rw [if_neg hd] at h
      by_cases hn : name = filename
      · rw [if_pos hn] at h
        subst hn
        cases h
        exact ⟨List.mem_cons_self, rfl, by simpa using hd⟩
      · rw [if_neg hn] at h
        obtain ⟨a, b⟩ := ih _ h
        exact ⟨List.mem_cons_of_mem _ a, b⟩

/-- What is pushed are the subdirectories, in reverse order of listing; a file of the name sought is not passed over. -/
theorem scanDir_pushed {fs : Fs} {filename : String} {dir : Path} (names : List String) (stack stack' : List Path)
    (h : scanDir fs filename dir names stack = .inr stack') :
    stack' = ((names.filter fun n => fs.isDir (n :: dir)).map fun n => n :: dir).reverse ++ stack ∧
      ∀ n ∈ names, fs.isDir (n :: dir) = false → n ≠ filename := by
  induction names generalizing stack with
  | nil => simp only [scanDir, Sum.inr.injEq] at h; simp [h]
  | cons name rest ih =>
    simp only [scanDir] at h
    by_cases hd : fs.isDir (name :: dir) = true
    · rw [if_pos hd] at h
      obtain ⟨a, b⟩ := ih _ h
      refine ⟨by simp [a, hd], ?_⟩
      intro n hn hf
      rcases List.mem_cons.1 hn with rfl | hn
      · rw [hd] at hf; cases hf
      · exact b n hn hf
    · rw [if_neg hd] at h
      by_cases hn : name = filename
      · rw [if_pos hn] at h; cases h
      · rw [if_neg hn] at h
        obtain ⟨a, b⟩ := ih _ h
        refine ⟨by simp [a, hd], ?_⟩
        intro n hm hf
        rcases List.mem_cons.1 hm with rfl | hm
        · exact hn
        · exact b n hm hf

theorem searchLoop_unreadable {fs : Fs} {filename : String} {left : Nat} {dir : Path} {stack : List Path} (hr : fs.readDir dir = none) :
    searchLoop fs filename (left + 1) (dir :: stack) =
      (dir :: (searchLoop fs filename left stack).1, (searchLoop fs filename left stack).2) := by
  simp [searchLoop, hr]

theorem searchLoop_found {fs : Fs} {filename : String} {left : Nat} {dir p : Path} {stack : List Path} {names : List String}
    (hr : fs.readDir dir = some names) (hs : scanDir fs filename dir names stack = .inl p) :
    searchLoop fs filename (left + 1) (dir :: stack) = ([dir], some p) := by
  simp [searchLoop, hr, hs]

theorem searchLoop_pushed {fs : Fs} {filename : String} {left : Nat} {dir : Path} {stack stack' : List Path} {names : List String}
    (hr : fs.readDir dir = some names) (hs : scanDir fs filename dir names stack = .inr stack') :
    searchLoop fs filename (left + 1) (dir :: stack) =
      (dir :: (searchLoop fs filename left stack').1, (searchLoop fs filename left stack').2) := by
  simp [searchLoop, hr, hs]

theorem searchLoop_sound {fs : Fs} {filename : String} {root : Path} (left : Nat) (stack : List Path)
    (hs : ∀ d ∈ stack, Below fs root d) :
    (searchLoop fs filename left stack).1.length ≤ left ∧ (∀ d ∈ (searchLoop fs filename left stack).1, Below fs root d) ∧
      ∀ p, (searchLoop fs filename left stack).2 = some p → FileBelow fs root filename p := by
  induction left generalizing stack with
  | zero => cases stack <;> simp [searchLoop]
  | succ left ih =>
    cases stack with
    | nil => simp [searchLoop]
    | cons dir stack =>
      have hdir := hs dir List.mem_cons_self
      have htail : ∀ d ∈ stack, Below fs root d := fun d hd => hs d (List.mem_cons_of_mem _ hd)
      cases hr : fs.readDir dir with
      | none =>
        rw [searchLoop_unreadable hr]
        obtain ⟨a, b, c⟩ := ih stack htail
        exact ⟨by simpa using a, by simpa using ⟨hdir, b⟩, c⟩
      | some names =>
        cases hsc : scanDir fs filename dir names stack with
        | inl p =>
          rw [searchLoop_found hr hsc]
          refine ⟨by simp, by simpa using hdir, ?_⟩
          rintro q hq
          cases hq
          obtain ⟨a, b, c⟩ := scanDir_found names stack hsc
          exact ⟨dir, names, hdir, hr, a, b, c⟩
        | inr stack' =>
          rw [searchLoop_pushed hr hsc]
          obtain ⟨e, -⟩ := scanDir_pushed names stack stack' hsc
          have hs' : ∀ d ∈ stack', Below fs root d := by
            intro d hd
            rw [e] at hd
            rcases List.mem_append.1 hd with hd | hd
            · obtain ⟨n, hn, rfl⟩ := List.mem_map.1 (List.mem_reverse.1 hd)
              obtain ⟨hn, hisd⟩ := List.mem_filter.1 hn
              exact .sub hdir hr hn hisd
            · exact htail d hd
          obtain ⟨a, b, c⟩ := ih stack' hs'
          exact ⟨by simpa using a, by simpa using ⟨hdir, b⟩, c⟩

/-- C109. On every file system, also with links that form cycles, the search ends after reading at most 4097 directories, all of them
below the root, and what it returns is a file of the name sought in a directory below the root. -/
theorem C109_sound (fs : Fs) (root : Path) (filename : String) :
    (findFirst fs root filename).1.length ≤ 4097 ∧ (∀ d ∈ (findFirst fs root filename).1, Below fs root d) ∧
      ∀ p, (findFirst fs root filename).2 = some p → FileBelow fs root filename p :=
  searchLoop_sound 4097 [root] (by simpa using Below.root)

theorem below_length {fs : Fs} {root d : Path} (h : Below fs root d) : root.length ≤ d.length := by
  induction h with
  | root => exact le_rfl
  | sub _ _ _ _ ih => simp only [List.length_cons]; omega

/-- The invariant of a search that has not found anything: directories read and waiting are different, each but the root was listed by a
directory read, every directory read has no file of the name sought and its subdirectories are read or waiting. -/
structure Searched (fs : Fs) (root : Path) (filename : String) (done stack : List Path) : Prop where
  nodup : (done ++ stack).Nodup
  below : ∀ d ∈ done ++ stack, Below fs root d
  parents : ∀ n d, n :: d ∈ done ++ stack → n :: d = root ∨ d ∈ done
  root_mem : root ∈ done ++ stack
  dirs : ∀ d ∈ done, ∀ names, fs.readDir d = some names → ∀ n ∈ names, fs.isDir (n :: d) = true → n :: d ∈ done ++ stack
  files : ∀ d ∈ done, ∀ names, fs.readDir d = some names → ∀ n ∈ names, fs.isDir (n :: d) = false → n ≠ filename

theorem Searched.step {fs : Fs} {root : Path} {filename : String} {done stack : List Path} {dir : Path} {subs : List String}
    (h : Searched fs root filename done (dir :: stack)) (hn : subs.Nodup)
    (hsub : ∀ n ∈ subs, Below fs root (n :: dir))
    (hd : ∀ names, fs.readDir dir = some names → ∀ n ∈ names, fs.isDir (n :: dir) = true → n ∈ subs)
    (hf : ∀ names, fs.readDir dir = some names → ∀ n ∈ names, fs.isDir (n :: dir) = false → n ≠ filename) :
    Searched fs root filename (dir :: done) ((subs.map fun n => n :: dir).reverse ++ stack) := by
  have hperm : (dir :: done ++ ((subs.map fun n => n :: dir).reverse ++ stack)).Perm
      ((subs.map fun n => n :: dir) ++ (done ++ dir :: stack)) := by
    rw [List.perm_iff_count]
    intro a
    simp only [List.cons_append, List.count_cons, List.count_append, List.count_reverse]
    omega
  have hdir : dir ∈ done ++ dir :: stack := by simp
  have hnd : dir ∉ done := fun hc => by
    have := h.nodup
    rw [List.nodup_append] at this
    exact this.2.2 dir hc dir List.mem_cons_self rfl
  have hmem : ∀ x, x ∈ dir :: done ++ ((subs.map fun n => n :: dir).reverse ++ stack) ↔
      x ∈ (subs.map fun n => n :: dir) ∨ x ∈ done ++ dir :: stack := fun x => by
    rw [hperm.mem_iff, List.mem_append]
  refine ⟨?_, ?_, ?_, ?_, ?_, ?_⟩
  · rw [hperm.nodup_iff, List.nodup_append]
    refine ⟨hn.map fun a b hab => by simpa using hab, h.nodup, ?_⟩
    rintro a ha b hb rfl
    obtain ⟨n, hns, rfl⟩ := List.mem_map.1 ha
    rcases h.parents n dir hb with he | he
    · have := below_length (h.below dir hdir)
      rw [← he] at this
      simp at this
    · exact hnd he
  · intro d hd'
    rcases (hmem d).1 hd' with hd' | hd'
    · obtain ⟨n, hns, rfl⟩ := List.mem_map.1 hd'
      exact hsub n hns
    · exact h.below d hd'
  · intro n d hnd'
    rcases (hmem _).1 hnd' with hd' | hd'
    · obtain ⟨m, hms, he⟩ := List.mem_map.1 hd'
      cases he
      exact .inr List.mem_cons_self
    · rcases h.parents n d hd' with he | he
      · exact .inl he
      · exact .inr (List.mem_cons_of_mem _ he)
  · exact (hmem _).2 (.inr h.root_mem)
  · intro d hd' names hr n hns hi
    rw [hmem]
    rcases List.mem_cons.1 hd' with rfl | hd'
    · exact .inl (List.mem_map.2 ⟨n, hd names hr n hns hi, rfl⟩)
    · exact .inr (h.dirs d hd' names hr n hns hi)
  · intro d hd' names hr n hns hi
    rcases List.mem_cons.1 hd' with rfl | hd'
    · exact hf names hr n hns hi
    · exact h.files d hd' names hr n hns hi

theorem searchLoop_complete {fs : Fs} {filename : String} {root : Path} (hnames : ∀ d names, fs.readDir d = some names → names.Nodup)
    (S : Finset Path) (hS : ∀ d, Below fs root d → d ∈ S) (left : Nat) (done stack : List Path)
    (h : Searched fs root filename done stack) (hcard : S.card ≤ done.length + left)
    (hres : (searchLoop fs filename left stack).2 = none) : ∃ done', Searched fs root filename done' [] := by
  induction left generalizing done stack with
  | zero =>
    cases stack with
    | nil => exact ⟨done, h⟩
    | cons dir stack =>
      exfalso
      have hsub : (done ++ dir :: stack).toFinset ⊆ S := fun d hd => hS d (h.below d (List.mem_toFinset.1 hd))
      have := Finset.card_le_card hsub
      rw [List.toFinset_card_of_nodup h.nodup] at this
      simp only [List.length_append, List.length_cons] at this
      omega
  | succ left ih =>
    cases stack with
    | nil => exact ⟨done, h⟩
    | cons dir stack =>
      have hdir := h.below dir (by simp)
      cases hr : fs.readDir dir with
      | none =>
        rw [searchLoop_unreadable hr] at hres
        refine ih (dir :: done) stack ?_ (by simp only [List.length_cons]; omega) hres
        have := h.step (subs := []) List.nodup_nil (by simp) (by simp [hr]) (by simp [hr])
        simpa using this
      | some names =>
        cases hsc : scanDir fs filename dir names stack with
        | inl p => rw [searchLoop_found hr hsc] at hres; cases hres
        | inr stack' =>
          rw [searchLoop_pushed hr hsc] at hres
          obtain ⟨e, hf⟩ := scanDir_pushed names stack stack' hsc
          refine ih (dir :: done) stack' ?_ (by simp only [List.length_cons]; omega) hres
          rw [e]
          refine h.step ((hnames dir names hr).filter _) ?_ ?_ ?_
          · intro n hn
            obtain ⟨hn, hisd⟩ := List.mem_filter.1 hn
            exact .sub hdir hr hn hisd
          · intro names' hr' n hn hi
            rw [hr] at hr'
            cases hr'
            exact List.mem_filter.2 ⟨hn, hi⟩
          · intro names' hr' n hn hi
            rw [hr] at hr'
            cases hr'
            exact hf n hn hi

/-- C109. If there are at most 4097 directories below the root, the search fails exactly when there is no file of the name sought.
A directory lists no name twice. -/
theorem C109_complete_partial (fs : Fs) (root : Path) (filename : String)
    (hnames : ∀ d names, fs.readDir d = some names → names.Nodup)
    (S : Finset Path) (hS : ∀ d, Below fs root d → d ∈ S) (hcard : S.card ≤ 4097) :
    (findFirst fs root filename).2 = none ↔ ¬∃ p, FileBelow fs root filename p := by
  constructor
  · intro hres
    obtain ⟨done, h⟩ := searchLoop_complete hnames S hS 4097 [] [root]
      ⟨by simp, by simpa using Below.root, by simp, by simp, by simp, by simp⟩ (by simpa using hcard) hres
    have hall : ∀ d, Below fs root d → d ∈ done := by
      intro d hd
      induction hd with
      | root => simpa using h.root_mem
      | sub _ hr hn hi ih => simpa using h.dirs _ ih _ hr _ hn hi
    rintro ⟨p, d, names, hd, hr, hn, rfl, hf⟩
    exact h.files d (hall d hd) names hr filename hn hf rfl
  · intro hno
    cases hres : (findFirst fs root filename).2 with
    | none => rfl
    | some p => exact absurd ⟨p, (C109_sound fs root filename).2.2 p hres⟩ hno

/-- A small file system: `/` with the directories `a` and `b`; `a` holds the file `energy_uj`. -/
def smallFs : Fs where
  readDir p := if p = [] then some ["a", "b"] else if p = ["a"] then some ["energy_uj", "name"] else if p = ["b"] then some [] else none
  isDir p := p = [] || p = ["a"] || p = ["b"]
  exists_ _ := true
  readText _ := ""

/-- C109_complete_partial with three directories, and its result. -/
example : (∀ d names, smallFs.readDir d = some names → names.Nodup) ∧
    (∀ d, Below smallFs [] d → d ∈ ({[], ["a"], ["b"]} : Finset Path)) ∧
    findFirst smallFs [] "energy_uj" = ([[], ["b"], ["a"]], some ["energy_uj", "a"]) := by
  refine ⟨?_, ?_, by decide +kernel⟩
  · intro d names h
    simp only [smallFs] at h
    by_cases h1 : d = []
    · rw [if_pos h1] at h; cases h; decide
    rw [if_neg h1] at h
    by_cases h2 : d = ["a"]
    · rw [if_pos h2] at h; cases h; decide
    rw [if_neg h2] at h
    by_cases h3 : d = ["b"]
    · rw [if_pos h3] at h; cases h; decide
    · rw [if_neg h3] at h; cases h
  · intro d h
    cases h with
    | root => simp
    | sub _ _ _ hi => simpa [smallFs] using hi

/-- A file system with a link to itself: the directory `b` contains the link `loop` to `b`; the directory `a` holds the file. -/
def loopFs : Fs where
  readDir p := if p = [] then some ["a", "b"] else if p = ["a"] then some ["energy_uj"] else some ["loop"]
  isDir p := p ≠ ["energy_uj", "a"]
  exists_ _ := true
  readText _ := ""

theorem loopFs_search (left : Nat) (d : Path) (h0 : d ≠ []) (h1 : d ≠ ["a"]) (stack : List Path) :
    (searchLoop loopFs "energy_uj" left (d :: stack)).2 = none := by
  induction left generalizing d stack with
  | zero => rfl
  | succ left ih =>
    have hr : loopFs.readDir d = some ["loop"] := by simp [loopFs, h0, h1]
    have hs : scanDir loopFs "energy_uj" d ["loop"] stack = .inr (("loop" :: d) :: stack) := by
      simp [scanDir, loopFs]
    rw [searchLoop_pushed hr hs]
    exact ih _ (by simp) (by simp) _

/-- C109 in full is not met: with a link that leads back to its own directory, as in `/sys`, the search goes round until the limit and
misses a file that is there, two steps from the root. -/
theorem C109_fails : FileBelow loopFs [] "energy_uj" ["energy_uj", "a"] ∧ (findFirst loopFs [] "energy_uj").2 = none := by
  refine ⟨⟨["a"], ["energy_uj"], .sub (names := ["a", "b"]) .root (by simp [loopFs]) (by simp) (by simp [loopFs]), by simp [loopFs],
    by simp, rfl, by simp [loopFs]⟩, ?_⟩
  have hr : loopFs.readDir [] = some ["a", "b"] := by simp [loopFs]
  have hs : scanDir loopFs "energy_uj" [] ["a", "b"] [] = .inr [["b"], ["a"]] := by simp [scanDir, loopFs]
  have key : ∀ left, (searchLoop loopFs "energy_uj" (left + 1) [[]]).2 = none := by
    intro left
    rw [searchLoop_pushed hr hs]
    exact loopFs_search left ["b"] (by simp) (by simp) [["a"]]
  exact key 4096

/-- The names of sensor files, in the order of preference for the numbers 1 to 8. -/
def sensorNames : List String :=
  ["power1_average", "power1_input", "power2_average", "power2_input", "power3_average", "power3_input", "power4_average", "power4_input",
    "power5_average", "power5_input", "power6_average", "power6_input", "power7_average", "power7_input", "power8_average", "power8_input"]

theorem mem_keys (key : String) : (∃ n ∈ List.range' 1 8, key ∈ keys n) ↔ key ∈ sensorNames := by
  have h1 : ∀ n ∈ List.range' 1 8, ∀ k ∈ keys n, k ∈ sensorNames := by decide +kernel
  have h2 : ∀ k ∈ sensorNames, ∃ n ∈ List.range' 1 8, k ∈ keys n := by decide +kernel
  exact ⟨fun ⟨n, hn, hk⟩ => h1 n hn key hk, h2 key⟩

/-- C109. The fallback search returns only an existing sensor file of a directory whose `name` is that of a CPU sensor, and it fails
exactly when there is none (or the directory of sensors cannot be read). -/
theorem C109_hwmon (fs : Fs) (isCpu : String → Bool) (hw : Path) :
    (∀ p, findHwmon fs isCpu hw = some p → ∃ names ent key, fs.readDir hw = some names ∧ ent ∈ names ∧
        isCpu (fs.readText ("name" :: ent :: hw)) = true ∧ key ∈ sensorNames ∧ fs.exists_ p = true ∧ p = key :: ent :: hw) ∧
      (findHwmon fs isCpu hw = none ↔ ∀ names, fs.readDir hw = some names → ∀ ent ∈ names,
        isCpu (fs.readText ("name" :: ent :: hw)) = true → ∀ key ∈ sensorNames, fs.exists_ (key :: ent :: hw) = false) := by
  unfold findHwmon
  cases hr : fs.readDir hw with
  | none => simp
  | some names =>
    simp only [Option.some.injEq, forall_eq']
    constructor
    · intro p hp
      obtain ⟨ent, hent, hp⟩ := List.exists_of_findSome?_eq_some hp
      by_cases hc : isCpu (fs.readText ("name" :: ent :: hw)) = true
      · rw [if_pos hc] at hp
        obtain ⟨n, hn, hp⟩ := List.exists_of_findSome?_eq_some hp
        obtain ⟨key, hk, hp⟩ := List.exists_of_findSome?_eq_some hp
        by_cases he : fs.exists_ (key :: ent :: hw) = true
        · rw [if_pos he] at hp
          cases hp
          exact ⟨names, ent, key, rfl, hent, hc, (mem_keys key).1 ⟨n, hn, hk⟩, he, rfl⟩
        · rw [if_neg he] at hp; cases hp
      · rw [if_neg hc] at hp; cases hp
    · rw [List.findSome?_eq_none_iff]
      refine forall₂_congr fun ent _ => ?_
      by_cases hc : isCpu (fs.readText ("name" :: ent :: hw)) = true
      · simp only [hc, if_true, List.findSome?_eq_none_iff, forall_const]
        constructor
        · intro h key hk
          obtain ⟨n, hn, hk⟩ := (mem_keys key).2 hk
          have := h n hn key hk
          by_contra hne
          simp [Bool.eq_true_of_not_eq_false hne] at this
        · intro h n hn key hk
          simp [h key ((mem_keys key).1 ⟨n, hn, hk⟩)]
      · simp [hc]

/-- A file system with two sensors, the second one of a CPU. -/
def sensorFs : Fs where
  readDir p := if p = ["hwmon"] then some ["hwmon0", "hwmon1"] else none
  isDir _ := false
  exists_ p := p = ["power3_input", "hwmon1", "hwmon"]
  readText p := if p = ["name", "hwmon1", "hwmon"] then "k10temp" else "acpi"

/-- C109_hwmon on it. -/
example : findHwmon sensorFs (fun s => s = "k10temp") ["hwmon"] = some ["power3_input", "hwmon1", "hwmon"] := by decide +kernel

end Verif.Tools
