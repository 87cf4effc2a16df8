import Verif.Viz.Lemmas

/-!
# Properties of the CSV tail (C68, C69)

The specification (`rows`, `series`, `History`) is in `Verif.Viz.Spec`.
-/

namespace Verif.Viz

variable {F : Type} (env : Env F) (cfg : Config)

theorem history_inv {p : Plotter F} {last : Option Obs} (h : History env cfg p last) :
    PInv env cfg p last := by
  induction h with
  | new => exact ⟨fun _ => rfl, fun i hi => (by cases hi), [], rfl, fun l hl => (by cases hl),
      [], utf8_real.nil, tracks_nil env cfg⟩
  | init o hg => exact (reload_new env cfg utf8_real o hg).1
  | missing _ ih => exact ih
  | poll o _ hl hg hf ih => exact (poll_inv env cfg utf8_real ih o hl hg hf).1

/-! ## C68 -/

/-- C68: the series after any split of a text into chunks (also inside lines) are those of the complete
lines of the whole text; the run fails exactly if a selected column does not exist. -/
theorem C68_chunk_invariance (chunks : List (List Char)) :
    match rows env cfg chunks.flatten with
    | some rs => (parseChunks env cfg (St.new cfg) chunks).2 = true ∧
        ((parseChunks env cfg (St.new cfg) chunks).1.xs, (parseChunks env cfg (St.new cfg) chunks).1.ys) =
          series cfg rs
    | none => (parseChunks env cfg (St.new cfg) chunks).2 = false ∧
        ((parseChunks env cfg (St.new cfg) chunks).1.xs, (parseChunks env cfg (St.new cfg) chunks).1.ys) =
          series cfg [] := by
  obtain ⟨h1, h2, h3⟩ := parseChunks_new env cfg chunks
  cases hr : rows env cfg chunks.flatten with
  | none =>
    rw [hr] at h1
    exact ⟨h1, h3 h1⟩
  | some rs =>
    rw [hr] at h1
    obtain ⟨rs', h4, h5, _⟩ := tracks_series env cfg (h2 h1)
    rw [hr] at h4
    cases h4
    exact ⟨h1, h5⟩

/-- C68: two splits of the same text give the same state (series, header and unterminated rest). -/
theorem C68_same_text (c₁ c₂ : List (List Char)) (h : c₁.flatten = c₂.flatten) :
    (parseChunks env cfg (St.new cfg) c₁).2 = (parseChunks env cfg (St.new cfg) c₂).2 ∧
    ((parseChunks env cfg (St.new cfg) c₁).2 = true →
      parseChunks env cfg (St.new cfg) c₁ = parseChunks env cfg (St.new cfg) c₂) := by
  obtain ⟨h1, h2, _⟩ := parseChunks_new env cfg c₁
  obtain ⟨k1, k2, _⟩ := parseChunks_new env cfg c₂
  have e : (parseChunks env cfg (St.new cfg) c₁).2 = (parseChunks env cfg (St.new cfg) c₂).2 := by
    rw [h1, k1, h]
  refine ⟨e, fun ht => ?_⟩
  have a := h2 ht
  have b := k2 (e ▸ ht)
  rw [h] at a
  exact Prod.ext (a.2.trans b.2.symm) e

/-- C68 (polling): after any history of polls, with growth, rotation, missing files and polls in the middle
of a line or of a character, the series are exactly those of the text of a beginning of the file last seen
(the `pos` bytes read so far). -/
theorem C68_poll_safe {p : Plotter F} {last : Option Obs} (h : History env cfg p last) :
    ∃ (c : List UInt8) (s : List Char) (rs : List (F × List F)),
      c.length = p.pos ∧ (∀ l, last = some l → c <+: l.content) ∧
      utf8Decode c = some s ∧ rows env cfg s = some rs ∧ (p.st.xs, p.st.ys) = series cfg rs := by
  have H := history_inv env cfg h
  obtain ⟨c, h1, h2, s, h3, h4⟩ := H.bytes
  obtain ⟨rs, h5, h6, _⟩ := tracks_series env cfg h4
  exact ⟨c, s, rs, h1, h2, h3, h5, h6⟩

/-- C68 (polling): a poll that sees a file of valid UTF-8 that does not grow between its two looks succeeds,
and then the series are those of parsing the whole file in one go. -/
theorem C68_poll_fresh {p : Plotter F} {last : Option Obs} (h : History env cfg p last) (o : Obs)
    (hl : o.len = o.content.length) (hg : GoodObs env cfg o)
    (hf : ∀ l, last = some l →
      (o.id = l.id ∧ l.content <+: o.content ∧ l.content.length ≤ o.len) ∨ o.id ≠ l.id ∨ o.len < p.pos)
    (s : List Char) (hs : utf8Decode o.content = some s) :
    ∃ rs, rows env cfg s = some rs ∧
      (Plotter.updateOnce env cfg p (some o)).2 ≠ none ∧
      ((Plotter.updateOnce env cfg p (some o)).1.st.xs,
       (Plotter.updateOnce env cfg p (some o)).1.st.ys) = series cfg rs := by
  obtain ⟨_, h2, _⟩ := poll_inv env cfg utf8_real (history_inv env cfg h) o (Nat.le_of_eq hl) hg hf
  obtain ⟨h3, h4⟩ := h2 (by rw [hs]; simp) hl
  obtain ⟨c, s', rs, k1, k2, k3, k4, k5⟩ :=
    C68_poll_safe env cfg (History.poll o h (Nat.le_of_eq hl) hg hf)
  have hc : c = o.content := by
    have hp := k2 o rfl
    exact hp.eq_of_length (by rw [k1, h4])
  rw [hc, hs] at k3
  cases k3
  exact ⟨rs, k4, h3, k5⟩

/-- C68 (polling): the first load of a valid file gives the series of the whole file. -/
theorem C68_initialize (o : Obs) (hg : GoodObs env cfg o) (s : List Char)
    (hs : utf8Decode o.content = some s) :
    ∃ rs, rows env cfg s = some rs ∧
      (Plotter.initialize env cfg (Plotter.new cfg) (some o)).2 = some () ∧
      ((Plotter.initialize env cfg (Plotter.new cfg) (some o)).1.st.xs,
       (Plotter.initialize env cfg (Plotter.new cfg) (some o)).1.st.ys) = series cfg rs := by
  obtain ⟨h1, h2, _⟩ := reload_new env cfg utf8_real o hg
  obtain ⟨h3, h4⟩ := h2 (by rw [hs]; simp)
  obtain ⟨c, s', rs, k1, k2, k3, k4, k5⟩ := C68_poll_safe env cfg (History.init o hg)
  have hc : c = o.content := (k2 o rfl).eq_of_length (by rw [k1]; exact h4)
  rw [hc, hs] at k3
  cases k3
  exact ⟨rs, k4, h3, k5⟩

/-- C68 (polling): within a history a poll returns `Err` only when the bytes seen are not valid UTF-8
(a poll inside a multi-byte character, or a file that is not UTF-8), and then nothing that was read is lost:
`C68_poll_safe` still holds and a later poll catches up. -/
theorem C68_poll_error {p : Plotter F} {last : Option Obs} (h : History env cfg p last) (o : Obs)
    (hl : o.len ≤ o.content.length) (hg : GoodObs env cfg o)
    (hf : ∀ l, last = some l →
      (o.id = l.id ∧ l.content <+: o.content ∧ l.content.length ≤ o.len) ∨ o.id ≠ l.id ∨ o.len < p.pos)
    (he : (Plotter.updateOnce env cfg p (some o)).2 = none) : utf8Decode o.content = none :=
  (poll_inv env cfg utf8_real (history_inv env cfg h) o hl hg hf).2.2 he

/-! ### A concrete environment for the examples -/

/-- Digits as numbers, everything else unparsable. -/
def toyParse : List Char → Option Nat
  | [c] => if c.isDigit then some (c.toNat - 48) else none
  | _ => none

/-- Blank, tab, newline and carriage return are white space. -/
def toyEnv : Env Nat := { ws := fun c => c.isWhitespace, parseF := toyParse, parseUsize := toyParse }

/-- Header `t,a,b`, keep two points. -/
def toyCfg : Config := { xColumn := ['t'], yColumns := [['a'], ['b']], hasHeader := true, maxPoints := some 2 }

/-- A small file: three data rows, one unusable row, an unterminated row. -/
def toyText : List Char := "t,a,b\r\n1,2,3\r\nx,1,2\n\n 2 ,4,5\n3,6,7\n4,".toList

example : rows toyEnv toyCfg toyText = some [(1, [2, 3]), (2, [4, 5]), (3, [6, 7])] := by decide +kernel

example : series toyCfg [(1, [2, 3]), (2, [4, 5]), (3, [6, 7])] = ([2, 3], [[4, 6], [5, 7]]) := by
  decide +kernel

/-- `C68_chunk_invariance` used on a split inside `\r\n` and inside a number field. -/
example : (parseChunks toyEnv toyCfg (St.new toyCfg)
    [toyText.take 6, toyText.drop 6 |>.take 3, toyText.drop 9]).1.xs = [2, 3] := by decide +kernel

/-- The hypothesis `GoodObs` of the polling theorems holds when the whole file is valid UTF-8 and has the
selected columns. -/
theorem goodObs_of_file (o : Obs) (s : List Char) (hs : utf8Decode o.content = some s)
    (hr : rows env cfg s ≠ none) : GoodObs env cfg o := by
  rintro c s' ⟨t, ht⟩ hs' hn
  rw [← ht] at hs
  obtain ⟨u, hu⟩ := utf8_real.split c t s' hs' s hs
  rw [utf8_real.append c t s' u hs' hu] at hs
  cases hs
  apply hr
  have h1 := rows_ok env cfg s'
  have h2 := rows_ok env cfg (s' ++ u)
  rw [completeLines_append, runLines_append, h1, hn] at h2
  rw [if_neg (by simp)] at h2
  rw [h1, hn] at h2
  cases h : rows env cfg (s' ++ u) with
  | none => rfl
  | some _ => rw [h] at h2; cases h2

/-- The bytes of the small file. -/
def toyObs (n : Nat) : Obs := { id := 7, len := n, content := (toyText.take n).map fun c => c.val.toUInt8 }

theorem toyObs_good (n : Nat) (hn : n = 9 ∨ n = 20 ∨ n = 38) : GoodObs toyEnv toyCfg (toyObs n) := by
  apply goodObs_of_file toyEnv toyCfg _ (toyText.take n)
  · rcases hn with rfl | rfl | rfl <;> decide +kernel
  · rcases hn with rfl | rfl | rfl <;> decide +kernel

/-- A history with two polls, one of them in the middle of a line, and a third poll as in
`C68_poll_fresh`. -/
example : ∃ p, History toyEnv toyCfg p (some (toyObs 20)) ∧
    (Plotter.updateOnce toyEnv toyCfg p (some (toyObs 38))).1.st.xs = [2, 3] :=
  ⟨_, History.poll (toyObs 20) (History.init (toyObs 9) (toyObs_good 9 (by simp))) (by decide +kernel)
    (toyObs_good 20 (by simp))
    (fun l hl => by cases hl; exact Or.inl ⟨rfl, ⟨(toyObs 20).content.drop 9, by decide +kernel⟩,
      by decide +kernel⟩), by decide +kernel⟩

/-- C68 in full is not met: a poll that lands inside a multi-byte character returns `Err`, which ends
`run_forever`. Here the file grows from `1\nx` to `1\nxé\n2\n`, and a poll sees the first byte of `é`. -/
theorem C68_mid_character_fails :
    ∃ (cfg : Config) (o₁ o₂ o₃ : Obs) (p : Plotter Nat),
      History toyEnv cfg p (some o₁) ∧
      o₁.content <+: o₂.content ∧ o₂.content <+: o₃.content ∧
      o₁.id = o₂.id ∧ o₂.len = o₂.content.length ∧
      (utf8Decode o₃.content).isSome = true ∧
      (Plotter.updateOnce toyEnv cfg p (some o₂)).2 = none := by
  let cfg : Config := { xColumn := ['0'], yColumns := [], hasHeader := false, maxPoints := none }
  refine ⟨cfg, ⟨7, 3, [0x31, 0x0A, 0x78]⟩, ⟨7, 4, [0x31, 0x0A, 0x78, 0xC3]⟩,
    ⟨7, 8, [0x31, 0x0A, 0x78, 0xC3, 0xA9, 0x0A, 0x32, 0x0A]⟩, _,
    History.init _ (goodObs_of_file toyEnv cfg _ ['1', '\n', 'x'] (by decide +kernel)
      (by decide +kernel)), ⟨[0xC3], rfl⟩, ⟨[0xA9, 0x0A, 0x32, 0x0A], rfl⟩, rfl, rfl,
    by decide +kernel, by decide +kernel⟩

/-- C68 in full is not met: `initialize` on an already loaded plotter (as `run_forever` does after the
caller's own `initialize`) reads the whole file again without clearing, so every row appears twice. -/
theorem C68_initialize_twice_fails :
    ∃ (cfg : Config) (o : Obs), GoodObs toyEnv cfg o ∧
      (Plotter.initialize toyEnv cfg (Plotter.new cfg) (some o)).1.st.xs = [1, 2] ∧
      (Plotter.initialize toyEnv cfg
        (Plotter.initialize toyEnv cfg (Plotter.new cfg) (some o)).1 (some o)).1.st.xs = [1, 2, 1, 2] := by
  let cfg : Config := { xColumn := ['0'], yColumns := [], hasHeader := false, maxPoints := none }
  exact ⟨cfg, ⟨7, 4, [0x31, 0x0A, 0x32, 0x0A]⟩,
    goodObs_of_file toyEnv cfg _ ['1', '\n', '2', '\n'] (by decide +kernel) (by decide +kernel),
    by decide +kernel, by decide +kernel⟩

/-! ## C69 -/

/-- C69: after any run over chunks (also a failed one) there is one y series per configured column, each has
as many points as x, at most `max_points` points are kept, and they are the most recent rows: the last
`min max_points n` of the `n` rows of the text. -/
theorem C69_aligned_bounded_partial (chunks : List (List Char)) :
    let st := (parseChunks env cfg (St.new cfg) chunks).1
    st.ys.length = cfg.yColumns.length ∧
    (∀ c ∈ st.ys, c.length = st.xs.length) ∧
    (∀ m, cfg.maxPoints = some m → st.xs.length ≤ m) ∧
    (∀ rs, rows env cfg chunks.flatten = some rs →
      ∃ old, rs.map (·.1) = old ++ st.xs ∧
        (∀ m, cfg.maxPoints = some m → old ≠ [] → st.xs.length = m) ∧
        (cfg.maxPoints = none → old = [])) := by
  have key : ∀ (xs : List F) (ys : List (List F)) rs, (xs, ys) = series cfg rs →
      Full cfg.yColumns.length rs →
      ys.length = cfg.yColumns.length ∧ (∀ c ∈ ys, c.length = xs.length) ∧
      (∀ m, cfg.maxPoints = some m → xs.length ≤ m) ∧
      ∃ old, rs.map (·.1) = old ++ xs ∧ (∀ m, cfg.maxPoints = some m → old ≠ [] → xs.length = m) ∧
        (cfg.maxPoints = none → old = []) := by
    intro xs ys rs h hf
    obtain ⟨h1, h2⟩ := series_lengths cfg hf
    have hx : xs = (series cfg rs).1 := congrArg Prod.fst h
    have hy : ys = (series cfg rs).2 := congrArg Prod.snd h
    rw [← hx, ← hy] at h2
    rw [← hy] at h1
    have hx' : xs = (lastN cfg.maxPoints rs).map (·.1) := hx
    refine ⟨h1, h2, ?_, ?_⟩
    · intro m hm
      rw [hx', List.length_map, lastN_length, hm]
      exact Nat.min_le_left _ _
    · cases hm : cfg.maxPoints with
      | none =>
        refine ⟨[], ?_, fun m h => (by cases h), fun _ => rfl⟩
        rw [hx', hm]; rfl
      | some m =>
        refine ⟨(rs.take (rs.length - m)).map (·.1), ?_, ?_, fun h => (by cases h)⟩
        · rw [hx', hm, ← List.map_append]
          simp only [lastN, List.take_append_drop]
        · intro m' hm' hne
          cases hm'
          rw [hx', List.length_map, lastN_length, hm]
          have : rs.length - m ≠ 0 := by
            intro h0
            rw [h0] at hne
            exact hne rfl
          show min m rs.length = m
          omega
  intro st
  obtain ⟨h1, h2, h3⟩ := parseChunks_new env cfg chunks
  cases hb : (parseChunks env cfg (St.new cfg) chunks).2 with
  | true =>
    obtain ⟨rs, k1, k2, k3⟩ := tracks_series env cfg (h2 hb)
    obtain ⟨a1, a2, a3, a4⟩ := key st.xs st.ys rs k2 k3
    refine ⟨a1, a2, a3, fun rs' hr' => ?_⟩
    rw [k1] at hr'
    cases hr'
    exact a4
  | false =>
    obtain ⟨a1, a2, a3, a4⟩ := key st.xs st.ys [] (h3 hb) (fun r hr => (by cases hr))
    refine ⟨a1, a2, a3, fun rs' hr' => ?_⟩
    rw [hr', hb] at h1
    cases h1

/-- C69 for histories of polls of a file. -/
theorem C69_poll_aligned_bounded {p : Plotter F} {last : Option Obs} (h : History env cfg p last) :
    p.st.ys.length = cfg.yColumns.length ∧
    (∀ c ∈ p.st.ys, c.length = p.st.xs.length) ∧
    (∀ m, cfg.maxPoints = some m → p.st.xs.length ≤ m) := by
  obtain ⟨c, h1, h2, s, h3, h4⟩ := (history_inv env cfg h).bytes
  obtain ⟨rs, h5, h6, h7⟩ := tracks_series env cfg h4
  obtain ⟨k1, k2⟩ := series_lengths cfg h7
  have hx : p.st.xs = (series cfg rs).1 := congrArg Prod.fst h6
  have hy : p.st.ys = (series cfg rs).2 := congrArg Prod.snd h6
  rw [hx, hy]
  refine ⟨k1, k2, ?_⟩
  intro m hm
  show ((lastN cfg.maxPoints rs).map (·.1)).length ≤ m
  rw [List.length_map, lastN_length, hm]
  exact Nat.min_le_left _ _

/-- C69 in full is not met: when a caller goes on polling after the `Err` for a missing y column, the
columns resolved so far are used, and the series lose their alignment (here x has a point, the second y
series has none). The first chunk is the header without the column `b`. -/
theorem C69_after_error_fails :
    let s₁ := (parseTextChunk toyEnv toyCfg (St.new toyCfg) "t,a\n".toList)
    let s₂ := (parseTextChunk toyEnv toyCfg s₁.1 "1,2\n".toList)
    s₁.2 = none ∧ s₂.2 = some true ∧ s₂.1.xs = [1] ∧ s₂.1.ys = [[2], []] := by
  decide +kernel

end Verif.Viz
