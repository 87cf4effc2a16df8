import Verif.Text.Model

/-!
# C134: what is printed can be read back

The reader knows nothing of how the text was made: it drops the brackets, takes `;` to end a row and blanks and commas to separate numbers.
-/

namespace Verif.Text

open Verif.Mat Verif.Att

/-- The pieces of a text between the characters that satisfy `p`. -/
def pieces (p : Char → Bool) : List Char → List (List Char)
  | [] => [[]]
  | c :: cs => if p c then [] :: pieces p cs else
    match pieces p cs with
    | [] => [[c]]
    | w :: ws => (c :: w) :: ws

/-- The numbers of a text, separated by blanks and commas. -/
def words (s : List Char) : List (List Char) := (pieces (fun c => c = ' ' ∨ c = ',') s).filter (· ≠ [])

/-- The text after the last `[` and before the last character. -/
def inside (s : List Char) : List Char := (s.reverse.drop 1).takeWhile (· ≠ '[') |>.reverse

/-- Read a list of numbers. -/
def readVec {α : Type*} (read : List Char → Option α) (s : List Char) : Option (List α) := (words (inside s)).mapM read

/-- Read a list of rows. -/
def readMat {α : Type*} (read : List Char → Option α) (s : List Char) : Option (List (List α)) :=
  (pieces (· = ';') (inside s)).mapM fun r => (words r).mapM read

/-- A way of printing scalars that can be read back and does not use the characters of the layout. Every printed form of a floating point
number is of this kind (digits, signs, point, `e`, `inf`, `NaN`). -/
def Plain {α : Type*} (fmt : α → List Char) (read : List Char → Option α) : Prop :=
  ∀ x, read (fmt x) = some x ∧ fmt x ≠ [] ∧ ∀ c ∈ fmt x, c ∉ ['[', ']', ';', ',', ' ']

section
variable {α : Type*} {fmt : α → List Char} {read : List Char → Option α}

theorem pieces_ne_nil (p : Char → Bool) (s : List Char) : pieces p s ≠ [] := by
  cases s with
  | nil => simp [pieces]
  | cons c cs =>
    unfold pieces
    split
    · simp
    · split <;> simp

theorem pieces_none {p : Char → Bool} {s : List Char} (h : ∀ c ∈ s, p c = false) : pieces p s = [s] := by
  induction s with
  | nil => rfl
  | cons c cs ih =>
    rw [pieces, ih (fun d hd => h d (List.mem_cons_of_mem _ hd))]
    simp [h c (List.mem_cons_self ..)]

theorem pieces_append {p : Char → Bool} {s : List Char} (h : ∀ c ∈ s, p c = false) {d : Char} (hd : p d = true) (t : List Char) :
    pieces p (s ++ d :: t) = s :: pieces p t := by
  induction s with
  | nil => simp [pieces, hd]
  | cons c cs ih =>
    rw [List.cons_append, pieces, ih (fun e he => h e (List.mem_cons_of_mem _ he))]
    simp [h c (List.mem_cons_self ..)]

/-- Joining with a separator. -/
def join (sep : List Char) : List (List Char) → List Char
  | [] => []
  | [w] => w
  | w :: w' :: ws => w ++ sep ++ join sep (w' :: ws)

theorem foldl_join {β : Type*} (g : β → List Char) (sep : List Char) :
    ∀ (l : List β) (b : β → Bool) (acc : List Char), (∀ i (hi : i < l.length), b l[i] = decide (i + 1 < l.length)) →
      l.foldl (fun f i => if b i then f ++ g i ++ sep else f ++ g i) acc = acc ++ join sep (l.map g) := by
  intro l
  induction l with
  | nil => intro b acc _; simp [join]
  | cons x xs ih =>
    intro b acc h
    rw [List.foldl_cons, ih]
    · have h0 := h 0 (by simp)
      cases xs with
      | nil =>
        simp at h0
        simp [join, h0]
      | cons y ys =>
        simp at h0
        simp [join, h0]
    · intro i hi
      have := h (i + 1) (by simpa using hi)
      simpa using this

theorem finRange_flag (n : ℕ) : ∀ i (hi : i < (List.finRange n).length),
    (fun k : Fin n => decide (k.1 < n - 1)) (List.finRange n)[i] = decide (i + 1 < (List.finRange n).length) := by
  intro i hi
  simp at hi ⊢
  omega

theorem showVec_eq {n : ℕ} (v : Fin n → α) : showVec fmt v = '[' :: join [' '] ((List.finRange n).map fun i => fmt (v i)) ++ [']'] := by
  unfold showVec
  dsimp only
  have := foldl_join (fun i => fmt (v i)) [' '] (List.finRange n) (fun k : Fin n => decide (k.1 < n - 1)) ['['] (finRange_flag n)
  simp only [decide_eq_true_eq] at this
  rw [this]
  rfl

theorem showMat_eq {m n : ℕ} (a : Mat α m n) : showMat fmt a =
    '[' :: join [';', ' '] ((List.finRange m).map fun i => join [' '] ((List.finRange n).map fun j => fmt (a i j))) ++ [']'] := by
  unfold showMat
  dsimp only
  have h1 : ∀ (f : List Char) (i : Fin m), (List.finRange n).foldl (fun f j => if j.1 < n - 1 then f ++ fmt (a i j) ++ [' '] else f ++ fmt (a i j)) f =
      f ++ join [' '] ((List.finRange n).map fun j => fmt (a i j)) := by
    intro f i
    have := foldl_join (fun j => fmt (a i j)) [' '] (List.finRange n) (fun k : Fin n => decide (k.1 < n - 1)) f (finRange_flag n)
    simpa only [decide_eq_true_eq] using this
  simp only [h1]
  have := foldl_join (fun i => join [' '] ((List.finRange n).map fun j => fmt (a i j))) [';', ' '] (List.finRange m)
    (fun k : Fin m => decide (k.1 < m - 1)) ['['] (finRange_flag m)
  simp only [decide_eq_true_eq] at this
  rw [this]
  rfl

theorem inside_eq {pre s : List Char} (h : ∀ c ∈ s, c ≠ '[') : inside (pre ++ '[' :: s ++ [']']) = s := by
  unfold inside
  have : (pre ++ '[' :: s ++ [']']).reverse.drop 1 = s.reverse ++ '[' :: pre.reverse := by simp
  rw [this, List.takeWhile_append_of_pos (by simpa using h)]
  simp

theorem mem_join {sep : List Char} {P : Char → Prop} (hs : ∀ c ∈ sep, P c) :
    ∀ {l : List (List Char)}, (∀ w ∈ l, ∀ c ∈ w, P c) → ∀ c ∈ join sep l, P c
  | [], _, c, hc => by simp [join] at hc
  | [w], h, c, hc => h w (by simp) c hc
  | w :: w' :: ws, h, c, hc => by
    simp only [join, List.mem_append] at hc
    rcases hc with (hc | hc) | hc
    · exact h w (by simp) c hc
    · exact hs c hc
    · exact mem_join hs (fun x hx => h x (List.mem_cons_of_mem _ hx)) c hc

theorem words_join {l : List (List Char)} (h : ∀ w ∈ l, w ≠ [] ∧ ∀ c ∈ w, c ≠ ' ' ∧ c ≠ ',') : words (join [' '] l) = l := by
  induction l with
  | nil => rfl
  | cons w ws ih =>
    have hw := h w (by simp)
    have hp : ∀ c ∈ w, (fun c : Char => decide (c = ' ' ∨ c = ',')) c = false := by
      intro c hc
      simp [hw.2 c hc]
    cases ws with
    | nil =>
      unfold words
      rw [join, pieces_none hp]
      simp [hw.1]
    | cons w' ws =>
      have ih := ih fun x hx => h x (List.mem_cons_of_mem _ hx)
      unfold words at *
      rw [join, List.append_assoc, List.singleton_append, pieces_append hp (by simp)]
      rw [List.filter_cons_of_pos (by simpa using hw.1), ih]

theorem words_blank (s : List Char) : words (' ' :: s) = words s := by
  unfold words
  simp [pieces]

theorem pieces_rows {l : List (List Char)} (hl : l ≠ []) (h : ∀ w ∈ l, ∀ c ∈ w, c ≠ ';') :
    ∃ r, pieces (· = ';') (join [';', ' '] l) = r ∧ r.map words = l.map words := by
  refine ⟨_, rfl, ?_⟩
  induction l with
  | nil => exact absurd rfl hl
  | cons w ws ih =>
    have hp : ∀ c ∈ w, (fun c : Char => decide (c = ';')) c = false := by
      intro c hc
      simpa using h w (by simp) c hc
    cases ws with
    | nil => rw [join, pieces_none hp]
    | cons w' ws =>
      have ih := ih (by simp) fun x hx => h x (List.mem_cons_of_mem _ hx)
      have e : join [';', ' '] (w :: w' :: ws) = w ++ ';' :: (' ' :: join [';', ' '] (w' :: ws)) := by simp [join]
      rw [e, pieces_append hp (by simp)]
      have e2 : pieces (fun c => decide (c = ';')) (' ' :: join [';', ' '] (w' :: ws)) =
          match pieces (fun c => decide (c = ';')) (join [';', ' '] (w' :: ws)) with
          | [] => [[' ']]
          | x :: xs => (' ' :: x) :: xs := by
        rw [pieces]
        simp
      rw [e2]
      have hne := pieces_ne_nil (fun c => decide (c = ';')) (join [';', ' '] (w' :: ws))
      generalize pieces (fun c => decide (c = ';')) (join [';', ' '] (w' :: ws)) = q at *
      cases q with
      | nil => exact absurd rfl hne
      | cons x xs =>
        simp only [List.map_cons] at ih ⊢
        rw [words_blank, ih]

theorem mapM_read (h : Plain fmt read) (l : List α) : (l.map fmt).mapM read = some l := by
  induction l with
  | nil => rfl
  | cons x xs ih => simp [(h x).1, ih]

theorem Plain.word (h : Plain fmt read) (l : List α) : ∀ w ∈ l.map fmt, w ≠ [] ∧ ∀ c ∈ w, c ≠ ' ' ∧ c ≠ ',' := by
  intro w hw
  obtain ⟨x, -, rfl⟩ := List.mem_map.1 hw
  refine ⟨(h x).2.1, fun c hc => ?_⟩
  have := (h x).2.2 c hc
  simp at this
  exact ⟨this.2.2.2.2, this.2.2.2.1⟩

theorem Plain.not_mem (h : Plain fmt read) (x : α) : ∀ c ∈ fmt x, c ≠ '[' ∧ c ≠ ';' := by
  intro c hc
  have := (h x).2.2 c hc
  simp at this
  exact ⟨this.1, this.2.2.1⟩

/-- **C134**: the printed form of a vector of any length reads back as its entries. -/
theorem C134_vector (h : Plain fmt read) {n : ℕ} (v : Fin n → α) : readVec read (showVec fmt v) = some (List.ofFn v) := by
  rw [showVec_eq, readVec]
  have e : (List.finRange n).map (fun i => fmt (v i)) = (List.ofFn v).map fmt := by
    rw [List.ofFn_eq_map, List.map_map]
    rfl
  rw [e]
  have hin : inside ('[' :: join [' '] ((List.ofFn v).map fmt) ++ [']']) = join [' '] ((List.ofFn v).map fmt) := by
    refine inside_eq (pre := []) (mem_join (by simp) fun w hw => ?_)
    obtain ⟨x, -, rfl⟩ := List.mem_map.1 hw
    exact fun c hc => (h.not_mem x c hc).1
  rw [hin, words_join (h.word _), mapM_read h]

/-- **C134**: the printed form of a matrix with any number of columns and at least one row reads back as its rows. -/
theorem C134_matrix (h : Plain fmt read) {m n : ℕ} (hm : 0 < m) (a : Mat α m n) :
    readMat read (showMat fmt a) = some (List.ofFn fun i => List.ofFn (a i)) := by
  rw [showMat_eq, readMat]
  have e : ∀ i, (List.finRange n).map (fun j => fmt (a i j)) = (List.ofFn (a i)).map fmt := by
    intro i
    rw [List.ofFn_eq_map, List.map_map]
    rfl
  simp only [e]
  set rows := (List.finRange m).map fun i => join [' '] ((List.ofFn (a i)).map fmt) with hrows
  have hmem : ∀ P : Char → Prop, P ' ' → (∀ x, ∀ c ∈ fmt x, P c) → ∀ w ∈ rows, ∀ c ∈ w, P c := by
    intro P hb hf w hw
    obtain ⟨i, -, rfl⟩ := List.mem_map.1 hw
    refine mem_join (by simpa using hb) fun u hu => ?_
    obtain ⟨x, -, rfl⟩ := List.mem_map.1 hu
    exact hf x
  have hin : inside ('[' :: join [';', ' '] rows ++ [']']) = join [';', ' '] rows :=
    inside_eq (pre := []) (mem_join (by simp) (hmem _ (by decide) fun x c hc => (h.not_mem x c hc).1))
  have hne : rows ≠ [] := by
    rw [hrows, ne_eq, List.map_eq_nil_iff, List.finRange_eq_nil_iff]
    omega
  obtain ⟨r, hr, hw⟩ := pieces_rows hne (hmem _ (by decide) fun x c hc => (h.not_mem x c hc).2)
  rw [hin, hr]
  have h2 : r.mapM (fun r => (words r).mapM read) = (r.map words).mapM fun w => w.mapM read := by
    rw [List.mapM_map]
    rfl
  rw [h2, hw, hrows, List.map_map]
  have h3 : (List.finRange m).map (words ∘ fun i => join [' '] ((List.ofFn (a i)).map fmt)) =
      (List.finRange m).map fun i => (List.ofFn (a i)).map fmt := by
    refine List.map_congr_left fun i _ => ?_
    exact words_join (h.word _)
  rw [h3, List.mapM_map, List.ofFn_eq_map]
  have h4 : ∀ l : List (Fin m), l.mapM (fun i => ((List.ofFn (a i)).map fmt).mapM read) = some (l.map fun i => List.ofFn (a i)) := by
    intro l
    induction l with
    | nil => rfl
    | cons i is ih =>
      rw [List.mapM_cons, mapM_read h, ih]
      rfl
  exact h4 _

/-- Reading a list of comma separated numbers after any heading. -/
theorem read_commas (h : Plain fmt read) (pre : List Char) (x : α) (l : List α) :
    readVec read (pre ++ '[' :: join [',', ' '] ((x :: l).map fmt) ++ [']']) = some (x :: l) := by
  have hin : inside (pre ++ '[' :: join [',', ' '] ((x :: l).map fmt) ++ [']']) = join [',', ' '] ((x :: l).map fmt) := by
    refine inside_eq (mem_join (by simp) fun w hw => ?_)
    obtain ⟨y, -, rfl⟩ := List.mem_map.1 hw
    exact fun c hc => (h.not_mem y c hc).1
  have hw : words (join [',', ' '] ((x :: l).map fmt)) = (x :: l).map fmt := by
    have := h.word (x :: l)
    generalize (x :: l).map fmt = q at this
    induction q with
    | nil => rfl
    | cons w ws ih =>
      have hw := this w (by simp)
      have hp : ∀ c ∈ w, (fun c : Char => decide (c = ' ' ∨ c = ',')) c = false := by
        intro c hc
        simp [hw.2 c hc]
      cases ws with
      | nil =>
        unfold words
        rw [join, pieces_none hp]
        simp [hw.1]
      | cons w' ws =>
        have ih := ih fun x hx => this x (List.mem_cons_of_mem _ hx)
        have e : join [',', ' '] (w :: w' :: ws) = w ++ ',' :: (' ' :: join [',', ' '] (w' :: ws)) := by simp [join]
        rw [← words_blank] at ih
        unfold words at *
        rw [e, pieces_append hp (by simp), List.filter_cons_of_pos (by simpa using hw.1), ih]
  rw [readVec, hin, hw, mapM_read h]

/-- **C134**: the printed forms of quaternions, rotations and Cartesian vectors read back as their components. -/
theorem C134_attitude (h : Plain fmt read) (q : Quat α) (v : Fin 3 → α) :
    readVec read (showQuat fmt q) = some [q.w, q.i, q.j, q.k] ∧ readVec read (showRotation fmt q) = some [q.w, q.i, q.j, q.k] ∧
      readVec read (showCartesian fmt v) = some [v 0, v 1, v 2] := by
  have e1 : showQuat fmt q = ['q', '='] ++ '[' :: join [',', ' '] ([q.w, q.i, q.j, q.k].map fmt) ++ [']'] := by
    simp [showQuat, join]
  have e2 : showRotation fmt q = ['R', 'o', 't', 'a', 't', 'i', 'o', 'n', ':', ' ', 'q', '='] ++
      '[' :: join [',', ' '] ([q.w, q.i, q.j, q.k].map fmt) ++ [']'] := by
    simp [showRotation, showQuat, join]
  have e3 : showCartesian fmt v = ['C', 'a', 'r', 't', 'e', 's', 'i', 'a', 'n', ' ', '[', 'x', ',', 'y', ',', 'z', ']', ':', ' '] ++
      '[' :: join [',', ' '] ([v 0, v 1, v 2].map fmt) ++ [']'] := by
    simp [showCartesian, join]
  refine ⟨?_, ?_, ?_⟩
  · rw [e1]
    exact read_commas h _ _ _
  · rw [e2]
    exact read_commas h _ _ _
  · rw [e3]
    exact read_commas h _ _ _

end

/-- Booleans printed as `0` and `1` are plain, and a printed matrix. -/
example : Plain (fun b : Bool => if b then ['1'] else ['0']) (fun s => if s = ['1'] then some true else if s = ['0'] then some false else none) ∧
    showMat (m := 2) (n := 2) (fun b : Bool => if b then ['1'] else ['0']) ![![true, false], ![false, true]] = "[1 0; 0 1]".toList := by
  refine ⟨fun x => ?_, by decide⟩
  cases x <;> decide

end Verif.Text
