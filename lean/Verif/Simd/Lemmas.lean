import Verif.Simd.Spec
import Verif.Mat.PropsAlg
import Mathlib.Tactic.Linarith
import Mathlib.Tactic.Positivity
import Mathlib.Tactic.Ring
import Mathlib.Tactic.GCongr

/-!
# Lemmas: the loops of the kernels, and error propagation
-/

namespace Verif.Simd

open Verif.Mat (Mat)

/-! ## Error propagation -/

section Err
variable {fl : ℝ → ℝ} {u : ℝ}

theorem Accurate.nonneg (h : Accurate fl u) : 0 ≤ u := by
  have := h 1
  have h0 := abs_nonneg (fl 1 - 1)
  simp at this; linarith

/-- `x` is `e` up to `d` roundings of terms of total size `s`. -/
def App (u : ℝ) (x : Fl fl) (d : Nat) (e s : ℝ) : Prop := |x.val - e| ≤ ((1 + u) ^ d - 1) * s ∧ |e| ≤ s

theorem App.mono (h : Accurate fl u) {x : Fl fl} {d d' : Nat} {e s : ℝ} (hd : d ≤ d') (hx : App u x d e s) :
    App u x d' e s := by
  refine ⟨hx.1.trans ?_, hx.2⟩
  have hs : 0 ≤ s := (abs_nonneg e).trans hx.2
  have h1 : (1 : ℝ) ≤ 1 + u := by linarith [h.nonneg]
  have := pow_le_pow_right₀ h1 hd
  exact mul_le_mul_of_nonneg_right (by linarith) hs

theorem App.zero : App u (0 : Fl fl) 0 0 0 := by
  have : (0 : Fl fl).val = 0 := rfl
  simp [App, this]

theorem App.round (h : Accurate fl u) {z e s : ℝ} {d : Nat} (hz : |z - e| ≤ ((1 + u) ^ d - 1) * s) (he : |e| ≤ s) :
    App u (⟨fl z⟩ : Fl fl) (d + 1) e s := by
  refine ⟨?_, he⟩
  have h1 := h z
  have hu := h.nonneg
  have h2 : |z| ≤ |z - e| + |e| := by
    calc |z| = |(z - e) + e| := by ring_nf
      _ ≤ _ := abs_add_le _ _
  have h3 : |fl z - e| ≤ |fl z - z| + |z - e| := by
    calc |fl z - e| = |(fl z - z) + (z - e)| := by ring_nf
      _ ≤ _ := abs_add_le _ _
  have h4 : u * |z| ≤ u * (((1 + u) ^ d - 1) * s + s) := mul_le_mul_of_nonneg_left (by linarith) hu
  calc |fl z - e| ≤ u * (((1 + u) ^ d - 1) * s + s) + ((1 + u) ^ d - 1) * s := by linarith
    _ = ((1 + u) ^ (d + 1) - 1) * s := by ring

theorem App.mul (h : Accurate fl u) (a b : Fl fl) : App u (a * b) 1 (a.val * b.val) |a.val * b.val| :=
  App.round h (d := 0) (by simp) le_rfl

theorem App.add (h : Accurate fl u) {x y : Fl fl} {d : Nat} {e s f t : ℝ} (hx : App u x d e s)
    (hy : App u y d f t) : App u (x + y) (d + 1) (e + f) (s + t) := by
  refine App.round h ?_ ((abs_add_le _ _).trans (add_le_add hx.2 hy.2))
  calc |x.val + y.val - (e + f)| = |(x.val - e) + (y.val - f)| := by ring_nf
    _ ≤ |x.val - e| + |y.val - f| := abs_add_le _ _
    _ ≤ _ := by linarith [hx.1, hy.1]

theorem App.fma (h : Accurate fl u) (a b : Fl fl) {y : Fl fl} {d : Nat} {f t : ℝ} (hy : App u y d f t) :
    App u (Fma.fma a b y) (d + 1) (f + a.val * b.val) (t + |a.val * b.val|) := by
  refine App.round h ?_ ((abs_add_le _ _).trans (add_le_add hy.2 le_rfl))
  have hu := h.nonneg
  have h1 : (1 : ℝ) ≤ (1 + u) ^ d := one_le_pow₀ (by linarith)
  calc |a.val * b.val + y.val - (f + a.val * b.val)| = |y.val - f| := by ring_nf
    _ ≤ ((1 + u) ^ d - 1) * t := hy.1
    _ ≤ _ := by
      apply mul_le_mul_of_nonneg_left _ (by linarith)
      have := abs_nonneg (a.val * b.val)
      linarith

theorem App.addMul (h : Accurate fl u) (a b : Fl fl) {y : Fl fl} {d : Nat} (hd : 1 ≤ d) {f t : ℝ}
    (hy : App u y d f t) : App u (y + a * b) (d + 1) (f + a.val * b.val) (t + |a.val * b.val|) :=
  App.add h hy ((App.mul h a b).mono h hd)

/-- One step `s ↦ s + a * b` in any of the forms the kernels use. -/
def Step (a b y r : Fl fl) : Prop := r = Fma.fma a b y ∨ r = Fma.fma b a y ∨ r = y + a * b ∨ r = y + b * a

theorem App.step (h : Accurate fl u) {a b y r : Fl fl} {d : Nat} (hd : 1 ≤ d) {f t : ℝ} (hy : App u y d f t)
    (hr : Step a b y r) : App u r (d + 1) (f + a.val * b.val) (t + |a.val * b.val|) := by
  rcases hr with rfl | rfl | rfl | rfl
  · exact App.fma h a b hy
  · have := App.fma h b a hy
    rwa [mul_comm b.val] at this
  · exact App.addMul h a b hd hy
  · have := App.addMul h b a hd hy
    rwa [mul_comm b.val] at this

theorem App.close {x : Fl fl} {d n : Nat} {a b : Fin n → Fl fl}
    (hx : App u x d (∑ k, (a k).val * (b k).val) (∑ k, |(a k).val * (b k).val|)) : Close u d x a b := hx.1

theorem Close.mono (h : Accurate fl u) {x : Fl fl} {d d' n : Nat} (hd : d ≤ d') {a b : Fin n → Fl fl}
    (hx : Close u d x a b) : Close u d' x a b :=
  (App.mono h hd ⟨hx, Finset.abs_sum_le_sum_abs _ _⟩ : App u x d' _ _).1

theorem app_list (h : Accurate fl u) {κ : Type*} (a b : κ → Fl fl) (l : List κ) :
    ∀ (y : Fl fl) (d : Nat), 1 ≤ d → ∀ f t : ℝ, App u y d f t →
      App u (l.foldl (fun s k => s + a k * b k) y) (d + l.length)
        (f + (l.map fun k => (a k).val * (b k).val).sum) (t + (l.map fun k => |(a k).val * (b k).val|).sum) := by
  induction l with
  | nil => intro y d _ f t hy; simpa using hy
  | cons k l ih =>
    intro y d hd f t hy
    have := ih _ (d + 1) (by omega) _ _ (App.addMul h (a k) (b k) hd hy)
    simpa [add_assoc, add_comm, add_left_comm] using this

/-- The plain loop `s = 0; for k { s += a[k] * b[k] }`. -/
theorem close_foldl (h : Accurate fl u) {n : Nat} (a b : Fin n → Fl fl) :
    Close u (n + 1) ((List.finRange n).foldl (fun s k => s + a k * b k) 0) a b := by
  have := app_list h a b (List.finRange n) 0 1 le_rfl 0 0 (App.zero.mono h (by omega))
  rw [zero_add, zero_add, ← Fin.sum_univ_def, ← Fin.sum_univ_def, List.length_finRange, Nat.add_comm] at this
  exact this.close

end Err

/-! ## Loops -/

section Loops
variable {α : Type*}

theorem rows_aux {m : Nat} [Zero α] {f : Fin m → Option α} {g : Fin m → α} (hf : ∀ i, f i = some (g i))
    (l : List (Fin m)) : ∀ out : Fin m → α,
      l.foldlM (fun out i => do
        let x ← f i
        some (Function.update out i x)) out = some fun i => if i ∈ l then g i else out i := by
  induction l with
  | nil => intro out; simp
  | cons k l ih =>
    intro out
    rw [List.foldlM_cons, hf k]
    show l.foldlM _ _ = _
    rw [ih]
    congr 1; funext i
    by_cases h1 : i ∈ l
    · simp [h1]
    · by_cases h2 : i = k
      · subst h2; simp [h1]
      · simp [h1, h2]

theorem rows_eq {m : Nat} [Zero α] {f : Fin m → Option α} {g : Fin m → α} (hf : ∀ i, f i = some (g i)) :
    rows f = some g := by
  unfold rows
  rw [rows_aux hf]
  simp [List.mem_finRange]

theorem matRows_aux {m p : Nat} {f : Fin m → (Fin p → α) → Option (Fin p → α)} (init : Fin p → α)
    {g : Fin m → Fin p → α} (hf : ∀ i, f i init = some (g i)) (l : List (Fin m)) (hl : l.Nodup) :
    ∀ out : Mat α m p, (∀ i ∈ l, out i = init) →
      l.foldlM (fun out i => do
        let r ← f i (out i)
        some (Function.update out i r)) out = some fun i => if i ∈ l then g i else out i := by
  induction l with
  | nil => intro out _; simp
  | cons k l ih =>
    intro out ho
    rw [List.nodup_cons] at hl
    rw [List.foldlM_cons, ho k (by simp), hf k]
    show l.foldlM _ _ = _
    rw [ih hl.2]
    · congr 1; funext i
      by_cases h1 : i ∈ l
      · simp [h1]
      · by_cases h2 : i = k
        · subst h2; simp [h1]
        · simp [h1, h2]
    · intro i hi
      rw [Function.update_of_ne]
      · exact ho i (by simp [hi])
      · rintro rfl; exact hl.1 hi

theorem matRows_eq {m p : Nat} [Zero α] {f : Fin m → (Fin p → α) → Option (Fin p → α)}
    {g : Fin m → Fin p → α} (hf : ∀ i, f i (fun _ => 0) = some (g i)) : matRows f = some g := by
  unfold matRows
  rw [matRows_aux (fun _ => 0) hf _ (List.nodup_finRange m) _ (fun _ _ => rfl)]
  simp [List.mem_finRange]

theorem blocks_spec [Zero α] [Add α] [Mul α] [Fma α] {p w : Nat} (hw : 0 < w)
    {op : (Fin w → α) → (Fin w → α) → Fin w → α} {g : α → α → α}
    (hop : ∀ c b l, op c b l = g (c l) (b l)) (b : Fin p → α) :
    ∀ (j : Nat) (c : Fin p → α), ∃ c' j', blocks hw op b j c = some (c', j') ∧ j ≤ j' ∧
      ∀ i : Fin p, c' i = if j ≤ i.val ∧ i.val < j' then g (c i) (b i) else c i := by
  intro j c
  induction j, c using blocks.induct (p := p) hw with
  | case1 j c h ih =>
    rw [blocks, if_pos h]
    have hb : load w b j = some fun l => b ⟨j + l.val, by omega⟩ := by simp [load, h]
    have hc : load w c j = some fun l => c ⟨j + l.val, by omega⟩ := by simp [load, h]
    rw [hb, hc]
    simp only [Option.bind_eq_bind, Option.bind_some, store, if_pos h]
    obtain ⟨c', j', h1, h2, h3⟩ := ih _
    refine ⟨c', j', h1, by omega, fun i => ?_⟩
    rw [h3 i]
    by_cases hi : j + w ≤ i.val ∧ i.val < j'
    · rw [if_pos hi, if_pos (by omega), dif_neg (by omega)]
    · rw [if_neg hi]
      by_cases hi2 : j ≤ i.val ∧ i.val < j + w
      · rw [dif_pos hi2, if_pos (by omega), hop]
        have : (⟨j + (i.val - j), by omega⟩ : Fin p) = i := Fin.ext (by simp; omega)
        simp only [this]
      · rw [dif_neg hi2, if_neg (by omega)]
  | case2 j c h =>
    rw [blocks, if_neg h]
    exact ⟨c, j, rfl, le_rfl, fun i => by rw [if_neg (by omega)]⟩

theorem bump_eq [Add α] [Mul α] {p : Nat} (a : α) (b : Fin p → α) {j : Nat} (hj : j < p) (c : Fin p → α) :
    bump a b j c = some (Function.update c ⟨j, hj⟩ (c ⟨j, hj⟩ + a * b ⟨j, hj⟩)) := by
  simp [bump, idx, setIdx, hj]

theorem tail_spec [Add α] [Mul α] {p : Nat} (a : α) (b : Fin p → α) :
    ∀ (j : Nat) (c : Fin p → α), tail a b j c = some fun i => if j ≤ i.val then c i + a * b i else c i := by
  intro j c
  induction j, c using tail.induct (p := p) with
  | case1 j c h ih =>
    rw [tail, if_pos h]
    simp only [idx, setIdx, h, dite_true, Option.bind_eq_bind, Option.bind_some]
    rw [ih]
    congr 1; funext i
    by_cases h1 : j + 1 ≤ i.val
    · rw [if_pos h1, if_pos (by omega), Function.update_of_ne]
      rintro rfl; simp at h1
    · rw [if_neg h1]
      by_cases h2 : j ≤ i.val
      · have : i = ⟨j, h⟩ := Fin.ext (by simp; omega)
        subst this
        simp
      · rw [if_neg h2, Function.update_of_ne]
        rintro rfl; simp at h2
  | case2 j c h =>
    rw [tail, if_neg h]
    congr 1; funext i
    rw [if_neg (by omega)]

end Loops

/-! ## Matrix kernels -/

section MatK
variable {fl : ℝ → ℝ} {u : ℝ} {m n p : Nat}

/-- A loop over `k` each step of which advances every entry of the row by one product. -/
theorem kloop (h : Accurate fl u) (l : Mat (Fl fl) m n) (r : Mat (Fl fl) n p) (i : Fin m)
    {body : (Fin p → Fl fl) → Fin n → Option (Fin p → Fl fl)}
    (hb : ∀ c k, ∃ c', body c k = some c' ∧ ∀ j, Step (l i k) (r k j) (c j) (c' j)) (ks : List (Fin n)) :
    ∀ (c : Fin p → Fl fl) (d : Nat), 1 ≤ d → ∀ f t : Fin p → ℝ, (∀ j, App u (c j) d (f j) (t j)) →
      ∃ c', ks.foldlM body c = some c' ∧ ∀ j, App u (c' j) (d + ks.length)
        (f j + (ks.map fun k => (l i k).val * (r k j).val).sum)
        (t j + (ks.map fun k => |(l i k).val * (r k j).val|).sum) := by
  induction ks with
  | nil => intro c d _ f t hc; exact ⟨c, rfl, fun j => by simpa using hc j⟩
  | cons k ks ih =>
    intro c d hd f t hc
    obtain ⟨c1, h1, h2⟩ := hb c k
    obtain ⟨c', h3, h4⟩ := ih c1 (d + 1) (by omega) _ _ (fun j => App.step h hd (hc j) (h2 j))
    refine ⟨c', ?_, fun j => ?_⟩
    · rw [List.foldlM_cons, h1]; exact h3
    · have := h4 j
      simpa [add_assoc, add_comm, add_left_comm] using this

theorem kernel_close (h : Accurate fl u) (l : Mat (Fl fl) m n) (r : Mat (Fl fl) n p)
    {body : Fin m → (Fin p → Fl fl) → Fin n → Option (Fin p → Fl fl)}
    (hb : ∀ i c k, ∃ c', body i c k = some c' ∧ ∀ j, Step (l i k) (r k j) (c j) (c' j)) :
    ∃ out, matRows (fun i c => (List.finRange n).foldlM (body i) c) = some out ∧
      ∀ i j, Close u (n + 1) (out i j) (l i) (fun k => r k j) := by
  have key : ∀ i, ∃ c', (List.finRange n).foldlM (body i) (fun _ => 0) = some c' ∧
      ∀ j, Close u (n + 1) (c' j) (l i) (fun k => r k j) := by
    intro i
    obtain ⟨c', h1, h2⟩ := kloop h l r i (hb i) (List.finRange n) (fun _ => 0) 1 le_rfl (fun _ => 0) (fun _ => 0)
      (fun j => App.zero.mono h (by omega))
    refine ⟨c', h1, fun j => ?_⟩
    have := h2 j
    rw [zero_add, zero_add, ← Fin.sum_univ_def, ← Fin.sum_univ_def, List.length_finRange, Nat.add_comm] at this
    exact this.close
  choose g hg using key
  exact ⟨g, matRows_eq fun i => (hg i).1, fun i => (hg i).2⟩

theorem mulMatrixLanes_close (h : Accurate fl u) {w : Nat} (hw : 0 < w)
    {op : Fl fl → (Fin w → Fl fl) → (Fin w → Fl fl) → Fin w → Fl fl} {g : Fl fl → Fl fl → Fl fl → Fl fl}
    (hop : ∀ a c b l, op a c b l = g a (c l) (b l)) (hg : ∀ a c b, Step a b c (g a c b))
    (l : Mat (Fl fl) m n) (r : Mat (Fl fl) n p) :
    ∃ out, mulMatrixLanes hw op l r = some out ∧ ∀ i j, Close u (n + 1) (out i j) (l i) (fun k => r k j) := by
  refine kernel_close h l r fun i c k => ?_
  obtain ⟨c1, j1, h1, _, h2⟩ := blocks_spec hw (hop (l i k)) (r k) 0 c
  refine ⟨_, by rw [h1]; exact tail_spec _ _ _ _, fun j => ?_⟩
  show Step _ _ _ (if _ then _ else _)
  by_cases hj : j1 ≤ j.val
  · rw [if_pos hj, h2 j, if_neg (by omega)]
    exact Or.inr (Or.inr (Or.inl rfl))
  · rw [if_neg hj, h2 j, if_pos (by omega)]
    exact hg _ _ _

end MatK

end Verif.Simd
