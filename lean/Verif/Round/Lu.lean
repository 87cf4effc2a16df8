import Verif.Round.Lemmas

/-! # Lemmas: backward error and growth of LU decomposition -/

namespace Verif.Round

open Verif.Simd (Fl Accurate)
open Verif.Mat

variable {fl : ℝ → ℝ} {u : ℝ} {n : Nat}

/-- The pivot row is at or below `k`, its value is the absolute value of its entry, and no entry below is
larger. -/
theorem pivot_fl (a : Mat (Fl fl) n n) (k : Fin n) :
    k ≤ (pivot a k).1 ∧ (pivot a k).2.val = |(a (pivot a k).1 k).val| ∧
      ∀ r, k ≤ r → |(a r k).val| ≤ (pivot a k).2.val := by
  have := foldl_rng (fun s r => if absV (a r k) > s.2 then (r, absV (a r k)) else s)
    (fun t (s : Fin n × Fl fl) => k ≤ s.1 ∧ s.2.val = |(a s.1 k).val| ∧
      ∀ r : Fin n, k ≤ r → r.1 < t → |(a r k).val| ≤ s.2.val)
    (a := k.1 + 1) (b := n) (Nat.le_refl _) (by omega)
    (by
      intro t ht s h1 h2 ⟨h3, h4, h5⟩
      by_cases hc : absV (a ⟨t, ht⟩ k) > s.2
      · rw [if_pos hc]
        have hc' : s.2.val < |(a ⟨t, ht⟩ k).val| := hc
        refine ⟨Fin.le_def.2 (by dsimp only; omega), rfl, ?_⟩
        intro r hr hrt
        rcases Nat.lt_succ_iff_lt_or_eq.1 hrt with h | h
        · exact le_trans (h5 r hr h) (le_of_lt hc')
        · have : r = ⟨t, ht⟩ := Fin.ext h
          rw [this]; exact le_refl _
      · rw [if_neg hc]
        have hc' : ¬ s.2.val < |(a ⟨t, ht⟩ k).val| := hc
        refine ⟨h3, h4, ?_⟩
        intro r hr hrt
        rcases Nat.lt_succ_iff_lt_or_eq.1 hrt with h | h
        · exact h5 r hr h
        · have : r = ⟨t, ht⟩ := Fin.ext h
          rw [this]
          exact not_lt.1 hc')
    (s := (k, absV (a k k)))
    ⟨le_refl _, rfl, by
      intro r h1 h2
      have : r = k := Fin.ext (by have := Fin.le_def.1 h1; omega)
      rw [this]; exact le_refl _⟩
  exact ⟨this.1, this.2.1, fun r hr => this.2.2 r hr r.2⟩

/-- The products already taken away from entry `(i, j)`, each mapped through `g`. -/
def taken (g : ℝ → ℝ) (lu : Mat (Fl fl) n n) (k : Nat) (i j : Fin n) : ℝ :=
  ∑ t with t < i ∧ t < j ∧ t.1 < k, g ((lu i t).val * (lu t j).val)

/-- What entry `(i, j)` still stands for. -/
def left (lu : Mat (Fl fl) n n) (k : Nat) (i j : Fin n) : ℝ :=
  if j < i ∧ j.1 < k then (lu i j).val * (lu j j).val else (lu i j).val

theorem taken_abs_nonneg (lu : Mat (Fl fl) n n) (k : Nat) (i j : Fin n) :
    0 ≤ taken (fun z => |z|) lu k i j := Finset.sum_nonneg fun _ _ => abs_nonneg _

/-- Loop invariant of `lu_decompose` in rounded arithmetic. -/
def LuR (u : ℝ) (A : Mat (Fl fl) n n) (k : Nat) (s : Lu (Fl fl) n) : Prop :=
  ∃ σ : Equiv.Perm (Fin n), s.piv = σ ∧ s.sign = (Equiv.Perm.sign σ : ℤ) ∧
    (∀ i : Fin n, i.1 < k → (s.lu i i).val ≠ 0) ∧
    ∀ i j, Back u k (A (σ i) j).val (taken (fun z => z) s.lu k i j) (taken (fun z => |z|) s.lu k i j)
      (left s.lu k i j)

theorem swap_low {k p t : Fin n} (hp : k ≤ p) (ht : t.1 < k.1) : Equiv.swap k p t = t :=
  Equiv.swap_apply_of_ne_of_ne (by intro e; subst e; omega)
    (by intro e; subst e; have := Fin.le_def.1 hp; omega)

theorem swap_high {k p i : Fin n} (hp : k ≤ p) (hi : k.1 ≤ i.1) : k.1 ≤ (Equiv.swap k p i).1 := by
  rw [Equiv.swap_apply_def]
  have := Fin.le_def.1 hp
  split
  · omega
  · split
    · omega
    · omega

theorem taken_swap (g : ℝ → ℝ) (lu : Mat (Fl fl) n n) {k p : Fin n} (hp : k ≤ p) (i j : Fin n) :
    taken g (swapRows lu k p) k.1 i j = taken g lu k.1 (Equiv.swap k p i) j := by
  unfold taken
  simp only [swapRows_eq]
  by_cases hi : i.1 < k.1
  · rw [swap_low hp hi]
    apply Finset.sum_congr rfl
    intro t ht
    rw [swap_low hp (Finset.mem_filter.1 ht).2.2.2]
  · have hq := swap_high hp (not_lt.1 hi)
    apply Finset.sum_congr
    · ext t
      simp only [Finset.mem_filter, Finset.mem_univ, true_and, Fin.lt_def]
      constructor
      · rintro ⟨_, h6, h7⟩; exact ⟨by omega, h6, h7⟩
      · rintro ⟨_, h6, h7⟩; exact ⟨by omega, h6, h7⟩
    · intro t ht
      rw [swap_low hp (Finset.mem_filter.1 ht).2.2.2]

theorem left_swap (lu : Mat (Fl fl) n n) {k p : Fin n} (hp : k ≤ p) (i j : Fin n) :
    left (swapRows lu k p) k.1 i j = left lu k.1 (Equiv.swap k p i) j := by
  unfold left
  simp only [swapRows_eq]
  by_cases hi : i.1 < k.1
  · rw [swap_low hp hi]
    by_cases hj : j < i ∧ j.1 < k.1
    · rw [if_pos hj, if_pos hj, swap_low hp hj.2]
    · rw [if_neg hj, if_neg hj]
  · have hq := swap_high hp (not_lt.1 hi)
    by_cases hj : j.1 < k.1
    · rw [if_pos ⟨Fin.lt_def.2 (by omega), hj⟩, if_pos ⟨Fin.lt_def.2 (by omega), hj⟩, swap_low hp hj]
    · rw [if_neg (fun h => hj h.2), if_neg (fun h => hj h.2)]

theorem luR_swap {A : Mat (Fl fl) n n} {k p : Fin n} (hp : k ≤ p) {s : Lu (Fl fl) n} (h : LuR u A k.1 s)
    (hne : p ≠ k) : LuR u A k.1 ⟨swapRows s.lu k p, swapIdx s.piv k p, -s.sign⟩ := by
  obtain ⟨σ, h1, h2, h3, h4⟩ := h
  refine ⟨σ * Equiv.swap k p, ?_, ?_, ?_, ?_⟩
  · simp only [swapIdx_eq, h1]; rfl
  · simp only [h2, Equiv.Perm.sign_mul, Equiv.Perm.sign_swap (Ne.symm hne)]; simp
  · intro i hi
    simp only [swapRows_eq, swap_low hp hi]
    exact h3 i hi
  · intro i j
    dsimp only
    rw [taken_swap _ _ hp, taken_swap _ _ hp, left_swap _ hp, Equiv.Perm.mul_apply]
    exact h4 _ _

theorem elim_row (lu : Mat (Fl fl) n n) {k i : Fin n} (hi : ¬ k < i) : luElim lu k i = lu i := by
  funext j; rw [luElim_apply, if_neg hi]

theorem elim_col (lu : Mat (Fl fl) n n) {k j : Fin n} (hj : j < k) (i : Fin n) :
    luElim lu k i j = lu i j := by
  rw [luElim_apply]
  split
  · rw [if_neg (ne_of_lt hj), if_neg (not_lt_of_gt hj)]
  · rfl

theorem taken_elim_old (g : ℝ → ℝ) (lu : Mat (Fl fl) n n) (k i j : Fin n) :
    taken g (luElim lu k) k.1 i j = taken g lu k.1 i j := by
  unfold taken
  apply Finset.sum_congr rfl
  intro t ht
  have ht' := (Finset.mem_filter.1 ht).2.2.2
  rw [elim_col lu (Fin.lt_def.2 ht'), elim_row lu (not_lt_of_gt (Fin.lt_def.2 ht'))]

theorem taken_succ_same (g : ℝ → ℝ) (lu : Mat (Fl fl) n n) {k i j : Fin n} (h : i ≤ k ∨ j ≤ k) :
    taken g lu (k.1 + 1) i j = taken g lu k.1 i j := by
  unfold taken
  apply Finset.sum_congr _ (fun _ _ => rfl)
  ext t
  simp only [Finset.mem_filter, Finset.mem_univ, true_and, Fin.lt_def, Fin.le_def] at h ⊢
  omega

theorem taken_succ (g : ℝ → ℝ) (lu : Mat (Fl fl) n n) {k i j : Fin n} (hi : k < i) (hj : k < j) :
    taken g lu (k.1 + 1) i j = taken g lu k.1 i j + g ((lu i k).val * (lu k j).val) := by
  unfold taken
  have hset : (Finset.univ.filter fun t : Fin n => t < i ∧ t < j ∧ t.1 < k.1 + 1)
      = insert k (Finset.univ.filter fun t : Fin n => t < i ∧ t < j ∧ t.1 < k.1) := by
    ext t
    simp only [Finset.mem_filter, Finset.mem_univ, true_and, Finset.mem_insert, Fin.lt_def,
      Fin.ext_iff] at hi hj ⊢
    omega
  rw [hset, Finset.sum_insert (by simp), add_comm]

theorem luR_elim (h : Accurate fl u) (hu : u < 1) {A : Mat (Fl fl) n n} {k : Fin n} {s : Lu (Fl fl) n}
    (hi : LuR u A k.1 s) (hk : (s.lu k k).val ≠ 0) :
    LuR u A (k.1 + 1) { s with lu := luElim s.lu k } := by
  obtain ⟨σ, h1, h2, h3, h4⟩ := hi
  refine ⟨σ, h1, h2, ?_, ?_⟩
  · intro i hi
    dsimp only
    rw [elim_row s.lu (by rw [Fin.lt_def]; omega)]
    rcases Nat.lt_succ_iff_lt_or_eq.1 hi with h | h
    · exact h3 i h
    · have : i = k := Fin.ext h
      rw [this]; exact hk
  · intro i j
    have h4 := h4 i j
    have hS := taken_abs_nonneg s.lu k.1 i j
    dsimp only
    by_cases hi : k < i
    · rcases lt_trichotomy j k with hj | hj | hj
      · have el : left (luElim s.lu k) (k.1 + 1) i j = left s.lu k.1 i j := by
          unfold left
          have e : (j < i ∧ j.1 < k.1 + 1) ∧ (j < i ∧ j.1 < k.1) := by
            simp only [Fin.lt_def] at hi hj ⊢; omega
          rw [if_pos e.1, if_pos e.2, elim_col s.lu hj, elim_col s.lu hj]
        rw [taken_succ_same _ _ (Or.inr (le_of_lt hj)), taken_succ_same _ _ (Or.inr (le_of_lt hj)),
          taken_elim_old, taken_elim_old, el]
        exact h4.mono h hu (Nat.le_succ _) hS
      · subst hj
        have el : left (luElim s.lu j) (j.1 + 1) i j = (s.lu j j).val * (s.lu i j / s.lu j j).val := by
          unfold left
          rw [if_pos (⟨hi, Nat.lt_succ_self _⟩ : j < i ∧ j.1 < j.1 + 1), luElim_apply s.lu j i j,
            if_pos hi, if_pos rfl, elim_row s.lu (lt_irrefl _), mul_comm]
        have e0 : left s.lu j.1 i j = (s.lu i j).val := by
          unfold left
          rw [if_neg (fun h : j < i ∧ j.1 < j.1 => Nat.lt_irrefl _ h.2)]
        rw [e0] at h4
        rw [taken_succ_same _ _ (Or.inr le_rfl), taken_succ_same _ _ (Or.inr le_rfl),
          taken_elim_old, taken_elim_old, el]
        have := h4.step (x := 0) h hu hS (y := (s.lu j j).val * (s.lu i j / s.lu j j).val)
          (by simpa using div_back h hu (s.lu i j) (s.lu j j) hk)
        simpa using this
      · have hjk : ¬ (j < i ∧ j.1 < k.1) := by simp only [Fin.lt_def] at hj ⊢; omega
        have hjk1 : ¬ (j < i ∧ j.1 < k.1 + 1) := by simp only [Fin.lt_def] at hj ⊢; omega
        have e0 : left s.lu k.1 i j = (s.lu i j).val := by unfold left; rw [if_neg hjk]
        have el : left (luElim s.lu k) (k.1 + 1) i j
            = (s.lu i j - s.lu i k / s.lu k k * s.lu k j).val := by
          unfold left
          rw [if_neg hjk1, luElim_apply s.lu k i j, if_pos hi, if_neg (ne_of_gt hj), if_pos hj]
        have eik : luElim s.lu k i k = s.lu i k / s.lu k k := by
          rw [luElim_apply s.lu k i k, if_pos hi, if_pos rfl]
        rw [e0] at h4
        rw [taken_succ _ _ hi hj, taken_succ _ _ hi hj, taken_elim_old, taken_elim_old, el, eik,
          elim_row s.lu (lt_irrefl k)]
        exact h4.step h hu hS (sub_mul_back h hu _ _ _)
    · have hle : i ≤ k := not_lt.1 hi
      have el : left (luElim s.lu k) (k.1 + 1) i j = left s.lu k.1 i j := by
        unfold left
        rw [elim_row s.lu hi]
        by_cases hj : j < i
        · have hj' := Fin.lt_def.1 hj
          have := Fin.le_def.1 hle
          rw [if_pos ⟨hj, by omega⟩, if_pos ⟨hj, by omega⟩, elim_row s.lu (by rw [Fin.lt_def]; omega)]
        · rw [if_neg (fun h => hj h.1), if_neg (fun h => hj h.1)]
      rw [taken_succ_same _ _ (Or.inl hle), taken_succ_same _ _ (Or.inl hle),
        taken_elim_old, taken_elim_old, el]
      exact h4.mono h hu (Nat.le_succ _) hS

/-- What one step of the decomposition does. -/
theorem luStep_cases {eps : Fl fl} (he : 0 ≤ eps.val) {s s' : Lu (Fl fl) n} {k : Fin n}
    (hs : luStep eps s k = some s') :
    ∃ t : Lu (Fl fl) n, ∃ p : Fin n, k ≤ p ∧ (∀ r, k ≤ r → |(s.lu r k).val| ≤ |(s.lu p k).val|) ∧
      (s.lu p k).val ≠ 0 ∧
      ((p ≠ k ∧ t = ⟨swapRows s.lu k p, swapIdx s.piv k p, -s.sign⟩) ∨ (p = k ∧ t = s)) ∧
      s' = { t with lu := luElim t.lu k } := by
  unfold luStep at hs
  dsimp only at hs
  obtain ⟨hp1, hp2, hp3⟩ := pivot_fl s.lu k
  split at hs
  · cases hs
  · rename_i hpe
    have hpe' : ¬ (pivot s.lu k).2.val ≤ eps.val := hpe
    have hpos : 0 < |(s.lu (pivot s.lu k).1 k).val| := by
      rw [← hp2]; exact lt_of_le_of_lt he (not_le.1 hpe')
    injection hs with hs
    subst hs
    rw [hp2] at hp3
    refine ⟨_, (pivot s.lu k).1, hp1, hp3, abs_pos.1 hpos, ?_, rfl⟩
    by_cases hpk : (pivot s.lu k).1 ≠ k
    · left; rw [if_pos hpk]; exact ⟨hpk, rfl⟩
    · right; rw [if_neg hpk]; exact ⟨not_not.1 hpk, rfl⟩

theorem luDecompose_back (h : Accurate fl u) (hu : u < 1) {eps : Fl fl} (he : 0 ≤ eps.val)
    {A : Mat (Fl fl) n n} {d : Lu (Fl fl) n} (hd : luDecompose eps A = some d) : LuR u A n d := by
  unfold luDecompose at hd
  refine foldlM_rng (luStep eps) (LuR u A) (Nat.le_refl _) (Nat.zero_le _) ?_ ?_ hd
  · intro k hk s s' _ _ hinv hs
    obtain ⟨t, p, hp, _, hne, hc, rfl⟩ := luStep_cases he hs
    rcases hc with ⟨hpk, rfl⟩ | ⟨rfl, rfl⟩
    · refine luR_elim (k := ⟨k, hk⟩) h hu (luR_swap hp hinv hpk) ?_
      simp only [swapRows_eq, Equiv.swap_apply_left]
      exact hne
    · exact luR_elim (k := ⟨k, hk⟩) h hu hinv hne
  · refine ⟨1, rfl, by simp, by intro i hi; omega, ?_⟩
    intro i j
    simp [Back, taken, left, growth_zero]

/-! ## Growth -/

/-- How much one step of partial pivoting can enlarge an entry. -/
noncomputable def grow (u : ℝ) : ℝ := 2 * (1 + u) ^ 3

theorem one_le_grow (h : Accurate fl u) : 1 ≤ grow u := by
  have := one_le_pow₀ (n := 3) (show (1 : ℝ) ≤ 1 + u by linarith [h.nonneg])
  unfold grow; linarith

/-- Multipliers are at most `1 + u`; the other entries have grown at most `grow u` per step. -/
def LuGrow (u M : ℝ) (k : Nat) (lu : Mat (Fl fl) n n) : Prop :=
  ∀ i j, if j < i ∧ j.1 < k then |(lu i j).val| ≤ 1 + u else |(lu i j).val| ≤ grow u ^ (min k i.1) * M

theorem abs_fl (h : Accurate fl u) (x : ℝ) : |fl x| ≤ (1 + u) * |x| := by
  have := h x
  calc |fl x| = |(fl x - x) + x| := by ring_nf
    _ ≤ |fl x - x| + |x| := abs_add_le _ _
    _ ≤ _ := by linarith

theorem grow_swap {M : ℝ} {k p : Fin n} (hp : k ≤ p) {lu : Mat (Fl fl) n n} (hg : LuGrow u M k.1 lu) :
    LuGrow u M k.1 (swapRows lu k p) := by
  intro i j
  simp only [swapRows_eq]
  have := hg (Equiv.swap k p i) j
  by_cases hi : i.1 < k.1
  · rw [swap_low hp hi] at this ⊢; exact this
  · have hq := swap_high hp (not_lt.1 hi)
    by_cases hj : j.1 < k.1
    · rw [if_pos ⟨Fin.lt_def.2 (by omega), hj⟩] at this ⊢; exact this
    · rw [if_neg (fun h => hj h.2)] at this ⊢
      rw [Nat.min_eq_left hq] at this
      rwa [Nat.min_eq_left (not_lt.1 hi)]

theorem grow_elim (h : Accurate fl u) {M : ℝ} {k : Fin n} {lu : Mat (Fl fl) n n}
    (hg : LuGrow u M k.1 lu) (hk : (lu k k).val ≠ 0) (hp : ∀ r, k ≤ r → |(lu r k).val| ≤ |(lu k k).val|) :
    LuGrow u M (k.1 + 1) (luElim lu k) := by
  have hu0 := h.nonneg
  intro i j
  have hij := hg i j
  by_cases hi : k < i
  · have hi' := Fin.lt_def.1 hi
    have hm : |(lu i k / lu k k).val| ≤ 1 + u := by
      have h1 := abs_fl h ((lu i k).val / (lu k k).val)
      have h2 : |(lu i k).val / (lu k k).val| ≤ 1 := by
        rw [abs_div, div_le_one (abs_pos.2 hk)]; exact hp i (le_of_lt hi)
      calc |(lu i k / lu k k).val| = |fl ((lu i k).val / (lu k k).val)| := rfl
        _ ≤ _ := h1
        _ ≤ (1 + u) * 1 := mul_le_mul_of_nonneg_left h2 (by linarith)
        _ = _ := mul_one _
    rw [luElim_apply, if_pos hi]
    rcases lt_trichotomy j k with hj | hj | hj
    · have hj' := Fin.lt_def.1 hj
      rw [if_pos ⟨Fin.lt_def.2 (by omega), by omega⟩] at hij ⊢
      rw [if_neg (ne_of_lt hj), if_neg (not_lt_of_gt hj)]
      exact hij
    · subst hj
      rw [if_pos ⟨hi, Nat.lt_succ_self _⟩, if_pos rfl]
      exact hm
    · have hj' := Fin.lt_def.1 hj
      rw [if_neg (fun h => by omega)] at hij ⊢
      rw [if_neg (ne_of_gt hj), if_pos hj, Nat.min_eq_left (by omega)]
      rw [Nat.min_eq_left (by omega)] at hij
      have hkj := hg k j
      rw [if_neg (fun h => by omega), Nat.min_eq_left (Nat.le_refl _)] at hkj
      generalize lu i k / lu k k = q at hm ⊢
      set B := grow u ^ k.1 * M with hB
      have hB0 : 0 ≤ B := (abs_nonneg _).trans hij
      have e : (lu i j - q * lu k j).val = fl ((lu i j).val - fl (q.val * (lu k j).val)) := rfl
      have h1 : |fl (q.val * (lu k j).val)| ≤ (1 + u) * ((1 + u) * B) := by
        refine (abs_fl h _).trans (mul_le_mul_of_nonneg_left ?_ (by linarith))
        rw [abs_mul]
        exact mul_le_mul hm hkj (abs_nonneg _) (by linarith)
      have h2 : |(lu i j).val - fl (q.val * (lu k j).val)| ≤ B + (1 + u) * ((1 + u) * B) := by
        have h5 : |(lu i j).val - fl (q.val * (lu k j).val)|
            ≤ |(lu i j).val| + |fl (q.val * (lu k j).val)| := abs_sub _ _
        linarith
      rw [e]
      calc _ ≤ (1 + u) * |(lu i j).val - fl (q.val * (lu k j).val)| := abs_fl h _
        _ ≤ (1 + u) * (B + (1 + u) * ((1 + u) * B)) := mul_le_mul_of_nonneg_left h2 (by linarith)
        _ ≤ (2 * (1 + u) ^ 3) * B := by
          have : 0 ≤ u * B := by positivity
          have : 0 ≤ u ^ 2 * B := by positivity
          have : 0 ≤ u ^ 3 * B := by positivity
          nlinarith
        _ = grow u ^ (k.1 + 1) * M := by rw [hB, pow_succ]; unfold grow; ring
  · have hle := Fin.le_def.1 (not_lt.1 hi)
    rw [luElim_apply, if_neg hi]
    by_cases hj : j < i
    · have := Fin.lt_def.1 hj
      rw [if_pos ⟨hj, by omega⟩] at hij ⊢; exact hij
    · rw [if_neg (fun h => hj h.1)] at hij ⊢
      rwa [Nat.min_eq_right (by omega)] at hij ⊢

theorem luDecompose_grow (h : Accurate fl u) {eps : Fl fl} (he : 0 ≤ eps.val)
    {A : Mat (Fl fl) n n} {M : ℝ} (hA : ∀ i j, |(A i j).val| ≤ M) {d : Lu (Fl fl) n}
    (hd : luDecompose eps A = some d) : LuGrow u M n d.lu := by
  unfold luDecompose at hd
  refine foldlM_rng (luStep eps) (fun k s => LuGrow u M k s.lu) (Nat.le_refl _) (Nat.zero_le _) ?_ ?_ hd
  · intro k hk s s' _ _ hinv hs
    obtain ⟨t, p, hp, hmax, hne, hc, rfl⟩ := luStep_cases he hs
    rcases hc with ⟨hpk, rfl⟩ | ⟨rfl, rfl⟩
    · refine grow_elim (k := ⟨k, hk⟩) h (grow_swap hp hinv) ?_ ?_
      · simp only [swapRows_eq, Equiv.swap_apply_left]; exact hne
      · intro r hr
        simp only [swapRows_eq, Equiv.swap_apply_left]
        exact hmax _ (Fin.le_def.2 (swap_high hp (Fin.le_def.1 hr)))
    · exact grow_elim (k := ⟨k, hk⟩) h hinv hne hmax
  · intro i j
    rw [if_neg (fun h => Nat.not_lt_zero _ h.2)]
    simpa using hA i j

end Verif.Round
