import Verif.Wmm.Model
import Mathlib.Tactic.Linarith
import Mathlib.Tactic.Ring

/-!
# Lemmas: the coefficient tables
-/

namespace Verif.Wmm

theorem tri_succ (n : ℕ) : (n + 1) * (n + 1 + 1) / 2 = n * (n + 1) / 2 + (n + 1) := by
  rw [show (n + 1) * (n + 1 + 1) = n * (n + 1) + 2 * (n + 1) by ring, Nat.add_mul_div_left _ _ (by norm_num)]

theorem tri_le {n k : ℕ} (h : n ≤ k) : n * (n + 1) / 2 ≤ k * (k + 1) / 2 :=
  Nat.div_le_div_right (Nat.mul_le_mul h (by omega))

theorem index_lt_of_degree {n m k l : ℕ} (hm : m ≤ n) (h : n < k) : Table.index n m < Table.index k l := by
  unfold Table.index
  have h1 := tri_succ n
  have h2 := tri_le (show n + 1 ≤ k from h)
  omega

theorem index_injective {n m k l : ℕ} (hm : m ≤ n) (hl : l ≤ k) (h : Table.index n m = Table.index k l) : n = k ∧ m = l := by
  rcases lt_trichotomy n k with h1 | h1 | h1
  · exact absurd h (index_lt_of_degree hm h1).ne
  · subst h1
    unfold Table.index at h
    exact ⟨rfl, by omega⟩
  · exact absurd h (index_lt_of_degree hl h1).ne'

theorem index_bound {n m : ℕ} (hm : m ≤ n) : Table.index n m < triangularCount ↔ n ≤ maxDegree := by
  constructor
  · intro h
    by_contra hn
    have := index_lt_of_degree (l := m) (le_refl maxDegree) (not_le.mp hn)
    have e : Table.index maxDegree maxDegree = 90 := by decide
    have e2 : triangularCount = 91 := by decide
    omega
  · intro h
    have e : Table.index maxDegree maxDegree = 90 := by decide
    have e2 : triangularCount = 91 := by decide
    rcases Nat.lt_or_eq_of_le h with h1 | h1
    · have := index_lt_of_degree (l := maxDegree) hm h1
      omega
    · subst h1
      unfold Table.index at *
      omega

/-- What the data file says, checked entry by entry. -/
theorem raw_ok : ∀ r ∈ rawRecords, r.order ≤ r.degree ∧ 1 ≤ r.degree ∧ r.degree ≤ maxDegree ∧
    r.g = rawG.getD (Table.index r.degree r.order) 0 ∧ r.h = rawH.getD (Table.index r.degree r.order) 0 ∧
    r.gDot = rawGDot.getD (Table.index r.degree r.order) 0 ∧ r.hDot = rawHDot.getD (Table.index r.degree r.order) 0 := by
  decide +kernel

theorem raw_cover : ∀ n ∈ List.range 13, 1 ≤ n → ∀ m ∈ List.range (n + 1), ∃ r ∈ rawRecords, r.degree = n ∧ r.order = m := by
  decide +kernel

theorem raw_zero : rawG.getD 0 0 = 0 ∧ rawH.getD 0 0 = 0 ∧ rawGDot.getD 0 0 = 0 ∧ rawHDot.getD 0 0 = 0 := by
  decide +kernel

theorem cover {n m : ℕ} (h1 : 1 ≤ n) (h2 : n ≤ maxDegree) (hm : m ≤ n) : ∃ r ∈ rawRecords, r.degree = n ∧ r.order = m :=
  raw_cover n (List.mem_range.mpr (by unfold maxDegree at h2; omega)) h1 m (List.mem_range.mpr (by omega))

/-- The slot of a record. -/
def RawRecord.slot (r : RawRecord) : ℕ := Table.index r.degree r.order

theorem adjust_fold (δ : ℝ) (l : List RawRecord) (hl : ∀ r ∈ l, r ∈ rawRecords) (s : Table × Table) :
    ∃ s', (l.map RawRecord.toRecord).foldlM (adjust δ) s = some s' ∧
      (∀ k, s'.1.data k = if k ∈ l.map RawRecord.slot then tenths (rawG.getD k 0) + δ * tenths (rawGDot.getD k 0) else s.1.data k) ∧
      (∀ k, s'.2.data k = if k ∈ l.map RawRecord.slot then tenths (rawH.getD k 0) + δ * tenths (rawHDot.getD k 0) else s.2.data k) := by
  induction l generalizing s with
  | nil => exact ⟨s, rfl, fun k => by simp, fun k => by simp⟩
  | cons r l ih =>
    obtain ⟨o1, o2, o3, e1, e2, e3, e4⟩ := raw_ok r (hl r List.mem_cons_self)
    have hb : Table.index r.degree r.order < triangularCount := (index_bound o1).mpr o3
    have hs : adjust δ s r.toRecord = some (⟨set1 s.1.data r.slot (tenths r.g + δ * tenths r.gDot)⟩, ⟨set1 s.2.data r.slot (tenths r.h + δ * tenths r.hDot)⟩) := by
      unfold adjust Table.set? RawRecord.toRecord RawRecord.slot
      dsimp only
      rw [if_pos hb, if_pos hb]
      rfl
    obtain ⟨s', h1, h2, h3⟩ := ih (fun r' h => hl r' (List.mem_cons_of_mem _ h))
      (⟨set1 s.1.data r.slot (tenths r.g + δ * tenths r.gDot)⟩, ⟨set1 s.2.data r.slot (tenths r.h + δ * tenths r.hDot)⟩)
    refine ⟨s', ?_, fun k => ?_, fun k => ?_⟩
    · rw [List.map_cons, List.foldlM_cons, hs]
      exact h1
    · rw [h2 k, List.map_cons]
      by_cases hk : k ∈ l.map RawRecord.slot
      · rw [if_pos hk, if_pos (List.mem_cons_of_mem _ hk)]
      · rw [if_neg hk]
        unfold set1
        dsimp only
        by_cases hr : k = r.slot
        · rw [if_pos hr, if_pos (by rw [hr]; exact List.mem_cons_self), hr, e1, e3]
          rfl
        · rw [if_neg hr, if_neg (by rw [List.mem_cons]; tauto)]
    · rw [h3 k, List.map_cons]
      by_cases hk : k ∈ l.map RawRecord.slot
      · rw [if_pos hk, if_pos (List.mem_cons_of_mem _ hk)]
      · rw [if_neg hk]
        unfold set1
        dsimp only
        by_cases hr : k = r.slot
        · rw [if_pos hr, if_pos (by rw [hr]; exact List.mem_cons_self), hr, e2, e4]
          rfl
        · rw [if_neg hr, if_neg (by rw [List.mem_cons]; tauto)]

theorem coefficients_eq (epoch t : ℝ) (N : ℕ) : ∃ C, (wmm epoch N).coefficientsAt t = some C ∧ C.decimalYear = t ∧ C.maxDegree = N ∧
    (∀ n m, C.g.get n m = (tableOf rawG).get n m + (t - epoch) * (tableOf rawGDot).get n m) ∧
    (∀ n m, C.h.get n m = (tableOf rawH).get n m + (t - epoch) * (tableOf rawHDot).get n m) ∧
    C.gDot = tableOf rawGDot ∧ C.hDot = tableOf rawHDot := by
  obtain ⟨s', h1, h2, h3⟩ := adjust_fold (t - epoch) rawRecords (fun r h => h) (tableOf rawG, tableOf rawH)
  refine ⟨⟨t, N, s'.1, s'.2, tableOf rawGDot, tableOf rawHDot⟩, ?_, rfl, rfl, ?_, ?_, rfl, rfl⟩
  · unfold MagneticModel.coefficientsAt wmm
    dsimp only
    rw [h1]
    rfl
  · intro n m
    unfold Table.get
    by_cases h : n > maxDegree ∨ m > n
    · rw [if_pos h, if_pos h, if_pos h]; ring
    · rw [if_neg h, if_neg h, if_neg h, h2]
      unfold tableOf
      dsimp only
      by_cases hn : 1 ≤ n
      · obtain ⟨r, hr, hd, ho⟩ := cover hn (by omega) (show m ≤ n by omega)
        rw [if_pos (List.mem_map.mpr ⟨r, hr, by unfold RawRecord.slot; rw [hd, ho]⟩)]
      · obtain ⟨rfl, rfl⟩ : n = 0 ∧ m = 0 := by omega
        obtain ⟨z1, z2, z3, z4⟩ := raw_zero
        simp only [show Table.index 0 0 = 0 from rfl, z1, z3]
        simp [tenths]
  · intro n m
    unfold Table.get
    by_cases h : n > maxDegree ∨ m > n
    · rw [if_pos h, if_pos h, if_pos h]; ring
    · rw [if_neg h, if_neg h, if_neg h, h3]
      unfold tableOf
      dsimp only
      by_cases hn : 1 ≤ n
      · obtain ⟨r, hr, hd, ho⟩ := cover hn (by omega) (show m ≤ n by omega)
        rw [if_pos (List.mem_map.mpr ⟨r, hr, by unfold RawRecord.slot; rw [hd, ho]⟩)]
      · obtain ⟨rfl, rfl⟩ : n = 0 ∧ m = 0 := by omega
        obtain ⟨z1, z2, z3, z4⟩ := raw_zero
        simp only [show Table.index 0 0 = 0 from rfl, z2, z4]
        simp [tenths]

/-- The tables hold the numbers of the records. -/
theorem table_record {r : RawRecord} (hr : r ∈ rawRecords) : (tableOf rawG).get r.degree r.order = tenths r.g ∧
    (tableOf rawH).get r.degree r.order = tenths r.h ∧ (tableOf rawGDot).get r.degree r.order = tenths r.gDot ∧
    (tableOf rawHDot).get r.degree r.order = tenths r.hDot := by
  obtain ⟨o1, o2, o3, e1, e2, e3, e4⟩ := raw_ok r hr
  have h : ¬(r.degree > maxDegree ∨ r.order > r.degree) := by omega
  unfold Table.get tableOf
  dsimp only
  rw [if_neg h, if_neg h, if_neg h, if_neg h, ← e1, ← e2, ← e3, ← e4]
  exact ⟨rfl, rfl, rfl, rfl⟩

end Verif.Wmm
