import Verif.Wmm.Coeff
import Mathlib.Tactic.NormNum

/-!
# C65: the triangular table and the coefficients at a date
-/

namespace Verif.Wmm

/-- C65. Each of the 91 slots belongs to exactly one pair of a degree up to 12 and an order up to the degree, and a write to such a pair never
runs off the array. -/
theorem C65_slots : (∀ n m, m ≤ n → (Table.index n m < 91 ↔ n ≤ 12)) ∧
    (∀ k < 91, ∃ p : ℕ × ℕ, (p.2 ≤ p.1 ∧ p.1 ≤ 12 ∧ Table.index p.1 p.2 = k) ∧
      ∀ q : ℕ × ℕ, q.2 ≤ q.1 → Table.index q.1 q.2 = k → q = p) := by
  refine ⟨fun n m h => index_bound h, ?_⟩
  have key : ∀ N k, k < (N + 1) * (N + 2) / 2 → ∃ p : ℕ × ℕ, p.2 ≤ p.1 ∧ p.1 ≤ N ∧ Table.index p.1 p.2 = k := by
    intro N
    induction N with
    | zero =>
      intro k hk
      obtain rfl : k = 0 := by omega
      exact ⟨(0, 0), le_rfl, le_rfl, rfl⟩
    | succ N ih =>
      intro k hk
      have h1 := tri_succ (N + 1)
      rw [show N + 1 + 1 + 1 = N + 1 + 2 from rfl] at h1
      rw [h1] at hk
      by_cases h : k < (N + 1) * (N + 2) / 2
      · obtain ⟨p, h1, h2, h3⟩ := ih k h
        exact ⟨p, h1, by omega, h3⟩
      · refine ⟨(N + 1, k - (N + 1) * (N + 2) / 2), ?_, le_rfl, ?_⟩
        · dsimp only
          change k < (N + 1) * (N + 2) / 2 + (N + 1 + 1) at hk
          omega
        · unfold Table.index
          change (N + 1) * (N + 2) / 2 + (k - (N + 1) * (N + 2) / 2) = k
          omega
  intro k hk
  obtain ⟨p, h1, h2, h3⟩ := key 12 k hk
  refine ⟨p, ⟨h1, h2, h3⟩, fun q hq hk' => ?_⟩
  obtain ⟨a, b⟩ := index_injective hq h1 (hk'.trans h3.symm)
  exact Prod.ext a b

/-- The last value written to the pair `(n, m)` by a sequence of writes, if any. -/
def lastWrite (l : List (ℕ × ℕ × ℝ)) (n m : ℕ) : Option ℝ :=
  match l with
  | [] => none
  | (k, o, v) :: l => match lastWrite l n m with
    | some w => some w
    | none => if k = n ∧ o = m then some v else none

/-- C65. After any sequence of writes to valid pairs, reading a valid pair gives the last value written to it, or its old value if there was
none; reading a pair that is not valid gives zero. -/
theorem C65_update (t : Table) (l : List (ℕ × ℕ × ℝ)) (hl : ∀ w ∈ l, w.2.1 ≤ w.1 ∧ w.1 ≤ 12) :
    ∃ t', l.foldlM (fun t w => t.set? w.1 w.2.1 w.2.2) t = some t' ∧
      (∀ n m, m ≤ n → n ≤ 12 → t'.get n m = (lastWrite l n m).getD (t.get n m)) ∧
      (∀ n m, n < m ∨ 12 < n → t'.get n m = 0) := by
  induction l generalizing t with
  | nil =>
    refine ⟨t, rfl, fun n m _ _ => rfl, fun n m h => ?_⟩
    unfold Table.get
    rw [if_pos (by unfold maxDegree; omega)]
  | cons w l ih =>
    obtain ⟨k, o, v⟩ := w
    have hw : o ≤ k ∧ k ≤ 12 := hl (k, o, v) List.mem_cons_self
    have hb : Table.index k o < triangularCount := (index_bound hw.1).mpr hw.2
    obtain ⟨t', h1, h2, h3⟩ := ih ⟨set1 t.data (Table.index k o) v⟩ (fun w h => hl w (List.mem_cons_of_mem _ h))
    refine ⟨t', ?_, fun n m hm hn => ?_, h3⟩
    · rw [List.foldlM_cons]
      dsimp only
      unfold Table.set?
      rw [if_pos hb]
      exact h1
    · rw [h2 n m hm hn]
      conv_rhs => unfold lastWrite
      cases hlw : lastWrite l n m with
      | some w => rfl
      | none =>
        dsimp only [Option.getD_none]
        unfold Table.get
        have hv : ¬(n > maxDegree ∨ m > n) := by unfold maxDegree; omega
        rw [if_neg hv, if_neg hv]
        dsimp only
        unfold set1
        by_cases he : Table.index n m = Table.index k o
        · obtain ⟨rfl, rfl⟩ := index_injective hm hw.1 he
          rw [if_pos rfl, if_pos ⟨rfl, rfl⟩]
          rfl
        · rw [if_neg he]
          have : ¬(k = n ∧ o = m) := by
            rintro ⟨rfl, rfl⟩
            exact he rfl
          rw [if_neg this]
          rfl

/-- Two writes to one pair and one to its neighbour. -/
example : ∃ t', [(3, 1, (5 : ℝ)), (3, 2, 6), (3, 1, 7)].foldlM (fun t w => t.set? w.1 w.2.1 w.2.2) (⟨fun _ => 1⟩ : Table) = some t' ∧
    t'.get 3 1 = 7 ∧ t'.get 3 2 = 6 ∧ t'.get 12 12 = 1 ∧ t'.get 3 4 = 0 := by
  obtain ⟨t', h1, h2, h3⟩ := C65_update ⟨fun _ => 1⟩ [(3, 1, (5 : ℝ)), (3, 2, 6), (3, 1, 7)] (by simp)
  refine ⟨t', h1, ?_, ?_, ?_, h3 3 4 (by norm_num)⟩
  · rw [h2 3 1 (by norm_num) (by norm_num)]; simp [lastWrite]
  · rw [h2 3 2 (by norm_num) (by norm_num)]; simp [lastWrite]
  · rw [h2 12 12 (by norm_num) (by norm_num)]; simp [lastWrite, Table.get, maxDegree]

/-- C65. For the embedded model (with any epoch and maximum degree in its public fields) and any date: `coefficients_at` does not panic, each
record's coefficient is moved linearly from the epoch at the record's rate, the reported rate is the record's, every pair of degree 1 to 12 has
a record, and pairs outside the table read zero. -/
theorem C65_date (epoch t : ℝ) (N : ℕ) : ∃ C, (wmm epoch N).coefficientsAt t = some C ∧ C.decimalYear = t ∧ C.maxDegree = N ∧
    (∀ r ∈ (wmm epoch N).records, C.g.get r.degree r.order = r.g + (t - epoch) * r.gDot ∧
      C.h.get r.degree r.order = r.h + (t - epoch) * r.hDot ∧ C.gDot.get r.degree r.order = r.gDot ∧ C.hDot.get r.degree r.order = r.hDot) ∧
    (∀ n m, 1 ≤ n → n ≤ 12 → m ≤ n → ∃ r ∈ (wmm epoch N).records, r.degree = n ∧ r.order = m) ∧
    (∀ n m, n = 0 ∨ 12 < n ∨ n < m → C.g.get n m = 0 ∧ C.h.get n m = 0 ∧ C.gDot.get n m = 0 ∧ C.hDot.get n m = 0) := by
  obtain ⟨C, h1, h2, h3, hg, hh, hgd, hhd⟩ := coefficients_eq epoch t N
  refine ⟨C, h1, h2, h3, ?_, ?_, ?_⟩
  · intro r hr
    obtain ⟨r', hr', rfl⟩ := List.mem_map.mp hr
    obtain ⟨a, b, c, d⟩ := table_record hr'
    change C.g.get r'.degree r'.order = tenths r'.g + (t - epoch) * tenths r'.gDot ∧
      C.h.get r'.degree r'.order = tenths r'.h + (t - epoch) * tenths r'.hDot ∧ C.gDot.get r'.degree r'.order = tenths r'.gDot ∧
      C.hDot.get r'.degree r'.order = tenths r'.hDot
    rw [hg, hh, hgd, hhd, a, b, c, d]
    exact ⟨rfl, rfl, rfl, rfl⟩
  · intro n m hn hn' hm
    obtain ⟨r, hr, hd, ho⟩ := cover hn hn' hm
    exact ⟨r.toRecord, List.mem_map.mpr ⟨r, hr, rfl⟩, hd, ho⟩
  · intro n m h
    rw [hg, hh, hgd, hhd]
    by_cases hout : n > maxDegree ∨ m > n
    · unfold Table.get
      rw [if_pos hout, if_pos hout, if_pos hout, if_pos hout]
      simp
    · obtain ⟨rfl, rfl⟩ : n = 0 ∧ m = 0 := by unfold maxDegree at hout; omega
      obtain ⟨z1, z2, z3, z4⟩ := raw_zero
      unfold Table.get tableOf
      dsimp only
      rw [if_neg hout, if_neg hout, if_neg hout, if_neg hout]
      simp only [show Table.index 0 0 = 0 from rfl, z1, z2, z3, z4]
      simp [tenths]

/-- The embedded model has the axial dipole -29351.8 nT at 2025, and -29339.8 nT one year later. -/
example : ∃ C, wmm2025.coefficientsAt 2026 = some C ∧ C.g.get 1 0 = -29339.8 := by
  obtain ⟨C, h1, _, _, h, _, _⟩ := C65_date 2025 2026 maxDegree
  refine ⟨C, h1, ?_⟩
  have hr : RawRecord.toRecord ⟨1, 0, -293518, 0, 120, 0⟩ ∈ (wmm 2025 maxDegree).records :=
    List.mem_map.mpr ⟨⟨1, 0, -293518, 0, 120, 0⟩, show (⟨1, 0, -293518, 0, 120, 0⟩ : RawRecord) ∈ rawRecords by decide +kernel, rfl⟩
  have := (h _ hr).1
  simp only [RawRecord.toRecord, tenths] at this
  rw [this]
  norm_num

/-- C65. Setting a pair whose order exceeds its degree would silently overwrite another pair's slot: the table relies on its callers (the
embedded records never do this, by `C65_date`). -/
theorem C65_order_unchecked : ∃ t t' : Table, t.set? 2 3 5 = some t' ∧ t.get 3 0 = 0 ∧ t'.get 3 0 = 5 := by
  refine ⟨⟨fun _ => 0⟩, ⟨set1 (fun _ => 0) (Table.index 2 3) 5⟩, ?_, ?_, ?_⟩
  · unfold Table.set?
    rw [if_pos (by decide)]
  · unfold Table.get
    rw [if_neg (by decide)]
  · unfold Table.get set1
    rw [if_neg (by decide)]
    change (if Table.index 3 0 = Table.index 2 3 then (5 : ℝ) else 0) = 5
    exact if_pos (by decide)

end Verif.Wmm
