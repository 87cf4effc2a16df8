import Verif.Tools.Asserts
import Mathlib.Tactic.Linarith
import Mathlib.Tactic.NormNum
import Mathlib.Tactic.FieldSimp
import Mathlib.Tactic.Ring
import Mathlib.Data.Fin.VecNotation
import Mathlib.Algebra.Order.Group.Abs
import Mathlib.Algebra.Order.Ring.Rat

/-!
# C110: a test helper passes only if what it compares are numbers within the tolerance
-/

namespace Verif.Tools

variable {K : Type} [Field K] [LinearOrder K] [IsStrictOrderedRing K]

/-- Both are numbers, equal or at most `tol` apart. -/
def Close (x y tol : Option K) : Prop := ∃ u v, x = some u ∧ y = some v ∧ (u = v ∨ ∃ t, tol = some t ∧ |u - v| ≤ t)

omit [IsStrictOrderedRing K] in
theorem absDiffEq_iff (x y tol : Option K) : absDiffEq x y tol = true ↔ Close x y tol := by
  cases x with
  | none => simp [absDiffEq, Close, absDiff, le]
  | some u =>
    cases y with
    | none => simp [absDiffEq, Close, absDiff, le]
    | some v =>
      cases tol with
      | none => simp [absDiffEq, Close, absDiff, le]
      | some t => simp [absDiffEq, Close, absDiff, le]

omit [IsStrictOrderedRing K] in
/-- C110. The approximate comparison of vectors passes exactly when all entries are numbers and close; an entry that is not a number is
a mismatch, and the mismatch reported is the first. -/
theorem C110_vector {n : Nat} (a b : Fin n → Option K) (tol : Option K) :
    (vectorApproxEq a b tol = none ↔ ∀ i, Close (a i) (b i) tol) ∧
      ∀ i, vectorApproxEq a b tol = some i → ¬Close (a i) (b i) tol := by
  unfold vectorApproxEq
  constructor
  · rw [List.find?_eq_none]
    simp only [List.mem_finRange, Bool.not_eq_true', Bool.not_eq_false, forall_const]
    exact forall_congr' fun i => absDiffEq_iff _ _ _
  · intro i h
    have := List.find?_some h
    rw [← absDiffEq_iff]
    simpa using this

omit [IsStrictOrderedRing K] in
/-- C110. The same for matrices. -/
theorem C110_matrix {m n : Nat} (a b : Fin m → Fin n → Option K) (tol : Option K) :
    (matrixApproxEq a b tol = none ↔ ∀ r c, Close (a r c) (b r c) tol) ∧
      ∀ r c, matrixApproxEq a b tol = some (r, c) → ¬Close (a r c) (b r c) tol := by
  unfold matrixApproxEq
  constructor
  · simp only [List.findSome?_eq_none_iff, List.mem_finRange, forall_const]
    refine forall₂_congr fun r c => ?_
    rw [← absDiffEq_iff]
    cases absDiffEq (a r c) (b r c) tol <;> simp
  · intro r c h
    obtain ⟨r', -, h⟩ := List.exists_of_findSome?_eq_some h
    obtain ⟨c', -, h⟩ := List.exists_of_findSome?_eq_some h
    rw [← absDiffEq_iff]
    cases hd : absDiffEq (a r' c') (b r' c') tol with
    | true => simp [hd] at h
    | false =>
      simp [hd] at h
      obtain ⟨rfl, rfl⟩ := h
      simp [hd]

/-- C110 with a value that is not a number. -/
example : vectorApproxEq ![some (1 : ℚ), none] ![some 1, none] (some 1) = some 1 ∧
    vectorApproxEq ![some (1 : ℚ), some 2] ![some 1, some (5 / 2)] (some 1) = none := by decide +kernel

omit [IsStrictOrderedRing K] in
/-- C110. The symmetry assertion passes exactly when all pairs of mirrored entries are numbers that differ by at most the tolerance. -/
theorem C110_symmetric {n : Nat} (a : Fin n → Fin n → Option K) (tol : K) :
    symmetricAssert a (some tol) = true ↔ ∀ i j, i < j → ∃ u v, a i j = some u ∧ a j i = some v ∧ |u - v| ≤ tol := by
  unfold symmetricAssert
  simp only [List.all_eq_true, List.mem_finRange, forall_const, List.mem_filter, true_and, decide_eq_true_eq]
  refine forall₂_congr fun i j => imp_congr_right fun _ => ?_
  cases a i j with
  | none => simp [absDiff, le]
  | some u => cases a j i <;> simp [absDiff, le]

/-- The points the grid assertion compares. -/
def gridPoint (a b : K) (samples i : Nat) : K := a + (b - a) * ((i : K) / samples)

theorem gridLoop_spec (f0 f1 : K → Option K) (a b : K) (samples : Nat) (e : Nat → K) (k : Nat)
    (he : ∀ i < k + 1, absDiff (f1 (gridPoint a b samples i)) (f0 (gridPoint a b samples i)) = some (e i)) :
    ∃ x m, (List.range (k + 1)).foldl (gridStep f0 f1 a b samples) (a, some 0) = (x, some m) ∧ (∀ i < k + 1, e i ≤ m) ∧
      ∃ i < k + 1, x = gridPoint a b samples i ∧ m = e i := by
  have h0 : ∀ i < k + 1, 0 ≤ e i := by
    intro i hi
    have := he i hi
    cases h1 : f1 (gridPoint a b samples i) with
    | none => simp [h1, absDiff] at this
    | some u =>
      cases h2 : f0 (gridPoint a b samples i) with
      | none => simp [h1, h2, absDiff] at this
      | some v =>
        simp only [h1, h2, absDiff, Option.some.injEq] at this
        rw [← this]
        exact abs_nonneg _
  induction k with
  | zero =>
    have hp : gridPoint a b samples 0 = a := by simp [gridPoint]
    have := he 0 (by omega)
    have hz := h0 0 (by omega)
    simp only [List.range_succ, List.range_zero, List.nil_append, List.foldl_cons, List.foldl_nil, gridStep]
    change ∃ x m, (if gt (absDiff (f1 (gridPoint a b samples 0)) (f0 (gridPoint a b samples 0))) (some 0) = true then
      (gridPoint a b samples 0, absDiff (f1 (gridPoint a b samples 0)) (f0 (gridPoint a b samples 0))) else (a, some 0)) = (x, some m) ∧ _
    rw [this]
    by_cases hc : 0 < e 0
    · exact ⟨gridPoint a b samples 0, e 0, by simp [gt, hc], fun i hi => by rw [show i = 0 by omega], 0, by omega, rfl, rfl⟩
    · have hz' : e 0 = 0 := le_antisymm (not_lt.1 hc) hz
      exact ⟨a, 0, by simp [gt, hc], fun i hi => by rw [show i = 0 by omega]; exact hz'.le, 0, by omega, hp.symm, hz'.symm⟩
  | succ k ih =>
    obtain ⟨x, m, h, hle, i, hi, hx, hm⟩ := ih (fun i hi => he i (by omega)) (fun i hi => h0 i (by omega))
    rw [List.range_succ, List.foldl_append, h]
    have hk := he (k + 1) (by omega)
    simp only [List.foldl_cons, List.foldl_nil, gridStep]
    change ∃ x' m', (if gt (absDiff (f1 (gridPoint a b samples (k + 1))) (f0 (gridPoint a b samples (k + 1)))) (some m) = true then
      (gridPoint a b samples (k + 1), absDiff (f1 (gridPoint a b samples (k + 1))) (f0 (gridPoint a b samples (k + 1)))) else (x, some m)) =
        (x', some m') ∧ _
    rw [hk]
    by_cases hc : m < e (k + 1)
    · refine ⟨gridPoint a b samples (k + 1), e (k + 1), by simp [gt, hc], fun j hj => ?_, k + 1, by omega, rfl, rfl⟩
      rcases Nat.lt_succ_iff_lt_or_eq.1 hj with hj | rfl
      · exact (hle j hj).trans hc.le
      · exact le_rfl
    · refine ⟨x, m, by simp [gt, hc], fun j hj => ?_, i, by omega, hx, hm⟩
      rcases Nat.lt_succ_iff_lt_or_eq.1 hj with hj | rfl
      · exact hle j hj
      · exact not_lt.1 hc

/-- C110. If both functions give numbers on the grid, the grid assertion panics exactly when at some grid point they differ by more than
the tolerance; otherwise it returns a worst grid point and the error there. -/
theorem C110_grid_partial (g0 g1 : K → K) (f0 f1 : K → Option K) (a b : K) (samples : Nat) (hs : 0 < samples) (tol : K)
    (hf : ∀ i ≤ samples, f0 (gridPoint a b samples i) = some (g0 (gridPoint a b samples i)) ∧
      f1 (gridPoint a b samples i) = some (g1 (gridPoint a b samples i))) :
    (gridAssert f0 f1 a b samples (some tol) = none ↔
        ∃ i ≤ samples, tol < |g1 (gridPoint a b samples i) - g0 (gridPoint a b samples i)|) ∧
      ∀ x m, gridAssert f0 f1 a b samples (some tol) = some (x, m) → m = some |g1 x - g0 x| ∧
        ∀ i ≤ samples, |g1 (gridPoint a b samples i) - g0 (gridPoint a b samples i)| ≤ |g1 x - g0 x| := by
  obtain ⟨x, m, h, hle, i, hi, hx, hm⟩ := gridLoop_spec f0 f1 a b samples
    (fun i => |g1 (gridPoint a b samples i) - g0 (gridPoint a b samples i)|) samples (fun i hi => by
      obtain ⟨h0, h1⟩ := hf i (by omega)
      rw [h0, h1]
      rfl)
  unfold gridAssert
  rw [if_neg (by omega), h]
  have hm' : m = |g1 x - g0 x| := by rw [hm, hx]
  constructor
  · by_cases hc : tol < m
    · simp only [gt, hc, decide_true, if_true, true_iff]
      exact ⟨i, by omega, hm ▸ hc⟩
    · simp only [gt, hc, decide_false, Bool.false_eq_true, if_false, reduceCtorEq, false_iff]
      rintro ⟨j, hj, hlt⟩
      exact hc (hlt.trans_le (hle j (by omega)))
  · intro x' m'' hr
    by_cases hc : tol < m
    · simp [gt, hc] at hr
    · simp only [gt, hc, decide_false, Bool.false_eq_true, if_false, Option.some.injEq, Prod.mk.injEq] at hr
      obtain ⟨rfl, rfl⟩ := hr
      exact ⟨by rw [hm'], fun j hj => hm' ▸ hle j (by omega)⟩

/-- C110_grid_partial: `x` against `x^2` on `[0, 1]` in four steps; the error at `1/2` is `1/4`. -/
example : gridAssert (fun x : ℚ => some x) (fun x => some (x ^ 2)) 0 1 4 (some (1 / 4)) = some (1 / 2, some (1 / 4)) ∧
    gridAssert (fun x : ℚ => some x) (fun x => some (x ^ 2)) 0 1 4 (some (1 / 5)) = none := by decide +kernel

/-- C110. The points compared go from `a` to `b` in equal steps. -/
theorem C110_grid_points (a b : K) (samples : Nat) (hs : 0 < samples) :
    gridPoint a b samples 0 = a ∧ gridPoint a b samples samples = b ∧
      ∀ i, gridPoint a b samples (i + 1) - gridPoint a b samples i = (b - a) / samples := by
  have : (samples : K) ≠ 0 := by exact_mod_cast hs.ne'
  refine ⟨by simp [gridPoint], by simp [gridPoint, this], fun i => ?_⟩
  simp only [gridPoint, Nat.cast_add, Nat.cast_one]
  field_simp
  ring

omit [IsStrictOrderedRing K] in
theorem gridLoop_nan (f0 f1 : K → Option K) (hf : ∀ x, f1 x = none) (a b : K) (samples : Nat) (l : List Nat) (st : K × Option K) :
    l.foldl (gridStep f0 f1 a b samples) st = st := by
  induction l generalizing st with
  | nil => rfl
  | cons i l ih => simp [List.foldl_cons, gridStep, hf, absDiff, gt, ih]

/-- C110 in full is not met: a function that never gives a number passes the grid assertion against every function. -/
theorem C110_grid_fails (f0 : K → Option K) (a b : K) (samples : Nat) (hs : 0 < samples) (tol : K) (ht : 0 ≤ tol) :
    gridAssert f0 (fun _ => none) a b samples (some tol) = some (a, some 0) := by
  unfold gridAssert
  rw [if_neg (by omega), gridLoop_nan _ _ (fun _ => rfl)]
  simp [gt, not_lt.2 ht]

example : (0 : ℚ) ≤ 1 / 10 ^ 9 := by norm_num

omit [IsStrictOrderedRing K] in
/-- C110 in full is not met: the largest difference of vectors and matrices passes over entries that are not numbers; vectors and
matrices of nothing else have difference zero. -/
theorem C110_max_fails (n : Nat) (b : Fin n → Option K) (c : Fin n → Fin n → Option K) :
    vectorMaxAbsDiff (fun _ : Fin n => none) b = some 0 ∧ matrixMaxAbsDiff (fun _ _ : Fin n => none) c = some 0 := by
  constructor
  · unfold vectorMaxAbsDiff
    simp only [absDiff]
    generalize List.finRange n = l
    induction l with
    | nil => rfl
    | cons i l ih => simpa [fmax] using ih
  · unfold matrixMaxAbsDiff
    simp only [absDiff, gt, Bool.false_eq_true, if_false]
    generalize List.finRange n = l
    have : ∀ l' : List (Fin n), ∀ st : Option K, l'.foldl (fun maxd _ => maxd) st = st := by
      intro l'
      induction l' with
      | nil => simp
      | cons i l' ih => simp
    simp [this]

end Verif.Tools
