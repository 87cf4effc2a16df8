import Verif.Wmm.Model
import Verif.Wmm.Spec
import Mathlib.Analysis.SpecialFunctions.Trigonometric.Deriv
import Mathlib.Analysis.Calculus.Deriv.Polynomial
import Mathlib.Analysis.Calculus.Deriv.Pow
import Mathlib.Algebra.BigOperators.Intervals

/-!
# Lemmas: what the loops of the magnetic model compute
-/

namespace Verif.Wmm

open Real Polynomial

theorem upto_succ {a b : ℕ} (h : a ≤ b + 1) : upto a (b + 1) = upto a b ++ [b + 1] := by
  unfold upto
  rw [show b + 1 + 1 - a = (b + 1 - a) + 1 by omega, List.range'_concat]
  congr 2
  omega

theorem upto_empty {a b : ℕ} (h : b < a) : upto a b = [] := by
  unfold upto
  rw [show b + 1 - a = 0 by omega]
  rfl

theorem upto_zero : upto 0 0 = [0] := rfl

theorem sum_upto (a b : ℕ) (f : ℕ → ℝ) : ((upto a b).map f).sum = ∑ k ∈ Finset.Icc a b, f k := by
  induction b with
  | zero =>
    rcases Nat.eq_zero_or_pos a with h | h
    · subst h; simp [upto]
    · rw [upto_empty h, Finset.Icc_eq_empty (by omega)]; simp
  | succ b ih =>
    by_cases h : a ≤ b + 1
    · rw [upto_succ h, List.map_append, List.sum_append, ih, Finset.sum_Icc_succ_top h]
      simp
    · rw [upto_empty (by omega), Finset.Icc_eq_empty (by omega)]; simp

/-! ## The Legendre table -/

/-- `cosᵐφ · Pₙ⁽ᵐ⁾(sin φ)` for `s = sin φ`, `c = cos φ`. -/
noncomputable def assoc (s c : ℝ) (n m : ℕ) : ℝ := c ^ m * (legendreD n m).eval s

theorem assoc_zero (s c : ℝ) : assoc s c 0 0 = 1 := by simp [assoc, legendreD, legendre_zero]

theorem assoc_diag (s c : ℝ) (m : ℕ) : assoc s c (m + 1) (m + 1) = (2 * m + 1) * c * assoc s c m m := by
  unfold assoc
  rw [legendreD_diag]
  simp
  ring

theorem assoc_off (s c : ℝ) (m : ℕ) : assoc s c (m + 1) m = (2 * m + 1) * s * assoc s c m m := by
  unfold assoc
  rw [legendreD_off]
  simp
  ring

theorem assoc_rec (s c : ℝ) (n m : ℕ) : ((n : ℝ) + 2 - m) * assoc s c (n + 2) m =
    (2 * n + 3) * s * assoc s c (n + 1) m - (n + 1 + m) * assoc s c n m := by
  unfold assoc
  have := congrArg (Polynomial.eval s) (legendreD_rec n m)
  simp at this
  linear_combination c ^ m * this

theorem diag_table (N : ℕ) (s c : ℝ) (p : ℕ → ℕ → ℝ) (h : p 0 0 = 1) : ∀ m ≤ N, legendreDiag N c p m m = assoc s c m m := by
  induction N with
  | zero =>
    intro m hm
    obtain rfl : m = 0 := by omega
    rw [assoc_zero]
    unfold legendreDiag
    rw [upto_empty (by omega)]
    exact h
  | succ N ih =>
    intro m hm
    have e : legendreDiag (N + 1) c p = set2 (legendreDiag N c p) (N + 1) (N + 1)
        (((2 * (N + 1) - 1 : ℕ) : ℝ) * c * legendreDiag N c p N N) := by
      unfold legendreDiag
      rw [upto_succ (by omega), List.foldl_append]
      rfl
    rw [e]
    unfold set2
    by_cases hm' : m = N + 1
    · subst hm'
      rw [if_pos ⟨rfl, rfl⟩, ih N le_rfl, assoc_diag, show 2 * (N + 1) - 1 = 2 * N + 1 by omega]
      push_cast
      ring
    · rw [if_neg (by omega)]
      exact ih m (by omega)

theorem off_table (N : ℕ) (s c : ℝ) (p : ℕ → ℕ → ℝ) (k : ℕ) (hk : k ≤ N) (h : ∀ m ≤ N, p m m = assoc s c m m) :
    (∀ m ≤ N, legendreOff k s p m m = assoc s c m m) ∧ (∀ m < k, legendreOff k s p (m + 1) m = assoc s c (m + 1) m) := by
  induction k with
  | zero => exact ⟨fun m hm => h m hm, fun m hm => absurd hm (by omega)⟩
  | succ k ih =>
    obtain ⟨h1, h2⟩ := ih (by omega)
    have e : legendreOff (k + 1) s p = set2 (legendreOff k s p) (k + 1) k (((2 * k + 1 : ℕ) : ℝ) * s * legendreOff k s p k k) := by
      unfold legendreOff
      rw [List.range_succ, List.foldl_append]
      rfl
    rw [e]
    unfold set2
    refine ⟨fun m hm => ?_, fun m hm => ?_⟩
    · rw [if_neg (by omega)]
      exact h1 m hm
    · by_cases hm' : m = k
      · subst hm'
        rw [if_pos ⟨rfl, rfl⟩, h1 m (by omega), assoc_off]
        push_cast
        ring
      · rw [if_neg (by omega)]
        exact h2 m (by omega)

theorem col_table (s c : ℝ) (p : ℕ → ℕ → ℝ) (m K : ℕ) (h1 : p m m = assoc s c m m) (h2 : m + 1 ≤ K → p (m + 1) m = assoc s c (m + 1) m) :
    (∀ n, m ≤ n → n ≤ K → legendreCol K s p m n m = assoc s c n m) ∧
    (∀ n l, (l ≠ m ∨ n < m + 2) → legendreCol K s p m n l = p n l) := by
  induction K with
  | zero =>
    unfold legendreCol
    rw [upto_empty (by omega)]
    refine ⟨fun n hn hn' => ?_, fun n l _ => rfl⟩
    obtain rfl : n = m := by omega
    exact h1
  | succ K ih =>
    obtain ⟨i1, i2⟩ := ih (fun h => h2 (by omega))
    by_cases hK : m + 2 ≤ K + 1
    · have e : legendreCol (K + 1) s p m = set2 (legendreCol K s p m) (K + 1) m
          ((((2 * (K + 1) - 1 : ℕ) : ℝ) * s * legendreCol K s p m K m - ((K + 1 + m - 1 : ℕ) : ℝ) * legendreCol K s p m (K - 1) m) /
            ((K + 1 - m : ℕ) : ℝ)) := by
        unfold legendreCol
        rw [upto_succ (by omega), List.foldl_append]
        rfl
      rw [e]
      unfold set2
      refine ⟨fun n hn hn' => ?_, fun n l hl => ?_⟩
      · by_cases hn2 : n = K + 1
        · subst hn2
          obtain ⟨j, rfl⟩ : ∃ j, K = j + 1 := ⟨K - 1, by omega⟩
          rw [if_pos ⟨rfl, rfl⟩, i1 (j + 1) (by omega) le_rfl, show j + 1 - 1 = j by omega, i1 j (by omega) (by omega)]
          have r := assoc_rec s c j m
          have hne : ((j + 1 + 1 - m : ℕ) : ℝ) ≠ 0 := by
            exact_mod_cast (by omega : j + 1 + 1 - m ≠ 0)
          rw [div_eq_iff hne, show 2 * (j + 1 + 1) - 1 = 2 * j + 3 by omega, show j + 1 + 1 + m - 1 = j + 1 + m by omega, Nat.cast_sub (by omega)]
          push_cast
          linear_combination -r
        · rw [if_neg (by omega)]
          exact i1 n hn (by omega)
      · rw [if_neg (by omega)]
        exact i2 n l hl
    · unfold legendreCol
      rw [upto_empty (by omega)]
      refine ⟨fun n hn hn' => ?_, fun n l _ => rfl⟩
      rcases (show n = m ∨ n = m + 1 by omega) with rfl | rfl
      · exact h1
      · exact h2 hn'

/-- The table of the three loops holds the associated Legendre functions. -/
theorem legendre_table (N : ℕ) (s c : ℝ) (n m : ℕ) (hm : m ≤ n) (hn : n ≤ N) : legendreTable N s c n m = assoc s c n m := by
  have d := diag_table N s c (set2 (fun _ _ => 0) 0 0 1) (by simp [set2])
  obtain ⟨o1, o2⟩ := off_table N s c _ N le_rfl d
  unfold legendreTable
  set p := legendreOff N s (legendreDiag N c (set2 (fun _ _ => 0) 0 0 1)) with hp
  have key : ∀ k, k ≤ N → (∀ m ≤ k, ∀ n, m ≤ n → n ≤ N → (upto 0 k).foldl (legendreCol N s) p n m = assoc s c n m) ∧
      (∀ m, k < m → ∀ n, (upto 0 k).foldl (legendreCol N s) p n m = p n m) := by
    intro k
    induction k with
    | zero =>
      intro hk
      rw [upto_zero]
      obtain ⟨c1, c2⟩ := col_table s c p 0 N (o1 0 (by omega)) (fun h => o2 0 (by omega))
      refine ⟨fun m hm n hn hn' => ?_, fun m hm n => c2 n m (Or.inl (by omega))⟩
      obtain rfl : m = 0 := by omega
      exact c1 n hn hn'
    | succ k ih =>
      intro hk
      obtain ⟨i1, i2⟩ := ih (by omega)
      rw [upto_succ (by omega), List.foldl_append]
      change (∀ m ≤ k + 1, ∀ n, m ≤ n → n ≤ N → legendreCol N s ((upto 0 k).foldl (legendreCol N s) p) (k + 1) n m = assoc s c n m) ∧
        ∀ m, k + 1 < m → ∀ n, legendreCol N s ((upto 0 k).foldl (legendreCol N s) p) (k + 1) n m = p n m
      obtain ⟨c1, c2⟩ := col_table s c ((upto 0 k).foldl (legendreCol N s) p) (k + 1) N
        (by rw [i2 (k + 1) (by omega)]; exact o1 (k + 1) hk)
        (fun h => by rw [i2 (k + 1) (by omega)]; exact o2 (k + 1) (by omega))
      refine ⟨fun m hm n hn hn' => ?_, fun m hm n => ?_⟩
      · by_cases h : m = k + 1
        · subst h
          exact c1 n hn hn'
        · rw [c2 n m (Or.inl h)]
          exact i1 m (by omega) n hn hn'
      · rw [c2 n m (Or.inl (by omega))]
        exact i2 m (by omega) n
  exact (key N le_rfl).1 m (by omega) n hm hn

/-! ## The Schmidt factor -/

theorem schmidt_fold (a b : ℕ) (h : a ≤ b) : (upto (a + 1) b).foldl (fun ratio value => ratio / ((value : ℕ) : ℝ)) 2 =
    2 * (a.factorial : ℝ) / b.factorial := by
  induction b with
  | zero =>
    obtain rfl : a = 0 := by omega
    rw [upto_empty (by omega)]
    simp
  | succ b ih =>
    by_cases hb : a = b + 1
    · subst hb
      rw [upto_empty (by omega)]
      have : ((b + 1).factorial : ℝ) ≠ 0 := by exact_mod_cast Nat.factorial_ne_zero _
      rw [List.foldl_nil, mul_div_assoc, div_self this, mul_one]
    · rw [upto_succ (by omega), List.foldl_append, ih (by omega)]
      have h1 : (b.factorial : ℝ) ≠ 0 := by exact_mod_cast Nat.factorial_ne_zero _
      rw [Nat.factorial_succ]
      simp only [List.foldl_cons, List.foldl_nil]
      push_cast
      have h2 : (b : ℝ) + 1 ≠ 0 := by positivity
      field_simp

theorem schmidt_factor_eq (n m : ℕ) (h : m ≤ n) : schmidtFactor n m = schmidt n m := by
  unfold schmidtFactor schmidt
  by_cases hm : m = 0
  · rw [if_pos hm, if_pos hm]
  · rw [if_neg hm, if_neg hm, schmidt_fold _ _ (by omega)]

/-! ## The last loop -/

theorem inner_fill (e : ℕ → ℝ × ℝ) (degree : ℕ) (t : (ℕ → ℕ → ℝ) × (ℕ → ℕ → ℝ)) (k : ℕ) :
    (upto 0 k).foldl (fun t order => (set2 t.1 degree order (e order).1, set2 t.2 degree order (e order).2)) t =
      ((fun n m => if n = degree ∧ m ≤ k then (e m).1 else t.1 n m), (fun n m => if n = degree ∧ m ≤ k then (e m).2 else t.2 n m)) := by
  induction k with
  | zero =>
    rw [upto_zero]
    simp only [List.foldl_cons, List.foldl_nil]
    refine Prod.ext ?_ ?_ <;>
    · funext n m
      unfold set2
      dsimp only
      by_cases h : n = degree ∧ m = 0
      · rw [if_pos h, if_pos ⟨h.1, by omega⟩, h.2]
      · rw [if_neg h, if_neg (by omega)]
  | succ k ih =>
    rw [upto_succ (by omega), List.foldl_append, ih]
    simp only [List.foldl_cons, List.foldl_nil]
    refine Prod.ext ?_ ?_ <;>
    · funext n m
      unfold set2
      dsimp only
      by_cases h : n = degree ∧ m = k + 1
      · rw [if_pos h, if_pos ⟨h.1, by omega⟩, h.2]
      · rw [if_neg h]
        by_cases h' : n = degree ∧ m ≤ k
        · rw [if_pos h', if_pos ⟨h'.1, by omega⟩]
        · rw [if_neg h', if_neg (by omega)]

theorem outer_fill (e : ℕ → ℕ → ℝ × ℝ) (K : ℕ) :
    (upto 0 K).foldl (fun t degree => (upto 0 degree).foldl (fun t order =>
      (set2 t.1 degree order (e degree order).1, set2 t.2 degree order (e degree order).2)) t) ((fun _ _ => 0), (fun _ _ => 0)) =
      ((fun n m => if n ≤ K ∧ m ≤ n then (e n m).1 else 0), (fun n m => if n ≤ K ∧ m ≤ n then (e n m).2 else 0)) := by
  induction K with
  | zero =>
    rw [upto_zero]
    simp only [List.foldl_cons, List.foldl_nil]
    rw [inner_fill]
    refine Prod.ext ?_ ?_ <;>
    · funext n m
      dsimp only
      by_cases h : n = 0 ∧ m ≤ 0
      · rw [if_pos h, if_pos (by omega), h.1]
      · rw [if_neg h, if_neg (by omega)]
  | succ K ih =>
    rw [upto_succ (by omega), List.foldl_append, ih]
    simp only [List.foldl_cons, List.foldl_nil]
    rw [inner_fill]
    refine Prod.ext ?_ ?_ <;>
    · funext n m
      dsimp only
      by_cases h : n = K + 1 ∧ m ≤ K + 1
      · rw [if_pos h, if_pos (by omega), h.1]
      · rw [if_neg h]
        by_cases h' : n ≤ K ∧ m ≤ n
        · rw [if_pos h', if_pos (by omega)]
        · rw [if_neg h', if_neg (by omega)]

theorem schmidt_table (N : ℕ) (φ : ℝ) (n m : ℕ) (hm : m ≤ n) (hn : n ≤ N) :
    (schmidtLegendre N (sin φ) (cos φ)).1 n m = schmidtP n m φ := by
  unfold schmidtLegendre
  dsimp only
  rw [outer_fill]
  dsimp only
  rw [if_pos ⟨hn, hm⟩]
  unfold schmidtEntry
  dsimp only
  rw [schmidt_factor_eq n m hm, legendre_table N _ _ n m hm hn]
  rfl

theorem assoc_deriv (n m : ℕ) (hm : m ≤ n) (φ : ℝ) (hc : cos φ ≠ 0) : HasDerivAt (fun φ => assoc (sin φ) (cos φ) n m)
    (cos φ * ((n * sin φ * assoc (sin φ) (cos φ) n m - (n + m) * (if 0 < n ∧ m < n then assoc (sin φ) (cos φ) (n - 1) m else 0)) /
      (sin φ * sin φ - 1))) φ := by
  have hT := (legendreD n m).hasDerivAt (sin φ)
  have h1 : HasDerivAt (fun φ => (legendreD n m).eval (sin φ)) ((derivative (legendreD n m)).eval (sin φ) * cos φ) φ :=
    hT.comp φ (Real.hasDerivAt_sin φ)
  have h2 : HasDerivAt (fun φ => cos φ ^ m) (m * cos φ ^ (m - 1) * (-sin φ)) φ := (Real.hasDerivAt_cos φ).pow m
  have h3 := h2.mul h1
  refine h3.congr_deriv ?_
  have hd : derivative (legendreD n m) = legendreD n (m + 1) := by
    unfold legendreD
    rw [Function.iterate_succ_apply']
  rw [hd]
  have hs : sin φ * sin φ - 1 = -(cos φ * cos φ) := by nlinarith [sin_sq_add_cos_sq φ]
  have hpow : (m : ℝ) * cos φ ^ (m - 1) * cos φ = m * cos φ ^ m := by
    cases m with
    | zero => simp
    | succ m => simp [pow_succ]; ring
  have hne : cos φ * cos φ ≠ 0 := mul_ne_zero hc hc
  rw [hs, div_neg, mul_neg, ← neg_mul_eq_mul_neg, mul_div_assoc', ← neg_div, eq_div_iff hne]
  have main : cos φ * cos φ * (legendreD n (m + 1)).eval (sin φ) = ((n : ℝ) + m) *
      (if 0 < n ∧ m < n then (legendreD (n - 1) m).eval (sin φ) else 0) - ((n : ℝ) - m) * (sin φ * (legendreD n m).eval (sin φ)) := by
    cases n with
    | zero =>
      obtain rfl : m = 0 := by omega
      rw [legendreD_zero (by omega)]
      simp
    | succ n =>
      have := congrArg (Polynomial.eval (sin φ)) (legendreD_deriv n m)
      simp at this
      have hp : (if 0 < n + 1 ∧ m < n + 1 then (legendreD (n + 1 - 1) m).eval (sin φ) else 0) = (legendreD n m).eval (sin φ) := by
        by_cases h : m < n + 1
        · rw [if_pos ⟨by omega, h⟩]; rfl
        · rw [if_neg (by omega), legendreD_zero (by omega)]; simp
      rw [hp]
      push_cast
      linear_combination this + (legendreD (n + 1) (m + 1)).eval (sin φ) * (sin_sq_add_cos_sq φ)
  have hif : (if 0 < n ∧ m < n then assoc (sin φ) (cos φ) (n - 1) m else 0) = cos φ ^ m *
      (if 0 < n ∧ m < n then (legendreD (n - 1) m).eval (sin φ) else 0) := by
    unfold assoc
    split_ifs <;> simp
  rw [hif]
  unfold assoc
  linear_combination cos φ ^ m * cos φ * main - cos φ * sin φ * (legendreD n m).eval (sin φ) * hpow

theorem schmidt_table_deriv (N : ℕ) (φ : ℝ) (n m : ℕ) (hm : m ≤ n) (hn : n ≤ N) (hc : poleEps < |cos φ|) :
    HasDerivAt (schmidtP n m) ((schmidtLegendre N (sin φ) (cos φ)).2 n m) φ := by
  have hc0 : cos φ ≠ 0 := by
    intro h
    rw [h, abs_zero] at hc
    norm_num [poleEps] at hc
  have h := (assoc_deriv n m hm φ hc0).const_mul (schmidt n m)
  refine h.congr_deriv ?_
  have e : (schmidtLegendre N (sin φ) (cos φ)).2 n m = (schmidtEntry (legendreTable N (sin φ) (cos φ)) (sin φ) (cos φ) n m).2 := by
    unfold schmidtLegendre
    dsimp only
    rw [outer_fill]
    dsimp only
    rw [if_pos ⟨hn, hm⟩]
  rw [e]
  unfold schmidtEntry
  dsimp only
  rw [schmidt_factor_eq n m hm, legendre_table N _ _ n m hm hn, if_neg (not_le.mpr hc)]
  have : (if n > 0 ∧ m < n then legendreTable N (sin φ) (cos φ) (n - 1) m else 0) =
      (if 0 < n ∧ m < n then assoc (sin φ) (cos φ) (n - 1) m else 0) := by
    by_cases h : 0 < n ∧ m < n
    · rw [if_pos h, if_pos h, legendre_table N _ _ (n - 1) m (by omega) (by omega)]
    · rw [if_neg h, if_neg h]
  rw [this]
  push_cast
  ring

/-! ## Longitude harmonics -/

theorem harmonics (N : ℕ) (lon : ℝ) : ∀ m ≤ N, (longitudeHarmonics N lon).1 m = cos (m * lon) ∧ (longitudeHarmonics N lon).2 m = sin (m * lon) := by
  induction N with
  | zero =>
    intro m hm
    obtain rfl : m = 0 := by omega
    unfold longitudeHarmonics
    rw [upto_empty (by omega)]
    simp [set1]
  | succ N ih =>
    intro m hm
    have e : longitudeHarmonics (N + 1) lon =
        (set1 (longitudeHarmonics N lon).1 (N + 1) ((longitudeHarmonics N lon).1 N * cos lon - (longitudeHarmonics N lon).2 N * sin lon),
         set1 (longitudeHarmonics N lon).2 (N + 1) ((longitudeHarmonics N lon).2 N * cos lon +
          (set1 (longitudeHarmonics N lon).1 (N + 1) ((longitudeHarmonics N lon).1 N * cos lon - (longitudeHarmonics N lon).2 N * sin lon)) N * sin lon)) := by
      conv_lhs => unfold longitudeHarmonics
      rw [upto_succ (by omega), List.foldl_append]
      rfl
    rw [e]
    by_cases h : m = N + 1
    · subst h
      obtain ⟨h1, h2⟩ := ih N le_rfl
      unfold set1
      dsimp only
      rw [if_pos rfl, if_pos rfl, if_neg (by omega), h1, h2]
      push_cast
      rw [add_mul, one_mul, cos_add, sin_add]
      exact ⟨rfl, rfl⟩
    · unfold set1
      dsimp only
      rw [if_neg h, if_neg h]
      exact ih m (by omega)

end Verif.Wmm
