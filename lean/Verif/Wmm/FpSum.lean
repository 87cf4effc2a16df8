import Verif.Wmm.FpErr
import Verif.Wmm.Coeff

/-!
# Lemmas: rounding errors of the sums of the magnetic model
-/

namespace Verif.Wmm.Fp

open Real Verif.Stats Verif.Simd Verif.Round

variable {fl : ℝ → ℝ} {ε : ℝ}

/-! ## Coefficients -/

/-- Size of a coefficient within five years of the epoch, in units of a tenth. -/
def reach (raw rawDot : List ℤ) (n m : ℕ) : ℕ :=
  (raw.getD (Table.index n m) 0).natAbs + 5 * (rawDot.getD (Table.index n m) 0).natAbs

theorem get_abs (raw : List ℤ) (n m : ℕ) (hm : m ≤ n) (hn : n ≤ 12) :
    |(tableOf raw).get n m| = ((raw.getD (Table.index n m) 0).natAbs : ℝ) / 10 := by
  unfold Table.get tableOf tenths
  rw [if_neg (by unfold maxDegree; omega)]
  dsimp only
  rw [abs_div, abs_of_pos (show (0 : ℝ) < 10 by norm_num), Nat.cast_natAbs, Int.cast_abs]

theorem coefficient_err (h : Accurate fl ε) (hu : ε < 1) (raw rawDot : List ℤ) {year : ℝ} (hy : |year - 2025| ≤ 5) (n m : ℕ) (hm : m ≤ n)
    (hn : n ≤ 12) : Err ε 4 (coefficient fl raw rawDot (fl (year - 2025)) n m)
      ((tableOf raw).get n m + (year - 2025) * (tableOf rawDot).get n m) ((reach raw rawDot n m : ℝ) / 10) := by
  have h1 := near_err h hu (near_round h hu (near_self (ε := ε) ((tableOf raw).get n m)))
  have h2 := near_err h hu (near_round h hu (near_self (ε := ε) ((tableOf rawDot).get n m)))
  have h3 := weaken h hu (near_err h hu (near_round h hu (near_self (ε := ε) (year - 2025)))) le_rfl hy
  have h4 := eadd h hu (weaken h hu h1 (by omega : _ ≤ 3) le_rfl) (emul h hu h3 h2)
  refine weaken h hu h4 (by omega) (le_of_eq ?_)
  rw [get_abs raw n m hm hn, get_abs rawDot n m hm hn]
  unfold reach
  push_cast
  ring

/-- Size of both coefficients of a degree and order, in units of a tenth. -/
def coef (n m : ℕ) : ℕ := reach rawG rawGDot n m + reach rawH rawHDot n m

/-! ## Sums -/

/-- The pairs of degree and order in the order of the loops. -/
def pairs : List (ℕ × ℕ) := (upto 1 12).flatMap fun n => (upto 0 n).map fun m => (n, m)

theorem pairs_length : pairs.length = 90 := by decide +kernel

theorem pairs_mem : ∀ p ∈ pairs, p.2 ≤ p.1 ∧ 1 ≤ p.1 ∧ p.1 ≤ 12 := by decide +kernel

theorem pairs_sum (f : ℕ × ℕ → ℝ) : (pairs.map f).sum = ∑ n ∈ Finset.Icc 1 12, ∑ m ∈ Finset.Icc 0 n, f (n, m) := by
  rw [← sum_upto]
  unfold pairs
  rw [List.map_flatMap, List.flatMap_def, List.sum_flatten, List.map_map]
  refine congrArg List.sum (List.map_congr_left fun n _ => ?_)
  rw [Function.comp_apply, List.map_map, ← sum_upto]
  rfl

theorem fold_pairs {α : Type} (f : ℕ → α → ℕ → α) (a : α) :
    (upto 1 12).foldl (fun a n => (upto 0 n).foldl (f n) a) a = pairs.foldl (fun a p => f p.1 a p.2) a := by
  unfold pairs
  rw [List.foldl_flatMap]
  congr 1
  funext a n
  rw [List.foldl_map]

theorem fold_triple {P : Type} {F : ℝ × ℝ × ℝ → P → ℝ × ℝ × ℝ} {f g k : ℝ → P → ℝ} (hF : ∀ a p, F a p = (f a.1 p, g a.2.1 p, k a.2.2 p)) :
    ∀ (l : List P) (a b c : ℝ), l.foldl F (a, b, c) = (l.foldl f a, l.foldl g b, l.foldl k c)
  | [], a, b, c => rfl
  | p :: l, a, b, c => by rw [List.foldl_cons, hF, fold_triple hF l]; rfl

theorem fold_add (h : Accurate fl ε) (hu : ε < 1) {P : Type} {y z B : P → ℝ} {e : ℕ} : ∀ (l : List P), (∀ p ∈ l, Err ε e (y p) (z p) (B p)) →
    ∀ {d : ℕ} {a s A : ℝ}, e ≤ d → Err ε d a s A →
      Err ε (d + l.length) (l.foldl (fun a p => fl (a + y p)) a) (s + (l.map z).sum) (A + (l.map B).sum)
  | [], _, d, a, s, A, _, ha => by simpa using ha
  | p :: l, hy, d, a, s, A, hd, ha => by
    have h1 := eadd h hu ha (weaken h hu (hy p List.mem_cons_self) hd le_rfl)
    have h2 := fold_add h hu l (fun q hq => hy q (List.mem_cons_of_mem p hq)) (show e ≤ d + 1 by omega) h1
    simp only [List.foldl_cons, List.map_cons, List.sum_cons, List.length_cons]
    rw [show d + (l.length + 1) = d + 1 + l.length by omega, ← add_assoc, ← add_assoc]
    exact h2

theorem fold_sub (h : Accurate fl ε) (hu : ε < 1) {P : Type} {y z B : P → ℝ} {e : ℕ} : ∀ (l : List P), (∀ p ∈ l, Err ε e (y p) (z p) (B p)) →
    ∀ {d : ℕ} {a s A : ℝ}, e ≤ d → Err ε d a s A →
      Err ε (d + l.length) (l.foldl (fun a p => fl (a - y p)) a) (s - (l.map z).sum) (A + (l.map B).sum)
  | [], _, d, a, s, A, _, ha => by simpa using ha
  | p :: l, hy, d, a, s, A, hd, ha => by
    have h1 := esub h hu ha (weaken h hu (hy p List.mem_cons_self) hd le_rfl)
    have h2 := fold_sub h hu l (fun q hq => hy q (List.mem_cons_of_mem p hq)) (show e ≤ d + 1 by omega) h1
    simp only [List.foldl_cons, List.map_cons, List.sum_cons, List.length_cons]
    rw [show d + (l.length + 1) = d + 1 + l.length by omega, ← sub_sub, ← add_assoc]
    exact h2

/-! ## Sizes of the sums -/

def sizeX (p : ℕ × ℕ) : ℚ := (403 / 400) ^ (p.1 + 2) * ((coef p.1 p.2 : ℚ) / 10 * (3 / 2) ^ p.2) * slope p.1 p.2
def sizeY (p : ℕ × ℕ) : ℚ := (403 / 400) ^ (p.1 + 2) * ((p.2 : ℚ) * ((coef p.1 p.2 : ℚ) / 10 * (3 / 2) ^ p.2)) * top p.1 p.2
def sizeZ (p : ℕ × ℕ) : ℚ := (403 / 400) ^ (p.1 + 2) * ((p.1 : ℚ) + 1) * ((coef p.1 p.2 : ℚ) / 10 * (3 / 2) ^ p.2) * top p.1 p.2

theorem sizeX_sum : (pairs.map sizeX).sum ≤ 6100000 := by decide +kernel
theorem sizeY_sum : (pairs.map sizeY).sum ≤ 1400000 := by decide +kernel
theorem sizeZ_sum : (pairs.map sizeZ).sum ≤ 5000000 := by decide +kernel

theorem cast_sum (f : ℕ × ℕ → ℚ) (l : List (ℕ × ℕ)) : (l.map fun p => ((f p : ℚ) : ℝ)).sum = (((l.map f).sum : ℚ) : ℝ) := by
  induction l with
  | nil => simp
  | cons p l ih => simp only [List.map_cons, List.sum_cons, ih]; push_cast; ring

theorem sum_div (f : ℕ × ℕ → ℝ) (c : ℝ) (l : List (ℕ × ℕ)) : (l.map fun p => f p / c).sum = (l.map f).sum / c := by
  induction l with
  | nil => simp
  | cons p l ih => simp only [List.map_cons, List.sum_cons, ih]; ring

/-- What the sums are computed from, each input a few roundings off. -/
structure Inputs (fl : ℝ → ℝ) (ε : ℝ) (powi : ℝ → ℕ → ℝ) (g h g' h' : ℕ → ℕ → ℝ) (lon : ℝ) (cm sm : ℕ → ℝ) (P dP P' dP' : ℕ → ℕ → ℝ)
    (c c' q r' : ℝ) : Prop where
  g_err : ∀ n m, m ≤ n → n ≤ 12 → Err ε 4 (g' n m) (g n m) ((reach rawG rawGDot n m : ℝ) / 10)
  h_err : ∀ n m, m ≤ n → n ≤ 12 → Err ε 4 (h' n m) (h n m) ((reach rawH rawHDot n m : ℝ) / 10)
  cos_err : ∀ m, m ≤ 12 → Err ε (3 * m) (cm m) (cos (m * lon)) ((3 / 2) ^ m)
  sin_err : ∀ m, m ≤ 12 → Err ε (3 * m) (sm m) (sin (m * lon)) ((3 / 2) ^ m)
  p_err : ∀ n m, m ≤ n → n ≤ 12 → Err ε (7 * n + 2) (P' n m) (P n m) (c ^ m * top n m)
  dp_err : ∀ n m, m ≤ n → n ≤ 12 → Err ε (7 * n + 11) (dP' n m) (dP n m) (slope n m / c)
  c_near : Near ε 1 c' c
  c_pos : 0 < c
  c_le : c ≤ 1
  q_pos : 0 < q
  q_le : q ≤ 403 / 400
  power : ∀ n, n ≤ 12 → Near ε (5 * (n + 2)) (powi (fl (fl (fl 6371.2 * 1000) / r')) (n + 2)) (q ^ (n + 2))

variable {powi : ℝ → ℕ → ℝ} {g h g' h' : ℕ → ℕ → ℝ} {lon : ℝ} {cm sm : ℕ → ℝ} {P dP P' dP' : ℕ → ℕ → ℝ} {c c' q r' : ℝ}

theorem Inputs.radial (hf : Accurate fl ε) (hu : ε < 1) (I : Inputs fl ε powi g h g' h' lon cm sm P dP P' dP' c c' q r') (n : ℕ) (hn : n ≤ 12) :
    Err ε (5 * n + 10) (powi (fl (fl (fl 6371.2 * 1000) / r')) (n + 2)) (q ^ (n + 2)) ((403 / 400) ^ (n + 2)) := by
  refine weaken hf hu (near_err hf hu (I.power n hn)) (by omega) ?_
  rw [abs_of_nonneg (pow_nonneg I.q_pos.le _)]
  exact pow_le_pow_left₀ I.q_pos.le I.q_le _

theorem Inputs.combined (hf : Accurate fl ε) (hu : ε < 1) (I : Inputs fl ε powi g h g' h' lon cm sm P dP P' dP' c c' q r') (n m : ℕ) (hm : m ≤ n)
    (hn : n ≤ 12) : Err ε (3 * m + 6) (fl (fl (g' n m * cm m) + fl (h' n m * sm m))) (g n m * cos (m * lon) + h n m * sin (m * lon))
      ((coef n m : ℝ) / 10 * (3 / 2) ^ m) := by
  have h1 := emul hf hu (I.g_err n m hm hn) (I.cos_err m (by omega))
  have h2 := emul hf hu (I.h_err n m hm hn) (I.sin_err m (by omega))
  refine weaken hf hu (eadd hf hu h1 h2) (by omega) (le_of_eq ?_)
  unfold coef
  push_cast
  ring

theorem Inputs.azimuthal (hf : Accurate fl ε) (hu : ε < 1) (I : Inputs fl ε powi g h g' h' lon cm sm P dP P' dP' c c' q r') (n m : ℕ) (hm : m ≤ n)
    (hn : n ≤ 12) : Err ε (3 * m + 7) (fl ((m : ℝ) * fl (fl (g' n m * sm m) - fl (h' n m * cm m))))
      ((m : ℝ) * (g n m * sin (m * lon) - h n m * cos (m * lon))) ((m : ℝ) * ((coef n m : ℝ) / 10 * (3 / 2) ^ m)) := by
  have h1 := emul hf hu (I.g_err n m hm hn) (I.sin_err m (by omega))
  have h2 := emul hf hu (I.h_err n m hm hn) (I.cos_err m (by omega))
  refine weaken hf hu (emul hf hu (econst (x := (m : ℝ)) (Nat.cast_nonneg m)) (esub hf hu h1 h2)) (by omega) (le_of_eq ?_)
  unfold coef
  push_cast
  ring

theorem accumulate_fold (r'' : ℝ) : accumulate fl powi 12 g' h' cm sm P' dP' c' r'' =
    (pairs.foldl (fun a p => fl (a - fl (fl (powi (fl (fl (fl 6371.2 * 1000) / r'')) (p.1 + 2) *
        fl (fl (g' p.1 p.2 * cm p.2) + fl (h' p.1 p.2 * sm p.2))) * dP' p.1 p.2))) 0,
     pairs.foldl (fun a p => fl (a + fl (fl (fl (powi (fl (fl (fl 6371.2 * 1000) / r'')) (p.1 + 2) *
        fl ((p.2 : ℝ) * fl (fl (g' p.1 p.2 * sm p.2) - fl (h' p.1 p.2 * cm p.2)))) * P' p.1 p.2) / c'))) 0,
     pairs.foldl (fun a p => fl (a - fl (fl (fl (powi (fl (fl (fl 6371.2 * 1000) / r'')) (p.1 + 2) * ((p.1 : ℝ) + 1)) *
        fl (fl (g' p.1 p.2 * cm p.2) + fl (h' p.1 p.2 * sm p.2))) * P' p.1 p.2))) 0) := by
  unfold accumulate
  rw [fold_pairs (fun n => step fl g' h' cm sm P' dP' c' (powi (fl (fl (fl 6371.2 * 1000) / r'')) (n + 2)) n)]
  refine fold_triple ?_ pairs 0 0 0
  intro a p
  rfl

/-- The three sums of the loops. -/
theorem Inputs.sums (hf : Accurate fl ε) (hu : ε < 1) (I : Inputs fl ε powi g h g' h' lon cm sm P dP P' dP' c c' q r') :
    Err ε 299 (accumulate fl powi 12 g' h' cm sm P' dP' c' r').1 (sumX 12 q g h dP lon) (6100000 / c) ∧
    Err ε 299 (accumulate fl powi 12 g' h' cm sm P' dP' c' r').2.1 (sumY 12 q g h P lon c) 1400000 ∧
    Err ε 299 (accumulate fl powi 12 g' h' cm sm P' dP' c' r').2.2 (sumZ 12 q g h P lon) 5000000 := by
  have hc := I.c_pos
  rw [accumulate_fold]
  refine ⟨?_, ?_, ?_⟩
  · have h1 := fold_sub hf hu (e := 209) (z := fun p : ℕ × ℕ => q ^ (p.1 + 2) * (g p.1 p.2 * cos (p.2 * lon) + h p.1 p.2 * sin (p.2 * lon)) * dP p.1 p.2)
      (B := fun p => ((sizeX p : ℚ) : ℝ) / c) pairs (fun p hp => by
        obtain ⟨hm, -, hn⟩ := pairs_mem p hp
        refine weaken hf hu (emul hf hu (emul hf hu (I.radial hf hu p.1 hn) (I.combined hf hu p.1 p.2 hm hn)) (I.dp_err p.1 p.2 hm hn)) (by omega) (le_of_eq ?_)
        unfold sizeX
        push_cast
        ring) (d := 209) le_rfl (err_zero 209)
    rw [sum_div, cast_sum, zero_add, zero_sub, pairs_sum, pairs_length] at h1
    refine weaken hf hu h1 le_rfl ?_
    exact (div_le_div_iff_of_pos_right hc).2 (by exact_mod_cast sizeX_sum)
  · have h1 := fold_add hf hu (e := 209) (z := fun p : ℕ × ℕ => q ^ (p.1 + 2) * ((p.2 : ℝ) * (g p.1 p.2 * sin (p.2 * lon) - h p.1 p.2 * cos (p.2 * lon))) * P p.1 p.2 / c)
      (B := fun p => ((sizeY p : ℚ) : ℝ)) pairs (fun p hp => by
        obtain ⟨hm, -, hn⟩ := pairs_mem p hp
        refine weaken hf hu (ediv hf hu (emul hf hu (emul hf hu (I.radial hf hu p.1 hn) (I.azimuthal hf hu p.1 p.2 hm hn)) (I.p_err p.1 p.2 hm hn)) I.c_near hc.ne')
          (by omega) ?_
        rw [abs_of_pos hc]
        unfold sizeY
        push_cast
        rcases Nat.eq_zero_or_pos p.2 with h0 | h0
        · rw [h0]; simp
        · have e1 : c ^ p.2 / c ≤ 1 := by
            rw [div_le_one hc]
            calc c ^ p.2 ≤ c ^ 1 := pow_le_pow_of_le_one hc.le I.c_le h0
              _ = c := pow_one c
          have e2 : (0 : ℝ) ≤ (403 / 400) ^ (p.1 + 2) * ((p.2 : ℝ) * ((coef p.1 p.2 : ℝ) / 10 * (3 / 2) ^ p.2)) * top p.1 p.2 := by positivity
          have := mul_le_mul_of_nonneg_left e1 e2
          rw [mul_one] at this
          refine le_trans (le_of_eq ?_) this
          ring) (d := 209) le_rfl (err_zero 209)
    rw [cast_sum, zero_add, zero_add, pairs_sum, pairs_length] at h1
    refine weaken hf hu h1 le_rfl ?_
    exact_mod_cast sizeY_sum
  · have h1 := fold_sub hf hu (e := 209) (z := fun p : ℕ × ℕ => q ^ (p.1 + 2) * ((p.1 : ℝ) + 1) * (g p.1 p.2 * cos (p.2 * lon) + h p.1 p.2 * sin (p.2 * lon)) * P p.1 p.2)
      (B := fun p => ((sizeZ p : ℚ) : ℝ)) pairs (fun p hp => by
        obtain ⟨hm, -, hn⟩ := pairs_mem p hp
        refine weaken hf hu (emul hf hu (emul hf hu (emul hf hu (I.radial hf hu p.1 hn) (econst (x := (p.1 : ℝ) + 1) (by positivity))) (I.combined hf hu p.1 p.2 hm hn))
          (I.p_err p.1 p.2 hm hn)) (by omega) ?_
        unfold sizeZ
        push_cast
        have e1 : c ^ p.2 ≤ 1 := pow_le_one₀ hc.le I.c_le
        have e2 : (0 : ℝ) ≤ (403 / 400) ^ (p.1 + 2) * ((p.1 : ℝ) + 1) * ((coef p.1 p.2 : ℝ) / 10 * (3 / 2) ^ p.2) * top p.1 p.2 := by positivity
        have := mul_le_mul_of_nonneg_left e1 e2
        rw [mul_one] at this
        refine le_trans (le_of_eq ?_) this
        ring) (d := 209) le_rfl (err_zero 209)
    rw [cast_sum, zero_add, zero_sub, pairs_sum, pairs_length] at h1
    refine weaken hf hu h1 le_rfl ?_
    exact_mod_cast sizeZ_sum

end Verif.Wmm.Fp
