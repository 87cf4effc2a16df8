import Verif.Stats.Model
import Verif.Mat.PropsAlg
import Mathlib.Algebra.BigOperators.Group.List.Basic
import Mathlib.Algebra.BigOperators.Field

/-!
# Properties of sample covariances and correlations (C49, C50)
-/

namespace Verif.Stats

open Verif.Mat

variable {n m : ℕ}

/-! ## Specification -/

/-- The arithmetic mean of a list of vectors. -/
noncomputable def avg (xs : List (Fin n → ℝ)) (i : Fin n) : ℝ := (xs.map fun x => x i).sum / xs.length

/-- The textbook sample cross-covariance of paired samples. -/
noncomputable def textbookCov (ps : List ((Fin n → ℝ) × (Fin m → ℝ))) (i : Fin n) (j : Fin m) : ℝ :=
  (ps.map fun p => (p.1 i - avg (ps.map Prod.fst) i) * (p.2 j - avg (ps.map Prod.snd) j)).sum / ((ps.length : ℝ) - 1)

/-! ## The loops -/

theorem addOuter_apply {α : Type} [Add α] [Mul α] (cov : Mat α n m) (x : Fin n → α) (y : Fin m → α) (i : Fin n) (j : Fin m) :
    addOuter cov x y i j = cov i j + x i * y j := by
  unfold addOuter
  have : (fun (res : Mat α n m) (row : Fin n) =>
      (rng m 0 m).foldl (fun cov col => setE cov row col (cov row col + x row * y col)) res)
      = fun (res : Mat α n m) row => Function.update res row (fun col => res row col + x row * y col) := by
    funext res row
    rw [rowLoop (fun a col => a row col + x row * y col) row (fun _ _ _ _ h => by simp only [h]) _ (nodup_rng _ _ _)]
    congr 1
    funext c
    simp [mem_rng]
  rw [this]
  have key : ∀ (l : List (Fin n)), l.Nodup → ∀ cov : Mat α n m,
      l.foldl (fun (res : Mat α n m) row => Function.update res row (fun col => res row col + x row * y col)) cov i j
        = if i ∈ l then cov i j + x i * y j else cov i j := by
    intro l
    induction l with
    | nil => intro _ cov; simp
    | cons a l ih =>
      intro hnd cov
      rw [List.foldl_cons, ih (List.nodup_cons.1 hnd).2]
      have ha := (List.nodup_cons.1 hnd).1
      by_cases h : i = a
      · subst h
        simp [ha]
      · simp [h]
  rw [key _ (nodup_rng _ _ _)]
  simp [mem_rng]

theorem foldl_addOuter {P : Type*} (f : P → Fin n → ℝ) (g : P → Fin m → ℝ) (i : Fin n) (j : Fin m) :
    ∀ (ps : List P) (cov : Mat ℝ n m),
      ps.foldl (fun cov p => addOuter cov (f p) (g p)) cov i j = cov i j + (ps.map fun p => f p i * g p j).sum
  | [], cov => by simp
  | p :: ps, cov => by
    rw [List.foldl_cons, foldl_addOuter f g i j ps, addOuter_apply]
    simp only [List.map_cons, List.sum_cons]; ring

theorem foldl_sum (xs : List (Fin n → ℝ)) (i : Fin n) : ∀ (v : Fin n → ℝ),
    xs.foldl (fun mean sample => mean + sample) v i = v i + (xs.map fun x => x i).sum := by
  induction xs with
  | nil => intro v; simp
  | cons x xs ih =>
    intro v
    rw [List.foldl_cons, ih]
    simp only [Pi.add_apply, List.map_cons, List.sum_cons]; ring

theorem mean_eq (xs : List (Fin n → ℝ)) (h : xs ≠ []) : mean xs = .ok (avg xs) := by
  unfold mean
  rw [if_neg (by simpa using h)]
  congr 1
  funext i
  unfold avg
  rw [foldl_sum]; simp

/-! ## C49 -/

/-- C49. The mean of an empty sample is an error; otherwise it is the arithmetic mean. -/
theorem C49_mean (xs : List (Fin n → ℝ)) :
    (mean xs = .error .emptySamples ↔ xs = []) ∧ (xs ≠ [] → mean xs = .ok (avg xs)) := by
  refine ⟨⟨fun h => ?_, fun h => by subst h; rfl⟩, mean_eq xs⟩
  by_contra hne
  rw [mean_eq xs hne] at h
  cases h

/-- C49. Cross-covariance: exactly which inputs fail, and the textbook formula for all others. -/
theorem C49_cross_formula (xs : List (Fin n → ℝ)) (ys : List (Fin m → ℝ)) :
    crossCovariance xs ys =
      if xs.length ≠ ys.length then .error .sampleCountMismatch
      else if xs.length = 0 then .error .emptySamples
      else if xs.length = 1 then .error .insufficientSamples
      else .ok (textbookCov (xs.zip ys)) := by
  unfold crossCovariance
  by_cases h1 : xs.length ≠ ys.length
  · rw [if_pos h1, if_pos h1]
  rw [if_neg h1, if_neg h1]
  push Not at h1
  by_cases h2 : xs.length = 0
  · rw [if_pos h2, if_pos (by simpa using h2)]
  rw [if_neg h2, if_neg (by simpa using h2)]
  by_cases h3 : xs.length = 1
  · rw [if_pos h3, if_pos (by omega)]
  rw [if_neg h3, if_neg (by omega), mean_eq xs (by rintro rfl; simp at h2),
    mean_eq ys (by rintro rfl; simp at h1; simp [h1] at h2)]
  show Except.ok _ = Except.ok _
  congr 1
  funext i j
  unfold textbookCov
  have e1 : (xs.zip ys).map Prod.fst = xs := List.map_fst_zip h1.le
  have e2 : (xs.zip ys).map Prod.snd = ys := List.map_snd_zip h1.ge
  have e3 : (xs.zip ys).length = xs.length := by rw [List.length_zip]; omega
  unfold mulS
  rw [fillLoop_apply, foldl_addOuter (fun p : (Fin n → ℝ) × (Fin m → ℝ) => p.1 - avg xs) (fun p => p.2 - avg ys),
    e1, e2, e3]
  simp only [zeros, Pi.sub_apply, zero_add]
  rw [Nat.cast_sub (by omega), Nat.cast_one, mul_one_div]

theorem zip_self {A : Type*} (xs : List A) : xs.zip xs = xs.map fun x => (x, x) := by
  induction xs with
  | nil => rfl
  | cons x xs ih => simp [ih]

theorem self_gen {α : Type} [Zero α] [One α] [Add α] [Sub α] [Mul α] [Div α] [NatCast α] (xs : List (Fin n → α)) :
    sampleCovariance xs = crossCovariance xs xs := by
  unfold sampleCovariance crossCovariance
  rw [if_neg (show ¬ xs.length ≠ xs.length by simp)]
  by_cases h2 : xs.isEmpty
  · rw [if_pos h2, if_pos h2]
  rw [if_neg h2, if_neg h2]
  by_cases h3 : xs.length < 2
  · rw [if_pos h3, if_pos h3]
  rw [if_neg h3, if_neg h3]
  unfold mean
  rw [if_neg h2]
  show Except.ok _ = Except.ok _
  congr 1
  rw [zip_self]
  congr 1
  rw [List.foldl_map]

/-- C49. Covariance is the cross-covariance of the samples with themselves. -/
theorem C49_self (xs : List (Fin n → ℝ)) : sampleCovariance xs = crossCovariance xs xs := self_gen xs

/-- C49. Covariance: exactly which inputs fail, and the textbook formula for all others. -/
theorem C49_formula (xs : List (Fin n → ℝ)) :
    sampleCovariance xs =
      if xs.length = 0 then .error .emptySamples
      else if xs.length = 1 then .error .insufficientSamples
      else .ok fun i j => (xs.map fun x => (x i - avg xs i) * (x j - avg xs j)).sum / ((xs.length : ℝ) - 1) := by
  rw [C49_self, C49_cross_formula, if_neg (by simp)]
  congr 2
  congr 1
  funext i j
  unfold textbookCov
  rw [zip_self]
  simp only [List.map_map, Function.comp_def, List.length_map]
  rw [List.map_id']

theorem ok_of (xs : List (Fin n → ℝ)) (h : 2 ≤ xs.length) :
    sampleCovariance xs = .ok fun i j => (xs.map fun x => (x i - avg xs i) * (x j - avg xs j)).sum / ((xs.length : ℝ) - 1) := by
  rw [C49_formula, if_neg (by omega), if_neg (by omega)]

theorem list_sum_div (l : List ℝ) (c : ℝ) : (l.map (· / c)).sum = l.sum / c := by
  induction l with
  | nil => simp
  | cons a l ih => simp only [List.map_cons, List.sum_cons, ih]; ring

/-- C49. The covariance is symmetric and positive semi-definite. -/
theorem C49_posSemidef (xs : List (Fin n → ℝ)) (S : Mat ℝ n n) (h : sampleCovariance xs = .ok S) :
    (∀ i j, S i j = S j i) ∧ ∀ v : Fin n → ℝ, 0 ≤ ∑ i, ∑ j, v i * S i j * v j := by
  have h2 : 2 ≤ xs.length := by
    by_contra hc
    rw [C49_formula] at h
    have : xs.length = 0 ∨ xs.length = 1 := by omega
    rcases this with h0 | h0
    · rw [if_pos h0] at h; cases h
    · rw [if_neg (by omega), if_pos h0] at h; cases h
  rw [ok_of xs h2] at h
  injection h with h
  subst h
  have hp : (0 : ℝ) < (xs.length : ℝ) - 1 := by
    have : (2 : ℝ) ≤ xs.length := by exact_mod_cast h2
    linarith
  refine ⟨fun i j => by simp only [mul_comm], fun v => ?_⟩
  generalize avg xs = a
  have key : ∀ l : List (Fin n → ℝ), ∑ i, ∑ j, v i * ((l.map fun x => (x i - a i) * (x j - a j)).sum / ((xs.length : ℝ) - 1)) * v j
      = (l.map fun x => (∑ i, v i * (x i - a i)) ^ 2).sum / ((xs.length : ℝ) - 1) := by
    intro l
    induction l with
    | nil => simp
    | cons x l ih =>
      simp only [List.map_cons, List.sum_cons, add_div]
      rw [← ih, pow_two, Finset.sum_mul_sum, Finset.sum_div, ← Finset.sum_add_distrib]
      refine Finset.sum_congr rfl fun i _ => ?_
      rw [Finset.sum_div, ← Finset.sum_add_distrib]
      refine Finset.sum_congr rfl fun j _ => ?_
      ring
  rw [key]
  refine div_nonneg (List.sum_nonneg ?_) hp.le
  intro y hy
  obtain ⟨x, -, rfl⟩ := List.mem_map.1 hy
  positivity

theorem avg_affine {k : ℕ} (A : Mat ℝ k n) (b : Fin k → ℝ) (xs : List (Fin n → ℝ)) (h : xs ≠ []) (r : Fin k) :
    avg (xs.map fun x i => (∑ l, A i l * x l) + b i) r = (∑ l, A r l * avg xs l) + b r := by
  have hp : (xs.length : ℝ) ≠ 0 := by
    have := List.length_pos_iff.2 h
    positivity
  unfold avg
  rw [List.length_map, List.map_map, div_eq_iff hp, add_mul, Finset.sum_mul]
  have key : ∀ l : List (Fin n → ℝ), (l.map ((fun x => x r) ∘ fun (x : Fin n → ℝ) i => (∑ l, A i l * x l) + b i)).sum
      = (∑ t, A r t * (l.map fun x => x t).sum) + b r * l.length := by
    intro l
    induction l with
    | nil => simp
    | cons x l ih =>
      simp only [List.map_cons, List.sum_cons, ih, Function.comp, List.length_cons, Nat.cast_succ, mul_add,
        Finset.sum_add_distrib]
      ring
  rw [key]
  congr 1
  refine Finset.sum_congr rfl fun t _ => ?_
  rw [mul_assoc, div_mul_cancel₀ _ hp]

/-- C49. Under an affine change of coordinates `x ↦ A x + b` the covariance `S` becomes `A S Aᵀ`; in particular
(`A = 1`) it does not change when the data are translated. -/
theorem C49_affine {k : ℕ} (A : Mat ℝ k n) (b : Fin k → ℝ) (xs : List (Fin n → ℝ)) (S : Mat ℝ n n)
    (h : sampleCovariance xs = .ok S) :
    sampleCovariance (xs.map fun x i => (∑ l, A i l * x l) + b i) =
      .ok fun i j => ∑ s, ∑ t, A i s * S s t * A j t := by
  have h2 : 2 ≤ xs.length := by
    by_contra hc
    rw [C49_formula] at h
    have : xs.length = 0 ∨ xs.length = 1 := by omega
    rcases this with h0 | h0
    · rw [if_pos h0] at h; cases h
    · rw [if_neg (by omega), if_pos h0] at h; cases h
  have hne : xs ≠ [] := by rintro rfl; simp at h2
  rw [ok_of xs h2] at h
  injection h with h
  subst h
  rw [ok_of _ (by rwa [List.length_map])]
  congr 1
  funext i j
  simp only [avg_affine A b xs hne, List.length_map, List.map_map]
  generalize avg xs = a
  generalize (xs.length : ℝ) - 1 = c
  have key : ∀ l : List (Fin n → ℝ), (l.map ((fun x => (x i - ((∑ l, A i l * a l) + b i)) * (x j - ((∑ l, A j l * a l) + b j))) ∘
        fun (x : Fin n → ℝ) i => (∑ l, A i l * x l) + b i)).sum / c
      = ∑ s, ∑ t, A i s * ((l.map fun x => (x s - a s) * (x t - a t)).sum / c) * A j t := by
    intro l
    induction l with
    | nil => simp
    | cons x l ih =>
      simp only [Function.comp_def] at ih ⊢
      simp only [List.map_cons, List.sum_cons, add_div]
      rw [ih, add_sub_add_right_eq_sub, add_sub_add_right_eq_sub, ← Finset.sum_sub_distrib, ← Finset.sum_sub_distrib,
        Finset.sum_mul_sum, Finset.sum_div, ← Finset.sum_add_distrib]
      refine Finset.sum_congr rfl fun s _ => ?_
      rw [Finset.sum_div, ← Finset.sum_add_distrib]
      refine Finset.sum_congr rfl fun t _ => ?_
      ring
  exact key xs

/-- C49. Translating the data does not change the covariance. -/
theorem C49_translate (b : Fin n → ℝ) (xs : List (Fin n → ℝ)) (S : Mat ℝ n n) (h : sampleCovariance xs = .ok S) :
    sampleCovariance (xs.map fun x i => x i + b i) = .ok S := by
  have := C49_affine (fun i j => if i = j then 1 else 0) b xs S h
  simpa using this

/-- C49. The covariance does not depend on the order of the samples. -/
theorem C49_perm (xs ys : List (Fin n → ℝ)) (h : xs.Perm ys) : sampleCovariance xs = sampleCovariance ys := by
  have ha : avg xs = avg ys := by
    funext i
    unfold avg
    rw [(h.map _).sum_eq, h.length_eq]
  rw [C49_formula, C49_formula, h.length_eq, ha]
  congr 2
  congr 1
  funext i j
  rw [(h.map _).sum_eq]

/-- C49. Swapping the arguments of the cross-covariance transposes it. -/
theorem C49_swap (xs : List (Fin n → ℝ)) (ys : List (Fin m → ℝ)) (S : Mat ℝ n m) (h : crossCovariance xs ys = .ok S) :
    crossCovariance ys xs = .ok fun j i => S i j := by
  rw [C49_cross_formula] at h ⊢
  have h1 : xs.length = ys.length := by
    by_contra hc
    rw [if_pos hc] at h; cases h
  rw [if_neg (by omega)] at h ⊢
  rw [← h1]
  by_cases h2 : xs.length = 0
  · rw [if_pos h2] at h; cases h
  by_cases h3 : xs.length = 1
  · rw [if_neg h2, if_pos h3] at h; cases h
  rw [if_neg h2, if_neg h3] at h ⊢
  injection h with h
  subst h
  congr 1
  funext j i
  unfold textbookCov
  rw [List.map_fst_zip h1.ge, List.map_snd_zip h1.le, List.map_fst_zip h1.le, List.map_snd_zip h1.ge, List.length_zip,
    List.length_zip, ← List.zip_swap, List.map_map, min_comm]
  simp only [Function.comp_def, Prod.fst_swap, Prod.snd_swap, mul_comm]

/-- Two samples of dimension 2: the hypotheses can be met, the covariance is not diagonal. -/
example : ∃ S : Mat ℝ 2 2, sampleCovariance [![0, 0], ![1, 1]] = .ok S ∧ S 0 1 = 1 / 2 := by
  refine ⟨_, ok_of _ (by simp), ?_⟩
  simp [avg]; norm_num

/-! ## C50 -/

theorem sd_gen {α : Type} [Zero α] [LE α] [DecidableLE α] (root : α → α) (eps : α) (cov : Mat α n n) : (∃ i, cov i i ≤ eps) ∧ standardDeviations root eps cov = .error .zeroVarianceAxis ∨
    (∀ i, ¬ cov i i ≤ eps) ∧ standardDeviations root eps cov = .ok fun i => root (cov i i) := by
  unfold standardDeviations
  have key : ∀ (l : List (Fin n)), l.Nodup → ∀ sd : Fin n → α,
      ((∃ i ∈ l, cov i i ≤ eps) ∧ l.foldlM (fun sd i =>
        if cov i i ≤ eps then (.error .zeroVarianceAxis : Except CovErr _)
          else .ok (Function.update sd i (root (cov i i)))) sd = .error .zeroVarianceAxis) ∨
      ((∀ i ∈ l, ¬ cov i i ≤ eps) ∧ l.foldlM (fun sd i =>
        if cov i i ≤ eps then (.error .zeroVarianceAxis : Except CovErr _)
          else .ok (Function.update sd i (root (cov i i)))) sd
          = .ok fun i => if i ∈ l then root (cov i i) else sd i) := by
    intro l
    induction l with
    | nil => intro _ sd; right; simp; rfl
    | cons a l ih =>
      intro hnd sd
      by_cases h : cov a a ≤ eps
      · left
        refine ⟨⟨a, by simp, h⟩, ?_⟩
        rw [List.foldlM_cons, if_pos h]; rfl
      · rw [List.foldlM_cons, if_neg h]
        rcases ih (List.nodup_cons.1 hnd).2 (Function.update sd a (root (cov a a))) with ⟨⟨i, hi, hc⟩, e⟩ | ⟨hall, e⟩
        · exact Or.inl ⟨⟨i, by simp [hi], hc⟩, e⟩
        · right
          refine ⟨?_, ?_⟩
          · intro i hi
            rcases List.mem_cons.1 hi with rfl | hi
            · exact h
            · exact hall i hi
          · refine e.trans ?_
            congr 1
            funext i
            by_cases hia : i = a
            · subst hia; simp
            · simp [hia]
  rcases key _ (nodup_rng n 0 n) (fun _ => 0) with ⟨⟨i, -, hi⟩, e⟩ | ⟨hall, e⟩
  · exact Or.inl ⟨⟨i, hi⟩, e⟩
  · right
    refine ⟨fun i => hall i (by simp [mem_rng]), e.trans ?_⟩
    simp [mem_rng]

theorem sd_eq (eps : ℝ) (cov : Mat ℝ n n) : (∃ i, cov i i ≤ eps) ∧ standardDeviations Real.sqrt eps cov = .error .zeroVarianceAxis ∨
    (∀ i, eps < cov i i) ∧ standardDeviations Real.sqrt eps cov = .ok fun i => Real.sqrt (cov i i) := by
  simpa only [not_le] using sd_gen Real.sqrt eps cov

/-- C50. `correlation_from_covariance` fails exactly when some variance is not above the threshold. -/
theorem C50_defined (eps : ℝ) (cov : Mat ℝ n n) :
    ((∃ i, cov i i ≤ eps) ↔ correlation Real.sqrt eps cov = .error .zeroVarianceAxis) ∧
    ((∀ i, eps < cov i i) ↔ ∃ R, correlation Real.sqrt eps cov = .ok R) := by
  unfold correlation
  rcases sd_eq eps cov with ⟨h1, h2⟩ | ⟨h1, h2⟩
  · rw [h2]
    refine ⟨⟨fun _ => rfl, fun _ => h1⟩, ⟨fun h => ?_, fun ⟨R, h⟩ => by cases h⟩⟩
    obtain ⟨i, hi⟩ := h1
    exact absurd (h i) (not_lt.2 hi)
  · rw [h2]
    refine ⟨⟨fun ⟨i, hi⟩ => absurd (h1 i) (not_lt.2 hi), fun h => by cases h⟩, ⟨fun _ => ⟨_, rfl⟩, fun _ => h1⟩⟩

/-- C50. The correlation matrix has unit diagonal; scaling back with the standard deviations restores the covariance; for a
symmetric positive semi-definite covariance all entries are in `[-1, 1]`. -/
theorem C50_round_trip (eps : ℝ) (he : 0 ≤ eps) (cov R : Mat ℝ n n) (h : correlation Real.sqrt eps cov = .ok R) :
    (∀ i, R i i = 1) ∧
    (∃ sd, standardDeviations Real.sqrt eps cov = .ok sd ∧ (∀ i, 0 < sd i ∧ sd i ^ 2 = cov i i) ∧ covarianceOf R sd = cov) ∧
    ((∀ i j, cov i j = cov j i) → (∀ v : Fin n → ℝ, 0 ≤ ∑ i, ∑ j, v i * cov i j * v j) → ∀ i j, |R i j| ≤ 1) := by
  have hpos : ∀ i, 0 < cov i i := fun i => lt_of_le_of_lt he ((C50_defined eps cov).2.2 ⟨R, h⟩ i)
  unfold correlation at h
  rcases sd_eq eps cov with ⟨h1, h2⟩ | ⟨h1, h2⟩
  · rw [h2] at h; cases h
  rw [h2] at h
  injection h with h
  have hR : ∀ i j, R i j = cov i j / (Real.sqrt (cov i i) * Real.sqrt (cov j j)) := by
    intro i j; rw [← h, fillLoop_apply]
  have hs : ∀ i, 0 < Real.sqrt (cov i i) := fun i => Real.sqrt_pos.2 (hpos i)
  have hsq : ∀ i, Real.sqrt (cov i i) ^ 2 = cov i i := fun i => Real.sq_sqrt (hpos i).le
  refine ⟨fun i => ?_, ⟨_, h2, fun i => ⟨hs i, hsq i⟩, ?_⟩, fun hsym hpsd i j => ?_⟩
  · rw [hR, ← pow_two, hsq, div_self (hpos i).ne']
  · funext i j
    unfold covarianceOf
    rw [fillLoop_apply, hR]
    have := (hs i).ne'
    have := (hs j).ne'
    field_simp
  · rw [hR, abs_div, abs_of_pos (mul_pos (hs i) (hs j)), div_le_one (mul_pos (hs i) (hs j))]
    by_cases hij : i = j
    · subst hij
      rw [abs_of_pos (hpos i), ← pow_two, hsq]
    have quad : ∀ a b : ℝ, 0 ≤ a ^ 2 * cov i i + 2 * (a * b * cov i j) + b ^ 2 * cov j j := by
      intro a b
      have h3 := hpsd (fun k => if k = i then a else if k = j then b else 0)
      have e : ∀ k, (∑ l, (if k = i then a else if k = j then b else 0) * cov k l * (if l = i then a else if l = j then b else 0))
          = (if k = i then a else if k = j then b else 0) * (cov k i * a + cov k j * b) := by
        intro k
        rw [← Finset.sum_subset (Finset.subset_univ {i, j})]
        · rw [Finset.sum_pair hij]
          simp only [if_true, if_neg (Ne.symm hij)]; ring
        · intro l _ hl
          simp only [Finset.mem_insert, Finset.mem_singleton, not_or] at hl
          rw [if_neg hl.1, if_neg hl.2, mul_zero]
      simp only [e] at h3
      rw [← Finset.sum_subset (Finset.subset_univ {i, j})] at h3
      · rw [Finset.sum_pair hij] at h3
        simp only [if_true, if_neg (Ne.symm hij), hsym j i] at h3
        linarith
      · intro l _ hl
        simp only [Finset.mem_insert, Finset.mem_singleton, not_or] at hl
        rw [if_neg hl.1, if_neg hl.2, zero_mul]
    have h4 := quad (Real.sqrt (cov j j)) (Real.sqrt (cov i i))
    have h5 := quad (Real.sqrt (cov j j)) (-Real.sqrt (cov i i))
    rw [neg_sq] at h5
    rw [hsq, hsq] at h4 h5
    generalize hp : Real.sqrt (cov i i) = p at *
    generalize hq : Real.sqrt (cov j j) = q at *
    have hpp : 0 < p := hp ▸ hs i
    have hqq : 0 < q := hq ▸ hs j
    have hp2 : p ^ 2 = cov i i := hp ▸ hsq i
    have hq2 : q ^ 2 = cov j j := hq ▸ hsq j
    rw [← hp2, ← hq2] at h4 h5
    have hpq := mul_pos hpp hqq
    rw [abs_le]
    constructor
    · by_contra hc
      push Not at hc
      nlinarith [mul_pos hpq (show 0 < -(p * q) - cov i j by linarith)]
    · by_contra hc
      push Not at hc
      nlinarith [mul_pos hpq (show 0 < cov i j - p * q by linarith)]

example : ∃ R : Mat ℝ 2 2, correlation Real.sqrt (2⁻¹ ^ 52) (![![4, 3], ![3, 9]] : Mat ℝ 2 2) = .ok R :=
  (C50_defined _ _).2.1 fun i => by fin_cases i <;> norm_num

end Verif.Stats
