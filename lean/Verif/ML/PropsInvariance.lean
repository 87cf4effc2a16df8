import Verif.ML.PropsBayes

/-! # C208, C209: classifications do not depend on the order of the samples, nor on the origin and units of the features

Specification: `FirstMax`, `avg`, `covariance`, `ofClass` of `PropsBayes.lean`; a change of coordinates is `x ↦ T x + b`. -/

namespace Verif.ML

open Verif.Mat Verif.Stats Matrix

variable {n k : ℕ}

/-! ## Order of the samples -/

theorem ofClass_perm {xs xs' : List (Fin n → ℝ)} {ys ys' : List ℕ} (h : (xs.zip ys).Perm (xs'.zip ys')) (c : ℕ) :
    (ofClass xs ys c).Perm (ofClass xs' ys' c) := (h.filter _).map _

theorem avg_perm {l l' : List (Fin n → ℝ)} (h : l.Perm l') : avg l = avg l' := by
  funext i
  unfold avg
  rw [(h.map _).sum_eq, h.length_eq]

theorem covariance_perm {l l' : List (Fin n → ℝ)} (h : l.Perm l') : covariance l = covariance l' := by
  funext i j
  unfold covariance
  rw [avg_perm h, (h.map _).sum_eq, h.length_eq]

theorem variance_perm {l l' : List (Fin n → ℝ)} (h : l.Perm l') : variance l = variance l' := by
  funext i
  unfold variance
  rw [avg_perm h, (h.map _).sum_eq, h.length_eq]

theorem perm_nil {l l' : List (Fin n → ℝ)} (h : l.Perm l') : l = [] ↔ l' = [] := by
  rw [← List.length_eq_zero_iff, h.length_eq, List.length_eq_zero_iff]

theorem classMean_perm {xs xs' : List (Fin n → ℝ)} {ys ys' : List ℕ} (h : (xs.zip ys).Perm (xs'.zip ys')) (c : ℕ) :
    classMean (xs.zip ys) c = classMean (xs'.zip ys') c := by
  have hp := ofClass_perm h c
  by_cases hc : ofClass xs ys c = []
  · unfold classMean
    dsimp only
    rw [classCount, classCount, if_pos (by rw [hc]; rfl), if_pos (by rw [(perm_nil hp).1 hc]; rfl)]
  · rw [classMean_spec _ _ _ hc, classMean_spec _ _ _ (fun e => hc ((perm_nil hp).2 e)), avg_perm hp]

theorem FirstMax.unique {elig elig' : Fin k → Prop} {w w' : Fin k → ℝ} {r r' : ℕ} {a : ℝ} (ha : 0 < a) (h : FirstMax elig w r)
    (h' : FirstMax elig' w' r') (he : ∀ c, elig c ↔ elig' c) (hw : ∀ c, elig c → w' c = a * w c) : r' = r := by
  obtain ⟨hr, e, hs⟩ := h
  obtain ⟨hr', e', hs'⟩ := h'
  have e1 := (he _).2 e'
  have a1 := hs _ e1
  have a2 := hs' _ ((he _).1 e)
  rw [hw _ e, hw _ e1] at a2
  rcases lt_trichotomy r r' with hl | hl | hl
  · have h3 := lt_of_mul_lt_mul_left (a2.2 hl) ha.le
    exact absurd a1.1 (not_le.2 h3)
  · exact hl.symm
  · have h3 := a1.2 hl
    exact absurd (le_of_mul_le_mul_left a2.1 ha) (not_le.2 h3)

/-- **C208**. Training LDA and QDA with the samples in another order gives the same classifier. -/
theorem C208_order {xs xs' : List (Fin n → ℝ)} {ys ys' : List ℕ} (h : (xs.zip ys).Perm (xs'.zip ys')) (hl : xs.length = xs'.length) :
    Lda.fit k xs ys = Lda.fit k xs' ys' ∧ Qda.fit k xs ys = Qda.fit k xs' ys' := by
  have hp := ofClass_perm h
  have hc : ∀ c, (classSum (xs.zip ys) c).2 = (classSum (xs'.zip ys') c).2 := fun c => by
    rw [classCount, classCount, (hp c).length_eq]
  constructor
  · have e : (Lda.fit k xs ys).pooled = (Lda.fit k xs' ys').pooled := by
      rw [pooled_eq, pooled_eq]
      funext i j
      unfold pooledCov
      exact Finset.sum_congr rfl fun c _ => by rw [(hp c).length_eq, hl, covariance_perm (hp c)]
    have e2 : (Lda.fit k xs ys).means = (Lda.fit k xs' ys').means := funext fun c => classMean_perm h c
    have e3 : (Lda.fit k xs ys).priors = (Lda.fit k xs' ys').priors := by
      funext c
      change fdiv _ _ = fdiv _ _
      rw [hc, hl]
    generalize Lda.fit k xs ys = o at e e2 e3
    generalize Lda.fit k xs' ys' = o' at e e2 e3
    cases o; cases o'
    simp only at e e2 e3
    rw [e, e2, e3]
  · have e2 : (Qda.fit k xs ys).means = (Qda.fit k xs' ys').means := funext fun c => classMean_perm h c
    have e3 : (Qda.fit k xs ys).priors = (Qda.fit k xs' ys').priors := by
      funext c
      change (if _ then _ else fdiv _ _) = if _ then _ else fdiv _ _
      rw [hc, hl]
    have e : (Qda.fit k xs ys).covs = (Qda.fit k xs' ys').covs := by
      funext c
      change (if (classSum (xs.zip ys) c).2 = 0 then _ else classCov (xs.zip ys) c) = if _ then _ else classCov (xs'.zip ys') c
      by_cases h0 : ofClass xs ys c = []
      · rw [classCount, classCount, if_pos (by rw [h0]; rfl), if_pos (by rw [(perm_nil (hp c)).1 h0]; rfl)]
      · have h0' : ofClass xs' ys' c ≠ [] := fun e => h0 ((perm_nil (hp c)).2 e)
        rw [classCount, classCount, if_neg (List.length_pos_iff.2 h0).ne', if_neg (List.length_pos_iff.2 h0').ne',
          classCov_spec _ _ _ h0, classCov_spec _ _ _ h0', covariance_perm (hp c)]
    generalize Qda.fit k xs ys = o at e e2 e3
    generalize Qda.fit k xs' ys' = o' at e e2 e3
    cases o; cases o'
    simp only at e e2 e3
    rw [e, e2, e3]

/-- **C208**. Training naive Bayes with the samples in another order gives a classifier with the same answers. -/
theorem C208_order_bayes {floor : ℝ} (hf : 0 < floor) {xs xs' : List (Fin n → ℝ)} {ys ys' : List ℕ} (h : (xs.zip ys).Perm (xs'.zip ys'))
    {o : NB k n} (ho : NB.fit k xs ys = some o) :
    ∃ o', NB.fit k xs' ys' = some o' ∧ ∀ x, o'.predict floor x = o.predict floor x := by
  by_cases hne : xs.zip ys = []
  · refine ⟨o, ?_, fun _ => rfl⟩
    rw [hne] at h
    have h' := h.nil_eq
    rw [← ho]
    unfold NB.fit
    rw [hne, ← h']
  · have hne' : xs'.zip ys' ≠ [] := fun e => hne (by rw [e] at h; exact h.eq_nil)
    cases ho' : NB.fit k xs' ys' with
    | none =>
      obtain ⟨d, hd, hk⟩ := (C48_fit (k := k) xs' ys').1.1 ho'
      rw [(C48_fit (k := k) xs ys).1.2 ⟨d, h.mem_iff.2 hd, hk⟩] at ho
      cases ho
    | some o' =>
      refine ⟨o', rfl, fun x => ?_⟩
      refine FirstMax.unique one_pos (C48_predict hf xs ys o ho hne x) (C48_predict hf xs' ys' o' ho' hne' x) (fun c => ?_) (fun c _ => ?_)
      · exact not_congr (perm_nil (ofClass_perm h c))
      · have hp := ofClass_perm h c
        rw [one_mul, avg_perm hp, variance_perm hp, hp.length_eq, h.length_eq]

/-! ## Origin and units -/

/-- A change of coordinates. -/
def change (T : Matrix (Fin n) (Fin n) ℝ) (b : Fin n → ℝ) (x : Fin n → ℝ) : Fin n → ℝ := T *ᵥ x + b

theorem ofClass_map (f : (Fin n → ℝ) → Fin n → ℝ) (xs : List (Fin n → ℝ)) (ys : List ℕ) (c : ℕ) :
    ofClass (xs.map f) ys c = (ofClass xs ys c).map f := by
  induction xs generalizing ys with
  | nil => rfl
  | cons x xs ih =>
    cases ys with
    | nil => rfl
    | cons y ys =>
      have := ih ys
      unfold ofClass at this ⊢
      simp only [List.map_cons, List.zip_cons_cons, List.filter_cons]
      split_ifs with h
      · simp only [List.map_cons]; rw [this]
      · exact this

theorem avg_change (T : Matrix (Fin n) (Fin n) ℝ) (b : Fin n → ℝ) {l : List (Fin n → ℝ)} (hl : l ≠ []) :
    avg (l.map (change T b)) = change T b (avg l) := by
  have hs : ∀ (l : List (Fin n → ℝ)) i, ((l.map (change T b)).map fun x => x i).sum = (T *ᵥ fun j => (l.map fun x => x j).sum) i + l.length * b i := by
    intro l i
    induction l with
    | nil => simp [Matrix.mulVec, dotProduct]
    | cons x l ih =>
      simp only [List.map_cons, List.sum_cons, ih, List.length_cons]
      have : (fun j => x j + (l.map fun x => x j).sum) = x + fun j => (l.map fun x => x j).sum := rfl
      rw [this, mulVec_add]
      simp only [change, Pi.add_apply]
      push_cast
      ring
  have h0 : (l.length : ℝ) ≠ 0 := by exact_mod_cast (List.length_pos_iff.2 hl).ne'
  funext i
  unfold avg
  rw [hs, List.length_map, add_div, mul_div_cancel_left₀ _ h0]
  change _ = (T *ᵥ _) i + b i
  congr 1
  have : (fun i => (l.map fun x => x i).sum / (l.length : ℝ)) = (l.length : ℝ)⁻¹ • fun i => (l.map fun x => x i).sum := by
    funext i; simp [div_eq_inv_mul]
  rw [this, mulVec_smul]
  simp [div_eq_inv_mul]

theorem outer_sum (T : Matrix (Fin n) (Fin n) ℝ) (g : (Fin n → ℝ) → Fin n → ℝ) (l : List (Fin n → ℝ)) :
    (of fun i j => (l.map fun x => (T *ᵥ g x) i * (T *ᵥ g x) j).sum) = T * (of fun i j => (l.map fun x => g x i * g x j).sum) * Tᵀ := by
  induction l with
  | nil =>
    have : (of fun _ _ => (0 : ℝ) : Matrix (Fin n) (Fin n) ℝ) = 0 := rfl
    simp [this]
  | cons x l ih =>
    have e1 : (of fun i j => ((x :: l).map fun x => (T *ᵥ g x) i * (T *ᵥ g x) j).sum)
        = vecMulVec (T *ᵥ g x) (T *ᵥ g x) + of fun i j => (l.map fun x => (T *ᵥ g x) i * (T *ᵥ g x) j).sum := by
      ext i j; simp [vecMulVec_apply]
    have e2 : (of fun i j => ((x :: l).map fun x => g x i * g x j).sum)
        = vecMulVec (g x) (g x) + of fun i j => (l.map fun x => g x i * g x j).sum := by
      ext i j; simp [vecMulVec_apply]
    rw [e1, e2, ih, Matrix.mul_add, Matrix.add_mul, mul_vecMulVec, vecMulVec_mul, vecMul_transpose]

theorem covariance_change (T : Matrix (Fin n) (Fin n) ℝ) (b : Fin n → ℝ) {l : List (Fin n → ℝ)} (hl : l ≠ []) :
    of (covariance (l.map (change T b))) = T * of (covariance l) * Tᵀ := by
  have h := outer_sum T (fun x => x - avg l) l
  have e : of (covariance l) = ((l.length : ℝ) - 1)⁻¹ • of fun i j => (l.map fun x => (x - avg l) i * (x - avg l) j).sum := by
    ext i j
    simp [covariance, div_eq_inv_mul]
  rw [e, Matrix.mul_smul, Matrix.smul_mul, ← h]
  ext i j
  simp only [of_apply, covariance, List.map_map, Matrix.smul_apply, smul_eq_mul, List.length_map, div_eq_inv_mul]
  congr 2
  apply List.map_congr_left
  intro x _
  simp only [Function.comp, avg_change T b hl]
  have : ∀ i, change T b x i - change T b (avg l) i = (T *ᵥ (x - avg l)) i := fun i => by
    rw [mulVec_sub]; simp [change]
  rw [this, this]

theorem pooled_change (T : Matrix (Fin n) (Fin n) ℝ) (b : Fin n → ℝ) (xs : List (Fin n → ℝ)) (ys : List ℕ) :
    of (pooledCov k (xs.map (change T b)) ys) = T * of (pooledCov k xs ys) * Tᵀ := by
  have e : ∀ xs : List (Fin n → ℝ), of (pooledCov k xs ys)
      = ∑ c : Fin k, ((ofClass xs ys c).length / xs.length : ℝ) • of (covariance (ofClass xs ys c)) := by
    intro xs
    ext i j
    rw [Matrix.sum_apply]
    rfl
  rw [e, e, Finset.mul_sum, Finset.sum_mul]
  refine Finset.sum_congr rfl fun c _ => ?_
  rw [ofClass_map, List.length_map, List.length_map, Matrix.mul_smul, Matrix.smul_mul]
  by_cases hc : ofClass xs ys c = []
  · simp [hc]
  · rw [covariance_change T b hc]

theorem density_change {T : Matrix (Fin n) (Fin n) ℝ} (hT : T.det ≠ 0) (b : Fin n → ℝ) (μ : Fin n → ℝ) {S : Matrix (Fin n) (Fin n) ℝ}
    (hS : S.det ≠ 0) (x : Fin n → ℝ) : normalDensity (change T b μ) (T * S * Tᵀ) (change T b x) = |T.det|⁻¹ * normalDensity μ S x := by
  have uT : IsUnit T.det := isUnit_iff_ne_zero.2 hT
  have uS : IsUnit S.det := isUnit_iff_ne_zero.2 hS
  have uTt : IsUnit Tᵀ.det := by rwa [det_transpose]
  have hinv : (T * S * Tᵀ)⁻¹ = Tᵀ⁻¹ * S⁻¹ * T⁻¹ := by
    rw [Matrix.mul_inv_rev, Matrix.mul_inv_rev, Matrix.mul_assoc]
  have hd : change T b x - change T b μ = T *ᵥ (x - μ) := by
    rw [mulVec_sub]; simp [change]
  have hq : (T *ᵥ (x - μ)) ⬝ᵥ ((Tᵀ⁻¹ * S⁻¹ * T⁻¹) *ᵥ (T *ᵥ (x - μ))) = (x - μ) ⬝ᵥ (S⁻¹ *ᵥ (x - μ)) := by
    rw [mulVec_mulVec, Matrix.mul_assoc _ T⁻¹, Matrix.nonsing_inv_mul _ uT, Matrix.mul_one, ← mulVec_mulVec]
    rw [← vecMul_transpose, ← dotProduct_mulVec, mulVec_mulVec, Matrix.mul_nonsing_inv _ uTt, one_mulVec]
  unfold normalDensity
  rw [hinv, hd, hq, det_mul, det_mul, det_transpose]
  have : (2 * Real.pi) ^ n * (T.det * S.det * T.det) = T.det ^ 2 * ((2 * Real.pi) ^ n * S.det) := by ring
  rw [this, Real.sqrt_mul (sq_nonneg _), Real.sqrt_sq_eq_abs]
  rw [div_mul_eq_div_div_swap, div_eq_inv_mul _ |T.det|]

theorem lda_none {eps : ℝ} (he : 0 ≤ eps) (xs : List (Fin n → ℝ)) (ys : List ℕ)
    (h : determinant eps (pooledCov k xs ys) = 0 ∨ ∀ c : Fin k, ofClass xs ys c = []) (x : Fin n → ℝ) : (Lda.fit k xs ys).predict eps x = 0 := by
  unfold Lda.predict
  refine (best_spec (fun _ => False) (fun _ => 0) _ (fun s c hc => hc.elim) (fun s c _ => ?_)).1 (fun _ h => h)
  have hg : gaussJordan eps (pooledCov k xs ys) = none ∨ ∃ B, gaussJordan eps (pooledCov k xs ys) = some B := by
    cases gaussJordan eps (pooledCov k xs ys) with
    | none => exact Or.inl rfl
    | some B => exact Or.inr ⟨B, rfl⟩
  rcases hg with hg | ⟨B, hB⟩
  · unfold Lda.score
    rw [pooled_eq, hg]
    rfl
  · rcases h with h | h
    · exact absurd h ((C26_consistent he (pooledCov k xs ys)).1.1 ⟨B, hB⟩)
    · unfold Lda.score
      rw [pooled_eq, hB]
      simp only [Option.bind_eq_bind, Option.bind_some, Option.pure_def]
      have hp : (Lda.fit k xs ys).priors c = fdiv 0 (xs.length : ℝ) := by
        change fdiv ((classSum (xs.zip ys) c).2 : ℝ) xs.length = _
        rw [classCount, h c]; simp
      rw [hp]
      unfold fdiv
      split_ifs with h0
      · rfl
      · rw [zero_div, fln_some, if_neg (lt_irrefl _), if_pos rfl, Option.map_some, WithBot.add_bot]
        rfl

theorem qda_none {eps : ℝ} (he : 0 ≤ eps) (xs : List (Fin n → ℝ)) (ys : List ℕ)
    (h : ∀ c : Fin k, ofClass xs ys c = [] ∨ determinant eps (covariance (ofClass xs ys c)) = 0) (x : Fin n → ℝ) :
    (Qda.fit k xs ys).predict eps x = 0 := by
  unfold Qda.predict
  refine (best_spec (fun _ => False) (fun _ => 0) _ (fun s c hc => hc.elim) (fun s c _ => ?_)).1 (fun _ h => h)
  by_cases hc : ofClass xs ys c = []
  · have hp : (Qda.fit k xs ys).priors c = some 0 := by
      change (if (classSum (xs.zip ys) c).2 = 0 then some 0 else _) = _
      rw [classCount, if_pos (by rw [hc]; rfl)]
    unfold Qda.score
    rw [hp, fln_some, if_neg (lt_irrefl _), if_pos rfl]
    cases gaussJordan eps ((Qda.fit k xs ys).covs c) with
    | none => rfl
    | some B =>
      simp only [Option.bind_eq_bind, Option.bind_some, Option.pure_def, Option.map_some, WithBot.add_bot]
      split_ifs <;> rfl
  · have hcov : (Qda.fit k xs ys).covs c = covariance (ofClass xs ys c) := by
      change (if (classSum (xs.zip ys) c).2 = 0 then _ else classCov (xs.zip ys) c) = _
      rw [classCount, if_neg (List.length_pos_iff.2 hc).ne', classCov_spec _ _ _ hc]
    have hd := (h c).resolve_left hc
    have : gaussJordan eps (covariance (ofClass xs ys c)) = none := by
      cases hg : gaussJordan eps (covariance (ofClass xs ys c)) with
      | none => rfl
      | some B => exact absurd hd ((C26_consistent he _).1.1 ⟨B, hg⟩)
    unfold Qda.score
    rw [hcov, this]
    rfl

theorem det_ne {eps : ℝ} (he : 0 ≤ eps) {A : Mat ℝ n n} (h : determinant eps A ≠ 0) : (of A).det ≠ 0 := by
  rcases (C26_determinant he A).1 with e | e
  · rwa [e] at h
  · exact absurd e h

/-- **C209**, LDA: a change of coordinates of training samples and query does not change the answer, if the pooled covariance can be inverted in both
coordinates or in neither. Missing: see `C209_lda_fails`. -/
theorem C209_lda_partial {eps : ℝ} (he : 0 ≤ eps) {T : Matrix (Fin n) (Fin n) ℝ} (hT : T.det ≠ 0) (b : Fin n → ℝ) (xs : List (Fin n → ℝ)) (ys : List ℕ)
    (h : determinant eps (pooledCov k (xs.map fun x => T *ᵥ x + b) ys) = 0 ↔ determinant eps (pooledCov k xs ys) = 0) (x : Fin n → ℝ) :
    (Lda.fit k (xs.map fun x => T *ᵥ x + b) ys).predict eps (T *ᵥ x + b) = (Lda.fit k xs ys).predict eps x := by
  change (Lda.fit k (xs.map (change T b)) ys).predict eps (change T b x) = _
  change determinant eps (pooledCov k (xs.map (change T b)) ys) = 0 ↔ _ at h
  by_cases hd : determinant eps (pooledCov k xs ys) = 0
  · rw [lda_none he _ _ (Or.inl hd), lda_none he _ _ (Or.inl (h.2 hd))]
  · have hd' := fun e => hd (h.1 e)
    by_cases hex : ∃ c : Fin k, ofClass xs ys c ≠ []
    · have hm : ∀ c, ofClass (xs.map (change T b)) ys c ≠ [] ↔ ofClass xs ys c ≠ [] := fun c => by
        rw [ofClass_map, Ne, List.map_eq_nil_iff]
      obtain ⟨c0, hc0⟩ := hex
      refine FirstMax.unique (inv_pos.2 (abs_pos.2 hT)) (C88_lda_partial he xs ys hd ⟨c0, hc0⟩ x)
        (C88_lda_partial he (xs.map (change T b)) ys hd' ⟨c0, (hm c0).2 hc0⟩ (change T b x)) (fun c => (hm c).symm) (fun c hc => ?_)
      have hP : pooledCov k (xs.map (change T b)) ys = of.symm (T * of (pooledCov k xs ys) * Tᵀ) := by
        rw [← pooled_change T b]; rfl
      rw [hP, ofClass_map, avg_change T b hc, List.length_map, List.length_map]
      change _ * normalDensity _ (T * of (pooledCov k xs ys) * Tᵀ) _ = _
      rw [density_change hT b _ (det_ne he hd)]
      ring
    · have hex' : ∀ c : Fin k, ofClass xs ys c = [] := fun c => by
        by_contra hc; exact hex ⟨c, hc⟩
      rw [lda_none he _ _ (Or.inr hex'), lda_none he _ _ (Or.inr fun c => by rw [ofClass_map, hex' c]; rfl)]

/-- **C209**, QDA: a change of coordinates of training samples and query does not change the answer, if the covariance of every class can be inverted in
both coordinates or in neither. Missing: see `C209_qda_fails`. -/
theorem C209_qda_partial {eps : ℝ} (he : 0 ≤ eps) {T : Matrix (Fin n) (Fin n) ℝ} (hT : T.det ≠ 0) (b : Fin n → ℝ) (xs : List (Fin n → ℝ)) (ys : List ℕ)
    (h : ∀ c : Fin k, ofClass xs ys c ≠ [] →
      (determinant eps (covariance ((ofClass xs ys c).map fun x => T *ᵥ x + b)) = 0 ↔ determinant eps (covariance (ofClass xs ys c)) = 0))
    (x : Fin n → ℝ) :
    (Qda.fit k (xs.map fun x => T *ᵥ x + b) ys).predict eps (T *ᵥ x + b) = (Qda.fit k xs ys).predict eps x := by
  change (Qda.fit k (xs.map (change T b)) ys).predict eps (change T b x) = _
  change ∀ c : Fin k, ofClass xs ys c ≠ [] → (determinant eps (covariance ((ofClass xs ys c).map (change T b))) = 0 ↔ _) at h
  have hm : ∀ c : Fin k, (ofClass (xs.map (change T b)) ys c ≠ [] ∧ determinant eps (covariance (ofClass (xs.map (change T b)) ys c)) ≠ 0) ↔
      (ofClass xs ys c ≠ [] ∧ determinant eps (covariance (ofClass xs ys c)) ≠ 0) := fun c => by
    rw [ofClass_map, Ne, List.map_eq_nil_iff]
    exact and_congr_right fun hc => not_congr (h c hc)
  by_cases hex : ∃ c : Fin k, ofClass xs ys c ≠ [] ∧ determinant eps (covariance (ofClass xs ys c)) ≠ 0
  · obtain ⟨c0, hc0⟩ := hex
    refine FirstMax.unique (inv_pos.2 (abs_pos.2 hT)) (C88_qda_partial he xs ys ⟨c0, hc0⟩ x)
      (C88_qda_partial he (xs.map (change T b)) ys ⟨c0, (hm c0).2 hc0⟩ (change T b x)) (fun c => (hm c).symm) (fun c hc => ?_)
    rw [ofClass_map, avg_change T b hc.1, covariance_change T b hc.1, List.length_map, List.length_map, density_change hT b _ (det_ne he hc.2)]
    ring
  · have hex' : ∀ c : Fin k, ofClass xs ys c = [] ∨ determinant eps (covariance (ofClass xs ys c)) = 0 := fun c => by
      by_contra hc; push Not at hc; exact hex ⟨c, hc⟩
    rw [qda_none he _ _ hex', qda_none he _ _ fun c => ?_]
    by_contra hc
    push Not at hc
    exact hex ⟨c, (hm c).1 hc⟩

theorem change_one (b : Fin n → ℝ) : change 1 b = fun x => x + b := by
  funext x; simp [change]

/-- **C208**. Moving the origin, for training samples and query, does not change the answers of LDA and QDA. -/
theorem C208_origin {eps : ℝ} (he : 0 ≤ eps) (b : Fin n → ℝ) (xs : List (Fin n → ℝ)) (ys : List ℕ) (x : Fin n → ℝ) :
    (Lda.fit k (xs.map fun x => x + b) ys).predict eps (x + b) = (Lda.fit k xs ys).predict eps x ∧
    (Qda.fit k (xs.map fun x => x + b) ys).predict eps (x + b) = (Qda.fit k xs ys).predict eps x := by
  have h1 : (1 : Matrix (Fin n) (Fin n) ℝ).det ≠ 0 := by rw [det_one]; exact one_ne_zero
  have hf : (fun x : Fin n → ℝ => (1 : Matrix (Fin n) (Fin n) ℝ) *ᵥ x + b) = fun x => x + b := by
    funext x; rw [one_mulVec]
  have hL := C209_lda_partial (k := k) he h1 b xs ys (by
    have : of (pooledCov k (xs.map (change 1 b)) ys) = of (pooledCov k xs ys) := by
      rw [pooled_change, transpose_one, Matrix.mul_one, Matrix.one_mul]
    have := of.injective this
    change determinant eps (pooledCov k (xs.map (change 1 b)) ys) = 0 ↔ _
    rw [this]) x
  have hQ := C209_qda_partial (k := k) he h1 b xs ys (fun c hc => by
    have : of (covariance ((ofClass xs ys c).map (change 1 b))) = of (covariance (ofClass xs ys c)) := by
      rw [covariance_change _ _ hc, transpose_one, Matrix.mul_one, Matrix.one_mul]
    have := of.injective this
    change determinant eps (covariance ((ofClass xs ys c).map (change 1 b))) = 0 ↔ _
    rw [this]) x
  rw [hf, one_mulVec] at hL hQ
  exact ⟨hL, hQ⟩

/-- Other units and another origin for every feature. -/
def rescale (s b : Fin n → ℝ) (x : Fin n → ℝ) : Fin n → ℝ := fun i => s i * x i + b i

theorem zip_map_ne (f : (Fin n → ℝ) → Fin n → ℝ) (xs : List (Fin n → ℝ)) (ys : List ℕ) :
    (xs.map f).zip ys = (xs.zip ys).map fun d => (f d.1, d.2) := by
  rw [List.zip_map_left]; rfl

theorem rescale_eq (s b : Fin n → ℝ) : rescale s b = change (diagonal s) b := by
  funext x i
  simp [rescale, change, mulVec_diagonal]

theorem variance_rescale (s b : Fin n → ℝ) {l : List (Fin n → ℝ)} (hl : l ≠ []) (i : Fin n) :
    variance (l.map (rescale s b)) i = s i ^ 2 * variance l i := by
  unfold variance
  have ha : avg (l.map (rescale s b)) = rescale s b (avg l) := by rw [rescale_eq, avg_change _ _ hl]
  rw [ha, List.map_map, List.length_map, ← mul_div_assoc, ← List.sum_map_mul_left]
  congr 3
  funext x
  simp only [Function.comp, rescale]
  ring

theorem gauss1_rescale {s : ℝ} (hs : s ≠ 0) (b μ t : ℝ) {v : ℝ} (hv : 0 < v) : gauss1 (s * μ + b) (s ^ 2 * v) (s * t + b) = |s|⁻¹ * gauss1 μ v t := by
  unfold gauss1
  have e1 : -(s * t + b - (s * μ + b)) ^ 2 / (2 * (s ^ 2 * v)) = -(t - μ) ^ 2 / (2 * v) := by
    field_simp
    ring
  have e2 : 2 * Real.pi * (s ^ 2 * v) = s ^ 2 * (2 * Real.pi * v) := by ring
  rw [e1, e2, Real.sqrt_mul (sq_nonneg _), Real.sqrt_sq_eq_abs, div_mul_eq_div_div_swap, div_eq_inv_mul _ |s|]

theorem bayes_rescale {floor : ℝ} (hf : 0 < floor) {s : Fin n → ℝ} (hs : ∀ i, s i ≠ 0) (b : Fin n → ℝ) (xs : List (Fin n → ℝ)) (ys : List ℕ) {o : NB k n}
    (ho : NB.fit k xs ys = some o)
    (h : ∀ c : Fin k, ofClass xs ys c ≠ [] → ∀ i, max (s i ^ 2 * variance (ofClass xs ys c) i) floor = s i ^ 2 * max (variance (ofClass xs ys c) i) floor) :
    ∃ o', NB.fit k (xs.map (rescale s b)) ys = some o' ∧ ∀ x, o'.predict floor (rescale s b x) = o.predict floor x := by
  cases ho' : NB.fit k (xs.map (rescale s b)) ys with
  | none =>
    obtain ⟨d, hd, hk⟩ := (C48_fit (k := k) _ ys).1.1 ho'
    rw [zip_map_ne] at hd
    obtain ⟨d', hd', rfl⟩ := List.mem_map.1 hd
    rw [(C48_fit (k := k) xs ys).1.2 ⟨d', hd', hk⟩] at ho
    cases ho
  | some o' =>
    refine ⟨o', rfl, fun x => ?_⟩
    by_cases hne : xs.zip ys = []
    · have hne' : (xs.map (rescale s b)).zip ys = [] := by rw [zip_map_ne, hne]; rfl
      have hc : ∀ c, o.count c = 0 := fun c => by
        rw [((C48_fit (k := k) xs ys).2 o ho).1 c]
        simp [ofClass, hne]
      have hc' : ∀ c, o'.count c = 0 := fun c => by
        rw [((C48_fit (k := k) _ ys).2 o' ho').1 c]
        simp [ofClass, hne']
      have hz : ∀ (o : NB k n) x, (∀ c, o.count c = 0) → o.predict floor x = 0 := fun o x h => by
        unfold NB.predict
        exact (best_spec (fun _ => False) (fun _ => 0) _ (fun s c hc => hc.elim) (fun s c _ => if_pos (h c))).1 (fun _ h => h)
      rw [hz o x hc, hz o' _ hc']
    · have hne' : (xs.map (rescale s b)).zip ys ≠ [] := by rw [zip_map_ne, Ne, List.map_eq_nil_iff]; exact hne
      refine FirstMax.unique (a := ∏ i, |s i|⁻¹) (Finset.prod_pos fun i _ => inv_pos.2 (abs_pos.2 (hs i))) (C48_predict hf xs ys o ho hne x)
        (C48_predict hf _ ys o' ho' hne' (rescale s b x)) (fun c => ?_) (fun c hc => ?_)
      · rw [ofClass_map, Ne, Ne, List.map_eq_nil_iff]
      · rw [ofClass_map, List.length_map, zip_map_ne, List.length_map, mul_left_comm, ← Finset.prod_mul_distrib]
        congr 1
        refine Finset.prod_congr rfl fun i _ => ?_
        rw [variance_rescale s b hc, h c hc i, rescale_eq, avg_change _ _ hc, ← rescale_eq]
        exact gauss1_rescale (hs i) _ _ _ (lt_max_of_lt_right hf)

/-- **C208**. Moving the origin, for training samples and query, does not change the answers of naive Bayes. -/
theorem C208_origin_bayes {floor : ℝ} (hf : 0 < floor) (b : Fin n → ℝ) (xs : List (Fin n → ℝ)) (ys : List ℕ) {o : NB k n}
    (ho : NB.fit k xs ys = some o) :
    ∃ o', NB.fit k (xs.map fun x => x + b) ys = some o' ∧ ∀ x, o'.predict floor (x + b) = o.predict floor x := by
  have e : rescale (fun _ => 1) b = fun x => x + b := by
    funext x i; simp [rescale]
  have := bayes_rescale hf (s := fun _ => 1) (fun _ => one_ne_zero) b xs ys ho (fun c _ i => by simp)
  rw [e] at this
  exact this

/-- **C209**, naive Bayes: other units and another origin for every feature, for training samples and query, do not change the answers, if all variances
exceed the floor in both units. Missing: see `C209_bayes_fails`. -/
theorem C209_bayes_partial {floor : ℝ} (hf : 0 < floor) {s : Fin n → ℝ} (hs : ∀ i, s i ≠ 0) (b : Fin n → ℝ) (xs : List (Fin n → ℝ)) (ys : List ℕ)
    {o : NB k n} (ho : NB.fit k xs ys = some o)
    (h : ∀ c : Fin k, ofClass xs ys c ≠ [] → ∀ i, floor ≤ variance (ofClass xs ys c) i ∧ floor ≤ s i ^ 2 * variance (ofClass xs ys c) i) :
    ∃ o', NB.fit k (xs.map fun x i => s i * x i + b i) ys = some o' ∧ ∀ x, o'.predict floor (fun i => s i * x i + b i) = o.predict floor x :=
  bayes_rescale hf hs b xs ys ho fun c hc i => by rw [max_eq_left (h c hc i).1, max_eq_left (h c hc i).2]

/-! ## Refutations -/

theorem det1 {eps : ℝ} (he : 0 ≤ eps) (a : ℝ) : determinant eps (fun _ _ => a : Mat ℝ 1 1) ≠ 0 ↔ eps < |a| := by
  rw [Ne, determinant_zero_iff he]
  have h1 : rng 1 0 1 = [0] := by decide
  have h2 : rng 1 1 1 = [] := by decide
  rw [h1]
  simp [detStep, pivot, absV, h2, detElim]

theorem density1 {a : ℝ} (ha : 0 < a) (μ x : Fin 1 → ℝ) :
    normalDensity μ (of fun _ _ => a) x = Real.exp (-(x 0 - μ 0) ^ 2 / (2 * a)) / Real.sqrt (2 * Real.pi * a) := by
  have hinv : (of fun _ _ => a : Matrix (Fin 1) (Fin 1) ℝ)⁻¹ = of fun _ _ => a⁻¹ := by
    apply Matrix.inv_eq_right_inv
    ext i j
    rw [Subsingleton.elim i 0, Subsingleton.elim j 0]
    simp [Matrix.mul_apply, ha.ne']
  unfold normalDensity
  rw [hinv]
  simp [Matrix.mulVec, dotProduct]
  congr 2
  field_simp

theorem firstMax_one {elig : Fin 2 → Prop} {w : Fin 2 → ℝ} {r : ℕ} (h : FirstMax elig w r) (h1 : elig 1) (hw : w 0 < w 1) : r = 1 := by
  obtain ⟨hr, -, hs⟩ := h
  have := (hs 1 h1).1
  interval_cases r
  · exact absurd this (not_le.2 hw)
  · rfl

theorem firstMax_zero {elig : Fin 2 → Prop} {w : Fin 2 → ℝ} {r : ℕ} (h : FirstMax elig w r) (h0 : elig 0) (hw : w 1 ≤ w 0) : r = 0 := by
  obtain ⟨hr, -, hs⟩ := h
  have := (hs 0 h0).2
  interval_cases r
  · rfl
  · exact absurd (this one_pos) (not_lt.2 hw)

/-- **C209 fails** for LDA: classes at 0, 2 and at 10, 12. The point 11 is in the second class. In units ten million times as large it is in the
first: the pooled covariance is below the threshold. -/
theorem C209_lda_fails :
    (Lda.fit 2 [![0], ![2], ![10], ![12]] [0, 0, 1, 1] : Lda 2 1).predict (1 / 10 ^ 12) ![11] = 1 ∧
    (Lda.fit 2 ([![0], ![2], ![10], ![12]].map fun x i => x i / 10 ^ 7) [0, 0, 1, 1] : Lda 2 1).predict (1 / 10 ^ 12) (fun i => ![11] i / 10 ^ 7) = 0 := by
  have hP : pooledCov 2 [(![0] : Fin 1 → ℝ), ![2], ![10], ![12]] [0, 0, 1, 1] = fun _ _ => 2 := by
    funext i j
    rw [Subsingleton.elim i 0, Subsingleton.elim j 0]
    simp [pooledCov, Fin.sum_univ_two, covariance, ofClass, avg]
    norm_num
  have hP' : pooledCov 2 ([(![0] : Fin 1 → ℝ), ![2], ![10], ![12]].map fun x i => x i / 10 ^ 7) [0, 0, 1, 1] = fun _ _ => 2 / 10 ^ 14 := by
    funext i j
    rw [Subsingleton.elim i 0, Subsingleton.elim j 0]
    simp [pooledCov, Fin.sum_univ_two, covariance, ofClass, avg]
    norm_num
  constructor
  · refine firstMax_one (C88_lda_partial (by norm_num) _ _ ?_ ⟨1, by simp [ofClass]⟩ _) (by simp [ofClass]) ?_
    · rw [hP, det1 (by norm_num)]
      norm_num [abs_of_pos]
    · rw [hP, density1 (by norm_num), density1 (by norm_num)]
      have e0 : avg (ofClass [(![0] : Fin 1 → ℝ), ![2], ![10], ![12]] [0, 0, 1, 1] ((0 : Fin 2) : ℕ)) 0 = 1 := by
        simp [avg, ofClass]
      have e1 : avg (ofClass [(![0] : Fin 1 → ℝ), ![2], ![10], ![12]] [0, 0, 1, 1] ((1 : Fin 2) : ℕ)) 0 = 11 := by
        simp [avg, ofClass]; norm_num
      have l0 : (ofClass [(![0] : Fin 1 → ℝ), ![2], ![10], ![12]] [0, 0, 1, 1] ((0 : Fin 2) : ℕ)).length = 2 := by simp [ofClass]
      have l1 : (ofClass [(![0] : Fin 1 → ℝ), ![2], ![10], ![12]] [0, 0, 1, 1] ((1 : Fin 2) : ℕ)).length = 2 := by simp [ofClass]
      rw [e0, e1, l0, l1]
      have hp := Real.pi_pos
      refine mul_lt_mul_of_pos_left (div_lt_div_of_pos_right (Real.exp_lt_exp.2 ?_) (Real.sqrt_pos.2 (by positivity))) (by norm_num)
      norm_num
  · refine lda_none (by norm_num) _ _ (Or.inl ?_) _
    rw [hP']
    by_contra h
    rw [← Ne, det1 (by norm_num)] at h
    norm_num [abs_of_pos] at h

theorem wide_narrow {v : ℝ} (hv : 0 < v) (h : v ≤ 3) (x : ℝ) (hx : x = 8) :
    Real.exp (-(x - 0) ^ 2 / (2 * v)) / Real.sqrt (2 * Real.pi * v) < Real.exp (-(x - 0) ^ 2 / (2 * (100 * v))) / Real.sqrt (2 * Real.pi * (100 * v)) := by
  subst hx
  have hp := Real.pi_pos
  have e : 2 * Real.pi * (100 * v) = 10 ^ 2 * (2 * Real.pi * v) := by ring
  have hb : (10 : ℝ) ≤ -(8 - 0 : ℝ) ^ 2 / (2 * (100 * v)) - -(8 - 0 : ℝ) ^ 2 / (2 * v) := by
    have : -(8 - 0 : ℝ) ^ 2 / (2 * (100 * v)) - -(8 - 0 : ℝ) ^ 2 / (2 * v) = (792 / 25) / v := by
      field_simp
      ring
    rw [this, le_div_iff₀ hv]
    linarith
  have h1 := Real.add_one_le_exp (-(8 - 0 : ℝ) ^ 2 / (2 * (100 * v)) - -(8 - 0 : ℝ) ^ 2 / (2 * v))
  rw [Real.exp_sub] at h1
  have pA := Real.exp_pos (-(8 - 0 : ℝ) ^ 2 / (2 * v))
  generalize Real.exp (-(8 - 0 : ℝ) ^ 2 / (2 * v)) = A at h1 pA ⊢
  generalize Real.exp (-(8 - 0 : ℝ) ^ 2 / (2 * (100 * v))) = B at h1 ⊢
  have h2 : A * 10 < B := by
    have : 10 < B / A := by linarith
    rw [lt_div_iff₀ pA] at this
    linarith
  rw [e, Real.sqrt_mul (by norm_num : (0 : ℝ) ≤ 10 ^ 2), Real.sqrt_sq (by norm_num), div_mul_eq_div_div]
  refine div_lt_div_of_pos_right ?_ (Real.sqrt_pos.2 (by positivity))
  rwa [lt_div_iff₀ (by norm_num)]

/-- **C209 fails** for QDA: a narrow class at -1, 1 and a wide one at -10, 10. The point 8 is in the wide class. In units ten billion times as large it is
in the narrow one: no covariance is above the threshold. -/
theorem C209_qda_fails :
    (Qda.fit 2 [![-1], ![1], ![-10], ![10]] [0, 0, 1, 1] : Qda 2 1).predict (1 / 10 ^ 12) ![8] = 1 ∧
    (Qda.fit 2 ([![-1], ![1], ![-10], ![10]].map fun x i => x i / 10 ^ 10) [0, 0, 1, 1] : Qda 2 1).predict (1 / 10 ^ 12) (fun i => ![8] i / 10 ^ 10) = 0 := by
  have c0 : covariance (ofClass [(![-1] : Fin 1 → ℝ), ![1], ![-10], ![10]] [0, 0, 1, 1] ((0 : Fin 2) : ℕ)) = fun _ _ => 2 := by
    funext i j
    rw [Subsingleton.elim i 0, Subsingleton.elim j 0]
    simp [covariance, ofClass, avg]
    norm_num
  have c1 : covariance (ofClass [(![-1] : Fin 1 → ℝ), ![1], ![-10], ![10]] [0, 0, 1, 1] ((1 : Fin 2) : ℕ)) = fun _ _ => 100 * 2 := by
    funext i j
    rw [Subsingleton.elim i 0, Subsingleton.elim j 0]
    simp [covariance, ofClass, avg]
    norm_num
  constructor
  · have el : determinant (1 / 10 ^ 12) (covariance (ofClass [(![-1] : Fin 1 → ℝ), ![1], ![-10], ![10]] [0, 0, 1, 1] ((1 : Fin 2) : ℕ))) ≠ 0 := by
      rw [c1, det1 (by norm_num)]
      norm_num [abs_of_pos]
    refine firstMax_one (C88_qda_partial (by norm_num) _ _ ⟨1, by simp [ofClass], el⟩ _) ⟨by simp [ofClass], el⟩ ?_
    rw [c0, c1, density1 (by norm_num), density1 (by norm_num)]
    have e0 : avg (ofClass [(![-1] : Fin 1 → ℝ), ![1], ![-10], ![10]] [0, 0, 1, 1] ((0 : Fin 2) : ℕ)) 0 = 0 := by simp [avg, ofClass]
    have e1 : avg (ofClass [(![-1] : Fin 1 → ℝ), ![1], ![-10], ![10]] [0, 0, 1, 1] ((1 : Fin 2) : ℕ)) 0 = 0 := by simp [avg, ofClass]
    have l0 : (ofClass [(![-1] : Fin 1 → ℝ), ![1], ![-10], ![10]] [0, 0, 1, 1] ((0 : Fin 2) : ℕ)).length = 2 := by simp [ofClass]
    have l1 : (ofClass [(![-1] : Fin 1 → ℝ), ![1], ![-10], ![10]] [0, 0, 1, 1] ((1 : Fin 2) : ℕ)).length = 2 := by simp [ofClass]
    rw [e0, e1, l0, l1]
    exact mul_lt_mul_of_pos_left (wide_narrow (by norm_num) (by norm_num) _ rfl) (by norm_num)
  · refine qda_none (by norm_num) _ _ (fun c => Or.inr ?_) _
    by_contra h
    have hc : ∃ a : ℝ, covariance (ofClass ([(![-1] : Fin 1 → ℝ), ![1], ![-10], ![10]].map fun x i => x i / 10 ^ 10) [0, 0, 1, 1] (c : ℕ)) = (fun _ _ => a) ∧
        0 < a ∧ a ≤ 1 / 10 ^ 13 := by
      fin_cases c
      · refine ⟨2 / 10 ^ 20, ?_, by norm_num, by norm_num⟩
        funext i j
        rw [Subsingleton.elim i 0, Subsingleton.elim j 0]
        simp [covariance, ofClass, avg]
        norm_num
      · refine ⟨200 / 10 ^ 20, ?_, by norm_num, by norm_num⟩
        funext i j
        rw [Subsingleton.elim i 0, Subsingleton.elim j 0]
        simp [covariance, ofClass, avg]
        norm_num
    obtain ⟨a, ha, h1, h2⟩ := hc
    rw [← Ne, ha, det1 (by norm_num), abs_of_pos h1] at h
    norm_num at h h2
    linarith

/-- **C209 fails** for naive Bayes, with the same classes and units: all variances are raised to the floor. -/
theorem C209_bayes_fails : ∃ o o' : NB 2 1, NB.fit 2 [![-1], ![1], ![-10], ![10]] [0, 0, 1, 1] = some o ∧
    NB.fit 2 ([![-1], ![1], ![-10], ![10]].map fun x i => x i / 10 ^ 10) [0, 0, 1, 1] = some o' ∧
    o.predict (1 / 10 ^ 12) ![8] = 1 ∧ o'.predict (1 / 10 ^ 12) (fun i => ![8] i / 10 ^ 10) = 0 := by
  have hsome : ∀ xs : List (Fin 1 → ℝ), ∃ o : NB 2 1, NB.fit 2 xs [0, 0, 1, 1] = some o := by
    intro xs
    cases h : NB.fit 2 xs [0, 0, 1, 1] with
    | none =>
      obtain ⟨d, hd, h2⟩ := (C48_fit (k := 2) _ _).1.1 h
      have := (List.of_mem_zip hd).2
      simp at this
      omega
    | some o => exact ⟨o, rfl⟩
  obtain ⟨o, ho⟩ := hsome [![-1], ![1], ![-10], ![10]]
  obtain ⟨o', ho'⟩ := hsome ([![-1], ![1], ![-10], ![10]].map fun x i => x i / 10 ^ 10)
  refine ⟨o, o', ho, ho', ?_, ?_⟩
  · refine firstMax_one (C48_predict (by norm_num) _ _ o ho (by simp) _) (by simp [ofClass]) ?_
    have e0 : avg (ofClass [(![-1] : Fin 1 → ℝ), ![1], ![-10], ![10]] [0, 0, 1, 1] ((0 : Fin 2) : ℕ)) 0 = 0 := by simp [avg, ofClass]
    have e1 : avg (ofClass [(![-1] : Fin 1 → ℝ), ![1], ![-10], ![10]] [0, 0, 1, 1] ((1 : Fin 2) : ℕ)) 0 = 0 := by simp [avg, ofClass]
    have v0 : variance (ofClass [(![-1] : Fin 1 → ℝ), ![1], ![-10], ![10]] [0, 0, 1, 1] ((0 : Fin 2) : ℕ)) 0 = 1 := by
      simp [variance, avg, ofClass]
    have v1 : variance (ofClass [(![-1] : Fin 1 → ℝ), ![1], ![-10], ![10]] [0, 0, 1, 1] ((1 : Fin 2) : ℕ)) 0 = 100 * 1 := by
      simp [variance, avg, ofClass]; norm_num
    have l0 : (ofClass [(![-1] : Fin 1 → ℝ), ![1], ![-10], ![10]] [0, 0, 1, 1] ((0 : Fin 2) : ℕ)).length = 2 := by simp [ofClass]
    have l1 : (ofClass [(![-1] : Fin 1 → ℝ), ![1], ![-10], ![10]] [0, 0, 1, 1] ((1 : Fin 2) : ℕ)).length = 2 := by simp [ofClass]
    rw [l0, l1, Finset.prod_fin_eq_prod_range, Finset.prod_fin_eq_prod_range]
    simp only [Finset.range_one, Finset.prod_singleton, Nat.lt_one_iff, dite_true]
    change _ * gauss1 (avg _ 0) (max (variance _ 0) _) _ < _ * gauss1 (avg _ 0) (max (variance _ 0) _) _
    rw [e0, e1, v0, v1, max_eq_left (by norm_num), max_eq_left (by norm_num)]
    exact mul_lt_mul_of_pos_left (wide_narrow (by norm_num) (by norm_num) _ rfl) (by norm_num)
  · refine firstMax_zero (C48_predict (by norm_num) _ _ o' ho' (by simp) _) (by simp [ofClass]) (le_of_eq ?_)
    have key : ∀ c : Fin 2, (ofClass ([(![-1] : Fin 1 → ℝ), ![1], ![-10], ![10]].map fun x i => x i / 10 ^ 10) [0, 0, 1, 1] (c : ℕ)).length = 2 ∧
        avg (ofClass ([(![-1] : Fin 1 → ℝ), ![1], ![-10], ![10]].map fun x i => x i / 10 ^ 10) [0, 0, 1, 1] (c : ℕ)) 0 = 0 ∧
        max (variance (ofClass ([(![-1] : Fin 1 → ℝ), ![1], ![-10], ![10]].map fun x i => x i / 10 ^ 10) [0, 0, 1, 1] (c : ℕ)) 0) (1 / 10 ^ 12)
          = 1 / 10 ^ 12 := by
      intro c
      fin_cases c
      · refine ⟨by simp [ofClass], by simp [avg, ofClass, neg_div], max_eq_right ?_⟩
        simp [variance, avg, ofClass, neg_div]
        norm_num
      · refine ⟨by simp [ofClass], by simp [avg, ofClass, neg_div], max_eq_right ?_⟩
        simp [variance, avg, ofClass, neg_div]
        norm_num
    rw [(key 0).1, (key 1).1]
    congr 1
    refine Finset.prod_congr rfl fun i _ => ?_
    rw [Subsingleton.elim i 0, (key 0).2.1, (key 1).2.1, (key 0).2.2, (key 1).2.2]

/-- The hypotheses are met: in inches instead of centimetres the pooled covariance is above the threshold, too. -/
example : determinant (1 / 10 ^ 12) (pooledCov 2 ([(![0] : Fin 1 → ℝ), ![2], ![10], ![12]].map fun x => (diagonal fun _ => 1 / 2.54) *ᵥ x + 0) [0, 0, 1, 1]) = 0 ↔
    determinant (1 / 10 ^ 12) (pooledCov 2 [(![0] : Fin 1 → ℝ), ![2], ![10], ![12]] [0, 0, 1, 1]) = 0 := by
  have hP : pooledCov 2 [(![0] : Fin 1 → ℝ), ![2], ![10], ![12]] [0, 0, 1, 1] = fun _ _ => 2 := by
    funext i j
    rw [Subsingleton.elim i 0, Subsingleton.elim j 0]
    simp [pooledCov, Fin.sum_univ_two, covariance, ofClass, avg]
    norm_num
  have hP' : pooledCov 2 ([(![0] : Fin 1 → ℝ), ![2], ![10], ![12]].map fun x => (diagonal fun _ => 1 / 2.54) *ᵥ x + 0) [0, 0, 1, 1]
      = fun _ _ => 2 / 2.54 ^ 2 := by
    funext i j
    rw [Subsingleton.elim i 0, Subsingleton.elim j 0]
    simp [pooledCov, Fin.sum_univ_two, covariance, ofClass, avg]
    norm_num
  have h1 := (det1 (eps := 1 / 10 ^ 12) (by norm_num) 2).2 (by norm_num [abs_of_pos])
  have h2 := (det1 (eps := 1 / 10 ^ 12) (by norm_num) (2 / 2.54 ^ 2)).2 (by norm_num [abs_of_pos])
  rw [hP, hP']
  exact ⟨fun h => absurd h h2, fun h => absurd h h1⟩

/-- Two samples exchanged. -/
example : (([![0], ![2], ![10]] : List (Fin 1 → ℝ)).zip [0, 0, 1]).Perm ([![10], ![2], ![0]].zip [1, 0, 0]) := by
  simp only [List.zip_cons_cons, List.zip_nil_right]
  exact (List.reverse_perm _).symm

end Verif.ML
