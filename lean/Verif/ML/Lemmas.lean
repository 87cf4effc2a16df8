import Verif.ML.Model
import Verif.Mat.Lemmas
import Mathlib.Analysis.Calculus.FDeriv.Add
import Mathlib.Analysis.Calculus.FDeriv.Pi
import Mathlib.Analysis.Calculus.FDeriv.Mul
import Mathlib.Analysis.Calculus.Deriv.Comp
import Mathlib.Analysis.Calculus.Deriv.Pow
import Mathlib.Analysis.Calculus.Deriv.Mul
import Mathlib.Algebra.BigOperators.Fin
import Mathlib.Algebra.BigOperators.Field

/-! # Lemmas about scores, gradients and losses -/

namespace Verif.ML

open Verif.Mat Verif.Opt

variable {n : ℕ}

/-! ## Specification vocabulary -/

/-- The linear score of parameters `p = (w₀, …, b)`. -/
noncomputable def lin (p : Fin (n + 1) → ℝ) (x : Fin n → ℝ) : ℝ := ∑ i : Fin n, p i.castSucc * x i + p (Fin.last n)

/-- The parameters `(w₀, …, b)`. -/
def params (w : Fin n → ℝ) (b : ℝ) : Fin (n + 1) → ℝ := Fin.snoc w b

/-- `g` is the gradient of `f` at `p` (Fréchet derivative `v ↦ ∑ gᵢ vᵢ`). -/
def IsGrad {k : ℕ} (f : (Fin k → ℝ) → ℝ) (g p : Fin k → ℝ) : Prop :=
  HasFDerivAt f (∑ i, g i • (ContinuousLinearMap.proj i : (Fin k → ℝ) →L[ℝ] ℝ)) p

/-- The input with a one appended. -/
def aug (x : Fin n → ℝ) : Fin (n + 1) → ℝ := Fin.snoc x 1

theorem aug_castSucc (x : Fin n → ℝ) (i : Fin n) : aug x i.castSucc = x i := by simp [aug]
theorem aug_last (x : Fin n → ℝ) : aug x (Fin.last n) = 1 := by simp [aug]
theorem params_castSucc (w : Fin n → ℝ) (b : ℝ) (i : Fin n) : params w b i.castSucc = w i := by simp [params]
theorem params_last (w : Fin n → ℝ) (b : ℝ) : params w b (Fin.last n) = b := by simp [params]

theorem lin_aug (p : Fin (n + 1) → ℝ) (x : Fin n → ℝ) : lin p x = ∑ j, p j * aug x j := by
  rw [Fin.sum_univ_castSucc]
  simp [lin, aug]

theorem lin_params (w : Fin n → ℝ) (b : ℝ) (x : Fin n → ℝ) : lin (params w b) x = ∑ i, w i * x i + b := by
  simp [lin, params]

/-! ## Loops -/

theorem score_eq (w : Fin n → ℝ) (b : ℝ) (x : Fin n → ℝ) : score w b x = lin (params w b) x := by
  rw [lin_params, score, rng_full]
  have := foldl_add_sum (fun i => w i * x i) (List.finRange n) b
  rw [this, ← foldl_finRange_sum, foldl_add_sum]
  ring

theorem scoreP_eq (p : Fin (n + 1) → ℝ) (x : Fin n → ℝ) : scoreP p x = lin p x := by
  rw [lin, scoreP, rng_full]
  have := foldl_add_sum (fun i : Fin n => p i.castSucc * x i) (List.finRange n) (p (Fin.last n))
  rw [this, ← foldl_finRange_sum, foldl_add_sum]
  ring

theorem castLoop (F : (Fin (n + 1) → ℝ) → Fin n → ℝ)
    (hF : ∀ p q : Fin (n + 1) → ℝ, ∀ i : Fin n, p i.castSucc = q i.castSucc → F p i = F q i) (p : Fin (n + 1) → ℝ) :
    (∀ i : Fin n, (rng n 0 n).foldl (fun p i => Function.update p i.castSucc (F p i)) p i.castSucc = F p i) ∧
    (rng n 0 n).foldl (fun p i => Function.update p i.castSucc (F p i)) p (Fin.last n) = p (Fin.last n) := by
  have := foldl_rng (fun (q : Fin (n + 1) → ℝ) i => Function.update q i.castSucc (F q i))
    (fun t q => (∀ i : Fin n, q i.castSucc = if i.1 < t then F p i else p i.castSucc) ∧ q (Fin.last n) = p (Fin.last n))
    (a := 0) (b := n) (Nat.le_refl _) (Nat.zero_le _) ?_ (s := p) ?_
  · refine ⟨fun i => ?_, this.2⟩
    rw [this.1 i, if_pos i.2]
  · rintro t ht q - - ⟨h1, h2⟩
    refine ⟨fun i => ?_, ?_⟩
    · by_cases hi : i = ⟨t, ht⟩
      · subst hi
        rw [Function.update_self, if_pos (Nat.lt_succ_self t)]
        apply hF
        rw [h1, if_neg (by simp)]
      · rw [Function.update_of_ne (by intro e; exact hi (Fin.castSucc_injective _ e)), h1 i]
        have : i.1 ≠ t := fun e => hi (Fin.ext e)
        have h3 : i.1 < t ↔ i.1 < t + 1 := by omega
        simp only [h3]
    · rw [Function.update_of_ne (Fin.castSucc_lt_last _).ne', h2]
  · exact ⟨fun i => by simp, rfl⟩

theorem pack_eq (w : Fin n → ℝ) (b : ℝ) : pack w b = params w b := by
  funext j
  unfold pack
  have := castLoop (fun _ i => w i) (fun _ _ _ _ => rfl) (fun _ => 0)
  refine Fin.lastCases ?_ (fun i => ?_) j
  · rw [Function.update_self, params_last]
  · rw [Function.update_of_ne (Fin.castSucc_lt_last _).ne, this.1, params_castSucc]

theorem accum_eq (e : ℝ) (x : Fin n → ℝ) (g : (Fin n → ℝ) × ℝ) : accum e x g = (fun i => g.1 i + e * x i, g.2 + e) := by
  unfold accum
  congr 1
  funext i
  rw [foldl_update (fun (gw : Fin n → ℝ) i => gw i + e * x i) _ (nodup_rng _ _ _)]
  · simp [mem_rng]
  · intro b b' r _ h1 _
    simp only [h1]

theorem accumP_eq (e : ℝ) (x : Fin n → ℝ) (g : Fin (n + 1) → ℝ) : accumP e x g = fun j => g j + e * aug x j := by
  funext j
  unfold accumP
  have := castLoop (fun g i => g i.castSucc + e * x i) (fun p q i h => by rw [h]) g
  refine Fin.lastCases ?_ (fun i => ?_) j
  · rw [Function.update_self, this.2, aug_last, mul_one]
  · rw [Function.update_of_ne (Fin.castSucc_lt_last _).ne, this.1, aug_castSucc]

theorem mapLoop {k : ℕ} (F : Fin k → ℝ → ℝ) (g : Fin k → ℝ) :
    (rng k 0 k).foldl (fun g i => Function.update g i (F i (g i))) g = fun i => F i (g i) := by
  funext i
  rw [foldl_update (fun (g : Fin k → ℝ) i => F i (g i)) _ (nodup_rng _ _ _)]
  · simp [mem_rng]
  · intro b b' r _ h1 _
    simp only [h1]

theorem divAll_eq {k : ℕ} (m : ℝ) (g : Fin k → ℝ) : divAll m g = fun i => g i / m :=
  mapLoop (fun _ v => v / m) g

theorem unpackW_eq (w : Fin n → ℝ) (p : Fin (n + 1) → ℝ) : unpackW w p = fun i => p i.castSucc :=
  mapLoop (fun i _ => p i.castSucc) w

theorem params_unpack (w : Fin n → ℝ) (p : Fin (n + 1) → ℝ) : params (unpackW w p) (p (Fin.last n)) = p := by
  rw [unpackW_eq]
  funext j
  refine Fin.lastCases ?_ (fun i => ?_) j
  · rw [params_last]
  · rw [params_castSucc]

theorem sums_eq {β : Type*} (e : (Fin n → ℝ) × β → ℝ) (data : List ((Fin n → ℝ) × β)) :
    data.foldl (fun g d => accum (e d) d.1 g) (fun _ => 0, 0)
      = (fun i => (data.map fun d => e d * d.1 i).sum, (data.map e).sum) := by
  suffices H : ∀ g : (Fin n → ℝ) × ℝ, data.foldl (fun g d => accum (e d) d.1 g) g
      = (fun i => g.1 i + (data.map fun d => e d * d.1 i).sum, g.2 + (data.map e).sum) by
    rw [H]; simp
  induction data with
  | nil => intro g; simp
  | cons d l ih =>
    intro g
    rw [List.foldl_cons, ih, accum_eq]
    simp only [List.map_cons, List.sum_cons]
    congr 1
    · funext i; ring
    · ring

theorem sumsP_eq {β : Type*} (e : (Fin n → ℝ) × β → ℝ) (data : List ((Fin n → ℝ) × β)) :
    data.foldl (fun g d => accumP (e d) d.1 g) (fun _ => 0) = fun j => (data.map fun d => e d * aug d.1 j).sum := by
  suffices H : ∀ g : Fin (n + 1) → ℝ, data.foldl (fun g d => accumP (e d) d.1 g) g
      = fun j => g j + (data.map fun d => e d * aug d.1 j).sum by
    rw [H]; simp
  induction data with
  | nil => intro g; simp
  | cons d l ih =>
    intro g
    rw [List.foldl_cons, ih, accumP_eq]
    simp only [List.map_cons, List.sum_cons]
    funext i; ring

theorem lossLoop {β : Type*} (f : β → ℝ) (l : List β) (a : ℝ) : l.foldl (fun s d => s + f d) a = a + (l.map f).sum := by
  induction l generalizing a with
  | nil => simp
  | cons d l ih => rw [List.foldl_cons, ih]; simp only [List.map_cons, List.sum_cons]; ring

theorem sqLoop (p : Fin (n + 1) → ℝ) :
    (rng n 0 n).foldl (fun rw i => rw + p i.castSucc * p i.castSucc) 0 = ∑ i : Fin n, p i.castSucc ^ 2 := by
  rw [rng_full, foldl_finRange_sum]
  exact Finset.sum_congr rfl fun i _ => (sq _).symm

/-! ## Gradients -/

theorem IsGrad.congr {k : ℕ} {f : (Fin k → ℝ) → ℝ} {g g' p : Fin k → ℝ} (h : IsGrad f g p) (e : g = g') : IsGrad f g' p := e ▸ h

theorem isGrad_lin (x : Fin n → ℝ) (p : Fin (n + 1) → ℝ) : IsGrad (fun p => lin p x) (aug x) p := by
  unfold IsGrad
  have : (fun p : Fin (n + 1) → ℝ => lin p x)
      = fun p => (∑ i, aug x i • (ContinuousLinearMap.proj i : (Fin (n + 1) → ℝ) →L[ℝ] ℝ)) p := by
    funext p
    rw [lin_aug]
    simp [mul_comm]
  rw [this]
  exact ContinuousLinearMap.hasFDerivAt _

theorem isGrad_comp {k : ℕ} {f : (Fin k → ℝ) → ℝ} {g p : Fin k → ℝ} {l : ℝ → ℝ} {l' : ℝ} (h : IsGrad f g p)
    (hl : HasDerivAt l l' (f p)) : IsGrad (fun p => l (f p)) (fun i => l' * g i) p := by
  have := hl.comp_hasFDerivAt p h
  unfold IsGrad
  rw [show (∑ i, (l' * g i) • (ContinuousLinearMap.proj i : (Fin k → ℝ) →L[ℝ] ℝ))
    = l' • ∑ i, g i • (ContinuousLinearMap.proj i : (Fin k → ℝ) →L[ℝ] ℝ) by rw [Finset.smul_sum]; simp only [smul_smul]]
  exact this

theorem isGrad_add {k : ℕ} {f₁ f₂ : (Fin k → ℝ) → ℝ} {g₁ g₂ p : Fin k → ℝ} (h₁ : IsGrad f₁ g₁ p) (h₂ : IsGrad f₂ g₂ p) :
    IsGrad (fun p => f₁ p + f₂ p) (fun i => g₁ i + g₂ i) p := by
  have := HasFDerivAt.add h₁ h₂
  unfold IsGrad
  rw [show (∑ i, (g₁ i + g₂ i) • (ContinuousLinearMap.proj i : (Fin k → ℝ) →L[ℝ] ℝ))
    = ∑ i, g₁ i • (ContinuousLinearMap.proj i : (Fin k → ℝ) →L[ℝ] ℝ)
      + ∑ i, g₂ i • (ContinuousLinearMap.proj i : (Fin k → ℝ) →L[ℝ] ℝ) by
    rw [← Finset.sum_add_distrib]; simp only [add_smul]]
  exact this

theorem isGrad_zero {k : ℕ} (p : Fin k → ℝ) (c : ℝ) : IsGrad (fun _ => c) (fun _ => 0) p := by
  unfold IsGrad
  simpa using hasFDerivAt_const c p

theorem isGrad_coord {k : ℕ} (j : Fin k) (p : Fin k → ℝ) : IsGrad (fun p => p j) (Pi.single j 1) p := by
  unfold IsGrad
  have e : (∑ i, (Pi.single j 1 : Fin k → ℝ) i • (ContinuousLinearMap.proj i : (Fin k → ℝ) →L[ℝ] ℝ))
      = ContinuousLinearMap.proj j := by
    rw [Finset.sum_eq_single j]
    · simp
    · intro b _ hb; simp [hb]
    · simp
  rw [e]
  exact (ContinuousLinearMap.proj j : (Fin k → ℝ) →L[ℝ] ℝ).hasFDerivAt

/-- The gradient of a mean loss. -/
theorem isGrad_mean {β : Type*} (ell : ℝ → β → ℝ) (ell' : ℝ → β → ℝ) (h : ∀ s y, HasDerivAt (ell · y) (ell' s y) s)
    (data : List ((Fin n → ℝ) × β)) (m : ℝ) (p : Fin (n + 1) → ℝ) :
    IsGrad (fun p => (data.map fun d => ell (lin p d.1) d.2).sum / m)
      (fun j => (data.map fun d => ell' (lin p d.1) d.2 * aug d.1 j).sum / m) p := by
  have H : IsGrad (fun p => (data.map fun d => ell (lin p d.1) d.2).sum)
      (fun j => (data.map fun d => ell' (lin p d.1) d.2 * aug d.1 j).sum) p := by
    induction data with
    | nil => simpa using isGrad_zero p 0
    | cons d l ih =>
      have h1 := isGrad_comp (isGrad_lin d.1 p) (h (lin p d.1) d.2)
      simpa using isGrad_add h1 ih
  have h2 := isGrad_comp (l := fun t => t / m) (l' := 1 / m) H ((hasDerivAt_id' _).div_const m)
  refine h2.congr ?_
  funext j
  ring

/-- The gradient of `α ∑ wᵢ²`. -/
theorem isGrad_ridge (a : ℝ) (p : Fin (n + 1) → ℝ) :
    IsGrad (fun p : Fin (n + 1) → ℝ => a * ∑ i : Fin n, p i.castSucc ^ 2)
      (Fin.snoc (α := fun _ => ℝ) (fun i : Fin n => 2 * a * p i.castSucc) 0) p := by
  have key : ∀ s : Finset (Fin n), IsGrad (fun p : Fin (n + 1) → ℝ => ∑ i ∈ s, p i.castSucc ^ 2)
      (fun j => ∑ i ∈ s, 2 * p i.castSucc * (Pi.single i.castSucc 1 : Fin (n + 1) → ℝ) j) p := by
    intro s
    classical
    induction s using Finset.induction_on with
    | empty => simpa using isGrad_zero p 0
    | insert i s hi ih =>
      have h1 := isGrad_comp (l := fun t => t ^ 2) (l' := 2 * p i.castSucc) (isGrad_coord i.castSucc p)
        (by simpa using hasDerivAt_pow 2 (p i.castSucc))
      have h2 := isGrad_add h1 ih
      simp only [Finset.sum_insert hi]
      exact h2
  have h3 := isGrad_comp (l := fun t => a * t) (l' := a) (key Finset.univ) (by simpa using (hasDerivAt_id' _).const_mul a)
  refine h3.congr ?_
  funext j
  refine Fin.lastCases ?_ (fun i => ?_) j
  · simp only [Fin.snoc_last]
    rw [Finset.sum_eq_zero, mul_zero]
    intro i _
    rw [Pi.single_eq_of_ne (Fin.castSucc_lt_last _).ne', mul_zero]
  · simp only [Fin.snoc_castSucc]
    rw [Finset.sum_eq_single i]
    · simp; ring
    · intro b _ hb
      rw [Pi.single_eq_of_ne (by intro e; exact hb (Fin.castSucc_injective _ e).symm), mul_zero]
    · simp

end Verif.ML
