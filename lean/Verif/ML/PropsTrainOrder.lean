import Verif.ML.Lemmas
import Mathlib.Algebra.BigOperators.Group.List.Basic
import Mathlib.Algebra.Module.Prod
import Mathlib.Algebra.Module.Pi

/-! # Training does not depend on the order of the samples, nor on repeating all of them (C217, C218) -/

namespace Verif.ML

open Verif.Mat Verif.Opt

variable {n : ℕ}

/-- All samples `k` times. -/
def times {α : Type*} (k : ℕ) (l : List α) : List α := (List.replicate k l).flatten

/-! ## Loops that add one term per sample -/

/-- `F` adds `φ d` to its state. -/
def Adds {S β : Type*} [AddCommMonoid S] (F : S → β → S) (φ : β → S) : Prop := ∀ g d, F g d = g + φ d

theorem Adds.sum {S β : Type*} [AddCommMonoid S] {F : S → β → S} {φ : β → S} (h : Adds F φ) (l : List β) (s : S) :
    l.foldl F s = s + (l.map φ).sum := by
  induction l generalizing s with
  | nil => simp
  | cons d l ih => rw [List.foldl_cons, ih, h, List.map_cons, List.sum_cons, add_assoc]

theorem Adds.perm {S β : Type*} [AddCommMonoid S] {F : S → β → S} {φ : β → S} (h : Adds F φ) {l l' : List β} (hp : l.Perm l') (s : S) :
    l.foldl F s = l'.foldl F s := by
  rw [h.sum, h.sum, (hp.map φ).sum_eq]

theorem Adds.times {S β : Type*} [AddCommMonoid S] {F : S → β → S} {φ : β → S} (h : Adds F φ) (k : ℕ) (l : List β) :
    (times k l).foldl F 0 = k • l.foldl F 0 := by
  rw [h.sum, h.sum, zero_add, zero_add, ML.times]
  induction k with
  | zero => simp
  | succ k ih => rw [List.replicate_succ, List.flatten_cons, List.map_append, List.sum_append, ih, succ_nsmul, add_comm]

theorem adds_accum {β : Type*} (e : (Fin n → ℝ) × β → ℝ) :
    Adds (fun g d => accum (e d) d.1 g) (fun d : (Fin n → ℝ) × β => ((fun i => e d * d.1 i, e d) : (Fin n → ℝ) × ℝ)) := by
  intro g d; exact accum_eq _ _ _

theorem adds_accumP {β : Type*} (e : (Fin n → ℝ) × β → ℝ) :
    Adds (fun g d => accumP (e d) d.1 g) (fun d : (Fin n → ℝ) × β => ((fun j => e d * aug d.1 j) : Fin (n + 1) → ℝ)) := by
  intro g d; exact accumP_eq _ _ _

theorem adds_if {S β : Type*} [AddCommMonoid S] {F : S → β → S} {φ : β → S} (h : Adds F φ) (P : β → Prop) [DecidablePred P] :
    Adds (fun g d => if P d then F g d else g) (fun d => if P d then φ d else 0) := by
  intro g d
  dsimp only
  split_ifs
  · exact h g d
  · rw [add_zero]

theorem adds_loss {β : Type*} (f : β → ℝ) : Adds (fun s d => s + f d) f := fun _ _ => rfl

theorem adds_svm (w : Fin n → ℝ) (b : ℝ) :
    Adds (fun (g : (Fin n → ℝ) × ℝ) (d : (Fin n → ℝ) × ℤ) =>
      let margin := sign d.2 * score w b d.1
      if margin ≥ 1 then ((rng n 0 n).foldl (fun gw i => Function.update gw i (gw i + 0)) g.1, g.2 + 0)
      else accum (-sign d.2) d.1 g)
      (fun d => if sign d.2 * score w b d.1 ≥ 1 then 0 else ((fun i => -sign d.2 * d.1 i, -sign d.2) : (Fin n → ℝ) × ℝ)) := by
  intro g d
  dsimp only
  split_ifs
  · rw [mapLoop (fun _ v => v + 0)]; simp
  · rw [accum_eq]; rfl

theorem adds_logloss (p : Fin (n + 1) → ℝ) :
    Adds (fun (loss : ℝ) (d : (Fin n → ℝ) × UInt8) =>
      let q := sigmoid (scoreP p d.1)
      let yv := labelF d.2
      loss - (yv * Real.log (q + 1 / (1 + (1 + 1))) + (1 - yv) * Real.log (1 - q + 1 / (1 + (1 + 1)))))
      (fun d => -(labelF d.2 * Real.log (sigmoid (scoreP p d.1) + 1 / (1 + (1 + 1)))
        + (1 - labelF d.2) * Real.log (1 - sigmoid (scoreP p d.1) + 1 / (1 + (1 + 1))))) := by
  intro g d
  exact sub_eq_add_neg _ _

/-! ## C217 -/

section Perm

variable {α : Type} {xs xs' : List (Fin n → ℝ)}

/-- C217. An epoch of linear, ridge or logistic regression or of the support vector machine has the same result for the samples in any order: the whole model afterwards is the same. -/
theorem C217_epochs (hl : xs.length = xs'.length) :
    (∀ (o : Linear n) {ys ys' : List ℝ}, (xs.zip ys).Perm (xs'.zip ys') → o.trainEpoch xs ys = o.trainEpoch xs' ys') ∧
    (∀ (o : Ridge n) {ys ys' : List ℝ}, (xs.zip ys).Perm (xs'.zip ys') → o.trainEpoch xs ys = o.trainEpoch xs' ys') ∧
    (∀ (o : Logistic n) {ys ys' : List UInt8}, (xs.zip ys).Perm (xs'.zip ys') → o.trainEpoch xs ys = o.trainEpoch xs' ys') ∧
    (∀ (o : Svm n) {ys ys' : List ℤ}, (xs.zip ys).Perm (xs'.zip ys') → o.trainEpoch xs ys = o.trainEpoch xs' ys') := by
  refine ⟨fun o ys ys' h => ?_, fun o ys ys' h => ?_, fun o ys ys' h => ?_, fun o ys ys' h => ?_⟩
  · unfold Linear.trainEpoch
    try dsimp only
    rw [hl, (adds_accum fun d : (Fin n → ℝ) × ℝ => score o.weights o.bias d.1 - d.2).perm h]
  · unfold Ridge.trainEpoch
    try dsimp only
    rw [hl, (adds_accum fun d : (Fin n → ℝ) × ℝ => score o.weights o.bias d.1 - d.2).perm h]
  · unfold Logistic.trainEpoch
    try dsimp only
    rw [hl, (adds_accum fun d : (Fin n → ℝ) × UInt8 => o.prob d.1 - labelF d.2).perm h]
  · unfold Svm.trainEpoch
    try dsimp only
    rw [hl, (adds_svm o.weights o.bias).perm h]

/-- C217. Fitting with the optimiser, for all five models: the result for the samples in any order is the same, whatever the settings of the optimiser. -/
theorem C217_fits (hl : xs.length = xs'.length) (opt : GD ℝ (n + 1)) (fuel : ℕ) :
    (∀ (o : Linear n) {ys ys' : List ℝ}, (xs.zip ys).Perm (xs'.zip ys') → o.fit xs ys opt fuel = o.fit xs' ys' opt fuel) ∧
    (∀ (o : Ridge n) {ys ys' : List ℝ}, (xs.zip ys).Perm (xs'.zip ys') → o.fit xs ys opt fuel = o.fit xs' ys' opt fuel) ∧
    (∀ (o : Logistic n) {ys ys' : List UInt8}, (xs.zip ys).Perm (xs'.zip ys') → o.fit xs ys opt fuel = o.fit xs' ys' opt fuel) ∧
    (∀ (o : Perceptron n) {ys ys' : List ℤ}, (xs.zip ys).Perm (xs'.zip ys') → o.fit xs ys opt fuel = o.fit xs' ys' opt fuel) ∧
    (∀ (o : Svm n) {ys ys' : List ℤ}, (xs.zip ys).Perm (xs'.zip ys') → o.fit xs ys opt fuel = o.fit xs' ys' opt fuel) := by
  refine ⟨fun o ys ys' h => ?_, fun o ys ys' h => ?_, fun o ys ys' h => ?_, fun o ys ys' h => ?_, fun o ys ys' h => ?_⟩
  · have h1 : ∀ m, Linear.objective m (xs.zip ys) = Linear.objective m (xs'.zip ys') := fun m => funext fun p => by
      unfold Linear.objective
      try dsimp only
      rw [(adds_loss fun d : (Fin n → ℝ) × ℝ => (scoreP p d.1 - d.2) * (scoreP p d.1 - d.2)).perm h]
    have h2 : ∀ m, Linear.gradient m (xs.zip ys) = Linear.gradient m (xs'.zip ys') := fun m => funext fun p => by
      unfold Linear.gradient
      try dsimp only
      rw [(adds_accumP fun d : (Fin n → ℝ) × ℝ => (1 + 1) * (scoreP p d.1 - d.2)).perm h]
    unfold Linear.fit
    simp only [hl, h1, h2]
  · have h1 : ∀ m, Ridge.objective o.alpha m (xs.zip ys) = Ridge.objective o.alpha m (xs'.zip ys') := fun m => funext fun p => by
      unfold Ridge.objective
      try dsimp only
      rw [(adds_loss fun d : (Fin n → ℝ) × ℝ => (scoreP p d.1 - d.2) * (scoreP p d.1 - d.2)).perm h]
    have h2 : ∀ m, Ridge.gradient o.alpha m (xs.zip ys) = Ridge.gradient o.alpha m (xs'.zip ys') := fun m => funext fun p => by
      unfold Ridge.gradient
      try dsimp only
      rw [(adds_accumP fun d : (Fin n → ℝ) × ℝ => (1 + 1) * (scoreP p d.1 - d.2)).perm h]
    unfold Ridge.fit
    simp only [hl, h1, h2]
  · have h1 : ∀ m, Logistic.objective m (xs.zip ys) = Logistic.objective m (xs'.zip ys') := fun m => funext fun p => by
      unfold Logistic.objective
      try dsimp only
      exact congrArg (· / m) ((adds_logloss p).perm h 0)
    have h2 : ∀ m, Logistic.gradient m (xs.zip ys) = Logistic.gradient m (xs'.zip ys') := fun m => funext fun p => by
      unfold Logistic.gradient
      try dsimp only
      rw [(adds_accumP fun d : (Fin n → ℝ) × UInt8 => sigmoid (scoreP p d.1) - labelF d.2).perm h]
    unfold Logistic.fit
    simp only [hl, h1, h2]
  · have h1 : ∀ m, Perceptron.objective m (xs.zip ys) = Perceptron.objective m (xs'.zip ys') := fun m => funext fun p => by
      unfold Perceptron.objective
      try dsimp only
      rw [(adds_if (adds_loss fun d : (Fin n → ℝ) × ℤ => -sign d.2 * scoreP p d.1) fun d => -sign d.2 * scoreP p d.1 > 0).perm h]
    have h2 : ∀ m, Perceptron.gradient m (xs.zip ys) = Perceptron.gradient m (xs'.zip ys') := fun m => funext fun p => by
      unfold Perceptron.gradient
      try dsimp only
      rw [(adds_if (adds_accumP fun d : (Fin n → ℝ) × ℤ => -sign d.2) fun d => -sign d.2 * scoreP p d.1 > 0).perm h]
    unfold Perceptron.fit
    simp only [hl, h1, h2]
  · have h1 : ∀ m, Svm.objective o.c m (xs.zip ys) = Svm.objective o.c m (xs'.zip ys') := fun m => funext fun p => by
      unfold Svm.objective
      try dsimp only
      rw [(adds_if (adds_loss fun d : (Fin n → ℝ) × ℤ => 1 - sign d.2 * scoreP p d.1) fun d => sign d.2 * scoreP p d.1 < 1).perm h]
    have h2 : ∀ m, Svm.gradient o.c m (xs.zip ys) = Svm.gradient o.c m (xs'.zip ys') := fun m => funext fun p => by
      unfold Svm.gradient
      try dsimp only
      rw [(adds_if (adds_accumP fun d : (Fin n → ℝ) × ℤ => -sign d.2) fun d => sign d.2 * scoreP p d.1 < 1).perm h]
    unfold Svm.fit
    simp only [hl, h1, h2]

end Perm

/-- Two samples swapped: the hypotheses are met, and the epoch does change the model. -/
example : let xs : List (Fin 1 → ℝ) := [fun _ => 1, fun _ => 2]
    let xs' : List (Fin 1 → ℝ) := [fun _ => 2, fun _ => 1]
    xs.length = xs'.length ∧ (xs.zip [(3 : ℝ), 5]).Perm (xs'.zip [5, 3]) ∧ xs ≠ xs' ∧
      ((⟨fun _ => 0, 0, 1⟩ : Linear 1).trainEpoch xs [3, 5]).bias = 8 := by
  refine ⟨rfl, List.Perm.swap _ _ _, ?_, ?_⟩
  · intro h
    have := congrFun (List.cons.inj h).1 0
    norm_num at this
  · simp [Linear.trainEpoch, accum_eq, score_eq, lin_params]
    norm_num

/-! ## C218 -/

theorem times_length {α : Type*} (k : ℕ) (l : List α) : (times k l).length = k * l.length := by
  simp [times]

theorem zip_times {α β : Type*} (k : ℕ) {xs : List α} {ys : List β} (h : xs.length = ys.length) :
    (times k xs).zip (times k ys) = times k (xs.zip ys) := by
  unfold times
  induction k with
  | zero => simp
  | succ k ih =>
    rw [List.replicate_succ, List.replicate_succ, List.replicate_succ, List.flatten_cons, List.flatten_cons, List.flatten_cons,
      List.zip_append h, ih]

theorem cancel {k : ℕ} (hk : k ≠ 0) (a m : ℝ) : k * a / (k * m) = a / m :=
  mul_div_mul_left _ _ (Nat.cast_ne_zero.2 hk)

theorem cancel' {k : ℕ} (hk : k ≠ 0) (c a m : ℝ) : c * (k * a) / (k * m) = c * a / m := by
  rw [mul_left_comm, cancel hk]

theorem scaledLoop {k : ℕ} (hk : k ≠ 0) (g : Fin (n + 1) → ℝ) (m : ℝ) (r : Fin n → ℝ) :
    (let g := (rng n 0 n).foldl (fun g i => Function.update g i.castSucc (g i.castSucc / (k * m) + r i)) (k • g)
     Function.update g (Fin.last n) (g (Fin.last n) / (k * m)))
    = (let g := (rng n 0 n).foldl (fun g i => Function.update g i.castSucc (g i.castSucc / m + r i)) g
     Function.update g (Fin.last n) (g (Fin.last n) / m)) := by
  have h1 := castLoop (fun g i => g i.castSucc / (k * m) + r i) (fun p q i h => by rw [h]) (k • g)
  have h2 := castLoop (fun g i => g i.castSucc / m + r i) (fun p q i h => by rw [h]) g
  funext j
  refine Fin.lastCases ?_ (fun i => ?_) j
  · rw [Function.update_self, Function.update_self, h1.2, h2.2, Pi.smul_apply, nsmul_eq_mul (α := ℝ), cancel hk]
  · rw [Function.update_of_ne (Fin.castSucc_lt_last _).ne, Function.update_of_ne (Fin.castSucc_lt_last _).ne, h1.1, h2.1, Pi.smul_apply,
      nsmul_eq_mul, cancel hk]

/-- C218. An epoch of linear, ridge or logistic regression on all samples repeated `k ≥ 1` times has the same result as on the samples once.
Missing: the support vector machine (next theorem but one) and the perceptron, whose updates follow one another. -/
theorem C218_epochs_partial {k : ℕ} (hk : k ≠ 0) (xs : List (Fin n → ℝ)) :
    (∀ (o : Linear n) (ys : List ℝ), xs.length = ys.length → o.trainEpoch (times k xs) (times k ys) = o.trainEpoch xs ys) ∧
    (∀ (o : Ridge n) (ys : List ℝ), xs.length = ys.length → o.trainEpoch (times k xs) (times k ys) = o.trainEpoch xs ys) ∧
    (∀ (o : Logistic n) (ys : List UInt8), xs.length = ys.length → o.trainEpoch (times k xs) (times k ys) = o.trainEpoch xs ys) := by
  have hz : k * xs.length = 0 ↔ xs.length = 0 := by simp [hk]
  refine ⟨fun o ys h => ?_, fun o ys h => ?_, fun o ys h => ?_⟩
  · unfold Linear.trainEpoch
    try dsimp only
    have e := (adds_accum fun d : (Fin n → ℝ) × ℝ => score o.weights o.bias d.1 - d.2).times k (xs.zip ys)
    rw [zip_times k h, times_length]
    erw [e]
    simp only [hz, Prod.smul_fst, Prod.smul_snd, Pi.smul_apply, nsmul_eq_mul (α := ℝ), Nat.cast_mul, cancel' hk]
    rfl
  · unfold Ridge.trainEpoch
    try dsimp only
    have e := (adds_accum fun d : (Fin n → ℝ) × ℝ => score o.weights o.bias d.1 - d.2).times k (xs.zip ys)
    rw [zip_times k h, times_length]
    erw [e]
    simp only [hz, Prod.smul_fst, Prod.smul_snd, Pi.smul_apply, nsmul_eq_mul (α := ℝ), Nat.cast_mul, cancel' hk]
    rfl
  · unfold Logistic.trainEpoch
    try dsimp only
    have e := (adds_accum fun d : (Fin n → ℝ) × UInt8 => o.prob d.1 - labelF d.2).times k (xs.zip ys)
    rw [zip_times k h, times_length]
    erw [e]
    simp only [hz, Prod.smul_fst, Prod.smul_snd, Pi.smul_apply, nsmul_eq_mul (α := ℝ), Nat.cast_mul, cancel hk]
    rfl

/-- C218. Fitting with the optimiser, for all five models: all samples `k ≥ 1` times give the same result as the samples once. -/
theorem C218_fits {k : ℕ} (hk : k ≠ 0) (xs : List (Fin n → ℝ)) (opt : GD ℝ (n + 1)) (fuel : ℕ) :
    (∀ (o : Linear n) (ys : List ℝ), xs.length = ys.length → o.fit (times k xs) (times k ys) opt fuel = o.fit xs ys opt fuel) ∧
    (∀ (o : Ridge n) (ys : List ℝ), xs.length = ys.length → o.fit (times k xs) (times k ys) opt fuel = o.fit xs ys opt fuel) ∧
    (∀ (o : Logistic n) (ys : List UInt8), xs.length = ys.length → o.fit (times k xs) (times k ys) opt fuel = o.fit xs ys opt fuel) ∧
    (∀ (o : Perceptron n) (ys : List ℤ), xs.length = ys.length → o.fit (times k xs) (times k ys) opt fuel = o.fit xs ys opt fuel) ∧
    (∀ (o : Svm n) (ys : List ℤ), xs.length = ys.length → o.fit (times k xs) (times k ys) opt fuel = o.fit xs ys opt fuel) := by
  have hz : k * xs.length = 0 ↔ xs.length = 0 := by simp [hk]
  refine ⟨fun o ys h => ?_, fun o ys h => ?_, fun o ys h => ?_, fun o ys h => ?_, fun o ys h => ?_⟩
  · have h1 : ∀ m, Linear.objective (k * m) (times k (xs.zip ys)) = Linear.objective m (xs.zip ys) := fun m => funext fun p => by
      unfold Linear.objective
      try dsimp only
      rw [(adds_loss fun d : (Fin n → ℝ) × ℝ => (scoreP p d.1 - d.2) * (scoreP p d.1 - d.2)).times, nsmul_eq_mul, cancel hk]
    have h2 : ∀ m, Linear.gradient (k * m) (times k (xs.zip ys)) = Linear.gradient m (xs.zip ys) := fun m => funext fun p => by
      unfold Linear.gradient
      try dsimp only
      have e := (adds_accumP fun d : (Fin n → ℝ) × ℝ => (1 + 1) * (scoreP p d.1 - d.2)).times k (xs.zip ys)
      erw [e]
      simp only [divAll_eq, Pi.smul_apply, nsmul_eq_mul (α := ℝ), cancel hk]
      rfl
    unfold Linear.fit
    rw [zip_times k h, times_length]
    simp only [hz, Nat.cast_mul, h1, h2]
  · have h1 : ∀ m, Ridge.objective o.alpha (k * m) (times k (xs.zip ys)) = Ridge.objective o.alpha m (xs.zip ys) := fun m => funext fun p => by
      unfold Ridge.objective
      try dsimp only
      rw [(adds_loss fun d : (Fin n → ℝ) × ℝ => (scoreP p d.1 - d.2) * (scoreP p d.1 - d.2)).times, nsmul_eq_mul, cancel hk]
    have h2 : ∀ m, Ridge.gradient o.alpha (k * m) (times k (xs.zip ys)) = Ridge.gradient o.alpha m (xs.zip ys) := fun m => funext fun p => by
      unfold Ridge.gradient
      try dsimp only
      have e := (adds_accumP fun d : (Fin n → ℝ) × ℝ => (1 + 1) * (scoreP p d.1 - d.2)).times k (xs.zip ys)
      erw [e]
      exact scaledLoop hk _ m (fun i => (1 + 1) * o.alpha * p i.castSucc)
    unfold Ridge.fit
    rw [zip_times k h, times_length]
    simp only [hz, Nat.cast_mul, h1, h2]
  · have h1 : ∀ m, Logistic.objective (k * m) (times k (xs.zip ys)) = Logistic.objective m (xs.zip ys) := fun m => funext fun p => by
      unfold Logistic.objective
      try dsimp only
      have e := (adds_logloss p).times k (xs.zip ys)
      rw [nsmul_eq_mul] at e
      exact (congrArg (· / (k * m)) e).trans (cancel hk _ m)
    have h2 : ∀ m, Logistic.gradient (k * m) (times k (xs.zip ys)) = Logistic.gradient m (xs.zip ys) := fun m => funext fun p => by
      unfold Logistic.gradient
      try dsimp only
      have e := (adds_accumP fun d : (Fin n → ℝ) × UInt8 => sigmoid (scoreP p d.1) - labelF d.2).times k (xs.zip ys)
      erw [e]
      simp only [divAll_eq, Pi.smul_apply, nsmul_eq_mul (α := ℝ), cancel hk]
      rfl
    unfold Logistic.fit
    rw [zip_times k h, times_length]
    simp only [hz, Nat.cast_mul, h1, h2]
  · have h1 : ∀ m, Perceptron.objective (k * m) (times k (xs.zip ys)) = Perceptron.objective m (xs.zip ys) := fun m => funext fun p => by
      unfold Perceptron.objective
      try dsimp only
      rw [(adds_if (adds_loss fun d : (Fin n → ℝ) × ℤ => -sign d.2 * scoreP p d.1) fun d => -sign d.2 * scoreP p d.1 > 0).times,
        nsmul_eq_mul, cancel hk]
    have h2 : ∀ m, Perceptron.gradient (k * m) (times k (xs.zip ys)) = Perceptron.gradient m (xs.zip ys) := fun m => funext fun p => by
      unfold Perceptron.gradient
      try dsimp only
      have e := (adds_if (adds_accumP fun d : (Fin n → ℝ) × ℤ => -sign d.2) fun d => -sign d.2 * scoreP p d.1 > 0).times k (xs.zip ys)
      erw [e]
      simp only [divAll_eq, Pi.smul_apply, nsmul_eq_mul (α := ℝ), cancel hk]
      rfl
    unfold Perceptron.fit
    rw [zip_times k h, times_length]
    simp only [hz, Nat.cast_mul, h1, h2]
  · have h1 : ∀ m, Svm.objective o.c (k * m) (times k (xs.zip ys)) = Svm.objective o.c m (xs.zip ys) := fun m => funext fun p => by
      unfold Svm.objective
      try dsimp only
      rw [(adds_if (adds_loss fun d : (Fin n → ℝ) × ℤ => 1 - sign d.2 * scoreP p d.1) fun d => sign d.2 * scoreP p d.1 < 1).times,
        nsmul_eq_mul, cancel hk]
    have h2 : ∀ m, Svm.gradient o.c (k * m) (times k (xs.zip ys)) = Svm.gradient o.c m (xs.zip ys) := fun m => funext fun p => by
      unfold Svm.gradient
      try dsimp only
      have e := (adds_if (adds_accumP fun d : (Fin n → ℝ) × ℤ => -sign d.2) fun d => sign d.2 * scoreP p d.1 < 1).times k (xs.zip ys)
      erw [e]
      exact scaledLoop hk _ m (fun i => p i.castSucc / o.c)
    unfold Svm.fit
    rw [zip_times k h, times_length]
    simp only [hz, Nat.cast_mul, h1, h2]

/-- C218 fails for an epoch of the support vector machine: the penalty on the weights is divided by the number of samples, so one sample twice
gives another weight than the sample once. -/
theorem C218_fails : ∃ (o : Svm 1) (x : Fin 1 → ℝ) (y : ℤ),
    (o.trainEpoch (times 2 [x]) (times 2 [y])).weights ≠ (o.trainEpoch [x] [y]).weights := by
  refine ⟨⟨fun _ => 1, 0, 1, 1⟩, fun _ => 1, 1, fun h => ?_⟩
  have := congrFun h 0
  have hr : rng 1 0 1 = [0] := rfl
  revert this
  simp [times, Svm.trainEpoch, hr, score, sign]

/-- C218 fails for an epoch of the perceptron: the second copy of a sample is treated with the model the first one has left, here with another
update. -/
theorem C218_fails_perceptron : ∃ (o : Perceptron 1) (x : Fin 1 → ℝ) (y : ℤ),
    (o.trainEpoch (times 2 [x]) (times 2 [y])).bias ≠ (o.trainEpoch [x] [y]).bias := by
  refine ⟨⟨fun _ => 0, -3 / 2, 1⟩, fun _ => 0, 1, ?_⟩
  have hr : rng 1 0 1 = [0] := rfl
  simp [times, Perceptron.trainEpoch, Perceptron.step, hr, score, sign]
  norm_num

/-- Two samples, three times each; a fit that moves. -/
example : times 3 [(1 : ℝ), 2] = [1, 2, 1, 2, 1, 2] ∧ [(fun _ => 1 : Fin 1 → ℝ), fun _ => 2].length = [(3 : ℝ), 5].length ∧
    ((⟨fun _ => 0, 0, 1⟩ : Linear 1).trainEpoch (times 3 [fun _ => 1, fun _ => 2]) (times 3 [3, 5])).bias = 8 := by
  refine ⟨rfl, rfl, ?_⟩
  rw [(C218_epochs_partial (by norm_num) _).1 _ _ rfl]
  simp [Linear.trainEpoch, accum_eq, score_eq, lin_params]
  norm_num

end Verif.ML
