import Verif.ML.Lemmas
import Verif.Opt.PropsRotate

/-! # Training in rotated feature coordinates (C220) -/

namespace Verif.ML

open Verif.Mat Verif.Opt

variable {n m : ℕ}

/-- The model in the new coordinates: the weights are rotated with the features, everything else stays. -/
def Linear.turn (L : (Fin n → ℝ) →ₗ[ℝ] (Fin m → ℝ)) (o : Linear n) : Linear m := ⟨L o.weights, o.bias, o.lr⟩
def Ridge.turn (L : (Fin n → ℝ) →ₗ[ℝ] (Fin m → ℝ)) (o : Ridge n) : Ridge m := ⟨L o.weights, o.bias, o.lr, o.alpha⟩
def Logistic.turn (L : (Fin n → ℝ) →ₗ[ℝ] (Fin m → ℝ)) (o : Logistic n) : Logistic m := ⟨L o.weights, o.bias, o.lr⟩
def Perceptron.turn (L : (Fin n → ℝ) →ₗ[ℝ] (Fin m → ℝ)) (o : Perceptron n) : Perceptron m := ⟨L o.weights, o.bias, o.lr⟩
def Svm.turn (L : (Fin n → ℝ) →ₗ[ℝ] (Fin m → ℝ)) (o : Svm n) : Svm m := ⟨L o.weights, o.bias, o.lr, o.c⟩

/-! ## Lemmas -/

variable {L : (Fin n → ℝ) →ₗ[ℝ] (Fin m → ℝ)}

theorem score_turn (hL : Rigid L) (w : Fin n → ℝ) (b : ℝ) (x : Fin n → ℝ) : score (L w) b (L x) = score w b x := by
  rw [score_eq, score_eq, lin_params, lin_params]
  exact congrArg (· + b) (hL w x)

/-- The rotation of packed parameters: the bias stays. -/
noncomputable def packL (L : (Fin n → ℝ) →ₗ[ℝ] (Fin m → ℝ)) : (Fin (n + 1) → ℝ) →ₗ[ℝ] (Fin (m + 1) → ℝ) where
  toFun p := params (L fun i => p i.castSucc) (p (Fin.last n))
  map_add' p q := by
    funext j
    have : (fun i : Fin n => (p + q) i.castSucc) = (fun i => p i.castSucc) + fun i => q i.castSucc := rfl
    refine Fin.lastCases ?_ (fun i => ?_) j
    · simp only [Pi.add_apply, params_last]
    · simp only [Pi.add_apply, params_castSucc]
      exact congrFun (map_add L _ _) i
  map_smul' c p := by
    funext j
    refine Fin.lastCases ?_ (fun i => ?_) j
    · simp only [Pi.smul_apply, params_last, RingHom.id_apply]
    · simp only [Pi.smul_apply, params_castSucc, RingHom.id_apply]
      exact congrFun (map_smul L c fun i => p i.castSucc) i

theorem packL_castSucc (p : Fin (n + 1) → ℝ) (i : Fin m) : packL L p i.castSucc = L (fun i => p i.castSucc) i := params_castSucc _ _ _
theorem packL_last (p : Fin (n + 1) → ℝ) : packL L p (Fin.last m) = p (Fin.last n) := params_last _ _

theorem packL_rigid (hL : Rigid L) : Rigid (packL L) := by
  intro u v
  unfold Opt.inner
  rw [Fin.sum_univ_castSucc, Fin.sum_univ_castSucc]
  simp only [packL_castSucc, packL_last]
  exact congrArg (· + _) (hL _ _)

theorem packL_pack (w : Fin n → ℝ) (b : ℝ) : pack (L w) b = newCoords (packL L) 0 (pack w b) := by
  rw [pack_eq, pack_eq]
  funext j
  refine Fin.lastCases ?_ (fun i => ?_) j
  · simp only [newCoords, add_zero, params_last, packL_last]
  · simp only [newCoords, add_zero, params_castSucc, packL_castSucc]

theorem coords_zero (p : Fin (n + 1) → ℝ) : newCoords (packL L) 0 p = packL L p := add_zero _

theorem scoreP_turn (hL : Rigid L) (p : Fin (n + 1) → ℝ) (x : Fin n → ℝ) : scoreP (packL L p) (L x) = scoreP p x := by
  rw [scoreP_eq, scoreP_eq]
  unfold lin
  rw [packL_last]
  simp only [packL_castSucc]
  exact congrArg (· + _) (hL _ _)

theorem accum_turn (e : ℝ) (x g : Fin n → ℝ) (s : ℝ) : accum e (L x) (L g, s) = (L (accum e x (g, s)).1, (accum e x (g, s)).2) := by
  rw [accum_eq, accum_eq]
  have : (fun i => g i + e * x i) = g + e • x := rfl
  dsimp only
  rw [this, map_add, map_smul]
  rfl

theorem accumP_turn (e : ℝ) (x : Fin n → ℝ) (g : Fin (n + 1) → ℝ) : accumP e (L x) (packL L g) = packL L (accumP e x g) := by
  rw [accumP_eq, accumP_eq]
  funext j
  refine Fin.lastCases ?_ (fun i => ?_) j
  · simp only [packL_last, aug_last]
  · simp only [packL_castSucc, aug_castSucc]
    have : (fun i => g (Fin.castSucc i) + e * x i) = (fun i => g (Fin.castSucc i)) + e • x := rfl
    rw [this, map_add, map_smul]
    rfl

/-- Two loops side by side. -/
theorem foldl_turn {S S' β β' : Type*} {F : S → β → S} {F' : S' → β' → S'} {T : S → S'} {U : β → β'} (h : ∀ s d, F' (T s) (U d) = T (F s d))
    (l : List β) (s : S) : (l.map U).foldl F' (T s) = T (l.foldl F s) := by
  induction l generalizing s with
  | nil => rfl
  | cons d l ih => rw [List.map_cons, List.foldl_cons, List.foldl_cons, h, ih]

theorem zip_turn {β : Type*} (xs : List (Fin n → ℝ)) (ys : List β) :
    (xs.map L).zip ys = (xs.zip ys).map (fun d => (L d.1, d.2)) := List.zip_map_left

theorem zero_turn : ((fun _ => 0, 0) : (Fin m → ℝ) × ℝ) = (fun g : (Fin n → ℝ) × ℝ => (L g.1, g.2)) (fun _ => 0, 0) :=
  congrArg (·, (0 : ℝ)) (map_zero L).symm

theorem zeroP_turn : (fun _ => 0 : Fin (m + 1) → ℝ) = packL L (fun _ => 0) := (map_zero _).symm

theorem sum_turn {β : Type*} {F : (Fin n → ℝ) × ℝ → (Fin n → ℝ) × β → (Fin n → ℝ) × ℝ} {F' : (Fin m → ℝ) × ℝ → (Fin m → ℝ) × β → (Fin m → ℝ) × ℝ}
    (h : ∀ g d, F' (L g.1, g.2) (L d.1, d.2) = (L (F g d).1, (F g d).2)) (data : List ((Fin n → ℝ) × β)) :
    (data.map fun d => (L d.1, d.2)).foldl F' (fun _ => 0, 0)
      = (L (data.foldl F (fun _ => 0, 0)).1, (data.foldl F (fun _ => 0, 0)).2) := by
  rw [zero_turn (L := L)]
  exact foldl_turn (T := fun g : (Fin n → ℝ) × ℝ => (L g.1, g.2)) (U := fun d : (Fin n → ℝ) × β => (L d.1, d.2)) h data _

theorem sumP_turn {β : Type*} {F : (Fin (n + 1) → ℝ) → (Fin n → ℝ) × β → Fin (n + 1) → ℝ}
    {F' : (Fin (m + 1) → ℝ) → (Fin m → ℝ) × β → Fin (m + 1) → ℝ}
    (h : ∀ g d, F' (packL L g) (L d.1, d.2) = packL L (F g d)) (data : List ((Fin n → ℝ) × β)) :
    (data.map fun d => (L d.1, d.2)).foldl F' (fun _ => 0) = packL L (data.foldl F (fun _ => 0)) := by
  rw [zeroP_turn (L := L)]
  exact foldl_turn (U := fun d : (Fin n → ℝ) × β => (L d.1, d.2)) h data _

/-- Any combination of weights and gradient, component by component. -/
theorem comb_turn (a c : ℝ) (w g : Fin n → ℝ) : (fun i => a * L w i + c * L g i) = L fun i => a * w i + c * g i := by
  have : (fun i => a * w i + c * g i) = a • w + c • g := rfl
  rw [this, map_add, map_smul, map_smul]
  rfl

theorem divAll_turn (c : ℝ) (g : Fin (n + 1) → ℝ) : divAll c (packL L g) = packL L (divAll c g) := by
  rw [divAll_eq, divAll_eq]
  have e : ∀ {k : ℕ} (v : Fin k → ℝ), (fun i => v i / c) = c⁻¹ • v := fun v => funext fun i => by simp [div_eq_inv_mul]
  rw [e, e, map_smul]

theorem regLoop_turn (m' r : ℝ) (g p : Fin (n + 1) → ℝ) :
    (let g := (rng m 0 m).foldl (fun g i => Function.update g i.castSucc (g i.castSucc / m' + r * packL L p i.castSucc)) (packL L g)
     Function.update g (Fin.last m) (g (Fin.last m) / m'))
    = packL L (let g := (rng n 0 n).foldl (fun g i => Function.update g i.castSucc (g i.castSucc / m' + r * p i.castSucc)) g
     Function.update g (Fin.last n) (g (Fin.last n) / m')) := by
  have h1 := castLoop (fun g i => g i.castSucc / m' + r * packL L p i.castSucc) (fun p q i h => by rw [h]) (packL L g)
  have h2 := castLoop (fun g i => g i.castSucc / m' + r * p i.castSucc) (fun p q i h => by rw [h]) g
  funext j
  refine Fin.lastCases ?_ (fun i => ?_) j
  · rw [packL_last, Function.update_self, Function.update_self, h1.2, h2.2, packL_last]
  · rw [packL_castSucc, Function.update_of_ne (Fin.castSucc_lt_last _).ne, h1.1]
    have e : (fun i : Fin n => Function.update
        ((rng n 0 n).foldl (fun g i => Function.update g i.castSucc (g i.castSucc / m' + r * p i.castSucc)) g) (Fin.last n)
        ((rng n 0 n).foldl (fun g i => Function.update g i.castSucc (g i.castSucc / m' + r * p i.castSucc)) g (Fin.last n) / m') i.castSucc)
        = fun i => m'⁻¹ * g i.castSucc + r * p i.castSucc := by
      funext i
      rw [Function.update_of_ne (Fin.castSucc_lt_last _).ne, h2.1, div_eq_inv_mul]
    rw [e, ← comb_turn m'⁻¹ r (fun i => g i.castSucc) (fun i => p i.castSucc), packL_castSucc, packL_castSucc, div_eq_inv_mul]

theorem sq_turn (hL : Rigid L) (p : Fin (n + 1) → ℝ) :
    (rng m 0 m).foldl (fun rw i => rw + packL L p i.castSucc * packL L p i.castSucc) 0
      = (rng n 0 n).foldl (fun rw i => rw + p i.castSucc * p i.castSucc) 0 := by
  rw [sqLoop, sqLoop]
  simp only [packL_castSucc, sq]
  exact hL _ _

theorem unpack_turn (w : Fin n → ℝ) (p : Fin (n + 1) → ℝ) : unpackW (L w) (newCoords (packL L) 0 p) = L (unpackW w p) := by
  rw [unpackW_eq, unpackW_eq, coords_zero]
  exact funext fun i => packL_castSucc p i

theorem last_turn (p : Fin (n + 1) → ℝ) : newCoords (packL L) 0 p (Fin.last m) = p (Fin.last n) := by
  rw [coords_zero, packL_last]

/-! ## C220 -/

/-- C220. An epoch of training of any of the five models in rotated feature coordinates gives the rotated weights and the same bias. -/
theorem C220_epochs (hL : Rigid L) (xs : List (Fin n → ℝ)) :
    (∀ (o : Linear n) (ys : List ℝ), (o.turn L).trainEpoch (xs.map L) ys = (o.trainEpoch xs ys).turn L) ∧
    (∀ (o : Ridge n) (ys : List ℝ), (o.turn L).trainEpoch (xs.map L) ys = (o.trainEpoch xs ys).turn L) ∧
    (∀ (o : Logistic n) (ys : List UInt8), (o.turn L).trainEpoch (xs.map L) ys = (o.trainEpoch xs ys).turn L) ∧
    (∀ (o : Perceptron n) (ys : List ℤ), (o.turn L).trainEpoch (xs.map L) ys = (o.trainEpoch xs ys).turn L) ∧
    (∀ (o : Svm n) (ys : List ℤ), (o.turn L).trainEpoch (xs.map L) ys = (o.trainEpoch xs ys).turn L) := by
  refine ⟨fun o ys => ?_, fun o ys => ?_, fun o ys => ?_, fun o ys => ?_, fun o ys => ?_⟩
  · unfold Linear.trainEpoch Linear.turn
    dsimp only
    rw [List.length_map, zip_turn, sum_turn (L := L) (F := fun g d => accum (score o.weights o.bias d.1 - d.2) d.1 g)
      (F' := fun g d => accum (score (L o.weights) o.bias d.1 - d.2) d.1 g) (fun s d => by
        dsimp only
        rw [score_turn hL]
        exact accum_turn _ _ _ _)]
    generalize (xs.zip ys).foldl (fun g d => accum (score o.weights o.bias d.1 - d.2) d.1 g) (fun _ => 0, 0) = G
    split_ifs
    · rfl
    · dsimp only
      rw [mapLoop (fun i w => w - o.lr * ((1 + 1) * L G.1 i / (xs.length : ℝ))), mapLoop (fun i w => w - o.lr * ((1 + 1) * G.1 i / (xs.length : ℝ)))]
      have e := comb_turn (L := L) 1 (-(o.lr * (2 / xs.length))) o.weights G.1
      congr 1
      refine Eq.trans ?_ (e.trans (congrArg L ?_)) <;> funext i <;> ring
  · unfold Ridge.trainEpoch Ridge.turn
    dsimp only
    rw [List.length_map, zip_turn, sum_turn (L := L) (F := fun g d => accum (score o.weights o.bias d.1 - d.2) d.1 g)
      (F' := fun g d => accum (score (L o.weights) o.bias d.1 - d.2) d.1 g) (fun s d => by
        dsimp only
        rw [score_turn hL]
        exact accum_turn _ _ _ _)]
    generalize (xs.zip ys).foldl (fun g d => accum (score o.weights o.bias d.1 - d.2) d.1 g) (fun _ => 0, 0) = G
    split_ifs
    · rfl
    · dsimp only
      rw [mapLoop (fun i w => w - o.lr * (((1 + 1) * L G.1 i / (xs.length : ℝ)) + (1 + 1) * o.alpha * w)),
        mapLoop (fun i w => w - o.lr * (((1 + 1) * G.1 i / (xs.length : ℝ)) + (1 + 1) * o.alpha * w))]
      have e := comb_turn (L := L) (1 - o.lr * (2 * o.alpha)) (-(o.lr * (2 / xs.length))) o.weights G.1
      congr 1
      refine Eq.trans ?_ (e.trans (congrArg L ?_)) <;> funext i <;> ring
  · unfold Logistic.trainEpoch Logistic.turn
    dsimp only
    rw [List.length_map, zip_turn, sum_turn (L := L) (F := fun g d => accum (o.prob d.1 - labelF d.2) d.1 g)
      (F' := fun g d => accum ((⟨L o.weights, o.bias, o.lr⟩ : Logistic m).prob d.1 - labelF d.2) d.1 g) (fun s d => by
        have : (⟨L o.weights, o.bias, o.lr⟩ : Logistic m).prob (L d.1) = o.prob d.1 := congrArg sigmoid (score_turn hL _ _ _)
        dsimp only
        rw [this]; exact accum_turn _ _ _ _)]
    generalize (xs.zip ys).foldl (fun g d => accum (o.prob d.1 - labelF d.2) d.1 g) (fun _ => 0, 0) = G
    split_ifs
    · rfl
    · dsimp only
      rw [mapLoop (fun i w => w - o.lr * (L G.1 i / (xs.length : ℝ))), mapLoop (fun i w => w - o.lr * (G.1 i / (xs.length : ℝ)))]
      have e := comb_turn (L := L) 1 (-(o.lr * (1 / xs.length))) o.weights G.1
      congr 1
      refine Eq.trans ?_ (e.trans (congrArg L ?_)) <;> funext i <;> ring
  · unfold Perceptron.trainEpoch
    rw [zip_turn]
    refine foldl_turn (T := Perceptron.turn L) (fun s d => ?_) _ _
    unfold Perceptron.step Perceptron.turn
    dsimp only
    rw [score_turn hL]
    split_ifs
    · dsimp only
      rw [mapLoop (fun i w => w + s.lr * sign d.2 * L d.1 i), mapLoop (fun i w => w + s.lr * sign d.2 * d.1 i)]
      have e := comb_turn (L := L) 1 (s.lr * sign d.2) s.weights d.1
      congr 1
      refine Eq.trans ?_ (e.trans (congrArg L ?_)) <;> funext i <;> ring
    · rfl
  · unfold Svm.trainEpoch Svm.turn
    dsimp only
    rw [List.length_map, zip_turn, sum_turn (L := L) (F := fun g d => if sign d.2 * score o.weights o.bias d.1 ≥ 1 then
        ((rng n 0 n).foldl (fun gw i => Function.update gw i (gw i + 0)) g.1, g.2 + 0) else accum (-sign d.2) d.1 g)
      (F' := fun g d => if sign d.2 * score (L o.weights) o.bias d.1 ≥ 1 then
        ((rng m 0 m).foldl (fun gw i => Function.update gw i (gw i + 0)) g.1, g.2 + 0) else accum (-sign d.2) d.1 g)
      (fun s d => by
        dsimp only
        rw [score_turn hL]
        split_ifs
        · rw [mapLoop (fun _ v => v + 0), mapLoop (fun _ v => v + 0)]
          simp only [add_zero]
        · exact accum_turn _ _ _ _)]
    generalize (xs.zip ys).foldl (fun g d => if sign d.2 * score o.weights o.bias d.1 ≥ 1 then
        ((rng n 0 n).foldl (fun gw i => Function.update gw i (gw i + 0)) g.1, g.2 + 0) else accum (-sign d.2) d.1 g) (fun _ => 0, 0) = G
    split_ifs
    · rfl
    · dsimp only
      rw [mapLoop (fun i w => w - o.lr * ((L G.1 i / (xs.length : ℝ)) + (1 + 1) / (o.c * xs.length) * w)),
        mapLoop (fun i w => w - o.lr * ((G.1 i / (xs.length : ℝ)) + (1 + 1) / (o.c * xs.length) * w))]
      have e := comb_turn (L := L) (1 - o.lr * (2 / (o.c * xs.length))) (-(o.lr * (1 / xs.length))) o.weights G.1
      congr 1
      refine Eq.trans ?_ (e.trans (congrArg L ?_)) <;> funext i <;> ring

theorem fit_turn (hL : Rigid L) (opt : GD ℝ (n + 1)) (hb : opt.hasBounds = false) {f : (Fin (n + 1) → ℝ) → ℝ} {f' : (Fin (m + 1) → ℝ) → ℝ}
    {g : (Fin (n + 1) → ℝ) → Fin (n + 1) → ℝ} {g' : (Fin (m + 1) → ℝ) → Fin (m + 1) → ℝ} (hf : ∀ p, f' (packL L p) = f p)
    (hg : ∀ p, g' (packL L p) = packL L (g p)) (fuel : ℕ) (w : Fin n → ℝ) (b : ℝ) {M M' : Type} (k : (Fin n → ℝ) → ℝ → M)
    (k' : (Fin m → ℝ) → ℝ → M') (T : M → M') (hk : ∀ w b, k' (L w) b = T (k w b)) :
    ((opt.free (m + 1)).minimize f' g' fuel (pack (L w) b)).map (fun r => k' (unpackW (L w) r.1) (r.1 (Fin.last m)))
      = ((opt.minimize f g fuel (pack w b)).map (fun r => k (unpackW w r.1) (r.1 (Fin.last n)))).map T := by
  rw [packL_pack, C219_gd (packL_rigid hL) 0 opt hb (f := f) (g := g) (c := 0) (fun p => by rw [coords_zero, hf, add_zero])
    (fun p => by rw [coords_zero, hg])]
  cases opt.minimize f g fuel (pack w b) with
  | none => rfl
  | some r =>
    simp only [Option.map_some]
    rw [unpack_turn, last_turn, hk]

/-- C220. Fitting any of the five models with the optimiser (with any settings, without bounds) in rotated feature coordinates gives the rotated
weights and the same bias. -/
theorem C220_fits (hL : Rigid L) (xs : List (Fin n → ℝ)) (opt : GD ℝ (n + 1)) (hb : opt.hasBounds = false) (fuel : ℕ) :
    (∀ (o : Linear n) (ys : List ℝ), (o.turn L).fit (xs.map L) ys (opt.free (m + 1)) fuel = (o.fit xs ys opt fuel).map (Linear.turn L)) ∧
    (∀ (o : Ridge n) (ys : List ℝ), (o.turn L).fit (xs.map L) ys (opt.free (m + 1)) fuel = (o.fit xs ys opt fuel).map (Ridge.turn L)) ∧
    (∀ (o : Logistic n) (ys : List UInt8), (o.turn L).fit (xs.map L) ys (opt.free (m + 1)) fuel = (o.fit xs ys opt fuel).map (Logistic.turn L)) ∧
    (∀ (o : Perceptron n) (ys : List ℤ), (o.turn L).fit (xs.map L) ys (opt.free (m + 1)) fuel = (o.fit xs ys opt fuel).map (Perceptron.turn L)) ∧
    (∀ (o : Svm n) (ys : List ℤ), (o.turn L).fit (xs.map L) ys (opt.free (m + 1)) fuel = (o.fit xs ys opt fuel).map (Svm.turn L)) := by
  refine ⟨fun o ys => ?_, fun o ys => ?_, fun o ys => ?_, fun o ys => ?_, fun o ys => ?_⟩
  · unfold Linear.fit
    dsimp only
    rw [List.length_map, zip_turn]
    split_ifs
    · rfl
    refine fit_turn (M := Linear n) (M' := Linear m) hL opt hb (fun p => ?_) (fun p => ?_) fuel o.weights o.bias (fun w b => ⟨w, b, o.lr⟩) (fun w b => ⟨w, b, o.lr⟩) (Linear.turn L) (fun w b => rfl)
    · unfold Linear.objective
      rw [List.foldl_map]
      simp only [scoreP_turn hL]
    · unfold Linear.gradient
      dsimp only
      rw [sumP_turn (L := L) (F := fun g d => accumP ((1 + 1) * (scoreP p d.1 - d.2)) d.1 g)
        (F' := fun g d => accumP ((1 + 1) * (scoreP (packL L p) d.1 - d.2)) d.1 g)
        (fun s d => by dsimp only; rw [scoreP_turn hL]; exact accumP_turn _ _ _), divAll_turn]
  · unfold Ridge.fit
    dsimp only
    rw [List.length_map, zip_turn]
    split_ifs
    · rfl
    refine fit_turn (M := Ridge n) (M' := Ridge m) hL opt hb (fun p => ?_) (fun p => ?_) fuel o.weights o.bias (fun w b => ⟨w, b, o.lr, o.alpha⟩)
      (fun w b => ⟨w, b, o.lr, o.alpha⟩) (Ridge.turn L) (fun w b => rfl)
    · unfold Ridge.objective
      dsimp only
      rw [List.foldl_map, sq_turn hL]
      simp only [scoreP_turn hL]
      rfl
    · unfold Ridge.gradient
      dsimp only
      rw [sumP_turn (L := L) (F := fun g d => accumP ((1 + 1) * (scoreP p d.1 - d.2)) d.1 g)
        (F' := fun g d => accumP ((1 + 1) * (scoreP (packL L p) d.1 - d.2)) d.1 g)
        (fun s d => by dsimp only; rw [scoreP_turn hL]; exact accumP_turn _ _ _)]
      exact regLoop_turn _ _ _ _
  · unfold Logistic.fit
    dsimp only
    rw [List.length_map, zip_turn]
    split_ifs
    · rfl
    refine fit_turn (M := Logistic n) (M' := Logistic m) hL opt hb (fun p => ?_) (fun p => ?_) fuel o.weights o.bias (fun w b => ⟨w, b, o.lr⟩) (fun w b => ⟨w, b, o.lr⟩) (Logistic.turn L) (fun w b => rfl)
    · unfold Logistic.objective
      dsimp only
      rw [List.foldl_map]
      simp only [scoreP_turn hL]
    · unfold Logistic.gradient
      rw [sumP_turn (L := L) (F := fun g d => accumP (sigmoid (scoreP p d.1) - labelF d.2) d.1 g)
        (F' := fun g d => accumP (sigmoid (scoreP (packL L p) d.1) - labelF d.2) d.1 g)
        (fun s d => by dsimp only; rw [scoreP_turn hL]; exact accumP_turn _ _ _), divAll_turn]
  · unfold Perceptron.fit
    dsimp only
    rw [List.length_map, zip_turn]
    split_ifs
    · rfl
    refine fit_turn (M := Perceptron n) (M' := Perceptron m) hL opt hb (fun p => ?_) (fun p => ?_) fuel o.weights o.bias (fun w b => ⟨w, b, o.lr⟩) (fun w b => ⟨w, b, o.lr⟩) (Perceptron.turn L) (fun w b => rfl)
    · unfold Perceptron.objective
      dsimp only
      rw [List.foldl_map]
      simp only [scoreP_turn hL]
    · unfold Perceptron.gradient
      dsimp only
      rw [sumP_turn (L := L) (F := fun g d => if -sign d.2 * scoreP p d.1 > 0 then accumP (-sign d.2) d.1 g else g)
        (F' := fun g d => if -sign d.2 * scoreP (packL L p) d.1 > 0 then accumP (-sign d.2) d.1 g else g)
        (fun s d => by
          dsimp only
          rw [scoreP_turn hL]
          split_ifs
          · exact accumP_turn _ _ _
          · rfl), divAll_turn]
  · unfold Svm.fit
    dsimp only
    rw [List.length_map, zip_turn]
    split_ifs
    · rfl
    refine fit_turn (M := Svm n) (M' := Svm m) hL opt hb (fun p => ?_) (fun p => ?_) fuel o.weights o.bias (fun w b => ⟨w, b, o.lr, o.c⟩)
      (fun w b => ⟨w, b, o.lr, o.c⟩) (Svm.turn L) (fun w b => rfl)
    · unfold Svm.objective
      dsimp only
      rw [List.foldl_map, sq_turn hL]
      simp only [scoreP_turn hL]
      rfl
    · unfold Svm.gradient
      dsimp only
      rw [sumP_turn (L := L) (F := fun g d => if sign d.2 * scoreP p d.1 < 1 then accumP (-sign d.2) d.1 g else g)
        (F' := fun g d => if sign d.2 * scoreP (packL L p) d.1 < 1 then accumP (-sign d.2) d.1 g else g)
        (fun s d => by
          dsimp only
          rw [scoreP_turn hL]
          split_ifs
          · exact accumP_turn _ _ _
          · rfl)]
      have e := regLoop_turn (L := L) (xs.length : ℝ) o.c⁻¹
        ((xs.zip ys).foldl (fun g d => if sign d.2 * scoreP p d.1 < 1 then accumP (-sign d.2) d.1 g else g) fun _ => 0) p
      simp only [div_eq_inv_mul _ o.c, show (o.turn L).c = o.c from rfl]
      exact e

/-- C220. Predictions do not change if model and input are rotated alike. -/
theorem C220_predict (hL : Rigid L) (x : Fin n → ℝ) :
    (∀ o : Logistic n, (o.turn L).prob (L x) = o.prob x ∧ (o.turn L).predict (L x) = o.predict x) ∧
    (∀ o : Perceptron n, (o.turn L).predict (L x) = o.predict x) ∧
    (∀ (w : Fin n → ℝ) (b : ℝ), score (L w) b (L x) = score w b x) := by
  have h1 : ∀ o : Logistic n, (o.turn L).prob (L x) = o.prob x := fun o => congrArg sigmoid (score_turn hL _ _ _)
  refine ⟨fun o => ⟨h1 o, ?_⟩, fun o => ?_, fun w b => score_turn hL w b x⟩
  · unfold Logistic.predict; rw [h1]
  · unfold Perceptron.predict Perceptron.turn; dsimp only; rw [score_turn hL]

/-- Two features exchanged: a linear regression with different weights and one sample. -/
example : Rigid (exchange (Equiv.swap (0 : Fin 2) 1)) ∧
    ((⟨![1, 2], 0, 1⟩ : Linear 2).turn (exchange (Equiv.swap 0 1))).weights = ![2, 1] ∧ (GD.new 3 : GD ℝ 3).hasBounds = false := by
  refine ⟨exchange_rigid _, ?_, rfl⟩
  funext i
  fin_cases i <;> simp [Linear.turn, exchange, LinearMap.funLeft_apply]

end Verif.ML
