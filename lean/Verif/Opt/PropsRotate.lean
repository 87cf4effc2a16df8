import Verif.Opt.PropsGD
import Mathlib.Algebra.Module.LinearMap.Defs
import Mathlib.Algebra.Module.Pi
import Mathlib.LinearAlgebra.Pi

/-! # Minimisers do not depend on the choice of rectangular coordinates (C219) -/

namespace Verif.Opt

open Verif.Mat

variable {n m : ℕ}

/-! ## Specification -/

/-- `L` keeps inner products, so lengths and angles: a rotation, a reflection, an exchange of coordinates, or, if `m > n`, an embedding as a
plane. -/
def Rigid (L : (Fin n → ℝ) →ₗ[ℝ] (Fin m → ℝ)) : Prop := ∀ u v, inner (L u) (L v) = inner u v

/-- The new coordinates of the point `x`: rotated by `L`, with the origin moved by `b`. -/
def newCoords (L : (Fin n → ℝ) →ₗ[ℝ] (Fin m → ℝ)) (b : Fin m → ℝ) (x : Fin n → ℝ) : Fin m → ℝ := L x + b

/-- The same settings for another number of unknowns, without bounds. -/
def GD.free (o : GD ℝ n) (m : ℕ) : GD ℝ m :=
  ⟨o.lr, o.useBacktracking, o.armijoC1, o.tau, o.momentum, o.tolGrad, o.tolStep, o.maxIters, false, fun _ => 0, fun _ => 0⟩

/-- The same settings for another number of unknowns, without bounds. -/
noncomputable def SGD.free (o : SGD n) (m : ℕ) : SGD m :=
  ⟨o.lr0, o.decay, o.momentum, o.batchSize, o.beta, o.tolGradEma, o.tolStep, o.tolF, o.minIters, o.maxIters, o.biasCorrected, false, fun _ => 0,
    fun _ => 0⟩

/-- The exchange of coordinates: the new coordinate `i` is the old coordinate `σ i`. -/
def exchange (σ : Equiv.Perm (Fin n)) : (Fin n → ℝ) →ₗ[ℝ] (Fin n → ℝ) := LinearMap.funLeft ℝ ℝ σ

/-- The same settings with the bounds in the new coordinates. -/
noncomputable def GD.boxed (o : GD ℝ n) (σ : Equiv.Perm (Fin n)) (b : Fin n → ℝ) : GD ℝ n :=
  { o with minB := newCoords (exchange σ) b o.minB, maxB := newCoords (exchange σ) b o.maxB }

/-- The same settings with the bounds in the new coordinates. -/
noncomputable def SGD.boxed (o : SGD n) (σ : Equiv.Perm (Fin n)) (b : Fin n → ℝ) : SGD n :=
  { o with minB := newCoords (exchange σ) b o.minB, maxB := newCoords (exchange σ) b o.maxB }

/-! ## Lemmas -/

theorem Rigid.norm2 {L : (Fin n → ℝ) →ₗ[ℝ] (Fin m → ℝ)} (h : Rigid L) (v : Fin n → ℝ) : norm2 (L v) = norm2 v := by
  rw [norm2_eq, norm2_eq, ← Real.sqrt_mul_self (len_nonneg (L v)), ← Real.sqrt_mul_self (len_nonneg v), len_sq, len_sq, h]

theorem Rigid.dot {L : (Fin n → ℝ) →ₗ[ℝ] (Fin m → ℝ)} (h : Rigid L) (u v : Fin n → ℝ) : Mat.dot (L u) (L v) = Mat.dot u v := by
  rw [dot_eq_inner, dot_eq_inner, h]

theorem exchange_rigid (σ : Equiv.Perm (Fin n)) : Rigid (exchange σ) := by
  intro u v
  unfold inner exchange
  simp only [LinearMap.funLeft_apply]
  exact Equiv.sum_comp σ fun i => u i * v i

theorem coords_step (L : (Fin n → ℝ) →ₗ[ℝ] (Fin m → ℝ)) (b : Fin m → ℝ) (x d : Fin n → ℝ) (s : ℝ) :
    (fun i => newCoords L b x i + s * L d i) = newCoords L b (fun i => x i + s * d i) := by
  have : (fun i => x i + s * d i) = x + s • d := rfl
  rw [this]
  funext i
  simp only [newCoords, map_add, map_smul, Pi.add_apply, Pi.smul_apply, smul_eq_mul]
  ring

theorem coords_sub (L : (Fin n → ℝ) →ₗ[ℝ] (Fin m → ℝ)) (b : Fin m → ℝ) (x y : Fin n → ℝ) :
    (fun i => newCoords L b x i - newCoords L b y i) = L (fun i => x i - y i) := by
  have : (fun i => x i - y i) = x - y := rfl
  rw [this, map_sub]
  funext i
  simp only [newCoords, Pi.add_apply, Pi.sub_apply]
  ring

theorem dir (L : (Fin n → ℝ) →ₗ[ℝ] (Fin m → ℝ)) (g v : Fin n → ℝ) (s : ℝ) :
    (fun i => -L g i + s * L v i) = L (fun i => -g i + s * v i) := by
  have : (fun i => -g i + s * v i) = -g + s • v := rfl
  rw [this, map_add, map_neg, map_smul]
  rfl

theorem coords_move (L : (Fin n → ℝ) →ₗ[ℝ] (Fin m → ℝ)) (b : Fin m → ℝ) (x g v : Fin n → ℝ) (s t : ℝ) :
    (fun i => newCoords L b x i + s * (-L g i + t * L v i)) = newCoords L b (fun i => x i + s * (-g i + t * v i)) := by
  rw [← coords_step L b x (fun i => -g i + t * v i) s, ← dir]

theorem negDir (L : (Fin n → ℝ) →ₗ[ℝ] (Fin m → ℝ)) (g : Fin n → ℝ) : (fun i => -L g i) = L (fun i => -g i) := by
  have : (fun i => -g i) = -g := rfl
  rw [this, map_neg]
  rfl

/-- The settings agree and the projections correspond. -/
structure Same (o : GD ℝ n) (o' : GD ℝ m) (φ : (Fin n → ℝ) → Fin m → ℝ) : Prop where
  lr : o'.lr = o.lr
  bt : o'.useBacktracking = o.useBacktracking
  c1 : o'.armijoC1 = o.armijoC1
  tau : o'.tau = o.tau
  mu : o'.momentum = o.momentum
  tg : o'.tolGrad = o.tolGrad
  ts : o'.tolStep = o.tolStep
  it : o'.maxIters = o.maxIters
  proj : ∀ x, o'.project (φ x) = φ (o.project x)

variable {L : (Fin n → ℝ) →ₗ[ℝ] (Fin m → ℝ)} {b : Fin m → ℝ} {o : GD ℝ n} {o' : GD ℝ m}
  {f : (Fin n → ℝ) → ℝ} {f' : (Fin m → ℝ) → ℝ} {g : (Fin n → ℝ) → Fin n → ℝ} {g' : (Fin m → ℝ) → Fin m → ℝ} {c : ℝ}

theorem search_new (hs : Same o o' (newCoords L b)) (hf : ∀ x, f' (newCoords L b x) = f x + c) (x d : Fin n → ℝ) (fx gd : ℝ) :
    ∀ (fuel : ℕ) (step : ℝ), o'.search f' (newCoords L b x) (L d) (fx + c) gd fuel step
      = (o.search f x d fx gd fuel step).map fun r => (newCoords L b r.1, r.2 + c) := by
  intro fuel
  induction fuel with
  | zero => intro step; rfl
  | succ fuel ih =>
    intro step
    unfold GD.search
    dsimp only
    rw [coords_step, hs.proj, hf, hs.c1, hs.tau, ih]
    have e : (f (o.project fun i => x i + step * d i) + c ≤ fx + c + o.armijoC1 * step * gd)
        ↔ f (o.project fun i => x i + step * d i) ≤ fx + o.armijoC1 * step * gd := by
      constructor <;> intro h <;> linarith
    simp only [e]
    split_ifs <;> rfl

theorem move_new (hL : Rigid L) (hs : Same o o' (newCoords L b)) (hf : ∀ x, f' (newCoords L b x) = f x + c) (fuel : ℕ) (x v : Fin n → ℝ)
    (fx : ℝ) (grad : Fin n → ℝ) :
    o'.move f' fuel (newCoords L b x) (L v) (fx + c) (L grad) = (o.move f fuel x v fx grad).map fun r => (newCoords L b r.1, r.2 + c) := by
  unfold GD.move
  dsimp only
  rw [hs.bt, hs.mu, hs.lr, dir, hL.dot, hL.norm2, negDir, search_new hs hf, search_new hs hf, coords_move, hs.proj, hf]
  split_ifs <;> rfl

theorem loop_new (hL : Rigid L) (hs : Same o o' (newCoords L b)) (hf : ∀ x, f' (newCoords L b x) = f x + c)
    (hg : ∀ x, g' (newCoords L b x) = L (g x)) (fuel : ℕ) : ∀ (k j : ℕ) (x v : Fin n → ℝ) (fx : ℝ),
    o'.loop f' g' fuel k j (newCoords L b x) (L v) (fx + c)
      = (o.loop f g fuel k j x v fx).map fun r => (newCoords L b r.1, r.2.1 + c, r.2.2) := by
  intro k
  induction k with
  | zero => intro j x v fx; simp only [GD.loop, Option.map_some, hs.it]
  | succ k ih =>
    intro j x v fx
    unfold GD.loop
    dsimp only
    rw [hg, hL.norm2, hs.tg, move_new hL hs hf, hs.ts]
    split_ifs with h1
    · rfl
    · cases o.move f fuel x v fx (g x) with
      | none => rfl
      | some r =>
        simp only [Option.map_some, Option.bind_eq_bind, Option.bind_some]
        rw [coords_sub, hL.norm2]
        split_ifs with h2
        · rfl
        · exact ih _ _ _ _

theorem minimize_new (hL : Rigid L) (hs : Same o o' (newCoords L b)) (hf : ∀ x, f' (newCoords L b x) = f x + c)
    (hg : ∀ x, g' (newCoords L b x) = L (g x)) (fuel : ℕ) (x : Fin n → ℝ) :
    o'.minimize f' g' fuel (newCoords L b x) = (o.minimize f g fuel x).map fun r => (newCoords L b r.1, r.2.1 + c, r.2.2) := by
  have h0 : (fun _ => 0 : Fin m → ℝ) = L (fun _ => 0) := (map_zero L).symm
  unfold GD.minimize
  rw [h0, hf, hs.it, loop_new hL hs hf hg]

theorem free_same (hb : o.hasBounds = false) (φ : (Fin n → ℝ) → Fin m → ℝ) : Same o (o.free m) φ :=
  ⟨rfl, rfl, rfl, rfl, rfl, rfl, rfl, rfl, fun _ => by rw [project_free _ rfl, project_free _ hb]⟩

theorem project_exchange (hb : Bool) (lo hi : Fin n → ℝ) (σ : Equiv.Perm (Fin n)) (b x : Fin n → ℝ) :
    projectBox hb (newCoords (exchange σ) b lo) (newCoords (exchange σ) b hi) (newCoords (exchange σ) b x)
      = newCoords (exchange σ) b (projectBox hb lo hi x) := by
  funext i
  rw [projectBox_apply]
  simp only [newCoords, exchange, Pi.add_apply, LinearMap.funLeft_apply, projectBox_apply, add_lt_add_iff_right, gt_iff_lt]
  split_ifs <;> rfl

theorem boxed_same (σ : Equiv.Perm (Fin n)) (b : Fin n → ℝ) : Same o (o.boxed σ b) (newCoords (exchange σ) b) :=
  ⟨rfl, rfl, rfl, rfl, rfl, rfl, rfl, rfl, fun _ => project_exchange _ _ _ _ _ _⟩

/-! ## The stochastic versions -/

/-- The settings agree and the projections correspond. -/
structure SameS (o : SGD n) (o' : SGD m) (φ : (Fin n → ℝ) → Fin m → ℝ) : Prop where
  lr0 : o'.lr0 = o.lr0
  decay : o'.decay = o.decay
  mu : o'.momentum = o.momentum
  bs : o'.batchSize = o.batchSize
  beta : o'.beta = o.beta
  tg : o'.tolGradEma = o.tolGradEma
  ts : o'.tolStep = o.tolStep
  tf : o'.tolF = o.tolF
  mi : o'.minIters = o.minIters
  it : o'.maxIters = o.maxIters
  bc : o'.biasCorrected = o.biasCorrected
  proj : ∀ x, o'.project (φ x) = φ (o.project x)

section Stochastic

variable {σ : Type} {s : SGD n} {s' : SGD m}

theorem sampleSum_new {sample : (Fin n → ℝ) → σ → (Fin n → ℝ) × σ} {sample' : (Fin m → ℝ) → σ → (Fin m → ℝ) × σ}
    {x : Fin n → ℝ} {x' : Fin m → ℝ} (h : ∀ r, sample' x' r = (L (sample x r).1, (sample x r).2)) :
    ∀ (count : ℕ) (acc : Fin n → ℝ) (r : σ),
    sampleSum sample' x' count (L acc, r) = (L (sampleSum sample x count (acc, r)).1, (sampleSum sample x count (acc, r)).2) := by
  intro count
  induction count with
  | zero => intro acc r; rfl
  | succ count ih =>
    intro acc r
    unfold sampleSum
    rw [h]
    dsimp only
    rw [show (fun i => L acc i + L (sample x r).1 i) = L (fun i => acc i + (sample x r).1 i) from (map_add L _ _).symm, ih]

theorem scale_new (acc : Fin n → ℝ) (t : ℝ) : (fun i => L acc i * t) = L (fun i => acc i * t) := by
  have : (fun i => acc i * t) = t • acc := funext fun i => mul_comm _ _
  rw [this, map_smul]
  exact funext fun i => mul_comm _ _

theorem seqBatch_new {sample : (Fin n → ℝ) → σ → (Fin n → ℝ) × σ} {sample' : (Fin m → ℝ) → σ → (Fin m → ℝ) × σ}
    {x : Fin n → ℝ} {x' : Fin m → ℝ} (h : ∀ r, sample' x' r = (L (sample x r).1, (sample x r).2)) (bs : ℕ) (r : σ) :
    seqBatch sample' bs x' r = (L (seqBatch sample bs x r).1, (seqBatch sample bs x r).2) := by
  have h0 : (fun _ => 0 : Fin m → ℝ) = L (fun _ => 0) := (map_zero L).symm
  unfold seqBatch
  dsimp only
  rw [h0, sampleSum_new h]
  dsimp only
  rw [scale_new]

theorem sloop_new (hL : Rigid L) (hs : SameS s s' (newCoords L b)) (hf : ∀ x, f' (newCoords L b x) = f x)
    {batch : ℕ → (Fin n → ℝ) → σ → (Fin n → ℝ) × σ} {batch' : ℕ → (Fin m → ℝ) → σ → (Fin m → ℝ) × σ}
    (hb : ∀ k x r, batch' k (newCoords L b x) r = (L (batch k x r).1, (batch k x r).2)) (stopF : ℝ → Bool) :
    ∀ (k j : ℕ) (x v : Fin n → ℝ) (ema fx : ℝ) (r : σ),
    s'.loop f' batch' stopF k j ⟨newCoords L b x, L v, ema, fx, r⟩
      = (s.loop f batch stopF k j ⟨x, v, ema, fx, r⟩).map fun r => (newCoords L b r.1, r.2) := by
  intro k
  induction k with
  | zero => intro j x v ema fx r; simp only [SGD.loop, Option.map_some, hs.it]
  | succ k ih =>
    intro j x v ema fx r
    unfold SGD.loop
    dsimp only
    rw [hb]
    dsimp only
    rw [hL.norm2, hs.beta, hs.bc, hs.tg, hs.mi, hs.mu, hs.ts, show s'.lrAt j = s.lrAt j by unfold SGD.lrAt; rw [hs.lr0, hs.decay],
      coords_move, hs.proj, hf, coords_sub, hL.norm2]
    have key : ∀ q : Option Bool, (q.bind fun small =>
        if s.minIters ≤ j ∧ (small = true ∨ stopF fx = true) then some (newCoords L b x, fx, j, true)
        else if s.minIters ≤ j ∧ norm2 (fun i => s.project (fun i => x i + s.lrAt j * (-(batch j x r).1 i + s.momentum * v i)) i - x i) ≤ s.tolStep then
          some (newCoords L b (s.project fun i => x i + s.lrAt j * (-(batch j x r).1 i + s.momentum * v i)),
            f (s.project fun i => x i + s.lrAt j * (-(batch j x r).1 i + s.momentum * v i)), j + 1, true)
        else s'.loop f' batch' stopF k (j + 1)
          ⟨newCoords L b (s.project fun i => x i + s.lrAt j * (-(batch j x r).1 i + s.momentum * v i)),
            L (fun i => s.project (fun i => x i + s.lrAt j * (-(batch j x r).1 i + s.momentum * v i)) i - x i),
            s.beta * ema + (1 - s.beta) * norm2 (batch j x r).1,
            f (s.project fun i => x i + s.lrAt j * (-(batch j x r).1 i + s.momentum * v i)), (batch j x r).2⟩)
      = (q.bind fun small =>
        if s.minIters ≤ j ∧ (small = true ∨ stopF fx = true) then some (x, fx, j, true)
        else if s.minIters ≤ j ∧ norm2 (fun i => s.project (fun i => x i + s.lrAt j * (-(batch j x r).1 i + s.momentum * v i)) i - x i) ≤ s.tolStep then
          some (s.project fun i => x i + s.lrAt j * (-(batch j x r).1 i + s.momentum * v i),
            f (s.project fun i => x i + s.lrAt j * (-(batch j x r).1 i + s.momentum * v i)), j + 1, true)
        else s.loop f batch stopF k (j + 1)
          ⟨s.project fun i => x i + s.lrAt j * (-(batch j x r).1 i + s.momentum * v i),
            fun i => s.project (fun i => x i + s.lrAt j * (-(batch j x r).1 i + s.momentum * v i)) i - x i,
            s.beta * ema + (1 - s.beta) * norm2 (batch j x r).1,
            f (s.project fun i => x i + s.lrAt j * (-(batch j x r).1 i + s.momentum * v i)), (batch j x r).2⟩).map
          fun r => (newCoords L b r.1, r.2) := by
      intro q
      cases q with
      | none => rfl
      | some w =>
        simp only [Option.bind_some]
        split_ifs
        · rfl
        · rfl
        · exact ih _ _ _ _ _ _
    by_cases hc : s.biasCorrected = true
    · rw [if_pos hc, if_pos hc]
      exact key _
    · rw [if_neg hc, if_neg hc]
      exact key _

/-- Corresponding workers. -/
def Pair (L : (Fin n → ℝ) →ₗ[ℝ] (Fin m → ℝ)) (w : Worker n) (w' : Worker m) : Prop := w'.left = w.left ∧ w'.acc = L w.acc ∧ w'.rng = w.rng

theorem Pair.step {sample : (Fin n → ℝ) → Rand.Gen → (Fin n → ℝ) × Rand.Gen} {sample' : (Fin m → ℝ) → Rand.Gen → (Fin m → ℝ) × Rand.Gen}
    {x : Fin n → ℝ} {x' : Fin m → ℝ} (h : ∀ r, sample' x' r = (L (sample x r).1, (sample x r).2)) {w : Worker n} {w' : Worker m} (hw : Pair L w w') :
    Pair L (w.step sample x) (w'.step sample' x') := by
  obtain ⟨l, a, r⟩ := w
  obtain ⟨l', a', r'⟩ := w'
  obtain ⟨h1, h2, h3⟩ := hw
  dsimp only at h1 h2 h3
  subst h1 h2 h3
  unfold Worker.step
  cases l' with
  | zero => exact ⟨rfl, rfl, rfl⟩
  | succ l =>
    dsimp only
    rw [h]
    exact ⟨rfl, (map_add L _ _).symm, rfl⟩

theorem run_new {sample : (Fin n → ℝ) → Rand.Gen → (Fin n → ℝ) × Rand.Gen} {sample' : (Fin m → ℝ) → Rand.Gen → (Fin m → ℝ) × Rand.Gen}
    {x : Fin n → ℝ} {x' : Fin m → ℝ} (h : ∀ r, sample' x' r = (L (sample x r).1, (sample x r).2)) :
    ∀ (sched : List ℕ) (ws : ℕ → Worker n) (ws' : ℕ → Worker m), (∀ t, Pair L (ws t) (ws' t)) →
      ∀ t, Pair L (runWorkers sample x sched ws t) (runWorkers sample' x' sched ws' t) := by
  intro sched
  induction sched with
  | nil => intro ws ws' hw; exact hw
  | cons a l ih =>
    intro ws ws' hw
    unfold runWorkers
    refine ih _ _ fun t => ?_
    by_cases e : t = a
    · subst e
      rw [Function.update_self, Function.update_self]
      exact (hw t).step h
    · rw [Function.update_of_ne e, Function.update_of_ne e]
      exact hw t

theorem reduce_new (bs tUsed : ℕ) {ws : ℕ → Worker n} {ws' : ℕ → Worker m} (hw : ∀ t, Pair L (ws t) (ws' t)) :
    reduceWorkers bs tUsed ws' = L (reduceWorkers bs tUsed ws) := by
  have key : ∀ (l : List ℕ) (a : Fin n → ℝ) (k : ℕ),
      l.foldl (fun (s : (Fin m → ℝ) × ℕ) t => (fun i => s.1 i + (ws' t).acc i, s.2 + (workerEnd bs tUsed t - workerStart bs tUsed t))) (L a, k)
      = (L (l.foldl (fun (s : (Fin n → ℝ) × ℕ) t => (fun i => s.1 i + (ws t).acc i, s.2 + (workerEnd bs tUsed t - workerStart bs tUsed t)))
          (a, k)).1,
        (l.foldl (fun (s : (Fin n → ℝ) × ℕ) t => (fun i => s.1 i + (ws t).acc i, s.2 + (workerEnd bs tUsed t - workerStart bs tUsed t)))
          (a, k)).2) := by
    intro l
    induction l with
    | nil => intro a k; rfl
    | cons t l ih =>
      intro a k
      rw [List.foldl_cons, List.foldl_cons, ← ih, (hw t).2.1]
      congr 1
      exact congrArg (·, _) (map_add L _ _).symm
  have h0 : (fun _ => 0 : Fin m → ℝ) = L (fun _ => 0) := (map_zero L).symm
  unfold reduceWorkers
  dsimp only
  rw [h0, key]
  dsimp only
  rw [scale_new]

theorem parBatch_new {sample : (Fin n → ℝ) → Rand.Gen → (Fin n → ℝ) × Rand.Gen} {sample' : (Fin m → ℝ) → Rand.Gen → (Fin m → ℝ) × Rand.Gen}
    {x : Fin n → ℝ} {x' : Fin m → ℝ} (h : ∀ r, sample' x' r = (L (sample x r).1, (sample x r).2)) (bs threads : ℕ) (seed : BitVec 64)
    (sched : List ℕ) (k : ℕ) : parBatch sample' bs threads seed sched k x' = L (parBatch sample bs threads seed sched k x) :=
  reduce_new _ _ (run_new h _ _ _ fun _ => ⟨rfl, (map_zero L).symm, rfl⟩)

theorem free_sameS (hb : s.hasBounds = false) (φ : (Fin n → ℝ) → Fin m → ℝ) : SameS s (s.free m) φ :=
  ⟨rfl, rfl, rfl, rfl, rfl, rfl, rfl, rfl, rfl, rfl, rfl, fun _ => by
    unfold SGD.project projectBox
    rw [hb]
    rfl⟩

theorem boxed_sameS (σ : Equiv.Perm (Fin n)) (b : Fin n → ℝ) : SameS s (s.boxed σ b) (newCoords (exchange σ) b) :=
  ⟨rfl, rfl, rfl, rfl, rfl, rfl, rfl, rfl, rfl, rfl, rfl, fun _ => project_exchange _ _ _ _ _ _⟩

theorem minimizeS_new (hL : Rigid L) (hs : SameS s s' (newCoords L b)) (hf : ∀ x, f' (newCoords L b x) = f x)
    {sample : (Fin n → ℝ) → σ → (Fin n → ℝ) × σ} {sample' : (Fin m → ℝ) → σ → (Fin m → ℝ) × σ}
    (h : ∀ x r, sample' (newCoords L b x) r = (L (sample x r).1, (sample x r).2)) (x : Fin n → ℝ) (r : σ) :
    s'.minimize f' sample' (newCoords L b x) r = (s.minimize f sample x r).map fun r => (newCoords L b r.1, r.2) := by
  have h0 : (fun _ => 0 : Fin m → ℝ) = L (fun _ => 0) := (map_zero L).symm
  unfold SGD.minimize
  rw [h0, hf, hs.it, hs.bs, hs.tf]
  exact sloop_new hL hs hf (fun k x r => seqBatch_new (h x) _ _) _ _ _ _ _ _ _ _

theorem minimizeP_new (hL : Rigid L) (hs : SameS s s' (newCoords L b)) (hf : ∀ x, f' (newCoords L b x) = f x)
    {sample : (Fin n → ℝ) → Rand.Gen → (Fin n → ℝ) × Rand.Gen} {sample' : (Fin m → ℝ) → Rand.Gen → (Fin m → ℝ) × Rand.Gen}
    (h : ∀ x r, sample' (newCoords L b x) r = (L (sample x r).1, (sample x r).2)) (threads : ℕ) (seed : BitVec 64) (scheds : ℕ → List ℕ)
    (x : Fin n → ℝ) :
    s'.minimizeParallel f' sample' threads seed scheds (newCoords L b x)
      = (s.minimizeParallel f sample threads seed scheds x).map fun r => (newCoords L b r.1, r.2) := by
  have h0 : (fun _ => 0 : Fin m → ℝ) = L (fun _ => 0) := (map_zero L).symm
  unfold SGD.minimizeParallel
  rw [h0, hf, hs.it, hs.bs, hs.tf]
  exact sloop_new hL hs hf (fun k x r => by dsimp only; rw [parBatch_new (h x)]) _ _ _ _ _ _ _ _

end Stochastic

/-! ## C219 -/

/-- C219. Gradient descent without bounds, with any settings: in rotated coordinates with another origin (`newCoords L b`), for the same objective
(up to a constant `c`) and its gradient written in these coordinates, the search follows the same path: it returns the same point, value,
number of iterations and verdict, or runs as long. -/
theorem C219_gd {L : (Fin n → ℝ) →ₗ[ℝ] (Fin m → ℝ)} (hL : Rigid L) (b : Fin m → ℝ) (o : GD ℝ n) (hb : o.hasBounds = false)
    {f : (Fin n → ℝ) → ℝ} {f' : (Fin m → ℝ) → ℝ} {g : (Fin n → ℝ) → Fin n → ℝ} {g' : (Fin m → ℝ) → Fin m → ℝ} {c : ℝ}
    (hf : ∀ x, f' (newCoords L b x) = f x + c) (hg : ∀ x, g' (newCoords L b x) = L (g x)) (fuel : ℕ) (x : Fin n → ℝ) :
    (o.free m).minimize f' g' fuel (newCoords L b x) = (o.minimize f g fuel x).map fun r => (newCoords L b r.1, r.2.1 + c, r.2.2) :=
  minimize_new hL (free_same hb _) hf hg fuel x

/-- C219. The same with bounds, for an exchange of the coordinates and another origin. -/
theorem C219_gd_bounds (σ : Equiv.Perm (Fin n)) (b : Fin n → ℝ) (o : GD ℝ n)
    {f f' : (Fin n → ℝ) → ℝ} {g g' : (Fin n → ℝ) → Fin n → ℝ} {c : ℝ}
    (hf : ∀ x, f' (newCoords (exchange σ) b x) = f x + c) (hg : ∀ x, g' (newCoords (exchange σ) b x) = exchange σ (g x)) (fuel : ℕ)
    (x : Fin n → ℝ) :
    (o.boxed σ b).minimize f' g' fuel (newCoords (exchange σ) b x)
      = (o.minimize f g fuel x).map fun r => (newCoords (exchange σ) b r.1, r.2.1 + c, r.2.2) :=
  minimize_new (exchange_rigid σ) (boxed_same σ b) hf hg fuel x

/-- C219. Stochastic gradient descent, one thread or many, without bounds: if the sampler draws the same gradients, written in the new
coordinates, the search follows the same path, for all numbers of threads, seeds and schedules. -/
theorem C219_sgd {σ : Type} {L : (Fin n → ℝ) →ₗ[ℝ] (Fin m → ℝ)} (hL : Rigid L) (b : Fin m → ℝ) (o : SGD n) (hb : o.hasBounds = false)
    {f : (Fin n → ℝ) → ℝ} {f' : (Fin m → ℝ) → ℝ} (hf : ∀ x, f' (newCoords L b x) = f x) (x : Fin n → ℝ) :
    (∀ {sample : (Fin n → ℝ) → σ → (Fin n → ℝ) × σ} {sample' : (Fin m → ℝ) → σ → (Fin m → ℝ) × σ},
      (∀ x r, sample' (newCoords L b x) r = (L (sample x r).1, (sample x r).2)) → ∀ r,
      (o.free m).minimize f' sample' (newCoords L b x) r = (o.minimize f sample x r).map fun r => (newCoords L b r.1, r.2)) ∧
    (∀ {sample : (Fin n → ℝ) → Rand.Gen → (Fin n → ℝ) × Rand.Gen} {sample' : (Fin m → ℝ) → Rand.Gen → (Fin m → ℝ) × Rand.Gen},
      (∀ x r, sample' (newCoords L b x) r = (L (sample x r).1, (sample x r).2)) → ∀ threads seed scheds,
      (o.free m).minimizeParallel f' sample' threads seed scheds (newCoords L b x)
        = (o.minimizeParallel f sample threads seed scheds x).map fun r => (newCoords L b r.1, r.2)) :=
  ⟨fun h r => minimizeS_new hL (free_sameS hb _) hf h x r, fun h threads seed scheds => minimizeP_new hL (free_sameS hb _) hf h threads seed scheds x⟩

/-- C219. The same with bounds, for an exchange of the coordinates and another origin. -/
theorem C219_sgd_bounds {S : Type} (σ : Equiv.Perm (Fin n)) (b : Fin n → ℝ) (o : SGD n)
    {f f' : (Fin n → ℝ) → ℝ} (hf : ∀ x, f' (newCoords (exchange σ) b x) = f x) (x : Fin n → ℝ) :
    (∀ {sample sample' : (Fin n → ℝ) → S → (Fin n → ℝ) × S},
      (∀ x r, sample' (newCoords (exchange σ) b x) r = (exchange σ (sample x r).1, (sample x r).2)) → ∀ r,
      (o.boxed σ b).minimize f' sample' (newCoords (exchange σ) b x) r
        = (o.minimize f sample x r).map fun r => (newCoords (exchange σ) b r.1, r.2)) ∧
    (∀ {sample sample' : (Fin n → ℝ) → Rand.Gen → (Fin n → ℝ) × Rand.Gen},
      (∀ x r, sample' (newCoords (exchange σ) b x) r = (exchange σ (sample x r).1, (sample x r).2)) → ∀ threads seed scheds,
      (o.boxed σ b).minimizeParallel f' sample' threads seed scheds (newCoords (exchange σ) b x)
        = (o.minimizeParallel f sample threads seed scheds x).map fun r => (newCoords (exchange σ) b r.1, r.2)) :=
  ⟨fun h r => minimizeS_new (exchange_rigid σ) (boxed_sameS σ b) hf h x r,
    fun h threads seed scheds => minimizeP_new (exchange_rigid σ) (boxed_sameS σ b) hf h threads seed scheds x⟩

/-- A quarter turn of the plane with a new origin; the objective `(x - 3)²` in the new coordinates. -/
example : ∃ L : (Fin 2 → ℝ) →ₗ[ℝ] (Fin 2 → ℝ), Rigid L ∧ newCoords L ![1, 2] ![5, 7] = ![-6, 7] ∧
    (∀ x : Fin 2 → ℝ, (fun y : Fin 2 → ℝ => (y 1 - 5) ^ 2) (newCoords L ![1, 2] x) = (fun x => (x 0 - 3) ^ 2) x + 0) ∧
    (∀ x : Fin 2 → ℝ, (fun y : Fin 2 → ℝ => ![0, 2 * (y 1 - 5)]) (newCoords L ![1, 2] x) = L ((fun x => ![2 * (x 0 - 3), 0]) x)) ∧
    (GD.new 2 : GD ℝ 2).hasBounds = false := by
  refine ⟨⟨⟨fun x => ![-x 1, x 0], fun x y => ?_⟩, fun c x => ?_⟩, fun u v => ?_, ?_, fun x => ?_, fun x => ?_, rfl⟩
  · funext i; fin_cases i <;> simp; ring
  · funext i; fin_cases i <;> simp
  · simp [inner, Fin.sum_univ_two]; ring
  · funext i; fin_cases i <;> simp [newCoords] <;> norm_num
  · simp [newCoords]; ring
  · funext i; fin_cases i <;> simp [newCoords]; ring

end Verif.Opt
