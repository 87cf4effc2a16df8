import Verif.Mat.Vec
import Verif.Rust
import Verif.Rand.Model

/-!
# Model of `aether_opt::gradient_descent`

`GradientDescentGeneric<F, N>` is modelled for any scalar type, as in the code; for the stochastic versions scalars are real numbers. A
`Vector<F, N>` is `Fin n → α`. Objectives, gradients and samplers are arbitrary
functions (the closures are `Fn`, so a call has no effect but its result and, for a sampler, the state of the
generator passed to it). `None`/`none` stands for a call that has not returned: a panic, or a line search still
running after the given number of passes.
-/

namespace Verif.Opt

open Verif.Mat

variable {n : ℕ}

/-- Scalars with a square root, `crates/aether_core/src/real/real.rs:37` `Real::sqrt`. -/
class HasSqrt (α : Type) where
  sqrt : α → α

noncomputable instance : HasSqrt ℝ := ⟨Real.sqrt⟩

/-! ## `GradientDescentGeneric` -/

section Generic

variable {α : Type} [Zero α] [One α] [Add α] [Neg α] [Sub α] [Mul α] [LE α] [LT α] [DecidableLE α] [DecidableLT α] [OfScientific α] [HasSqrt α]

/-- `crates/aether_opt/src/gradient_descent/basic.rs:13-32` `GradientDescentGeneric`. -/
structure GD (α : Type) (n : ℕ) where
  lr : α
  useBacktracking : Bool
  armijoC1 : α
  tau : α
  momentum : α
  tolGrad : α
  tolStep : α
  maxIters : ℕ
  hasBounds : Bool
  minB : Fin n → α
  maxB : Fin n → α

/-- `basic.rs:41-66` `new`. The bounds are infinite in the code and are not read while `has_bounds` is false;
here they are zero. -/
def GD.new (n : ℕ) : GD α n :=
  ⟨1e-2, true, 1e-4, 0.5, 0, 1e-6, 1e-6, 10000, false, fun _ => 0, fun _ => 0⟩

/-- The configuration calls, `basic.rs:68-127`. -/
inductive Setter (α : Type) (n : ℕ) where
  | backtracking (on : Bool)
  | armijo (c1 tau : α)
  | learningRate (lr : α)
  | momentum (mu : α)
  | tolerances (grad step : α)
  | maxIters (iters : ℕ)
  | setBounds (lo hi : Fin n → α)
  | clearBounds

/-- `basic.rs:68-127`: what each configuration call does. -/
def GD.set (o : GD α n) : Setter α n → GD α n
  | .backtracking on => { o with useBacktracking := on }
  | .armijo c1 tau => { o with armijoC1 := c1, tau := if tau ≤ 0 then 0.5 else if tau ≥ 1 then 0.9 else tau }
  | .learningRate lr => { o with lr := if lr ≤ 0 then 0 else lr }
  | .momentum mu => { o with momentum := if mu < 0 then 0 else if mu > 0.999999 then 0.999999 else mu }
  | .tolerances tg ts => { o with tolGrad := if tg ≤ 0 then 0 else tg, tolStep := if ts ≤ 0 then 0 else ts }
  | .maxIters k => { o with maxIters := k }
  | .setBounds lo hi => { o with hasBounds := true, minB := lo, maxB := hi }
  | .clearBounds => { o with hasBounds := false }

/-- `basic.rs:131-148`, `stochastic.rs:120-137`, `stochastic_parallel.rs:163-178` `project`. -/
def projectBox (hasBounds : Bool) (minB maxB x : Fin n → α) : Fin n → α :=
  if hasBounds then
    (rng n 0 n).foldl (fun x i =>
      let xi := x i
      let lo := minB i
      let hi := maxB i
      Function.update x i (if xi < lo then lo else if xi > hi then hi else xi)) x
  else x

def GD.project (o : GD α n) (x : Fin n → α) : Fin n → α := projectBox o.hasBounds o.minB o.maxB x

/-- `basic.rs:151-158`, `stochastic.rs:139-145`, `stochastic_parallel.rs:181-187` `norm2`: the loop is that of
`norm_generic`. -/
def norm2 (v : Fin n → α) : α := Mat.norm HasSqrt.sqrt v

/-- `basic.rs:215-237`: the backtracking loop, for at most `fuel` passes, starting with step length `step`. -/
def GD.search (o : GD α n) (f : (Fin n → α) → α) (xOld d : Fin n → α) (fxOld gd : α) :
    ℕ → α → Option ((Fin n → α) × α)
  | 0, _ => none
  | fuel + 1, step =>
    let trial := o.project (fun i => xOld i + step * d i)
    let fTrial := f trial
    let rhs := fxOld + o.armijoC1 * step * gd
    if fTrial ≤ rhs then some (trial, fTrial)
    else
      let step := step * o.tau
      if step ≤ 1e-20 then some (trial, fTrial) else GD.search o f xOld d fxOld gd fuel step

/-- `basic.rs:190-245`: one step from `x`: the new point and its value. -/
def GD.move (o : GD α n) (f : (Fin n → α) → α) (fuel : ℕ) (x v : Fin n → α) (fx : α)
    (grad : Fin n → α) : Option ((Fin n → α) × α) :=
  let d : Fin n → α := fun i => -grad i + o.momentum * v i
  if o.useBacktracking then
    let gd := Mat.dot grad d
    if gd ≥ 0 then
      o.search f x (fun i => -grad i) fx (-norm2 grad * norm2 grad) fuel o.lr
    else o.search f x d fx gd fuel o.lr
  else
    let x' := o.project (fun i => x i + o.lr * d i)
    some (x', f x')

/-- `basic.rs:181-258`: the main loop, with `m` iterations left. -/
def GD.loop (o : GD α n) (f : (Fin n → α) → α) (g : (Fin n → α) → Fin n → α) (fuel : ℕ) :
    ℕ → ℕ → (Fin n → α) → (Fin n → α) → α → Option ((Fin n → α) × α × ℕ × Bool)
  | 0, _, x, _, fx => some (x, fx, o.maxIters, false)
  | m + 1, k, x, v, fx =>
    let grad := g x
    if norm2 grad ≤ o.tolGrad then some (x, fx, k, true)
    else do
      let (x', fx') ← o.move f fuel x v fx grad
      let v' : Fin n → α := fun i => x' i - x i
      if norm2 v' ≤ o.tolStep then some (x', fx', k + 1, true)
      else GD.loop o f g fuel m (k + 1) x' v' fx'

/-- `basic.rs:165-261` `minimize`. -/
def GD.minimize (o : GD α n) (f : (Fin n → α) → α) (g : (Fin n → α) → Fin n → α) (fuel : ℕ)
    (x : Fin n → α) : Option ((Fin n → α) × α × ℕ × Bool) :=
  o.loop f g fuel o.maxIters 0 x (fun _ => 0) (f x)

end Generic

/-! ## `GDStochastic` and `GDStochasticParallel` -/

/-- `stochastic.rs:11-38` `GDStochastic` and `stochastic_parallel.rs:21-44` `GDStochasticParallel`: the fields
`minimize` reads (the generator, the seed and the thread count are arguments below). `biasCorrected` is always on in
the parallel version. -/
structure SGD (n : ℕ) where
  lr0 : ℝ
  decay : ℝ
  momentum : ℝ
  batchSize : ℕ
  beta : ℝ
  tolGradEma : ℝ
  tolStep : ℝ
  tolF : ℝ
  minIters : ℕ
  maxIters : ℕ
  biasCorrected : Bool
  hasBounds : Bool
  minB : Fin n → ℝ
  maxB : Fin n → ℝ

/-- `stochastic.rs:48-67` `GDStochastic::new`. -/
noncomputable def SGD.new (n : ℕ) : SGD n :=
  ⟨1e-2, 1e-3, 0, 1, 0.9, 1e-4, 1e-8, 0, 0, 100000, true, false, fun _ => 0, fun _ => 0⟩

/-- `stochastic_parallel.rs:47-75` `GDStochasticParallel::new`. -/
noncomputable def SGD.newParallel (n : ℕ) : SGD n :=
  ⟨1e-2, 1e-3, 0, 32, 0.95, 1e-4, 1e-8, 0, 0, 100000, true, false, fun _ => 0, fun _ => 0⟩

noncomputable def SGD.project (o : SGD n) (x : Fin n → ℝ) : Fin n → ℝ := projectBox o.hasBounds o.minB o.maxB x

/-- `stochastic.rs:148-150`, `stochastic_parallel.rs:190-195` `lr_at`. -/
noncomputable def SGD.lrAt (o : SGD n) (k : ℕ) : ℝ := o.lr0 / (1 + o.decay * k)

/-- One batch of gradient samples: `count` calls of the sampler, summed up in order from `acc`
(`stochastic.rs:196-201`, `stochastic_parallel.rs:257-262`). -/
def sampleSum {σ : Type} (sample : (Fin n → ℝ) → σ → (Fin n → ℝ) × σ) (x : Fin n → ℝ) :
    ℕ → (Fin n → ℝ) × σ → (Fin n → ℝ) × σ
  | 0, s => s
  | count + 1, (acc, r) =>
    let (gi, r') := sample x r
    sampleSum sample x count (fun i => acc i + gi i, r')

/-- `stochastic.rs:193-205`: the batch gradient of the sequential version. -/
noncomputable def seqBatch {σ : Type} (sample : (Fin n → ℝ) → σ → (Fin n → ℝ) × σ) (batchSize : ℕ)
    (x : Fin n → ℝ) (r : σ) : (Fin n → ℝ) × σ :=
  let bs := max batchSize 1
  let (acc, r') := sampleSum sample x bs (fun _ => 0, r)
  let invBs : ℝ := 1 / (bs : ℝ)
  (fun i => acc i * invBs, r')

/-- State of the main loop: point, last step, average of gradient norms, value, sampler state. -/
structure SState (n : ℕ) (σ : Type) where
  x : Fin n → ℝ
  v : Fin n → ℝ
  ema : ℝ
  fx : ℝ
  r : σ

/-- `(k as i32) + 1` in `self.ema_beta.powi((k as i32) + 1)` (`stochastic.rs:213`, `stochastic_parallel.rs:296`):
`none` if the addition overflows. -/
def emaExponent (k : ℕ) : Option ℤ := Rust.chk32 (Rust.asI32 (k : ℤ) + 1)

/-- The main loop of both stochastic versions: `stochastic.rs:192-244`, `stochastic_parallel.rs:235-331`. `batch k x r`
gives the batch gradient of iteration `k`, `stopF` is the test on the objective value. `m` iterations are left. If the
divisor of the bias correction is zero (`ema_beta = 1`), the quotient is not a number and the test on it fails. -/
noncomputable def SGD.loop {σ : Type} (o : SGD n) (f : (Fin n → ℝ) → ℝ)
    (batch : ℕ → (Fin n → ℝ) → σ → (Fin n → ℝ) × σ) (stopF : ℝ → Bool) :
    ℕ → ℕ → SState n σ → Option ((Fin n → ℝ) × ℝ × ℕ × Bool)
  | 0, _, s => some (s.x, s.fx, o.maxIters, false)
  | m + 1, k, s => do
    let (g, r) := batch k s.x s.r
    let ema := o.beta * s.ema + (1 - o.beta) * norm2 g
    let small ← if o.biasCorrected then
      (emaExponent k).map (fun e => decide (1 - o.beta ^ e ≠ 0 ∧ ema / (1 - o.beta ^ e) ≤ o.tolGradEma))
      else some (decide (ema ≤ o.tolGradEma))
    if o.minIters ≤ k ∧ (small ∨ stopF s.fx) then some (s.x, s.fx, k, true)
    else
      let alpha := o.lrAt k
      let x' := o.project (fun i => s.x i + alpha * (-g i + o.momentum * s.v i))
      let v' : Fin n → ℝ := fun i => x' i - s.x i
      let fx' := f x'
      if o.minIters ≤ k ∧ norm2 v' ≤ o.tolStep then some (x', fx', k + 1, true)
      else SGD.loop o f batch stopF m (k + 1) ⟨x', v', ema, fx', r⟩

/-- `stochastic.rs:178-245` `GDStochastic::minimize`. -/
noncomputable def SGD.minimize {σ : Type} (o : SGD n) (f : (Fin n → ℝ) → ℝ)
    (sample : (Fin n → ℝ) → σ → (Fin n → ℝ) × σ) (x : Fin n → ℝ) (r : σ) :
    Option ((Fin n → ℝ) × ℝ × ℕ × Bool) :=
  o.loop f (fun _ => seqBatch sample o.batchSize) (fun fx => decide (fx ≤ o.tolF)) o.maxIters 0
    ⟨x, fun _ => 0, 0, f x, r⟩

/-! ### The worker threads -/

/-- `stochastic_parallel.rs:248-249`: the range of batch indices of worker `t` out of `tUsed`. -/
def workerStart (bs tUsed t : ℕ) : ℕ := bs * t / tUsed
def workerEnd (bs tUsed t : ℕ) : ℕ := bs * (t + 1) / tUsed

/-- `stochastic_parallel.rs:199-202` `thread_seed`. -/
def threadSeed (base iter t : BitVec 64) : BitVec 64 :=
  base ^^^ (iter * 0x9E3779B97F4A7C15#64) ^^^ (t * 0xBF58476D1CE4E5B9#64)

/-- A worker thread: what it still has to do and what it has computed. -/
structure Worker (n : ℕ) where
  left : ℕ
  acc : Fin n → ℝ
  rng : Rand.Gen

/-- `stochastic_parallel.rs:250-256`: a freshly spawned worker. -/
def Worker.spawn (n : ℕ) (bs tUsed : ℕ) (base iter : BitVec 64) (t : ℕ) : Worker n :=
  ⟨workerEnd bs tUsed t - workerStart bs tUsed t, fun _ => 0, Rand.Gen.new (threadSeed base iter (BitVec.ofNat 64 t))⟩

/-- `stochastic_parallel.rs:257-262`: one pass of a worker's loop; nothing happens once it has finished. -/
def Worker.step (sample : (Fin n → ℝ) → Rand.Gen → (Fin n → ℝ) × Rand.Gen) (x : Fin n → ℝ) (w : Worker n) :
    Worker n :=
  match w.left with
  | 0 => w
  | left + 1 =>
    let (gi, r) := sample x w.rng
    ⟨left, fun i => w.acc i + gi i, r⟩

/-- A run of the workers under a schedule: the list says which worker makes the next pass. -/
def runWorkers (sample : (Fin n → ℝ) → Rand.Gen → (Fin n → ℝ) × Rand.Gen) (x : Fin n → ℝ) :
    List ℕ → (ℕ → Worker n) → ℕ → Worker n
  | [], ws => ws
  | t :: ts, ws => runWorkers sample x ts (Function.update ws t ((ws t).step sample x))

/-- `stochastic_parallel.rs:269-289`: join the workers in order of spawning, sum their results and divide by the
number of samples they report. -/
noncomputable def reduceWorkers (bs tUsed : ℕ) (ws : ℕ → Worker n) : Fin n → ℝ :=
  let s := (List.range tUsed).foldl (fun (s : (Fin n → ℝ) × ℕ) t =>
    (fun i => s.1 i + (ws t).acc i, s.2 + (workerEnd bs tUsed t - workerStart bs tUsed t))) (fun _ => 0, 0)
  let inv : ℝ := 1 / (s.2 : ℝ)
  fun i => s.1 i * inv

/-- `stochastic_parallel.rs:236-289`: the batch gradient of iteration `k` under a schedule. -/
noncomputable def parBatch (sample : (Fin n → ℝ) → Rand.Gen → (Fin n → ℝ) × Rand.Gen) (batchSize threads : ℕ)
    (seed : BitVec 64) (schedule : List ℕ) (k : ℕ) (x : Fin n → ℝ) : Fin n → ℝ :=
  let bs := max batchSize 1
  let tUsed := min (max threads 1) bs
  reduceWorkers bs tUsed
    (runWorkers sample x schedule (Worker.spawn n bs tUsed seed (BitVec.ofNat 64 k)))

/-- `stochastic_parallel.rs:210-332` `GDStochasticParallel::minimize`; `schedules k` is the schedule of the workers of
iteration `k`. The `println!` is not modelled. -/
noncomputable def SGD.minimizeParallel (o : SGD n) (f : (Fin n → ℝ) → ℝ)
    (sample : (Fin n → ℝ) → Rand.Gen → (Fin n → ℝ) × Rand.Gen) (threads : ℕ) (seed : BitVec 64)
    (schedules : ℕ → List ℕ) (x : Fin n → ℝ) : Option ((Fin n → ℝ) × ℝ × ℕ × Bool) :=
  o.loop f (fun k x (_ : Unit) => (parBatch sample o.batchSize threads seed (schedules k) k x, ()))
    (fun fx => decide (o.tolF > 0 ∧ fx ≤ o.tolF)) o.maxIters 0 ⟨x, fun _ => 0, 0, f x, ()⟩

end Verif.Opt
