import Verif.Opt.Model

/-!
# Model of the worker threads of `GDStochasticParallel::minimize`, for any scalar type and a sampler that may panic

`Verif/Opt/Model.lean` has the workers over the real numbers and a sampler that always returns. Here no law of
arithmetic is assumed, so the model covers `f32`, `f64` and the others as they round, and a call of the sampler may
panic (`none`). A schedule is a list saying which worker makes the next pass; the workers share nothing but the
read-only point, so a pass of one is a step of its own state.
-/

namespace Verif.Opt

variable {n : ℕ} {α : Type} [Zero α] [One α] [Add α] [Neg α] [Sub α] [Mul α] [Div α] [LE α] [LT α] [DecidableLE α]
  [DecidableLT α] [HasSqrt α]

/-- The closure `sample_grad`, `stochastic_parallel.rs:216` `G: Fn(&Vector<F, N>, &mut XorShift64Star) -> Vector<F, N>`,
which may panic. -/
abbrev Sampler (α : Type) (n : ℕ) : Type := (Fin n → α) → Rand.Gen → Option ((Fin n → α) × Rand.Gen)

/-- A worker thread: what it still has to do and what it has computed, or that it has panicked. -/
inductive Thread (α : Type) (n : ℕ) where
  | running (left : ℕ) (acc : Fin n → α) (rng : Rand.Gen)
  | panicked

/-- `stochastic_parallel.rs:248-256`: a freshly spawned worker. -/
def Thread.spawn (α : Type) [Zero α] (n : ℕ) (bs tUsed : ℕ) (base iter : BitVec 64) (t : ℕ) : Thread α n :=
  .running (workerEnd bs tUsed t - workerStart bs tUsed t) (fun _ => 0)
    (Rand.Gen.new (threadSeed base iter (BitVec.ofNat 64 t)))

/-- `stochastic_parallel.rs:257-262`: one pass of a worker's loop; nothing happens once it has finished or panicked. -/
def Thread.step (sample : Sampler α n) (x : Fin n → α) : Thread α n → Thread α n
  | .running (left + 1) acc r =>
    match sample x r with
    | none => .panicked
    | some (gi, r) => .running left (fun i => acc i + gi i) r
  | w => w

/-- A run of the workers under a schedule. -/
def runThreads (sample : Sampler α n) (x : Fin n → α) : List ℕ → (ℕ → Thread α n) → ℕ → Thread α n
  | [], ws => ws
  | t :: ts, ws => runThreads sample x ts (Function.update ws t ((ws t).step sample x))

/-- `stochastic_parallel.rs:269-272`: `h.join().expect("thread panicked")` for the workers in order of spawning: the
results, or a panic. (`thread::scope` waits for the other workers before it passes the panic on.) -/
def joinThreads (ws : ℕ → Thread α n) : List ℕ → Option (List ((Fin n → α) × ℕ))
  | [] => some []
  | t :: ts =>
    match ws t with
    | .panicked => none
    | .running _ acc _ => (joinThreads ws ts).map ((acc, t) :: ·)

/-- `stochastic_parallel.rs:276-289`: sum the results in the order of joining and divide by the number of samples.
`from_u32` is `F::from_u32`. -/
def reduceThreads (fromU32 : ℕ → α) (bs tUsed : ℕ) (partials : List ((Fin n → α) × ℕ)) : Fin n → α :=
  let s := partials.foldl (fun (s : (Fin n → α) × ℕ) p =>
    (fun i => s.1 i + p.1 i, s.2 + (workerEnd bs tUsed p.2 - workerStart bs tUsed p.2))) (fun _ => 0, 0)
  let inv : α := fromU32 1 / fromU32 s.2
  fun i => s.1 i * inv

/-- `stochastic_parallel.rs:236-289`: the batch gradient of iteration `k` under a schedule. -/
def threadBatch (fromU32 : ℕ → α) (sample : Sampler α n) (batchSize threads : ℕ) (seed : BitVec 64)
    (schedule : List ℕ) (k : ℕ) (x : Fin n → α) : Option (Fin n → α) :=
  let bs := max batchSize 1
  let tUsed := min threads bs
  (joinThreads (runThreads sample x schedule (Thread.spawn α n bs tUsed seed (BitVec.ofNat 64 k)))
    (List.range tUsed)).map (reduceThreads fromU32 bs tUsed)

/-- `stochastic_parallel.rs:220-228`: the number of threads: as configured, else what the machine offers (`avail`,
`thread::available_parallelism`, `none` if it fails). -/
def threadCount (configured avail : Option ℕ) : ℕ := max (configured.getD (avail.getD 1)) 1

/-- `stochastic_parallel.rs:21-44` `GDStochasticParallel`: all fields, with `powi` and `from_u32` of the scalar type. -/
structure Par (α : Type) (n : ℕ) where
  lr0 : α
  decay : α
  momentum : α
  batchSize : ℕ
  beta : α
  tolGradEma : α
  tolStep : α
  tolF : α
  minIters : ℕ
  maxIters : ℕ
  hasBounds : Bool
  minB : Fin n → α
  maxB : Fin n → α
  threads : Option ℕ
  seed : BitVec 64
  powi : α → ℤ → α
  fromU32 : ℕ → α

/-- `stochastic_parallel.rs:47-74` `new` over the real numbers. The bounds are infinite in the code and are not read
while `has_bounds` is false; here they are zero. -/
noncomputable def Par.new (n : ℕ) (seed : BitVec 64) : Par ℝ n :=
  ⟨1e-2, 1e-3, 0, 32, 0.95, 1e-4, 1e-8, 0, 0, 100000, false, fun _ => 0, fun _ => 0, none, seed, fun x e => x ^ e,
    fun k => (k : ℝ)⟩

/-- `stochastic_parallel.rs:235-331`: the main loop, with `m` iterations left. `none` is a panic: of a worker, or of
the addition in the exponent of the bias correction. -/
def Par.loop (o : Par α n) (f : (Fin n → α) → α) (sample : Sampler α n) (threads : ℕ) (schedules : ℕ → List ℕ) :
    ℕ → ℕ → (Fin n → α) → (Fin n → α) → α → α → Option ((Fin n → α) × α × ℕ × Bool)
  | 0, _, x, _, _, fx => some (x, fx, o.maxIters, false)
  | m + 1, k, x, v, ema, fx => do
    let g ← threadBatch o.fromU32 sample o.batchSize threads o.seed (schedules k) k x
    let ema := o.beta * ema + (1 - o.beta) * norm2 g
    let e ← emaExponent k
    let hat := ema / (1 - o.powi o.beta e)
    if o.minIters ≤ k ∧ (hat ≤ o.tolGradEma ∨ (o.tolF > 0 ∧ fx ≤ o.tolF)) then some (x, fx, k, true)
    else
      let alpha := o.lr0 / (1 + o.decay * o.fromU32 k)
      let x' := projectBox o.hasBounds o.minB o.maxB (fun i => x i + alpha * (-g i + o.momentum * v i))
      let v' : Fin n → α := fun i => x' i - x i
      let fx' := f x'
      if o.minIters ≤ k ∧ norm2 v' ≤ o.tolStep then some (x', fx', k + 1, true)
      else Par.loop o f sample threads schedules m (k + 1) x' v' ema fx'

/-- `stochastic_parallel.rs:210-332` `minimize` on a machine that offers `avail` threads; `schedules k` is the schedule
of the workers of iteration `k`. The `println!` is not modelled. -/
def Par.minimize (o : Par α n) (avail : Option ℕ) (f : (Fin n → α) → α) (sample : Sampler α n)
    (schedules : ℕ → List ℕ) (x : Fin n → α) : Option ((Fin n → α) × α × ℕ × Bool) :=
  o.loop f sample (threadCount o.threads avail) schedules o.maxIters 0 x (fun _ => 0) 0 (f x)

end Verif.Opt
