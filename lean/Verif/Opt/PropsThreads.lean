import Verif.Opt.Threads
import Verif.Opt.PropsSGD

/-!
# C185, C186: reproducibility of the parallel optimiser

Under every schedule, in every arithmetic, with samplers that may panic.
-/

namespace Verif.Opt

set_option linter.unusedSectionVars false

variable {n : ℕ} {α : Type} [Zero α] [One α] [Add α] [Neg α] [Sub α] [Mul α] [Div α] [LE α] [LT α] [DecidableLE α]
  [DecidableLT α] [HasSqrt α]

/-! ## Specification -/

/-- What `j` calls of the sampler, one after the other with the generator `r`, add up to (starting from zero, in the
order of the calls), and the generator after them; `none` if one of them panics. -/
def added (sample : Sampler α n) (x : Fin n → α) (r : Rand.Gen) : ℕ → Option ((Fin n → α) × Rand.Gen)
  | 0 => some (fun _ => 0, r)
  | j + 1 => do
    let (acc, r) ← added sample x r j
    let (g, r) ← sample x r
    some (fun i => acc i + g i, r)

/-- Worker `t` of `tUsed` for a batch of `bs` has these many samples to draw. -/
def share (bs tUsed t : ℕ) : ℕ := bs * (t + 1) / tUsed - bs * t / tUsed

/-- The batch gradient computed without threads: the shares one after the other, each with its own generator, added in
order, times the reciprocal of the size of the batch. -/
def serialBatch (fromU32 : ℕ → α) (sample : Sampler α n) (bs tUsed : ℕ) (seed : ℕ → BitVec 64) (x : Fin n → α) :
    Option (Fin n → α) :=
  ((List.range tUsed).mapM fun t => (added sample x (Rand.Gen.new (seed t)) (share bs tUsed t)).map Prod.fst).map
    fun parts i => parts.foldl (fun s p => s + p i) 0 * (fromU32 1 / fromU32 bs)

/-! ## Proof -/

/-- The worker after `j` passes, seen from `added`. -/
def after (left : ℕ) : Option ((Fin n → α) × Rand.Gen) → Thread α n
  | none => .panicked
  | some (acc, r) => .running left acc r

theorem step_panicked (sample : Sampler α n) (x : Fin n → α) : Thread.step sample x .panicked = .panicked := rfl

theorem steps_after (sample : Sampler α n) (x : Fin n → α) (r : Rand.Gen) (c : ℕ) : ∀ j, j ≤ c →
    (Thread.step sample x)^[j] (.running c (fun _ => 0) r) = after (c - j) (added sample x r j)
  | 0, _ => rfl
  | j + 1, h => by
    rw [Function.iterate_succ_apply', steps_after sample x r c j (by omega), added]
    obtain ⟨l, hl⟩ : ∃ l, c - j = l + 1 := ⟨c - j - 1, by omega⟩
    rw [hl, show c - (j + 1) = l by omega]
    rcases added sample x r j with _ | ⟨acc, r'⟩
    · rfl
    · show Thread.step sample x (.running (l + 1) acc r') = _
      unfold Thread.step
      dsimp only
      rcases hs : sample x r' with _ | ⟨g, r''⟩ <;> simp [hs, after]

theorem steps_done (sample : Sampler α n) (x : Fin n → α) (r : Rand.Gen) (c j : ℕ) (h : c ≤ j) :
    (Thread.step sample x)^[j] (.running c (fun _ => 0) r) = after 0 (added sample x r c) := by
  obtain ⟨d, rfl⟩ := Nat.exists_eq_add_of_le h
  rw [Nat.add_comm, Function.iterate_add_apply, steps_after sample x r c c le_rfl, Nat.sub_self]
  apply Function.iterate_fixed
  rcases added sample x r c with _ | ⟨acc, r'⟩ <;> rfl

theorem runThreads_apply (sample : Sampler α n) (x : Fin n → α) :
    ∀ (sched : List ℕ) (ws : ℕ → Thread α n) (t : ℕ),
      runThreads sample x sched ws t = (Thread.step sample x)^[sched.count t] (ws t)
  | [], ws, t => rfl
  | s :: sched, ws, t => by
    unfold runThreads
    rw [runThreads_apply sample x sched]
    by_cases h : t = s
    · subst h
      rw [Function.update_self, List.count_cons_self, Function.iterate_succ_apply]
    · rw [Function.update_of_ne h, List.count_cons_of_ne (fun e => h e.symm)]

theorem join_eq (ws : ℕ → Thread α n) (a : ℕ → Option ((Fin n → α) × Rand.Gen)) : ∀ ts : List ℕ,
    (∀ t ∈ ts, ws t = after 0 (a t)) →
    joinThreads ws ts = (ts.mapM fun t => (a t).map Prod.fst).map fun parts => parts.zip ts
  | [], _ => rfl
  | t :: ts, h => by
    rw [joinThreads, h t (by simp), List.mapM_cons, join_eq ws a ts (fun u hu => h u (by simp [hu]))]
    rcases a t with _ | ⟨acc, r⟩
    · rfl
    · simp only [after, Option.map_some, Option.bind_eq_bind, Option.bind_some, Option.pure_def]
      rcases List.mapM (fun t => (a t).map Prod.fst) ts with _ | ps <;> rfl

theorem foldl_zip (c : ℕ → ℕ) : ∀ (ts : List ℕ) (parts : List (Fin n → α)), parts.length = ts.length →
    ∀ (s : (Fin n → α) × ℕ),
    (parts.zip ts).foldl (fun (s : (Fin n → α) × ℕ) p => (fun i => s.1 i + p.1 i, s.2 + c p.2)) s
      = (fun i => parts.foldl (fun s p => s + p i) (s.1 i), s.2 + (ts.map c).sum)
  | [], [], _, s => by simp
  | t :: ts, p :: ps, h, s => by
    rw [List.zip_cons_cons, List.foldl_cons, foldl_zip c ts ps (by simpa using h)]
    simp [Nat.add_assoc]

theorem mapM_length {β γ : Type} (g : β → Option γ) : ∀ (l : List β) (r : List γ), l.mapM g = some r → r.length = l.length
  | [], r, h => by simp_all
  | a :: l, r, h => by
    rw [List.mapM_cons] at h
    rcases hg : g a with _ | b
    · simp [hg] at h
    · rcases hl : l.mapM g with _ | r'
      · simp [hg, hl] at h
      · simp [hg, hl] at h
        subst h
        simp [mapM_length g l r' hl]

theorem shares_sum (bs tUsed : ℕ) (h : 0 < tUsed) : ((List.range tUsed).map (share bs tUsed)).sum = bs := by
  have : ∀ m, ((List.range m).map (share bs tUsed)).sum = bs * m / tUsed := by
    intro m
    induction m with
    | zero => simp
    | succ m ih =>
      rw [List.range_succ, List.map_append, List.sum_append, ih, List.map_singleton, List.sum_singleton, share]
      have := Nat.div_le_div_right (c := tUsed) (Nat.mul_le_mul_left bs (Nat.le_succ m))
      simp only [Nat.succ_eq_add_one] at this
      omega
  rw [this, Nat.mul_div_cancel _ h]

/-! ## C185 -/

/-- C185. Whatever the arithmetic does and wherever the sampler may panic: under every schedule that lets the workers
finish, the batch gradient is the one computed without threads. So no schedule changes a bit of it, a panic of a worker
reaches the caller under every schedule, and no partial sum is used after a panic. -/
theorem C185_schedule (fromU32 : ℕ → α) (sample : Sampler α n) (batchSize threads : ℕ) (seed : BitVec 64)
    (sched : List ℕ) (k : ℕ) (x : Fin n → α) (bs tUsed : ℕ) (hbs : bs = max batchSize 1) (ht : 0 < threads)
    (htu : tUsed = min threads bs) (hc : ∀ t < tUsed, share bs tUsed t ≤ sched.count t) :
    threadBatch fromU32 sample batchSize threads seed sched k x =
      serialBatch fromU32 sample bs tUsed (fun t => threadSeed seed (BitVec.ofNat 64 k) (BitVec.ofNat 64 t)) x := by
  have hpos : 0 < tUsed := by omega
  unfold threadBatch serialBatch
  dsimp only
  rw [← hbs, ← htu, join_eq _ (fun t => added sample x
    (Rand.Gen.new (threadSeed seed (BitVec.ofNat 64 k) (BitVec.ofNat 64 t))) (share bs tUsed t))]
  · rw [Option.map_map]
    rcases hm : List.mapM (fun t => (added sample x
      (Rand.Gen.new (threadSeed seed (BitVec.ofNat 64 k) (BitVec.ofNat 64 t))) (share bs tUsed t)).map Prod.fst)
      (List.range tUsed) with _ | parts
    · rfl
    · have hl := mapM_length _ _ _ hm
      simp only [Option.map_some, Function.comp_apply, reduceThreads]
      rw [show (fun (s : (Fin n → α) × ℕ) (p : (Fin n → α) × ℕ) =>
          ((fun i => s.1 i + p.1 i : Fin n → α), s.2 + (workerEnd bs tUsed p.2 - workerStart bs tUsed p.2)))
          = fun s p => (fun i => s.1 i + p.1 i, s.2 + share bs tUsed p.2) from rfl,
        foldl_zip (share bs tUsed) _ _ hl, shares_sum bs tUsed hpos]
      simp
  · intro t htm
    rw [runThreads_apply, Thread.spawn]
    exact steps_done sample x _ _ _ (hc t (List.mem_range.1 htm))

/-- C185. The whole run, bit for bit: two runs with the same settings, the same seed and the same number of threads give
the same result, or both panic, whatever the schedules of the workers. -/
theorem C185_reproducible (o : Par α n) (avail₁ avail₂ : Option ℕ) (f : (Fin n → α) → α) (sample : Sampler α n)
    (s₁ s₂ : ℕ → List ℕ) (x : Fin n → α) (hT : threadCount o.threads avail₁ = threadCount o.threads avail₂)
    (bs tUsed : ℕ) (hbs : bs = max o.batchSize 1) (htu : tUsed = min (threadCount o.threads avail₁) bs)
    (h₁ : ∀ k, ∀ t < tUsed, share bs tUsed t ≤ (s₁ k).count t)
    (h₂ : ∀ k, ∀ t < tUsed, share bs tUsed t ≤ (s₂ k).count t) :
    o.minimize avail₁ f sample s₁ x = o.minimize avail₂ f sample s₂ x := by
  have hpos : 0 < threadCount o.threads avail₁ := by unfold threadCount; omega
  unfold Par.minimize
  rw [← hT]
  generalize hm : o.maxIters = m
  have : ∀ m k x v ema fx, o.loop f sample (threadCount o.threads avail₁) s₁ m k x v ema fx
      = o.loop f sample (threadCount o.threads avail₁) s₂ m k x v ema fx := by
    intro m
    induction m with
    | zero => intros; rfl
    | succ m ih =>
      intro k x v ema fx
      simp only [Par.loop]
      rw [C185_schedule o.fromU32 sample o.batchSize _ o.seed (s₁ k) k x bs tUsed hbs hpos htu (h₁ k),
        C185_schedule o.fromU32 sample o.batchSize _ o.seed (s₂ k) k x bs tUsed hbs hpos htu (h₂ k)]
      simp only [ih]
  exact this m 0 x _ _ _

/-- C185. The batch panics exactly if one of the calls of the sampler does: some worker comes to a call, all its earlier
calls having returned, and that call panics. -/
theorem C185_panics (fromU32 : ℕ → α) (sample : Sampler α n) (batchSize threads : ℕ) (seed : BitVec 64)
    (sched : List ℕ) (k : ℕ) (x : Fin n → α) (bs tUsed : ℕ) (hbs : bs = max batchSize 1) (ht : 0 < threads)
    (htu : tUsed = min threads bs) (hc : ∀ t < tUsed, share bs tUsed t ≤ sched.count t) :
    threadBatch fromU32 sample batchSize threads seed sched k x = none ↔
      ∃ t < tUsed, ∃ j < share bs tUsed t, ∃ acc r, added sample x
        (Rand.Gen.new (threadSeed seed (BitVec.ofNat 64 k) (BitVec.ofNat 64 t))) j = some (acc, r) ∧ sample x r = none := by
  rw [C185_schedule fromU32 sample batchSize threads seed sched k x bs tUsed hbs ht htu hc, serialBatch,
    Option.map_eq_none_iff]
  have mapM_none : ∀ (g : ℕ → Option (Fin n → α)) (l : List ℕ), l.mapM g = none ↔ ∃ t ∈ l, g t = none := by
    intro g l
    induction l with
    | nil => simp
    | cons a l ih =>
      rw [List.mapM_cons]
      rcases hg : g a with _ | b
      · simp [hg]
      · rcases hl : l.mapM g with _ | r'
        · simp [hg, hl, ← ih]
        · simp only [hl, reduceCtorEq, false_iff, not_exists, not_and] at ih
          simp [hg]
          exact fun u hu => ih u hu
  have added_none : ∀ r c, added sample x r c = none ↔
      ∃ j < c, ∃ acc r', added sample x r j = some (acc, r') ∧ sample x r' = none := by
    intro r c
    induction c with
    | zero => simp [added]
    | succ c ih =>
      rw [added]
      rcases ha : added sample x r c with _ | ⟨acc, r'⟩
      · rw [ha] at ih
        obtain ⟨j, hj, h⟩ := ih.1 rfl
        simp only [Option.bind_eq_bind, Option.bind_none, true_iff]
        exact ⟨j, by omega, h⟩
      · rw [ha] at ih
        simp only [reduceCtorEq, false_iff] at ih
        rcases hs : sample x r' with _ | ⟨g, r''⟩
        · simp only [Option.bind_eq_bind, Option.bind_some, hs, Option.bind_none, true_iff]
          exact ⟨c, by omega, acc, r', ha, hs⟩
        · simp only [Option.bind_eq_bind, Option.bind_some, hs, reduceCtorEq, false_iff]
          rintro ⟨j, hj, a', q, h1, h2⟩
          rcases Nat.lt_succ_iff_lt_or_eq.1 hj with h | rfl
          · exact ih ⟨j, h, a', q, h1, h2⟩
          · rw [ha] at h1
            cases h1
            rw [hs] at h2
            cases h2
  rw [mapM_none]
  simp only [List.mem_range, Option.map_eq_none_iff, added_none]

/-- C186. With a configured number of threads two machines give the same result, or both panic, whatever the number of
threads they offer and whatever the schedules. -/
theorem C186_configured_partial (o : Par α n) (t : ℕ) (ho : o.threads = some t) (avail₁ avail₂ : Option ℕ)
    (f : (Fin n → α) → α) (sample : Sampler α n) (s₁ s₂ : ℕ → List ℕ) (x : Fin n → α)
    (bs tUsed : ℕ) (hbs : bs = max o.batchSize 1) (htu : tUsed = min (max t 1) bs)
    (h₁ : ∀ k, ∀ t < tUsed, share bs tUsed t ≤ (s₁ k).count t)
    (h₂ : ∀ k, ∀ t < tUsed, share bs tUsed t ≤ (s₂ k).count t) :
    o.minimize avail₁ f sample s₁ x = o.minimize avail₂ f sample s₂ x := by
  have e : ∀ a, threadCount o.threads a = max t 1 := fun a => by rw [ho]; rfl
  exact C185_reproducible o avail₁ avail₂ f sample s₁ s₂ x (by rw [e, e]) bs tUsed hbs (by rw [e, htu]) h₁ h₂

/-- Three workers on a batch of five, interleaved. -/
example : ∀ t < 3, share 5 3 t ≤ [2, 1, 0, 2, 1, 0].count t := by decide

/-- A sampler that draws a bit from the generator: one if the top bit of the next draw is set, else zero. -/
noncomputable def bitSampler : Sampler ℝ 1 := fun _ r => some (fun _ => if r.nextU64.1.msb then 1 else 0, r.nextU64.2)

/-- C186. With the same seed the batch gradient depends on the number of threads. -/
theorem C186_threads_fails :
    threadBatch (fun k => (k : ℝ)) bitSampler 2 1 7#64 [0, 0] 0 (fun _ => 0) = some (fun _ => 1) ∧
    threadBatch (fun k => (k : ℝ)) bitSampler 2 2 7#64 [0, 1] 0 (fun _ => 0) = some (fun _ => 1 / 2) := by
  have b1 : (Rand.Gen.new (threadSeed 7#64 (BitVec.ofNat 64 0) (BitVec.ofNat 64 0))).nextU64.1.msb = true := by decide
  have b2 : (Rand.Gen.new (threadSeed 7#64 (BitVec.ofNat 64 0) (BitVec.ofNat 64 0))).nextU64.2.nextU64.1.msb = true := by
    decide
  have b3 : (Rand.Gen.new (threadSeed 7#64 (BitVec.ofNat 64 0) (BitVec.ofNat 64 1))).nextU64.1.msb = false := by decide
  constructor
  · rw [C185_schedule _ _ 2 1 7#64 [0, 0] 0 _ 2 1 (by decide) (by decide) (by decide) (by decide)]
    simp only [serialBatch, show List.range 1 = [0] from rfl, show share 2 1 0 = 2 from rfl, List.mapM_cons, List.mapM_nil,
      added, bitSampler, b1, b2, Option.bind_eq_bind, Option.bind_some, Option.map_some, Option.pure_def,
      List.foldl_cons, List.foldl_nil]
    norm_num
  · rw [C185_schedule _ _ 2 2 7#64 [0, 1] 0 _ 2 2 (by decide) (by decide) (by decide) (by decide)]
    simp only [serialBatch, show List.range 2 = [0, 1] from rfl, show share 2 2 0 = 1 from rfl,
      show share 2 2 1 = 1 from rfl, List.mapM_cons, List.mapM_nil,
      added, bitSampler, b1, b3, Option.bind_eq_bind, Option.bind_some, Option.map_some, Option.pure_def,
      List.foldl_cons, List.foldl_nil]
    norm_num

/-- C186. A new optimiser with seed 7, set to batches of two and a single iteration, gives one point on a machine that
offers one thread and another on a machine that offers two. -/
theorem C186_machine_fails :
    let o : Par ℝ 1 := { Par.new 1 7#64 with batchSize := 2, maxIters := 1 }
    o.minimize (some 1) (fun _ => 0) bitSampler (fun _ => [0, 0]) (fun _ => 0) = some (fun _ => -0.01, 0, 1, false) ∧
    o.minimize (some 2) (fun _ => 0) bitSampler (fun _ => [0, 1]) (fun _ => 0) = some (fun _ => -0.005, 0, 1, false) := by
  have e : emaExponent 0 = some 1 := by decide
  have hn : ∀ a : ℝ, 0 ≤ a → norm2 (fun _ : Fin 1 => a) = a := by
    intro a ha
    rw [norm2_eq]
    simp [len, Real.sqrt_sq ha]
  have hn' : ∀ a : ℝ, 0 ≤ a → norm2 (fun _ : Fin 1 => -a) = a := by
    intro a ha
    rw [norm2_eq]
    simp [len, Real.sqrt_sq ha]
  constructor
  · simp only [Par.minimize, Par.loop, Par.new, threadCount, Option.getD_none, Option.getD_some]
    rw [show max 1 1 = 1 from rfl, C186_threads_fails.1]
    simp only [Option.bind_eq_bind, Option.bind_some, e, hn 1 zero_le_one, projectBox, Bool.false_eq_true, if_false]
    rw [if_neg (by norm_num), show (fun i : Fin 1 => (0 : ℝ) + 1e-2 / (1 + 1e-3 * ((0 : ℕ) : ℝ)) * (-1 + 0 * 0) - 0)
      = fun _ => -(0.01 : ℝ) from by funext; norm_num, hn' _ (by norm_num), if_neg (by norm_num)]
    norm_num
  · simp only [Par.minimize, Par.loop, Par.new, threadCount, Option.getD_none, Option.getD_some]
    rw [show max 2 1 = 2 from rfl, C186_threads_fails.2]
    simp only [Option.bind_eq_bind, Option.bind_some, e, hn (1 / 2) (by norm_num), projectBox, Bool.false_eq_true, if_false]
    rw [if_neg (by norm_num), show (fun i : Fin 1 => (0 : ℝ) + 1e-2 / (1 + 1e-3 * ((0 : ℕ) : ℝ)) * (-(1 / 2) + 0 * 0) - 0)
      = fun _ => -(0.005 : ℝ) from by funext; norm_num, hn' _ (by norm_num), if_neg (by norm_num)]
    norm_num

/-- A sampler that panics on a set bit. -/
example : ∃ sample : Sampler ℝ 1, ∀ x r, sample x r = none ↔ r.nextU64.1.msb :=
  ⟨fun _ r => if r.nextU64.1.msb then none else some (fun _ => 0, r.nextU64.2), fun x r => by
    by_cases h : r.nextU64.1.msb <;> simp [h]⟩

end Verif.Opt
