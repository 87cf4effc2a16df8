import Verif.Opt.PropsBox

/-!
# Minimisation with momentum (C151, C152)

Fixed step length `lr`, momentum `o.momentum`; the displacement of the last iteration enters the next one with the factor `lr * momentum`
(C78).
-/

namespace Verif.Opt

variable {n : ℕ}

theorem project_feasible (o : GD ℝ n) {x : Fin n → ℝ} (hx : Feasible o x) (y : Fin n → ℝ) : Feasible o (o.project y) := fun hb =>
  (C41_project o y hb fun i => (hx hb i).1.trans (hx hb i).2).1

/-- One step lowers the energy: the value plus a multiple of the squared displacement. -/
theorem step_energy {o : GD ℝ n} {f : (Fin n → ℝ) → ℝ} {g : (Fin n → ℝ) → Fin n → ℝ} {L : ℝ}
    (hup : ∀ x d : Fin n → ℝ, f (fun i => x i + d i) ≤ f x + inner (g x) d + L / 2 * inner d d)
    (hb : o.useBacktracking = false) (hlr : 0 < o.lr) (hmu : 0 ≤ o.momentum) {x v x' : Fin n → ℝ} (hx : Feasible o x)
    (h : StepOK o f x v (g x) x') :
    f x' + o.momentum / 2 * inner (x' - x) (x' - x) + (1 / o.lr - o.momentum - L / 2) * inner (x' - x) (x' - x) ≤
      f x + o.momentum / 2 * inner v v := by
  have e := h.fixed hb
  have h1 := hup x (x' - x)
  rw [show (fun i => x i + (x' - x) i) = x' from funext fun i => by simp] at h1
  have h2 : ∑ i, (x i + o.lr * (-g x i + o.momentum * v i) - x' i) * (x i - x' i) ≤ 0 := by
    have := project_obtuse o hx (fun i => x i + o.lr * (-g x i + o.momentum * v i))
    rw [← e] at this
    exact this
  have h3 : ∑ i, (x i + o.lr * (-g x i + o.momentum * v i) - x' i) * (x i - x' i) =
      inner (x' - x) (x' - x) + o.lr * inner (g x) (x' - x) - o.lr * o.momentum * inner v (x' - x) := by
    unfold inner
    rw [Finset.mul_sum, Finset.mul_sum, ← Finset.sum_add_distrib, ← Finset.sum_sub_distrib]
    exact Finset.sum_congr rfl fun i _ => by simp only [Pi.sub_apply]; ring
  have h4 : 2 * inner v (x' - x) ≤ inner v v + inner (x' - x) (x' - x) := by
    unfold inner
    rw [Finset.mul_sum, ← Finset.sum_add_distrib]
    exact Finset.sum_le_sum fun i _ => by nlinarith [sq_nonneg (v i - (x' - x) i)]
  rw [h3] at h2
  have h5 : inner (g x) (x' - x) ≤ o.momentum * inner v (x' - x) - 1 / o.lr * inner (x' - x) (x' - x) := by
    have := mul_le_mul_of_nonneg_left h2 (show 0 ≤ 1 / o.lr by positivity)
    have e : 1 / o.lr * (inner (x' - x) (x' - x) + o.lr * inner (g x) (x' - x) - o.lr * o.momentum * inner v (x' - x)) =
        1 / o.lr * inner (x' - x) (x' - x) + inner (g x) (x' - x) - o.momentum * inner v (x' - x) := by field_simp
    rw [e, mul_zero] at this
    linarith
  have h6 := mul_le_mul_of_nonneg_left h4 hmu
  linarith

/-- Energies along a run. -/
theorem run_energy {o : GD ℝ n} {f : (Fin n → ℝ) → ℝ} {g : (Fin n → ℝ) → Fin n → ℝ} {L : ℝ}
    (hup : ∀ x d : Fin n → ℝ, f (fun i => x i + d i) ≤ f x + inner (g x) d + L / 2 * inner d d)
    (hb : o.useBacktracking = false) (hlr : 0 < o.lr) (hmu : 0 ≤ o.momentum) {δ : ℝ} (hδ : δ = 1 / o.lr - o.momentum - L / 2)
    {x0 : Fin n → ℝ} (hx0 : Feasible o x0) {xs : ℕ → Fin n → ℝ} (hx0' : xs 0 = x0) {K : ℕ}
    (hst : ∀ k < K, o.tolGrad < len (g (xs k)) ∧
        StepOK o f (xs k) (if k = 0 then fun _ => 0 else fun i => xs k i - xs (k - 1) i) (g (xs k)) (xs (k + 1))) :
    ∀ k ≤ K, Feasible o (xs k) ∧
      f (xs k) + (if k = 0 then 0 else o.momentum / 2 * inner (xs k - xs (k - 1)) (xs k - xs (k - 1))) +
        δ * ∑ j ∈ Finset.range k, inner (xs (j + 1) - xs j) (xs (j + 1) - xs j) ≤ f x0 := by
  intro k
  induction k with
  | zero => intro _; rw [hx0']; exact ⟨hx0, by simp⟩
  | succ k ih =>
    intro hk
    obtain ⟨h1, h2⟩ := ih (by omega)
    have hok := (hst k (by omega)).2
    have h3 := step_energy hup hb hlr hmu h1 hok
    refine ⟨?_, ?_⟩
    · rw [hok.fixed hb]
      exact project_feasible o h1 _
    · rw [if_neg (by omega), Finset.sum_range_succ, mul_add, Nat.add_sub_cancel, hδ]
      rw [hδ] at h2
      have h4 : o.momentum / 2 * inner (if k = 0 then fun _ => 0 else fun i => xs k i - xs (k - 1) i)
          (if k = 0 then fun _ => 0 else fun i => xs k i - xs (k - 1) i) =
          (if k = 0 then 0 else o.momentum / 2 * inner (xs k - xs (k - 1)) (xs k - xs (k - 1))) := by
        by_cases e : k = 0
        · rw [if_pos e, if_pos e]; simp [inner]
        · rw [if_neg e, if_neg e]; rfl
      rw [h4] at h3
      linarith

/-- C151. With a fixed step length and momentum, and bounds or none: for an objective of curvature at most `L`, convex or not, that is at
least `m` within the bounds, a run that starts within the bounds reports convergence if the iteration limit is large enough, after a number
of iterations bounded in terms of the step tolerance, and at a value no larger than the first one. -/
theorem C151_converges (o : GD ℝ n) (f : (Fin n → ℝ) → ℝ) (g : (Fin n → ℝ) → Fin n → ℝ) (L m : ℝ)
    (hup : ∀ x d : Fin n → ℝ, f (fun i => x i + d i) ≤ f x + inner (g x) d + L / 2 * inner d d) (hm : ∀ x, Feasible o x → m ≤ f x)
    (hb : o.useBacktracking = false) (hlr : 0 < o.lr) (hmu : 0 ≤ o.momentum) (δ : ℝ) (hδ : δ = 1 / o.lr - o.momentum - L / 2) (hδ0 : 0 < δ)
    (hts : 0 < o.tolStep) (fuel : ℕ) (x0 x : Fin n → ℝ) (hx0 : Feasible o x0) (hmax : (f x0 - m) / (δ * o.tolStep ^ 2) < o.maxIters)
    (fx : ℝ) (K : ℕ) (c : Bool) (h : o.minimize f g fuel x0 = some (x, fx, K, c)) :
    c = true ∧ (K : ℝ) ≤ (f x0 - m) / (δ * o.tolStep ^ 2) + 1 ∧ fx ≤ f x0 ∧ Feasible o x := by
  obtain ⟨hfx, hKm, xs, hx0', hxK, hst, hss, hct, hcf⟩ := C40_run o f g fuel x0 x fx K c h
  have key := run_energy hup hb hlr hmu hδ hx0 hx0' hst
  obtain ⟨hfK, hEK⟩ := key K le_rfl
  rw [hxK] at hfK hEK
  have hnn : 0 ≤ (if K = 0 then 0 else o.momentum / 2 * inner (x - xs (K - 1)) (x - xs (K - 1))) := by
    split_ifs
    · exact le_rfl
    · exact mul_nonneg (by linarith) (inner_self_nonneg _)
  have hS0 : 0 ≤ ∑ j ∈ Finset.range K, inner (xs (j + 1) - xs j) (xs (j + 1) - xs j) := Finset.sum_nonneg fun j _ => inner_self_nonneg _
  have hmx := hm x hfK
  have hpos : 0 < δ * o.tolStep ^ 2 := by positivity
  -- long steps are few
  have few : ∀ M ≤ K, (∀ j < M, o.tolStep < len (fun i => xs (j + 1) i - xs j i)) → (M : ℝ) ≤ (f x0 - m) / (δ * o.tolStep ^ 2) := by
    intro M hM hlong
    rw [le_div_iff₀ hpos]
    have h1 : (M : ℝ) * o.tolStep ^ 2 ≤ ∑ j ∈ Finset.range M, inner (xs (j + 1) - xs j) (xs (j + 1) - xs j) := by
      rw [← nsmul_eq_mul, ← Finset.card_range M, ← Finset.sum_const, Finset.card_range]
      refine Finset.sum_le_sum fun j hj => ?_
      have := hlong j (Finset.mem_range.1 hj)
      rw [← len_mul_self]
      exact pow_le_pow_left₀ hts.le this.le 2
    have h2 : ∑ j ∈ Finset.range M, inner (xs (j + 1) - xs j) (xs (j + 1) - xs j) ≤ ∑ j ∈ Finset.range K, inner (xs (j + 1) - xs j) (xs (j + 1) - xs j) :=
      Finset.sum_le_sum_of_subset_of_nonneg (Finset.range_mono hM) fun j _ _ => inner_self_nonneg _
    have h3 := mul_le_mul_of_nonneg_left (h1.trans h2) hδ0.le
    linarith
  have hδS := mul_nonneg hδ0.le hS0
  refine ⟨?_, ?_, by rw [hfx]; linarith, hfK⟩
  · by_contra hc
    obtain ⟨hK, hlast⟩ := hcf (by simpa using hc)
    have := few K le_rfl fun j hj => by
      by_cases e : j + 1 < K
      · exact hss j e
      · have e : j = K - 1 := by omega
        subst e
        have := hlast (by omega)
        rwa [show K - 1 + 1 = K by omega]
    rw [hK] at this
    linarith
  · cases K with
    | zero =>
      have := few 0 le_rfl (by simp)
      push_cast at this ⊢
      linarith
    | succ K =>
      have := few K (by omega) fun j hj => hss j (by omega)
      push_cast
      linarith

-- A run on `x²` from one, with momentum one half and rate one half.
example (fuel : ℕ) (x : Fin 1 → ℝ) (fx : ℝ) (K : ℕ) (c : Bool)
    (h : { (GD.new 1 : GD ℝ 1) with useBacktracking := false, lr := 1 / 2, momentum := 1 / 2, tolStep := 1 / 100, maxIters := 30000 }.minimize
      (fun x => x 0 ^ 2) (fun x _ => 2 * x 0) fuel (fun _ => 1) = some (x, fx, K, c)) : c = true ∧ fx ≤ 1 := by
  obtain ⟨h1, _, h3, _⟩ := C151_converges _ (fun x : Fin 1 → ℝ => x 0 ^ 2) (fun x _ => 2 * x 0) 2 0
    (fun x d => by simp only [inner, Fin.sum_univ_one]; nlinarith) (fun x _ => sq_nonneg _) rfl (by norm_num) (by norm_num) (1 / 2)
    (by norm_num) (by norm_num) (by norm_num) fuel (fun _ => 1) x (fun hb => by simp [GD.new] at hb) (by norm_num) fx K c h
  exact ⟨h1, by simpa using h3⟩

/-- C152, the part that holds: a run that reports convergence stops at a point with a small gradient, or within `tolStep` of a point whose
gradient is at most `tolStep / lr + momentum √((f x₀ - m) / δ)`. Missing: a bound that vanishes with the tolerances; there is none. -/
theorem C152_gradient_partial (o : GD ℝ n) (f : (Fin n → ℝ) → ℝ) (g : (Fin n → ℝ) → Fin n → ℝ) (L m : ℝ)
    (hup : ∀ x d : Fin n → ℝ, f (fun i => x i + d i) ≤ f x + inner (g x) d + L / 2 * inner d d) (hm : ∀ x, m ≤ f x)
    (hb : o.useBacktracking = false) (hbox : o.hasBounds = false) (hlr : 0 < o.lr) (hmu : 0 ≤ o.momentum)
    (δ : ℝ) (hδ : δ = 1 / o.lr - o.momentum - L / 2) (hδ0 : 0 < δ) (fuel : ℕ) (x0 x : Fin n → ℝ) (fx : ℝ) (K : ℕ)
    (h : o.minimize f g fuel x0 = some (x, fx, K, true)) :
    len (g x) ≤ o.tolGrad ∨ ∃ y, len (x - y) ≤ o.tolStep ∧ len (g y) ≤ o.tolStep / o.lr + o.momentum * √((f x0 - m) / δ) := by
  obtain ⟨hfx, hKm, xs, hx0', hxK, hst, hss, hct, hcf⟩ := C40_run o f g fuel x0 x fx K true h
  have key := run_energy hup hb hlr hmu hδ (fun hb => by rw [hbox] at hb; cases hb) hx0' hst
  rcases hct rfl with h1 | ⟨hK, h1⟩
  · exact Or.inl h1
  · right
    have hok := (hst (K - 1) (by omega)).2
    rw [show K - 1 + 1 = K by omega] at hok
    set v : Fin n → ℝ := if K - 1 = 0 then fun _ => 0 else fun i => xs (K - 1) i - xs (K - 1 - 1) i with hv
    have e := hok.fixed hb
    rw [project_free o hbox] at e
    rw [hxK] at e h1
    refine ⟨xs (K - 1), h1, ?_⟩
    have hg : g (xs (K - 1)) = (-(1 / o.lr)) • (x - xs (K - 1)) + o.momentum • v := by
      funext i
      rw [e]
      simp only [Pi.add_apply, Pi.smul_apply, Pi.sub_apply, smul_eq_mul]
      field_simp
      ring
    have hsm : ∀ (a : ℝ) (u : Fin n → ℝ), len (a • u) = |a| * len u := fun a u => by
      unfold len
      simp only [Pi.smul_apply, smul_eq_mul, mul_pow]
      rw [← Finset.mul_sum, Real.sqrt_mul (sq_nonneg a), Real.sqrt_sq_eq_abs]
    have hvl : len v ≤ √((f x0 - m) / δ) := by
      apply Real.le_sqrt_of_sq_le
      rw [len_mul_self, le_div_iff₀ hδ0, hv]
      by_cases e0 : K - 1 = 0
      · rw [if_pos e0]
        have := hm x0
        simp [inner]
        linarith
      · rw [if_neg e0]
        obtain ⟨-, h2⟩ := key (K - 1) (by omega)
        rw [if_neg e0] at h2
        have h3 := hm (xs (K - 1))
        have h4 : 0 ≤ o.momentum / 2 * inner (xs (K - 1) - xs (K - 1 - 1)) (xs (K - 1) - xs (K - 1 - 1)) :=
          mul_nonneg (by linarith) (inner_self_nonneg _)
        have h5 : inner (xs (K - 1 - 1 + 1) - xs (K - 1 - 1)) (xs (K - 1 - 1 + 1) - xs (K - 1 - 1)) ≤
            ∑ j ∈ Finset.range (K - 1), inner (xs (j + 1) - xs j) (xs (j + 1) - xs j) :=
          Finset.single_le_sum (f := fun j => inner (xs (j + 1) - xs j) (xs (j + 1) - xs j)) (fun j _ => inner_self_nonneg _)
            (Finset.mem_range.2 (by omega))
        rw [show K - 1 - 1 + 1 = K - 1 by omega] at h5
        have h6 := mul_le_mul_of_nonneg_left h5 hδ0.le
        change inner (xs (K - 1) - xs (K - 1 - 1)) (xs (K - 1) - xs (K - 1 - 1)) * δ ≤ _
        linarith
    rw [hg]
    refine (len_add _ _).trans ?_
    rw [hsm, hsm, abs_neg, abs_of_pos (show 0 < 1 / o.lr by positivity), abs_of_nonneg hmu]
    have h7 := mul_le_mul_of_nonneg_left h1 (show 0 ≤ 1 / o.lr by positivity)
    have e2 : 1 / o.lr * o.tolStep = o.tolStep / o.lr := by ring
    rw [e2] at h7
    exact add_le_add h7 (mul_le_mul_of_nonneg_left hvl hmu)

/-- C152 fails: on `x² / 2` from one, with rate `4/3` and momentum `1/4`, the second step ends where it began, on the slope at the far side
of the minimum. The run reports convergence at `-1/3`, where the gradient is `-1/3`, however small the tolerances are. -/
theorem C152_fails (tg ts : ℝ) (_htg : 0 ≤ tg) (htg2 : tg < 1 / 3) (hts : 0 ≤ ts) (hts2 : ts < 4 / 3) (fuel : ℕ) :
    { (GD.new 1 : GD ℝ 1) with useBacktracking := false, lr := 4 / 3, momentum := 1 / 4, tolGrad := tg, tolStep := ts }.minimize
      (fun x : Fin 1 → ℝ => x 0 ^ 2 / 2) (fun x _ => x 0) fuel (fun _ => 1) = some (fun _ => -1 / 3, 1 / 18, 2, true) := by
  have hmax : (GD.new 1 : GD ℝ 1).maxIters = (GD.new 1 : GD ℝ 1).maxIters - 2 + 1 + 1 := by norm_num [GD.new]
  have h1 : ¬ (1 : ℝ) ≤ tg := by linarith
  have h2 : ¬ (1 / 3 : ℝ) ≤ tg := by linarith
  have h3 : ¬ (4 / 3 : ℝ) ≤ ts := by linarith
  have key : ∀ m : ℕ, { (GD.new 1 : GD ℝ 1) with useBacktracking := false, lr := 4 / 3, momentum := 1 / 4, tolGrad := tg, tolStep := ts }.loop
      (fun x : Fin 1 → ℝ => x 0 ^ 2 / 2) (fun x _ => x 0) fuel (m + 1 + 1) 0 (fun _ => 1) (fun _ => 0) (1 ^ 2 / 2) =
      some (fun _ => -1 / 3, 1 / 18, 2, true) := by
    intro m
    have hnb : (GD.new 1 : GD ℝ 1).hasBounds = false := rfl
    simp only [GD.loop, GD.move, norm2_eq, len_one, project_free, hnb]
    norm_num [h1, h2, h3, hts]
  unfold GD.minimize
  dsimp only
  rw [hmax]
  exact key _

end Verif.Opt
