import Verif.Ode.PropsStep
import Mathlib.Analysis.Calculus.ContDiff.Operations
import Mathlib.Analysis.Calculus.IteratedDeriv.Defs
import Mathlib.Analysis.Calculus.MeanValue
import Mathlib.Analysis.Calculus.Deriv.Pow
import Mathlib.Analysis.Calculus.Deriv.Add

/-!
# Lemmas: the local error of the classical Runge–Kutta step on smooth systems

Quantities depending on a time `t` and a step `h` with `0 ≤ t`, `0 ≤ h`, `t + h ≤ T` are compared with powers of the step.
-/

namespace Verif.Ode

variable {V W : Type*} [NormedAddCommGroup V] [NormedSpace ℝ V] [NormedAddCommGroup W] [NormedSpace ℝ W]
variable {T : ℝ} {k l : ℕ}

/-- `φ` is of order `hᵏ`, uniformly in the time. -/
def Ord (T : ℝ) (k : ℕ) (φ : ℝ → ℝ → V) : Prop :=
  ∃ C, 0 ≤ C ∧ ∀ t h, 0 ≤ t → 0 ≤ h → t + h ≤ T → ‖φ t h‖ ≤ C * h ^ k

omit [NormedSpace ℝ V] in
theorem Ord.add {φ ψ : ℝ → ℝ → V} (hφ : Ord T k φ) (hψ : Ord T k ψ) : Ord T k fun t h => φ t h + ψ t h := by
  obtain ⟨C, c0, hC⟩ := hφ
  obtain ⟨D, d0, hD⟩ := hψ
  refine ⟨C + D, add_nonneg c0 d0, fun t h h1 h2 h3 => ?_⟩
  rw [add_mul]
  exact (norm_add_le _ _).trans (add_le_add (hC t h h1 h2 h3) (hD t h h1 h2 h3))

omit [NormedSpace ℝ V] in
theorem Ord.neg {φ : ℝ → ℝ → V} (hφ : Ord T k φ) : Ord T k fun t h => -φ t h := by
  obtain ⟨C, c0, hC⟩ := hφ
  exact ⟨C, c0, fun t h h1 h2 h3 => by rw [norm_neg]; exact hC t h h1 h2 h3⟩

omit [NormedSpace ℝ V] in
theorem Ord.sub {φ ψ : ℝ → ℝ → V} (hφ : Ord T k φ) (hψ : Ord T k ψ) : Ord T k fun t h => φ t h - ψ t h := by
  simp only [sub_eq_add_neg]
  exact hφ.add hψ.neg

omit [NormedSpace ℝ V] in
theorem Ord.mono {φ : ℝ → ℝ → V} (hkl : k ≤ l) (hφ : Ord T l φ) : Ord T k φ := by
  obtain ⟨C, c0, hC⟩ := hφ
  refine ⟨C * |T| ^ (l - k), by positivity, fun t h h1 h2 h3 => (hC t h h1 h2 h3).trans ?_⟩
  have hT : h ≤ |T| := (by linarith : h ≤ T).trans (le_abs_self T)
  calc C * h ^ l = C * h ^ (l - k) * h ^ k := by rw [mul_assoc, ← pow_add, Nat.sub_add_cancel hkl]
    _ ≤ _ := by gcongr

/-- Multiplying by a power of the step. -/
theorem Ord.pow_smul {φ : ℝ → ℝ → V} (c : ℝ) (j : ℕ) (hφ : Ord T k φ) : Ord T (j + k) fun t h => (c * h ^ j) • φ t h := by
  obtain ⟨C, c0, hC⟩ := hφ
  refine ⟨|c| * C, by positivity, fun t h h1 h2 h3 => ?_⟩
  rw [norm_smul, Real.norm_eq_abs, abs_mul, abs_of_nonneg (pow_nonneg h2 j), pow_add]
  calc |c| * h ^ j * ‖φ t h‖ ≤ |c| * h ^ j * (C * h ^ k) := by gcongr; exact hC t h h1 h2 h3
    _ = _ := by ring

/-- Applying linear maps. -/
theorem Ord.apply {A : ℝ → ℝ → V →L[ℝ] W} {φ : ℝ → ℝ → V} (hA : Ord T k A) (hφ : Ord T l φ) :
    Ord T (k + l) fun t h => A t h (φ t h) := by
  obtain ⟨C, c0, hC⟩ := hA
  obtain ⟨D, d0, hD⟩ := hφ
  refine ⟨C * D, by positivity, fun t h h1 h2 h3 => ?_⟩
  calc ‖A t h (φ t h)‖ ≤ ‖A t h‖ * ‖φ t h‖ := (A t h).le_opNorm _
    _ ≤ (C * h ^ k) * (D * h ^ l) := mul_le_mul (hC t h h1 h2 h3) (hD t h h1 h2 h3) (norm_nonneg _) (by positivity)
    _ = _ := by rw [pow_add]; ring

omit [NormedSpace ℝ V] in
theorem Ord.congr {φ ψ : ℝ → ℝ → V} (h : ∀ t s, φ t s = ψ t s) (hφ : Ord T k φ) : Ord T k ψ := by
  have : φ = ψ := by funext t s; exact h t s
  rwa [← this]

omit [NormedSpace ℝ V] in
theorem Ord.congr_on {φ ψ : ℝ → ℝ → V} (h : ∀ t s, 0 ≤ t → 0 ≤ s → t + s ≤ T → φ t s = ψ t s) (hφ : Ord T k φ) : Ord T k ψ := by
  obtain ⟨C, c0, hC⟩ := hφ
  exact ⟨C, c0, fun t s h1 h2 h3 => by rw [← h t s h1 h2 h3]; exact hC t s h1 h2 h3⟩

omit [NormedSpace ℝ V] in
theorem ord_of_le {φ : ℝ → ℝ → V} (C : ℝ) (hC : ∀ t h, 0 ≤ t → 0 ≤ h → t + h ≤ T → ‖φ t h‖ ≤ C * h ^ k) : Ord T k φ :=
  ⟨|C|, abs_nonneg C, fun t h h1 h2 h3 => (hC t h h1 h2 h3).trans (by gcongr; exact le_abs_self C)⟩

/-! ## Taylor's formula -/

section Taylor

variable {G : ℕ → ℝ → V} {D : ℝ}

/-- Integrating a bound. -/
theorem integrate_bound {φ φ' : ℝ → V} {a C : ℝ} (hC : 0 ≤ C) (ha : a ∈ Set.Icc 0 T) (h0 : φ a = 0)
    (hd : ∀ s ∈ Set.Icc 0 T, HasDerivWithinAt φ (φ' s) (Set.Icc 0 T) s) (hb : ∀ s ∈ Set.Icc 0 T, ‖φ' s‖ ≤ C * |s - a| ^ k) {b : ℝ} (hbT : b ∈ Set.Icc 0 T) :
    ‖φ b‖ ≤ C * |b - a| ^ (k + 1) := by
  have sub : Set.uIcc a b ⊆ Set.Icc 0 T := Set.uIcc_subset_Icc ha hbT
  have := (convex_uIcc a b).norm_image_sub_le_of_norm_hasDerivWithin_le (f := φ) (f' := φ') (C := C * |b - a| ^ k)
    (fun s hs => (hd s (sub hs)).mono sub) (fun s hs => (hb s (sub hs)).trans (by
      have : |s - a| ≤ |b - a| := Set.abs_sub_left_of_mem_uIcc hs
      gcongr)) Set.left_mem_uIcc Set.right_mem_uIcc
  rw [h0, sub_zero, Real.norm_eq_abs] at this
  rw [pow_succ, ← mul_assoc]
  exact this

/-- Taylor's formula with a bound on the remainder. -/
theorem taylor_uniform {m : ℕ} (hG : ∀ i < m, ∀ t ∈ Set.Icc 0 T, HasDerivWithinAt (G i) (G (i + 1) t) (Set.Icc 0 T) t) (hD0 : 0 ≤ D)
    (hD : ∀ i ≤ m, ∀ t ∈ Set.Icc 0 T, ‖G i t‖ ≤ D) : ∀ k i, i + k ≤ m → ∀ a ∈ Set.Icc 0 T, ∀ b ∈ Set.Icc 0 T,
    ‖G i b - ∑ j ∈ Finset.range k, ((b - a) ^ j / j.factorial) • G (i + j) a‖ ≤ D * |b - a| ^ k := by
  intro k
  induction k with
  | zero =>
    intro i hi a _ b hb
    simpa using hD i (by omega) b hb
  | succ k ih =>
    intro i hi a ha b hb
    refine integrate_bound (k := k) (φ := fun s => G i s - ∑ j ∈ Finset.range (k + 1), ((s - a) ^ j / j.factorial) • G (i + j) a)
      (φ' := fun s => G (i + 1) s - ∑ j ∈ Finset.range k, ((s - a) ^ j / j.factorial) • G (i + 1 + j) a)
      hD0 ha ?_ ?_ (fun s hs => ih (i + 1) (by omega) a ha s hs) hb
    · rw [Finset.sum_range_succ']
      simp
    · intro s hs
      refine (hG i (by omega) s hs).sub ?_
      have e : ∀ s, ∑ j ∈ Finset.range (k + 1), ((s - a) ^ j / j.factorial) • G (i + j) a =
          (∑ j ∈ Finset.range k, ((s - a) ^ (j + 1) / (j + 1).factorial) • G (i + 1 + j) a) + G i a := by
        intro s
        rw [Finset.sum_range_succ']
        simp only [pow_zero, Nat.factorial_zero, Nat.cast_one, div_one, one_smul, add_zero]
        congr 1
        refine Finset.sum_congr rfl fun j _ => ?_
        congr 2
        omega
      have hfun : (fun s => ∑ j ∈ Finset.range (k + 1), ((s - a) ^ j / j.factorial) • G (i + j) a) =
          fun s => (∑ j ∈ Finset.range k, ((s - a) ^ (j + 1) / (j + 1).factorial) • G (i + 1 + j) a) + G i a := funext e
      rw [hfun]
      refine HasDerivAt.hasDerivWithinAt (HasDerivAt.add_const (G i a) (HasDerivAt.fun_sum fun j _ => ?_))
      refine HasDerivAt.smul_const ?_ _
      have h1 : HasDerivAt (fun s : ℝ => (s - a) ^ (j + 1)) ((j + 1 : ℕ) * (s - a) ^ j * 1) s := by
        have := ((hasDerivAt_id s).sub_const a).fun_pow (j + 1)
        simpa using this
      have h2 := h1.div_const ((j + 1).factorial : ℝ)
      have e2 : ((j + 1 : ℕ) * (s - a) ^ j * 1) / ((j + 1).factorial : ℝ) = (s - a) ^ j / j.factorial := by
        rw [Nat.factorial_succ]
        push_cast
        have : ((j : ℝ) + 1) ≠ 0 := by positivity
        have h3 : (j.factorial : ℝ) ≠ 0 := by positivity
        field_simp
      rw [e2] at h2
      exact h2

end Taylor

/-! ## The local error -/

section Local

variable {n : ℕ} {f : (Fin n → ℝ) → Fin n → ℝ} {J : (Fin n → ℝ) → (Fin n → ℝ) →L[ℝ] (Fin n → ℝ)} {G : ℕ → ℝ → Fin n → ℝ}

local notation "E" => Fin n → ℝ

/-- The local error is of fifth order, given a solution with five bounded derivatives `G 0, …, G 5`, and a derivative `J` of the
right-hand side that is bounded and Lipschitz near the points involved. -/
theorem local_order {D A K : ℝ} (hD0 : 0 ≤ D) (hG : ∀ i < 5, ∀ t ∈ Set.Icc 0 T, HasDerivWithinAt (G i) (G (i + 1) t) (Set.Icc 0 T) t)
    (hD : ∀ i ≤ 5, ∀ t ∈ Set.Icc 0 T, ‖G i t‖ ≤ D) (hsol : ∀ t ∈ Set.Icc 0 T, G 1 t = f (G 0 t))
    (S : Set E) (hS : ∀ t ∈ Set.Icc 0 T, G 0 t ∈ S) (hA : ∀ p ∈ S, ‖J p‖ ≤ A)
    (hK : ∀ p ∈ S, ∀ q ∈ S, ‖J p - J q‖ ≤ K * ‖p - q‖)
    (hquad : ∀ p ∈ S, ∀ q ∈ S, ‖f p - f q - J q (p - q)‖ ≤ K * ‖p - q‖ ^ 2)
    (hstage : ∀ t h, 0 ≤ t → 0 ≤ h → t + h ≤ T →
      let k1 := f (G 0 t)
      let k2 := f (G 0 t + (h / 2) • k1)
      let k3 := f (G 0 t + (h / 2) • k2)
      G 0 t + (h / 2) • k1 ∈ S ∧ G 0 t + (h / 2) • k2 ∈ S ∧ G 0 t + h • k3 ∈ S) :
    Ord T 5 fun t h => classical f h (G 0 t) - G 0 (t + h) := by
  have tay := taylor_uniform hG hD0 hD
  have mem : ∀ t h, 0 ≤ t → 0 ≤ h → t + h ≤ T → t ∈ Set.Icc 0 T ∧ t + h / 2 ∈ Set.Icc 0 T ∧ t + h ∈ Set.Icc 0 T :=
    fun t h h1 h2 h3 => ⟨⟨h1, by linarith⟩, ⟨by linarith, by linarith⟩, ⟨by linarith, h3⟩⟩
  -- expansions about the middle of the step
  have back : ∀ i k, i + k ≤ 5 → Ord T k fun t h =>
      G i t - ∑ j ∈ Finset.range k, ((-(h / 2)) ^ j / j.factorial) • G (i + j) (t + h / 2) := by
    intro i k hik
    refine ord_of_le (D * (1 / 2) ^ k) fun t h h1 h2 h3 => ?_
    obtain ⟨m1, m2, m3⟩ := mem t h h1 h2 h3
    have := tay k i hik (t + h / 2) m2 t m1
    rw [show t - (t + h / 2) = -(h / 2) by ring, abs_neg, abs_of_nonneg (by positivity : 0 ≤ h / 2)] at this
    refine this.trans (le_of_eq ?_)
    rw [div_eq_mul_one_div, mul_pow]
    ring
  have fwd : ∀ i k, i + k ≤ 5 → Ord T k fun t h =>
      G i (t + h) - ∑ j ∈ Finset.range k, ((h / 2) ^ j / j.factorial) • G (i + j) (t + h / 2) := by
    intro i k hik
    refine ord_of_le (D * (1 / 2) ^ k) fun t h h1 h2 h3 => ?_
    obtain ⟨m1, m2, m3⟩ := mem t h h1 h2 h3
    have := tay k i hik (t + h / 2) m2 (t + h) m3
    rw [show t + h - (t + h / 2) = h / 2 by ring, abs_of_nonneg (by positivity : 0 ≤ h / 2)] at this
    refine this.trans (le_of_eq ?_)
    rw [div_eq_mul_one_div, mul_pow]
    ring
  have bnd : ∀ i ≤ 5, Ord T 0 fun t h => G i (t + h / 2) := fun i hi =>
    ord_of_le D fun t h h1 h2 h3 => by simpa using hD i hi _ (mem t h h1 h2 h3).2.1
  have bJ : Ord T 0 fun t h => J (G 0 (t + h / 2)) :=
    ord_of_le A fun t h h1 h2 h3 => by simpa using hA _ (hS _ (mem t h h1 h2 h3).2.1)
  -- the stages
  set P2 : ℝ → ℝ → E := fun t h => G 0 t + (h / 2) • f (G 0 t) with hP2
  set P3 : ℝ → ℝ → E := fun t h => G 0 t + (h / 2) • f (P2 t h) with hP3
  set P4 : ℝ → ℝ → E := fun t h => G 0 t + h • f (P3 t h) with hP4
  set Jm : ℝ → ℝ → E →L[ℝ] E := fun t h => J (G 0 (t + h / 2)) with hJm
  set vm : ℝ → ℝ → E := fun t h => G 1 (t + h / 2)
  set am : ℝ → ℝ → E := fun t h => G 2 (t + h / 2)
  set jm : ℝ → ℝ → E := fun t h => G 3 (t + h / 2)
  have quad : ∀ (p q : ℝ → ℝ → E) (k : ℕ), (∀ t h, 0 ≤ t → 0 ≤ h → t + h ≤ T → p t h ∈ S ∧ q t h ∈ S) →
      Ord T k (fun t h => p t h - q t h) →
      Ord T (k * 2) fun t h => f (p t h) - f (q t h) - J (q t h) (p t h - q t h) := by
    intro p q k hm ⟨C, c0, hC⟩
    refine ord_of_le (|K| * C ^ 2) fun t h h1 h2 h3 => ?_
    refine (hquad _ (hm t h h1 h2 h3).1 _ (hm t h h1 h2 h3).2).trans ?_
    have := hC t h h1 h2 h3
    calc K * ‖p t h - q t h‖ ^ 2 ≤ |K| * (C * h ^ k) ^ 2 := by
          gcongr
          exact le_abs_self K
      _ = _ := by rw [mul_pow, pow_mul]; ring
  -- first and second order expansions
  have f1 : Ord T 4 fun t h => G 0 t - (G 0 (t + h / 2) - (h / 2) • vm t h + (h ^ 2 / 8) • am t h - (h ^ 3 / 48) • jm t h) := by
    refine (back 0 4 (by norm_num)).congr fun t h => ?_
    simp only [Finset.sum_range_succ, Finset.sum_range_zero, Nat.factorial, vm, am, jm]
    norm_num
    module
  have f2 : Ord T 3 fun t h => f (G 0 t) - (vm t h - (h / 2) • am t h + (h ^ 2 / 8) • jm t h) := by
    refine (back 1 3 (by norm_num)).congr_on fun t h h1 h2 h3 => ?_
    simp only [Finset.sum_range_succ, Finset.sum_range_zero, Nat.factorial, vm, am, jm, ← hsol t (mem t h h1 h2 h3).1]
    norm_num
    module
  have f3 : Ord T 5 fun t h => G 0 (t + h) - G 0 t - (h • vm t h + (h ^ 3 / 24) • jm t h) := by
    refine ((fwd 0 5 (by norm_num)).sub (back 0 5 (by norm_num))).congr fun t h => ?_
    simp only [Finset.sum_range_succ, Finset.sum_range_zero, Nat.factorial, vm, jm]
    norm_num
    module
  have f4 : Ord T 5 fun t h => G 0 (t + h) - G 0 t - (h / 6) • (f (G 0 t) + (4 : ℝ) • vm t h + f (G 0 (t + h))) := by
    have := ((fwd 1 4 (by norm_num)).add (back 1 4 (by norm_num))).pow_smul (-1 / 6) 1
    refine (f3.add this).congr_on fun t h h1 h2 h3 => ?_
    simp only [Finset.sum_range_succ, Finset.sum_range_zero, Nat.factorial, vm, jm, ← hsol t (mem t h h1 h2 h3).1,
      ← hsol (t + h) (mem t h h1 h2 h3).2.2]
    norm_num
    module
  -- second stage
  have e2 : Ord T 4 fun t h => P2 t h - G 0 (t + h / 2) - (-(h ^ 2 / 8) • am t h + (h ^ 3 / 24) • jm t h) := by
    refine (f1.add (f2.pow_smul (1 / 2) 1)).congr fun t h => ?_
    simp only [hP2]
    module
  have ab : Ord T 0 am := bnd 2 (by norm_num)
  have jb : Ord T 0 jm := bnd 3 (by norm_num)
  have e2' : Ord T 2 fun t h => P2 t h - G 0 (t + h / 2) := by
    refine ((e2.mono (by norm_num : 2 ≤ 4)).add ((ab.pow_smul (-1 / 8) 2).add
      ((jb.pow_smul (1 / 24) 3).mono (by norm_num : 2 ≤ 3 + 0)))).congr fun t h => ?_
    module
  have hm2 : ∀ t h, 0 ≤ t → 0 ≤ h → t + h ≤ T → P2 t h ∈ S ∧ G 0 (t + h / 2) ∈ S := fun t h h1 h2 h3 =>
    ⟨(hstage t h h1 h2 h3).1, hS _ (mem t h h1 h2 h3).2.1⟩
  have k2 : Ord T 4 fun t h => f (P2 t h) - (vm t h + Jm t h (P2 t h - G 0 (t + h / 2))) := by
    refine (quad _ _ 2 hm2 e2').congr_on fun t h h1 h2 h3 => ?_
    simp only [vm, hsol _ (mem t h h1 h2 h3).2.1, Jm]
    module
  have je2 : Ord T 4 fun t h => (h / 2) • Jm t h (P2 t h - G 0 (t + h / 2)) + (h ^ 3 / 16) • Jm t h (am t h) := by
    have h1 := (bJ.apply e2).pow_smul (1 / 2) 1
    have h2 := (bJ.apply jb).pow_smul (1 / 48) 4
    refine ((h1.mono (by norm_num : 4 ≤ 1 + (0 + 4))).add (h2.mono (by norm_num : 4 ≤ 4 + (0 + 0)))).congr fun t h => ?_
    simp only [map_sub, map_add, map_smul, map_neg, neg_smul, Jm]
    module
  -- third stage
  have e3 : Ord T 4 fun t h => P3 t h - G 0 (t + h / 2) -
      ((h ^ 2 / 8) • am t h - (h ^ 3 / 48) • jm t h + (h / 2) • Jm t h (P2 t h - G 0 (t + h / 2))) := by
    refine (f1.add ((k2.pow_smul (1 / 2) 1).mono (by norm_num : 4 ≤ 1 + 4))).congr fun t h => ?_
    simp only [hP3]
    module
  have je2' : Ord T 2 fun t h => (h / 2) • Jm t h (P2 t h - G 0 (t + h / 2)) := by
    refine (((bJ.apply e2').pow_smul (1 / 2) 1).mono (by norm_num : 2 ≤ 1 + (0 + 2))).congr fun t h => ?_
    module
  have e3' : Ord T 2 fun t h => P3 t h - G 0 (t + h / 2) := by
    refine ((e3.mono (by norm_num : 2 ≤ 4)).add (((ab.pow_smul (1 / 8) 2).add
      ((jb.pow_smul (-1 / 48) 3).mono (by norm_num : 2 ≤ 3 + 0))).add je2')).congr fun t h => ?_
    module
  have hm3 : ∀ t h, 0 ≤ t → 0 ≤ h → t + h ≤ T → P3 t h ∈ S ∧ G 0 (t + h / 2) ∈ S := fun t h h1 h2 h3 =>
    ⟨(hstage t h h1 h2 h3).2.1, hS _ (mem t h h1 h2 h3).2.1⟩
  have k3 : Ord T 4 fun t h => f (P3 t h) - (vm t h + Jm t h (P3 t h - G 0 (t + h / 2))) := by
    refine (quad _ _ 2 hm3 e3').congr_on fun t h h1 h2 h3 => ?_
    simp only [vm, hsol _ (mem t h h1 h2 h3).2.1, Jm]
    module
  have je3 : Ord T 4 fun t h => h • Jm t h (P3 t h - G 0 (t + h / 2)) - (h ^ 3 / 8) • Jm t h (am t h) := by
    have h1 := (bJ.apply e3).pow_smul 1 1
    have h2 := (bJ.apply jb).pow_smul (-1 / 48) 4
    have h3 := (bJ.apply (bJ.apply e2')).pow_smul (1 / 2) 2
    refine (((h1.mono (by norm_num : 4 ≤ 1 + (0 + 4))).add (h2.mono (by norm_num : 4 ≤ 4 + (0 + 0)))).add
      (h3.mono (by norm_num : 4 ≤ 2 + (0 + (0 + 2))))).congr fun t h => ?_
    simp only [map_sub, map_add, map_smul, Jm]
    module
  -- fourth stage
  have e4 : Ord T 4 fun t h => P4 t h - G 0 (t + h) - (-(h ^ 3 / 24) • jm t h + (h ^ 3 / 8) • Jm t h (am t h)) := by
    have h1 := (k3.pow_smul 1 1).mono (by norm_num : 4 ≤ 1 + 4)
    refine (((h1.sub (f3.mono (by norm_num : 4 ≤ 5)))).add je3).congr fun t h => ?_
    simp only [hP4]
    module
  have e4' : Ord T 3 fun t h => P4 t h - G 0 (t + h) := by
    refine ((e4.mono (by norm_num : 3 ≤ 4)).add ((jb.pow_smul (-1 / 24) 3).add ((bJ.apply ab).pow_smul (1 / 8) 3))).congr
      fun t h => ?_
    simp only [Jm]
    module
  have hm4 : ∀ t h, 0 ≤ t → 0 ≤ h → t + h ≤ T → P4 t h ∈ S ∧ G 0 (t + h) ∈ S := fun t h h1 h2 h3 =>
    ⟨(hstage t h h1 h2 h3).2.2, hS _ (mem t h h1 h2 h3).2.2⟩
  have dJ : Ord T 1 fun t h => J (G 0 (t + h)) - Jm t h := by
    have h1 := fwd 0 1 (by norm_num)
    obtain ⟨C, c0, hC⟩ := h1
    refine ord_of_le (|K| * C) fun t h h1 h2 h3 => ?_
    obtain ⟨m1, m2, m3⟩ := mem t h h1 h2 h3
    have := hC t h h1 h2 h3
    simp only [Finset.sum_range_succ, Finset.sum_range_zero, Nat.factorial] at this
    norm_num at this
    refine (hK _ (hS _ m3) _ (hS _ m2)).trans ?_
    rw [pow_one]
    calc K * ‖G 0 (t + h) - G 0 (t + h / 2)‖ ≤ |K| * (C * h) := by
          gcongr
          exact le_abs_self K
      _ = _ := by ring
  have k4 : Ord T 4 fun t h => f (P4 t h) - (f (G 0 (t + h)) + Jm t h (P4 t h - G 0 (t + h))) := by
    have h1 := (quad _ _ 3 hm4 e4').mono (by norm_num : 4 ≤ 3 * 2)
    refine (h1.add ((dJ.apply e4').mono (by norm_num : 4 ≤ 1 + 3))).congr fun t h => ?_
    simp only [sub_apply]
    module
  -- the correction terms cancel
  have corr : Ord T 4 fun t h => (2 : ℝ) • (P2 t h - G 0 (t + h / 2)) + (2 : ℝ) • (P3 t h - G 0 (t + h / 2)) +
      (P4 t h - G 0 (t + h)) := by
    refine ((((e2.pow_smul 2 0).mono (by norm_num : 4 ≤ 0 + 4)).add ((e3.pow_smul 2 0).mono (by norm_num : 4 ≤ 0 + 4))).add
      (e4.add ((je2.pow_smul 2 0).mono (by norm_num : 4 ≤ 0 + 4)))).congr fun t h => ?_
    module
  have total : Ord T 4 fun t h => (f (G 0 t) + (2 : ℝ) • f (P2 t h) + (2 : ℝ) • f (P3 t h) + f (P4 t h)) -
      (f (G 0 t) + (4 : ℝ) • vm t h + f (G 0 (t + h))) := by
    refine ((((k2.pow_smul 2 0).mono (by norm_num : 4 ≤ 0 + 4)).add ((k3.pow_smul 2 0).mono (by norm_num : 4 ≤ 0 + 4))).add
      (k4.add ((bJ.apply corr).mono (by norm_num : 4 ≤ 0 + 4)))).congr fun t h => ?_
    simp only [map_add, map_smul, Jm]
    module
  refine (((total.pow_smul (1 / 6) 1).mono (by norm_num : 5 ≤ 1 + 4)).sub f4).congr fun t h => ?_
  simp only [classical, hP2, hP3, hP4]
  module

end Local

end Verif.Ode
