import Verif.Opt.PropsGD
import Mathlib.Data.Matrix.Mul
import Mathlib.Analysis.InnerProductSpace.PiL2
import Mathlib.Analysis.SpecialFunctions.Pow.Real

/-!
# Minimisation within bounds (C145, C146)

`Feasible o x`: `x` is within the bounds, if any are set. `Smooth f g μ L`: the objective `f` lies between the two parabolas of curvature `μ` and
`L` that touch it at any point with slope `g`; for twice differentiable `f` this says that the eigenvalues of its second derivative are
between `μ` and `L`.
-/

namespace Verif.Opt

variable {n : ℕ}

/-! ## Specification -/

/-- Within the bounds, if any are set. -/
def Feasible (o : GD ℝ n) (x : Fin n → ℝ) : Prop := o.hasBounds = true → InBox o.minB o.maxB x

/-- `f` has slope `g` and curvature between `μ` and `L`. -/
structure Smooth (f : (Fin n → ℝ) → ℝ) (g : (Fin n → ℝ) → Fin n → ℝ) (μ L : ℝ) : Prop where
  lower : ∀ x d : Fin n → ℝ, f x + inner (g x) d + μ / 2 * inner d d ≤ f (fun i => x i + d i)
  upper : ∀ x d : Fin n → ℝ, f (fun i => x i + d i) ≤ f x + inner (g x) d + L / 2 * inner d d

/-- `x` minimises `f` within the bounds. -/
def IsBest (o : GD ℝ n) (f : (Fin n → ℝ) → ℝ) (x : Fin n → ℝ) : Prop := Feasible o x ∧ ∀ y, Feasible o y → f x ≤ f y

/-! ## Lemmas -/

theorem inner_dot (u v : Fin n → ℝ) : inner u v = u ⬝ᵥ v := rfl

theorem inner_self_nonneg (u : Fin n → ℝ) : 0 ≤ inner u u := Finset.sum_nonneg fun _ _ => mul_self_nonneg _

theorem len_mul_self (u : Fin n → ℝ) : len u ^ 2 = inner u u := by rw [sq, len_sq]

theorem len_norm (u : Fin n → ℝ) : len u = ‖(WithLp.toLp 2 u : EuclideanSpace ℝ (Fin n))‖ := by
  rw [EuclideanSpace.norm_eq]; simp [len]

theorem len_add (u v : Fin n → ℝ) : len (u + v) ≤ len u + len v := by
  rw [len_norm, len_norm, len_norm]; exact norm_add_le (WithLp.toLp 2 u : EuclideanSpace ℝ (Fin n)) _

theorem inner_le_len (u v : Fin n → ℝ) : inner u v ≤ len u * len v := by
  have h := Finset.sum_mul_sq_le_sq_mul_sq Finset.univ u v
  have h1 : inner u v ^ 2 ≤ (len u * len v) ^ 2 := by
    rw [mul_pow, len_mul_self, len_mul_self]
    simpa [inner, sq] using h
  exact le_of_sq_le_sq h1 (mul_nonneg (len_nonneg _) (len_nonneg _))
where
  le_of_sq_le_sq {a b : ℝ} (h : a ^ 2 ≤ b ^ 2) (hb : 0 ≤ b) : a ≤ b := by nlinarith [abs_le_of_sq_le_sq' h hb]

theorem Smooth.monotone {f : (Fin n → ℝ) → ℝ} {g : (Fin n → ℝ) → Fin n → ℝ} {μ L : ℝ} (h : Smooth f g μ L) (x y : Fin n → ℝ) :
    μ * inner (y - x) (y - x) ≤ inner (g y - g x) (y - x) := by
  have h1 := h.lower x (y - x)
  have h2 := h.lower y (x - y)
  rw [show (fun i => x i + (y - x) i) = y from funext fun i => by simp] at h1
  rw [show (fun i => y i + (x - y) i) = x from funext fun i => by simp] at h2
  simp only [inner_dot, sub_dotProduct, dotProduct_sub] at *
  linarith [dotProduct_comm x y]

theorem Smooth.cocoercive {f : (Fin n → ℝ) → ℝ} {g : (Fin n → ℝ) → Fin n → ℝ} {μ L : ℝ} (h : Smooth f g μ L) (hμ : 0 ≤ μ) (hL : 0 < L)
    (x y : Fin n → ℝ) : inner (g y - g x) (g y - g x) ≤ L * inner (g y - g x) (y - x) := by
  have half : ∀ x y : Fin n → ℝ, inner (g y - g x) (g y - g x) ≤ 2 * L * (f y - f x - inner (g x) (y - x)) := by
    intro x y
    set D := g y - g x with hD
    have h1 := h.lower x (y - x + -(L⁻¹ • D))
    have h2 := h.upper y (-(L⁻¹ • D))
    rw [show (fun i => x i + (y - x + -(L⁻¹ • D)) i) = fun i => y i + (-(L⁻¹ • D)) i from funext fun i => by simp; ring] at h1
    have h3 : 0 ≤ μ / 2 * inner (y - x + -(L⁻¹ • D)) (y - x + -(L⁻¹ • D)) := mul_nonneg (by linarith) (inner_self_nonneg _)
    have h4 : inner (g x) (y - x + -(L⁻¹ • D)) = inner (g x) (y - x) - L⁻¹ * inner (g x) D := by
      simp only [inner_dot, dotProduct_add, dotProduct_neg, dotProduct_smul, smul_eq_mul]; ring
    have h5 : inner (g y) (-(L⁻¹ • D)) = -(L⁻¹ * inner (g y) D) := by
      simp only [inner_dot, dotProduct_neg, dotProduct_smul, smul_eq_mul]
    have h6 : inner (-(L⁻¹ • D)) (-(L⁻¹ • D)) = L⁻¹ * L⁻¹ * inner D D := by
      simp only [inner_dot, dotProduct_neg, neg_dotProduct, dotProduct_smul, smul_dotProduct, smul_eq_mul]; ring
    have h7 : inner (g y) D - inner (g x) D = inner D D := by
      simp only [hD, inner_dot, sub_dotProduct]
    rw [h4] at h1
    rw [h5, h6] at h2
    have h8 : L / 2 * (L⁻¹ * L⁻¹ * inner D D) = L⁻¹ / 2 * inner D D := by field_simp
    have h9 : L⁻¹ / 2 * inner D D ≤ f y - f x - inner (g x) (y - x) := by
      have : L⁻¹ * inner (g y) D - L⁻¹ * inner (g x) D = L⁻¹ * inner D D := by rw [← mul_sub, h7]
      linarith
    have h10 := mul_le_mul_of_nonneg_left h9 (by linarith : 0 ≤ 2 * L)
    have h11 : 2 * L * (L⁻¹ / 2 * inner D D) = inner D D := by field_simp
    linarith
  have a := half x y
  have b := half y x
  have e1 : inner (g x - g y) (g x - g y) = inner (g y - g x) (g y - g x) := by
    simp only [inner_dot, sub_dotProduct, dotProduct_sub]; ring
  have e2 : inner (g y - g x) (y - x) = -inner (g x) (y - x) - inner (g y) (x - y) := by
    simp only [inner_dot, sub_dotProduct, dotProduct_sub]; ring
  rw [e1] at b
  rw [e2]
  linarith

/-- A gradient step shortens distances. -/
theorem Smooth.contract {f : (Fin n → ℝ) → ℝ} {g : (Fin n → ℝ) → Fin n → ℝ} {μ L : ℝ} (h : Smooth f g μ L) (hμ : 0 ≤ μ) (hL : 0 < L)
    {lr : ℝ} (h0 : 0 ≤ lr) (h2 : lr * L ≤ 2) (x y : Fin n → ℝ) :
    inner ((y - lr • g y) - (x - lr • g x)) ((y - lr • g y) - (x - lr • g x)) ≤ (1 - lr * μ * (2 - lr * L)) * inner (y - x) (y - x) := by
  have e : inner ((y - lr • g y) - (x - lr • g x)) ((y - lr • g y) - (x - lr • g x)) =
      inner (y - x) (y - x) - 2 * lr * inner (g y - g x) (y - x) + lr ^ 2 * inner (g y - g x) (g y - g x) := by
    rw [show (y - lr • g y) - (x - lr • g x) = (y - x) - lr • (g y - g x) by rw [smul_sub]; abel]
    generalize y - x = d
    generalize g y - g x = D
    simp only [inner_dot, sub_dotProduct, dotProduct_sub, dotProduct_smul, smul_dotProduct, smul_eq_mul, dotProduct_comm d D]; ring
  rw [e]
  have h1 := h.cocoercive hμ hL x y
  have h3 := h.monotone x y
  have h4 := mul_le_mul_of_nonneg_left h1 (sq_nonneg lr)
  have h5 := mul_le_mul_of_nonneg_left h3 (mul_nonneg h0 (by linarith : 0 ≤ 2 - lr * L))
  nlinarith

theorem project_sub_sq (o : GD ℝ n) (hlh : Feasible o o.minB) (x y : Fin n → ℝ) (i : Fin n) :
    (o.project y i - o.project x i) * (o.project y i - o.project x i) ≤ (y i - x i) * (y i - x i) := by
  by_cases hb : o.hasBounds = true
  · have hl := (hlh hb i).2
    have h : |o.project y i - o.project x i| ≤ |y i - x i| := by
      unfold GD.project
      rw [projectBox_apply, projectBox_apply, if_pos hb, if_pos hb]
      split_ifs <;> rw [abs_le] <;> constructor <;> cases abs_cases (y i - x i) <;> linarith
    nlinarith [abs_le_abs_of_nonneg (abs_nonneg _) h, abs_mul_abs_self (o.project y i - o.project x i), abs_mul_abs_self (y i - x i),
      abs_nonneg (o.project y i - o.project x i)]
  · rw [project_free o (by simpa using hb), project_free o (by simpa using hb)]

theorem project_short (o : GD ℝ n) (hlh : Feasible o o.minB) (x y : Fin n → ℝ) :
    inner (o.project y - o.project x) (o.project y - o.project x) ≤ inner (y - x) (y - x) :=
  Finset.sum_le_sum fun i _ => project_sub_sq o hlh x y i

/-- At a constrained minimum no feasible direction goes down. -/
theorem IsBest.slope {o : GD ℝ n} {f : (Fin n → ℝ) → ℝ} {g : (Fin n → ℝ) → Fin n → ℝ} {μ L : ℝ} (hs : Smooth f g μ L) (hL : 0 < L) {x : Fin n → ℝ}
    (hx : IsBest o f x) (y : Fin n → ℝ) (hy : Feasible o y) : 0 ≤ inner (g x) (y - x) := by
  by_contra hneg
  push Not at hneg
  set d := y - x with hd
  have hdd := inner_self_nonneg d
  set t : ℝ := min 1 (-inner (g x) d / (L * inner d d + 1)) with ht
  have hden : 0 < L * inner d d + 1 := by have := mul_nonneg hL.le hdd; linarith
  have ht0 : 0 < t := lt_min one_pos (div_pos (by linarith) hden)
  have ht1 : t ≤ 1 := min_le_left _ _
  have ht2 : t * (L * inner d d + 1) ≤ -inner (g x) d := (le_div_iff₀ hden).1 (min_le_right _ _)
  have hfeas : Feasible o (fun i => x i + (t • d) i) := by
    intro hb i
    have h1 := hx.1 hb i
    have h2 := hy hb i
    have e : x i + (t • d) i = (1 - t) * x i + t * y i := by simp [hd]; ring
    simp only [e]
    constructor <;> nlinarith
  have h1 := hx.2 _ hfeas
  have h2 := hs.upper x (t • d)
  have e1 : inner (g x) (t • d) = t * inner (g x) d := by simp [inner_dot, dotProduct_smul]
  have e2 : inner (t • d) (t • d) = t * t * inner d d := by simp [inner_dot, dotProduct_smul, smul_dotProduct]; ring
  rw [e1, e2] at h2
  have h3 : 0 ≤ t * (inner (g x) d + L / 2 * (t * inner d d)) := by nlinarith
  have h4 : 0 ≤ inner (g x) d + L / 2 * (t * inner d d) := nonneg_of_mul_nonneg_right h3 ht0
  nlinarith [mul_nonneg hL.le (mul_nonneg ht0.le hdd)]

theorem IsBest.fixed {o : GD ℝ n} {f : (Fin n → ℝ) → ℝ} {g : (Fin n → ℝ) → Fin n → ℝ} {μ L : ℝ} (hs : Smooth f g μ L) (hL : 0 < L) {x : Fin n → ℝ}
    (hx : IsBest o f x) {lr : ℝ} (h0 : 0 < lr) : o.project (x - lr • g x) = x := by
  have hcoord : ∀ (i : Fin n) (z : ℝ), (o.hasBounds = true → o.minB i ≤ z ∧ z ≤ o.maxB i) → 0 ≤ g x i * (z - x i) := by
    intro i z hz
    have h1 := hx.slope hs hL (Function.update x i z) (by
      intro hb j
      by_cases e : j = i
      · subst e; simpa using hz hb
      · rw [Function.update_of_ne e]; exact hx.1 hb j)
    have e : inner (g x) (Function.update x i z - x) = g x i * (z - x i) := by
      unfold inner
      rw [Finset.sum_eq_single i]
      · simp
      · intro j _ hj; simp [hj]
      · simp
    rwa [e] at h1
  funext i
  unfold GD.project
  rw [projectBox_apply]
  by_cases hb : o.hasBounds = true
  · have hbx := hx.1 hb i
    have hl := hcoord i (o.minB i) (fun _ => ⟨le_rfl, hbx.1.trans hbx.2⟩)
    have hh := hcoord i (o.maxB i) (fun _ => ⟨hbx.1.trans hbx.2, le_rfl⟩)
    rw [if_pos hb]
    simp only [Pi.sub_apply, Pi.smul_apply, smul_eq_mul]
    split_ifs with h1 h2
    · have hg : 0 < g x i := by
        by_contra hn
        have := mul_nonpos_of_nonneg_of_nonpos h0.le (not_lt.1 hn)
        linarith
      have := nonneg_of_mul_nonneg_right hl hg
      linarith
    · have hg : g x i < 0 := by
        by_contra hn
        have := mul_nonneg h0.le (not_lt.1 hn)
        linarith
      have : o.maxB i - x i ≤ 0 := by
        by_contra hn
        have := mul_neg_of_neg_of_pos hg (not_le.1 hn)
        linarith
      linarith
    · have hz : g x i = 0 := by
        rcases lt_trichotomy (g x i) 0 with hg | hg | hg
        · have : o.maxB i - x i ≤ 0 := by
            by_contra hn
            have := mul_neg_of_neg_of_pos hg (not_le.1 hn)
            linarith
          have := mul_neg_of_pos_of_neg h0 hg
          linarith
        · exact hg
        · have := nonneg_of_mul_nonneg_right hl hg
          have := mul_pos h0 hg
          linarith
      rw [hz]; ring
  · rw [if_neg hb]
    have h1 := hcoord i (x i + 1) (fun h => absurd h hb)
    have h2 := hcoord i (x i - 1) (fun h => absurd h hb)
    have hz : g x i = 0 := by linarith
    simp [hz]

/-- One fixed step. -/
theorem step_close {o : GD ℝ n} {f : (Fin n → ℝ) → ℝ} {g : (Fin n → ℝ) → Fin n → ℝ} {μ L : ℝ} (hs : Smooth f g μ L) (hμ : 0 ≤ μ) (hL : 0 < L)
    (hb : o.useBacktracking = false) (hmu : o.momentum = 0) (hlr : 0 < o.lr) (hlr2 : o.lr * L ≤ 2) {best : Fin n → ℝ} (hbest : IsBest o f best)
    {x v x' : Fin n → ℝ} (h : StepOK o f x v (g x) x') :
    len (x' - best) ^ 2 ≤ (1 - o.lr * μ * (2 - o.lr * L)) * len (x - best) ^ 2 := by
  have hlo : Feasible o o.minB := fun hbd i => ⟨le_rfl, (hbest.1 hbd i).1.trans (hbest.1 hbd i).2⟩
  have e : x' = o.project (x - o.lr • g x) := by
    rw [h.fixed hb, hmu]
    congr 1
    funext i
    simp
    ring
  have h1 := project_short o hlo (best - o.lr • g best) (x - o.lr • g x)
  rw [hbest.fixed hs hL hlr, ← e] at h1
  rw [len_mul_self, len_mul_self]
  exact h1.trans (hs.contract hμ hL hlr.le hlr2 best x)

/-! ## C145 -/

/-- C145. With a fixed step length below `2 / L`, no momentum and bounds (or none), each iteration brings the point closer to the minimiser
within the bounds by the factor `q`, `q² = 1 - lr μ (2 - lr L)`, wherever the run starts. -/
theorem C145_rate (o : GD ℝ n) (f : (Fin n → ℝ) → ℝ) (g : (Fin n → ℝ) → Fin n → ℝ) (μ L : ℝ) (hs : Smooth f g μ L) (hμ : 0 ≤ μ) (hL : 0 < L)
    (hb : o.useBacktracking = false) (hmu : o.momentum = 0) (hlr : 0 < o.lr) (hlr2 : o.lr * L ≤ 2) (best : Fin n → ℝ) (hbest : IsBest o f best)
    (q : ℝ) (hq0 : 0 ≤ q) (hq : q ^ 2 = 1 - o.lr * μ * (2 - o.lr * L))
    (fuel : ℕ) (x0 x : Fin n → ℝ) (fx : ℝ) (K : ℕ) (c : Bool) (h : o.minimize f g fuel x0 = some (x, fx, K, c)) :
    len (x - best) ≤ q ^ K * len (x0 - best) := by
  obtain ⟨-, -, xs, hx0, hxK, hst, -⟩ := C40_run o f g fuel x0 x fx K c h
  have key : ∀ k ≤ K, len (xs k - best) ≤ q ^ k * len (x0 - best) := by
    intro k
    induction k with
    | zero => intro _; rw [hx0]; simp
    | succ k ih =>
      intro hk
      have h1 := step_close hs hμ hL hb hmu hlr hlr2 hbest (hst k (by omega)).2
      rw [← hq, ← mul_pow] at h1
      have h2 := abs_le_of_sq_le_sq h1 (mul_nonneg hq0 (len_nonneg _))
      rw [abs_of_nonneg (len_nonneg _)] at h2
      rw [pow_succ', mul_assoc]
      exact h2.trans (mul_le_mul_of_nonneg_left (ih (by omega)) hq0)
  rw [← hxK]; exact key K le_rfl

/-- C145. A run that reports convergence is as close to the minimiser within the bounds as the tolerances ask: within `tol_grad / μ` or
`q / (1 - q)` times `tol_step`. -/
theorem C145_stop (o : GD ℝ n) (f : (Fin n → ℝ) → ℝ) (g : (Fin n → ℝ) → Fin n → ℝ) (μ L : ℝ) (hs : Smooth f g μ L) (hμ : 0 < μ) (hL : 0 < L)
    (hb : o.useBacktracking = false) (hmu : o.momentum = 0) (hlr : 0 < o.lr) (hlr2 : o.lr * L ≤ 2) (best : Fin n → ℝ) (hbest : IsBest o f best)
    (q : ℝ) (hq0 : 0 ≤ q) (hq1 : q < 1) (hq : q ^ 2 = 1 - o.lr * μ * (2 - o.lr * L))
    (fuel : ℕ) (x0 x : Fin n → ℝ) (hx0 : Feasible o x0) (fx : ℝ) (K : ℕ) (h : o.minimize f g fuel x0 = some (x, fx, K, true)) :
    Feasible o x ∧ len (x - best) ≤ max (o.tolGrad / μ) (q / (1 - q) * o.tolStep) := by
  have hfx : Feasible o x := fun hbd => C41_partial o f g fuel x0 x fx K true h hbd
    (fun i => (hbest.1 hbd i).1.trans (hbest.1 hbd i).2) (Or.inl (hx0 hbd))
  obtain ⟨-, -, xs, hx0', hxK, hst, hss, hct, -⟩ := C40_run o f g fuel x0 x fx K true h
  refine ⟨hfx, ?_⟩
  rcases hct rfl with h1 | ⟨hK, h1⟩
  · refine le_max_of_le_left ?_
    rw [le_div_iff₀ hμ]
    have h2 := hs.monotone best x
    have h3 := hbest.slope hs hL x hfx
    have h4 := inner_le_len (g x) (x - best)
    have h5 : inner (g x - g best) (x - best) = inner (g x) (x - best) - inner (g best) (x - best) := by
      simp only [inner_dot, sub_dotProduct]
    rw [h5, ← len_mul_self] at h2
    rcases (len_nonneg (x - best)).eq_or_lt with h6 | h6
    · rw [← h6, zero_mul]; exact (len_nonneg _).trans h1
    · have h7 : len (x - best) * (len (x - best) * μ) ≤ len (x - best) * o.tolGrad := by
        have := mul_le_mul_of_nonneg_right h1 h6.le
        nlinarith
      exact le_of_mul_le_mul_left h7 h6
  · refine le_max_of_le_right ?_
    have h2 := step_close hs hμ.le hL hb hmu hlr hlr2 hbest (hst (K - 1) (by omega)).2
    rw [show K - 1 + 1 = K by omega, hxK, ← hq, ← mul_pow] at h2
    have h3 := abs_le_of_sq_le_sq h2 (mul_nonneg hq0 (len_nonneg _))
    rw [abs_of_nonneg (len_nonneg _)] at h3
    rw [hxK] at h1
    have h4 := len_add (xs (K - 1) - x) (x - best)
    rw [sub_add_sub_cancel] at h4
    have h5 : len (xs (K - 1) - x) = len (fun i => x i - xs (K - 1) i) := by
      unfold len
      congr 1
      exact Finset.sum_congr rfl fun i _ => by simp only [Pi.sub_apply]; ring
    rw [div_mul_eq_mul_div, le_div_iff₀ (by linarith)]
    have h6 := mul_le_mul_of_nonneg_left (h4.trans (by rw [h5]; linarith [h1] :
      _ ≤ o.tolStep + len (x - best))) hq0
    nlinarith

/-- C145. Once the iteration limit is so high that `2 qᵏ` times the distance of the start is within the step tolerance, the run reports
convergence. -/
theorem C145_converges (o : GD ℝ n) (f : (Fin n → ℝ) → ℝ) (g : (Fin n → ℝ) → Fin n → ℝ) (μ L : ℝ) (hs : Smooth f g μ L) (hμ : 0 ≤ μ) (hL : 0 < L)
    (hb : o.useBacktracking = false) (hmu : o.momentum = 0) (hlr : 0 < o.lr) (hlr2 : o.lr * L ≤ 2) (best : Fin n → ℝ) (hbest : IsBest o f best)
    (q : ℝ) (hq0 : 0 ≤ q) (hq1 : q ≤ 1) (hq : q ^ 2 = 1 - o.lr * μ * (2 - o.lr * L))
    (fuel : ℕ) (x0 x : Fin n → ℝ) (fx : ℝ) (K : ℕ) (c : Bool) (hmax : 0 < o.maxIters)
    (hfar : 2 * q ^ (o.maxIters - 1) * len (x0 - best) ≤ o.tolStep) (h : o.minimize f g fuel x0 = some (x, fx, K, c)) : c = true := by
  obtain ⟨-, -, xs, hx0', hxK, hst, hss, hct, hcf⟩ := C40_run o f g fuel x0 x fx K c h
  by_contra hc
  obtain ⟨hK, hstep⟩ := hcf (by simpa using hc)
  have hstep := hstep (by omega)
  have key : ∀ k ≤ K, len (xs k - best) ≤ q ^ k * len (x0 - best) := by
    intro k
    induction k with
    | zero => intro _; rw [hx0']; simp
    | succ k ih =>
      intro hk
      have h1 := step_close hs hμ hL hb hmu hlr hlr2 hbest (hst k (by omega)).2
      rw [← hq, ← mul_pow] at h1
      have h2 := abs_le_of_sq_le_sq h1 (mul_nonneg hq0 (len_nonneg _))
      rw [abs_of_nonneg (len_nonneg _)] at h2
      rw [pow_succ', mul_assoc]
      exact h2.trans (mul_le_mul_of_nonneg_left (ih (by omega)) hq0)
  have h1 := key K le_rfl
  have h2 := key (K - 1) (by omega)
  have h3 : q ^ K ≤ q ^ (K - 1) := pow_le_pow_of_le_one hq0 hq1 (by omega)
  have h4 := len_add (xs K - best) (best - xs (K - 1))
  rw [sub_add_sub_cancel] at h4
  have h5 : len (best - xs (K - 1)) = len (xs (K - 1) - best) := by
    unfold len
    congr 1
    exact Finset.sum_congr rfl fun i _ => by simp only [Pi.sub_apply]; ring
  have h6 := mul_le_mul_of_nonneg_right h3 (len_nonneg (x0 - best))
  have h7 : len (fun i => xs K i - xs (K - 1) i) = len (xs K - xs (K - 1)) := rfl
  rw [← hK] at hfar
  rw [h7] at hstep
  rw [h5] at h4
  nlinarith

/-! ### Convex objectives -/

theorem project_obtuse (o : GD ℝ n) {y : Fin n → ℝ} (hy : Feasible o y) (z : Fin n → ℝ) : inner (z - o.project z) (y - o.project z) ≤ 0 := by
  refine Finset.sum_nonpos fun i _ => ?_
  simp only [Pi.sub_apply]
  unfold GD.project
  rw [projectBox_apply]
  by_cases hb : o.hasBounds = true
  · have h := hy hb i
    rw [if_pos hb]
    split_ifs with h1 h2
    · nlinarith
    · nlinarith
    · simp
  · rw [if_neg hb]; simp

/-- One gradient step on a convex objective. -/
theorem step_values {o : GD ℝ n} {f : (Fin n → ℝ) → ℝ} {g : (Fin n → ℝ) → Fin n → ℝ} {L : ℝ} (hs : Smooth f g 0 L) {lr : ℝ} (hlr : 0 < lr)
    (hlr1 : lr * L ≤ 1) {y : Fin n → ℝ} (hy : Feasible o y) (x : Fin n → ℝ) :
    2 * lr * (f (o.project (x - lr • g x)) - f y) ≤
      inner (x - y) (x - y) - inner (o.project (x - lr • g x) - y) (o.project (x - lr • g x) - y) := by
  set x' := o.project (x - lr • g x) with hx'
  have h1 := hs.upper x (x' - x)
  have h2 := hs.lower x (y - x)
  rw [show (fun i => x i + (x' - x) i) = x' from funext fun i => by simp] at h1
  rw [show (fun i => x i + (y - x) i) = y from funext fun i => by simp] at h2
  have h3 : lr * L * inner (x' - x) (x' - x) ≤ inner (x' - x) (x' - x) := by
    have := mul_le_mul_of_nonneg_right hlr1 (inner_self_nonneg (x' - x)); linarith
  have h4 := project_obtuse o hy (x - lr • g x)
  rw [← hx'] at h4
  have h5 : inner (x - lr • g x - x') (y - x') = inner (x - x') (y - x') - lr * inner (g x) (y - x') := by
    simp only [inner_dot, sub_dotProduct, smul_dotProduct, smul_eq_mul]; ring
  have h6 : inner (g x) (y - x') = inner (g x) (y - x) - inner (g x) (x' - x) := by
    simp only [inner_dot, dotProduct_sub]; ring
  have h7 : inner (x - y) (x - y) - inner (x' - y) (x' - y) = inner (x' - x) (x' - x) - 2 * inner (x - x') (y - x') := by
    simp only [inner_dot, sub_dotProduct, dotProduct_sub, dotProduct_comm x' x, dotProduct_comm y x, dotProduct_comm y x']; ring
  rw [h7]
  rw [h5, h6] at h4
  have h8 : lr * (f x' - f y) ≤ lr * (inner (g x) (x' - x) - inner (g x) (y - x) + L / 2 * inner (x' - x) (x' - x)) := by
    apply mul_le_mul_of_nonneg_left _ hlr.le
    linarith
  nlinarith

/-- A sequence of gradient steps on a convex objective. -/
theorem steps_values {o : GD ℝ n} {f : (Fin n → ℝ) → ℝ} {g : (Fin n → ℝ) → Fin n → ℝ} {L : ℝ} (hs : Smooth f g 0 L) {lr : ℝ} (hlr : 0 < lr)
    (hlr1 : lr * L ≤ 1) (hbd : o.hasBounds = true → ∀ i, o.minB i ≤ o.maxB i) {y : Fin n → ℝ} (hy : Feasible o y) (xs : ℕ → Fin n → ℝ) (K : ℕ)
    (hstep : ∀ k < K, xs (k + 1) = o.project (xs k - lr • g (xs k))) :
    2 * lr * K * (f (xs K) - f y) ≤ inner (xs 0 - y) (xs 0 - y) := by
  have hmono : ∀ k, 0 < k → k < K → f (xs (k + 1)) ≤ f (xs k) := by
    intro k hk hkK
    have hfeas : Feasible o (xs k) := by
      intro hb
      have := hstep (k - 1) (by omega)
      rw [show k - 1 + 1 = k by omega] at this
      rw [this]
      exact (C41_project o _ hb (hbd hb)).1
    have := step_values hs hlr hlr1 hfeas (xs k)
    rw [← hstep k hkK] at this
    have h1 := inner_self_nonneg (xs (k + 1) - xs k)
    have h2 : inner (xs k - xs k) (xs k - xs k) = 0 := by simp [inner]
    rw [h2] at this
    have h3 : 2 * lr * (f (xs (k + 1)) - f (xs k)) ≤ 0 := by linarith
    have h4 : f (xs (k + 1)) - f (xs k) ≤ 0 := by
      by_contra hn
      have := mul_pos (by linarith : 0 < 2 * lr) (not_le.1 hn)
      linarith
    linarith
  have key : ∀ k ≤ K, 2 * lr * k * (f (xs k) - f y) ≤ inner (xs 0 - y) (xs 0 - y) - inner (xs k - y) (xs k - y) := by
    intro k
    induction k with
    | zero => intro _; simp
    | succ k ih =>
      intro hk
      have h1 := ih (by omega)
      have h2 := step_values hs hlr hlr1 hy (xs k)
      rw [← hstep k (by omega)] at h2
      push_cast
      rcases Nat.eq_zero_or_pos k with rfl | hpos
      · simp at h1 h2 ⊢
        linarith
      · have h3 := hmono k hpos (by omega)
        have h4 : 2 * lr * k * (f (xs (k + 1)) - f y) ≤ 2 * lr * k * (f (xs k) - f y) :=
          mul_le_mul_of_nonneg_left (by linarith) (by positivity)
        linarith
  have := key K le_rfl
  have h1 := inner_self_nonneg (xs K - y)
  linarith

/-- C145. For a convex objective and a fixed step length of at most `1 / L`, a run of `K` iterations ends with a value above that of any point
`y` within the bounds by at most `‖x₀ - y‖² / (2 lr K)`. -/
theorem C145_values (o : GD ℝ n) (f : (Fin n → ℝ) → ℝ) (g : (Fin n → ℝ) → Fin n → ℝ) (L : ℝ) (hs : Smooth f g 0 L)
    (hb : o.useBacktracking = false) (hmu : o.momentum = 0) (hlr : 0 < o.lr) (hlr1 : o.lr * L ≤ 1)
    (hbd : o.hasBounds = true → ∀ i, o.minB i ≤ o.maxB i) (y : Fin n → ℝ) (hy : Feasible o y)
    (fuel : ℕ) (x0 x : Fin n → ℝ) (fx : ℝ) (K : ℕ) (c : Bool) (h : o.minimize f g fuel x0 = some (x, fx, K, c)) :
    2 * o.lr * K * (fx - f y) ≤ len (x0 - y) ^ 2 := by
  obtain ⟨hfx, -, xs, hx0, hxK, hst, -⟩ := C40_run o f g fuel x0 x fx K c h
  have := steps_values hs hlr hlr1 hbd hy xs K (fun k hk => by
    rw [(hst k hk).2.fixed hb, hmu]
    congr 1
    funext i
    simp
    ring)
  rw [hfx, len_mul_self, ← hxK, ← hx0]
  exact this

theorem inner_two (u v : Fin 2 → ℝ) : inner u v = u 0 * v 0 + u 1 * v 1 := by simp [inner, Fin.sum_univ_two]

theorem len_two (v : Fin 2 → ℝ) : len v = Real.sqrt (v 0 ^ 2 + v 1 ^ 2) := by simp [len, Fin.sum_univ_two]

/-- `(x - 2)² / 2 + y²` on the unit square is least at `(1, 0)`, a corner; a fixed step length of `1/2` meets the hypotheses of the theorems
above with `q² = 1/2`. -/
example : ∃ (o : GD ℝ 2) (f : (Fin 2 → ℝ) → ℝ) (g : (Fin 2 → ℝ) → Fin 2 → ℝ) (best : Fin 2 → ℝ), o.hasBounds = true ∧ Smooth f g 1 2 ∧
    o.useBacktracking = false ∧ o.momentum = 0 ∧ 0 < o.lr ∧ o.lr * 2 ≤ 2 ∧ IsBest o f best ∧ g best ≠ 0 ∧ Feasible o (fun _ => 1 / 2) ∧
    Real.sqrt (1 / 2) ^ 2 = 1 - o.lr * 1 * (2 - o.lr * 2) ∧ Real.sqrt (1 / 2) < 1 := by
  refine ⟨{ GD.new 2 with hasBounds := true, maxB := fun _ => 1, useBacktracking := false, lr := 1 / 2 }, fun x => (x 0 - 2) ^ 2 / 2 + x 1 ^ 2,
    fun x => ![x 0 - 2, 2 * x 1], ![1, 0], rfl, ⟨fun x d => ?_, fun x d => ?_⟩, rfl, rfl, by norm_num, by norm_num, ⟨fun _ i => ?_, fun y hy => ?_⟩,
    fun h => ?_, fun _ i => by norm_num [GD.new], ?_, ?_⟩
  · rw [inner_two, inner_two]
    simp
    nlinarith [sq_nonneg (d 1)]
  · rw [inner_two, inner_two]
    simp
    nlinarith [sq_nonneg (d 0)]
  · fin_cases i <;> norm_num [GD.new]
  · have h0 := hy rfl 0
    have h1 := hy rfl 1
    simp only [GD.new] at h0 h1
    simp
    nlinarith [sq_nonneg (y 1)]
  · have := congrFun h 0
    norm_num at this
  · rw [Real.sq_sqrt (by norm_num)]; norm_num
  · rw [Real.sqrt_lt' one_pos]; norm_num

/-! ## C146 -/

/-- C146, for runs that stop at a small gradient, whatever the options: the point is within `tol_grad / μ` of the minimiser. -/
theorem C146_gradient_partial (o : GD ℝ n) (f : (Fin n → ℝ) → ℝ) (g : (Fin n → ℝ) → Fin n → ℝ) (μ L : ℝ) (hs : Smooth f g μ L) (hμ : 0 < μ)
    (hL : 0 < L) (best : Fin n → ℝ) (hbest : IsBest o f best) (fuel : ℕ) (x0 x : Fin n → ℝ) (hx0 : Feasible o x0) (fx : ℝ) (K : ℕ) (c : Bool)
    (h : o.minimize f g fuel x0 = some (x, fx, K, c)) (hg : len (g x) ≤ o.tolGrad) : len (x - best) ≤ o.tolGrad / μ := by
  have hfx : Feasible o x := fun hbd => C41_partial o f g fuel x0 x fx K c h hbd
    (fun i => (hbest.1 hbd i).1.trans (hbest.1 hbd i).2) (Or.inl (hx0 hbd))
  rw [le_div_iff₀ hμ]
  have h2 := hs.monotone best x
  have h3 := hbest.slope hs hL x hfx
  have h4 := inner_le_len (g x) (x - best)
  have h5 : inner (g x - g best) (x - best) = inner (g x) (x - best) - inner (g best) (x - best) := by
    simp only [inner_dot, sub_dotProduct]
  rw [h5, ← len_mul_self] at h2
  rcases (len_nonneg (x - best)).eq_or_lt with h6 | h6
  · rw [← h6, zero_mul]; exact (len_nonneg _).trans hg
  · have h7 : len (x - best) * (len (x - best) * μ) ≤ len (x - best) * o.tolGrad := by
      have := mul_le_mul_of_nonneg_right hg h6.le
      nlinarith
    exact le_of_mul_le_mul_left h7 h6

/-- C146. It fails with the default settings and bounds: for `1000 x + (x² + y²) / 2` on the unit square, started at `(0, 1)`, the run reports
convergence after one iteration, at a distance of nearly one from the minimiser `(0, 0)`. The line search asks for a decrease in
proportion to the full slope, also along the coordinate that is held at its bound, gives up, and the tiny last step counts as convergence. -/
theorem C146_fails : ∃ (f : (Fin 2 → ℝ) → ℝ) (g : (Fin 2 → ℝ) → Fin 2 → ℝ) (best : Fin 2 → ℝ) (F : ℕ),
    let o := (GD.new 2).set (.setBounds (fun _ => 0) (fun _ => 1))
    Smooth f g 1 1 ∧ IsBest o f best ∧ Feasible o ![0, 1] ∧ ∀ fuel, F ≤ fuel →
      ∃ x fx, o.minimize f g fuel ![0, 1] = some (x, fx, 1, true) ∧ 99 / 100 < len (x - best) := by
  obtain ⟨F, hF⟩ := C40_terminates (n := 2) [.setBounds (fun _ => 0) (fun _ => 1)]
  refine ⟨fun x => 1000 * x 0 + (x 0 ^ 2 + x 1 ^ 2) / 2, fun x => ![1000 + x 0, x 1], fun _ => 0, F, ?_⟩
  intro o
  refine ⟨⟨fun x d => ?_, fun x d => ?_⟩, ⟨fun _ i => ?_, fun y hy => ?_⟩, fun _ i => ?_, fun fuel hfuel => ?_⟩
  · rw [inner_two, inner_two]; simp; nlinarith
  · rw [inner_two, inner_two]; simp; nlinarith
  · norm_num [o, GD.set]
  · have h0 := hy rfl 0
    simp only [o, GD.set] at h0
    simp
    nlinarith [sq_nonneg (y 0), sq_nonneg (y 1)]
  · fin_cases i <;> norm_num [o, GD.set]
  · set f : (Fin 2 → ℝ) → ℝ := fun x => 1000 * x 0 + (x 0 ^ 2 + x 1 ^ 2) / 2 with hf
    set g : (Fin 2 → ℝ) → Fin 2 → ℝ := fun x => ![1000 + x 0, x 1] with hg
    obtain ⟨⟨x, fx, K, c⟩, hr⟩ := hF f g ![0, 1]
    have hr := hr fuel hfuel
    have hr : o.minimize f g fuel ![0, 1] = some (x, fx, K, c) := hr
    obtain ⟨hfx, hK, xs, hx0, hxK, hst, hss, hct, hcf⟩ := C40_run o f g fuel _ x fx K c hr
    have hbig : o.tolGrad < len (g ![0, 1]) := by
      rw [len_two]
      apply Real.lt_sqrt_of_sq_lt
      norm_num [o, hg, GD.set, GD.new]
    have hmax : o.maxIters = 10000 := rfl
    have hKpos : 0 < K := by
      rcases Nat.eq_zero_or_pos K with rfl | h
      · rw [hx0] at hxK
        cases c with
        | true =>
          rcases hct rfl with h1 | h1
          · rw [← hxK] at h1; exact absurd hbig (not_lt.2 h1)
          · exact absurd h1.1 (lt_irrefl _)
        | false => have := (hcf rfl).1; omega
      · exact h
    -- the first step
    obtain ⟨-, hok⟩ := hst 0 hKpos
    obtain ⟨d, j, hd, hx1, -, hor⟩ := hok.search rfl
    rw [hx0] at hd hx1 hor
    have hd' : d = fun i => -g ![0, 1] i := by
      rcases hd with ⟨rfl, -⟩ | ⟨rfl, -⟩
      · funext i; simp [o, GD.set, GD.new]
      · rfl
    subst hd'
    set s := o.lr * o.tau ^ j with hsdef
    have hs0 : 0 < s := by simp only [hsdef, o, GD.set, GD.new]; positivity
    have hs1 : s ≤ 1 / 100 := by
      have h1 : o.tau ^ j ≤ 1 := pow_le_one₀ (by norm_num [o, GD.set, GD.new]) (by norm_num [o, GD.set, GD.new])
      have h2 : o.lr = 1 / 100 := by norm_num [o, GD.set, GD.new]
      rw [hsdef, h2]; linarith
    have hp : xs (0 + 1) = ![0, 1 - s] := by
      rw [hx1]
      funext i
      unfold GD.project
      rw [projectBox_apply, if_pos (by rfl)]
      fin_cases i
      · simp [o, GD.set, hg]
        intro h; linarith
      · simp only [o, GD.set, hg]
        norm_num
        rw [if_neg (by linarith), if_neg (by linarith)]
        ring
    have hcut : s ≤ 2e-20 := by
      rcases hor with h1 | h1
      · exfalso
        rw [hp, inner_two] at h1
        have hc : o.armijoC1 = 1 / 10000 := by norm_num [o, GD.set, GD.new]
        rw [hc] at h1
        simp [hf, hg] at h1
        nlinarith
      · have ht : o.tau = 1 / 2 := by norm_num [o, GD.set, GD.new]
        rw [pow_succ, ← mul_assoc, ← hsdef, ht] at h1
        linarith
    have hlen : len (fun i => xs (0 + 1) i - xs 0 i) ≤ o.tolStep := by
      rw [hp, hx0, len_two]
      apply Real.sqrt_le_iff.2
      have ht : o.tolStep = 1e-6 := rfl
      rw [ht]
      constructor
      · norm_num
      · norm_num
        nlinarith
    have hK1 : K = 1 := by
      by_contra hne
      have := hss 0 (by omega)
      linarith
    subst hK1
    have hc : c = true := by
      cases c with
      | true => rfl
      | false => have := (hcf rfl).1; omega
    subst hc
    refine ⟨x, fx, hr, ?_⟩
    rw [← hxK, show (1 : ℕ) = 0 + 1 from rfl, hp, len_two]
    apply Real.lt_sqrt_of_sq_lt
    simp
    nlinarith

end Verif.Opt
