import Verif.Interp.PropsEnergy
import Mathlib.Analysis.Calculus.IteratedDeriv.Lemmas
import Mathlib.Analysis.Calculus.ContDiff.Polynomial
import Mathlib.Analysis.Calculus.LocalExtr.Rolle
import Mathlib.Data.Finset.Sort
import Mathlib.Analysis.SpecialFunctions.Trigonometric.Deriv

/-!
# C180: how well the interpolants approximate a smooth function
-/

namespace Verif.Interp

open Polynomial Set intervalIntegral

/-- Rolle's theorem, `n` times. -/
theorem rolle_iterated : ∀ (n : ℕ) (g : ℝ → ℝ) (z : ℕ → ℝ), ContDiff ℝ n g → (∀ i < n, z i < z (i + 1)) → (∀ i ≤ n, g (z i) = 0) →
    ∃ ξ ∈ Icc (z 0) (z n), iteratedDeriv n g ξ = 0 := by
  intro n
  induction n with
  | zero => intro g z _ _ h0; exact ⟨z 0, by simp, by rw [iteratedDeriv_zero]; exact h0 0 le_rfl⟩
  | succ n ih =>
    intro g z hg hz h0
    have hstep : ∀ i, i < n + 1 → ∃ w ∈ Ioo (z i) (z (i + 1)), deriv g w = 0 := fun i hi =>
      exists_deriv_eq_zero (hz i hi) hg.continuous.continuousOn (by rw [h0 i (by omega), h0 (i + 1) (by omega)])
    choose! w hw hd using hstep
    have hg' : ContDiff ℝ n (deriv g) := by
      have : ContDiff ℝ ((n : WithTop ℕ∞) + 1) g := by exact_mod_cast hg
      exact (contDiff_succ_iff_deriv.1 this).2.2
    obtain ⟨ξ, hξ, e⟩ := ih (deriv g) w hg' (fun i hi => (hw i (by omega)).2.trans (hw (i + 1) (by omega)).1) (fun i hi => hd i (by omega))
    exact ⟨ξ, ⟨(hw 0 (by omega)).1.le.trans hξ.1, hξ.2.trans (hw n (by omega)).2.le⟩, by rw [iteratedDeriv_succ', e]⟩

/-- A smooth function with `n + 1` zeros in an interval: its `n`-th derivative has a zero there. -/
theorem rolle_finset {n : ℕ} {g : ℝ → ℝ} (hg : ContDiff ℝ n g) {S : Finset ℝ} (hS : S.card = n + 1) {a b : ℝ} (hab : ∀ x ∈ S, x ∈ Icc a b)
    (h0 : ∀ x ∈ S, g x = 0) : ∃ ξ ∈ Icc a b, iteratedDeriv n g ξ = 0 := by
  set z : ℕ → ℝ := fun i => if h : i < n + 1 then S.orderEmbOfFin hS ⟨i, h⟩ else 0 with hz
  have hmem : ∀ i ≤ n, z i ∈ S := by
    intro i hi
    rw [hz]
    simp only [dif_pos (Nat.lt_succ_of_le hi)]
    exact Finset.orderEmbOfFin_mem S hS _
  obtain ⟨ξ, hξ, e⟩ := rolle_iterated n g z hg (by
    intro i hi
    rw [hz]
    simp only [dif_pos (show i < n + 1 by omega), dif_pos (show i + 1 < n + 1 by omega)]
    exact (S.orderEmbOfFin hS).strictMono (by simp [Fin.lt_def])) (fun i hi => h0 _ (hmem i hi))
  exact ⟨ξ, ⟨(hab _ (hmem 0 (by omega))).1.trans hξ.1, hξ.2.trans (hab _ (hmem n le_rfl)).2⟩, e⟩

theorem iteratedDeriv_poly (P : ℝ[X]) (n : ℕ) : iteratedDeriv n (fun x => P.eval x) = fun x => (derivative^[n] P).eval x := by
  induction n generalizing P with
  | zero => rw [iteratedDeriv_zero]; rfl
  | succ n ih =>
    rw [iteratedDeriv_succ', Function.iterate_succ_apply, ← ih]
    congr 1
    funext x
    exact P.deriv

/-- The classical error formula of polynomial interpolation. -/
theorem interp_error {n : ℕ} {f : ℝ → ℝ} (hf : ContDiff ℝ n f) {S : Finset ℝ} (hS : S.card = n) {P : ℝ[X]} (hP : P.degree < n)
    (hv : ∀ t ∈ S, P.eval t = f t) {a b x : ℝ} (hx : x ∈ Icc a b) (hab : ∀ t ∈ S, t ∈ Icc a b) :
    ∃ ξ ∈ Icc a b, f x - P.eval x = iteratedDeriv n f ξ / n.factorial * ∏ t ∈ S, (x - t) := by
  by_cases hxS : x ∈ S
  · refine ⟨x, hx, ?_⟩
    rw [hv x hxS, sub_self, Finset.prod_eq_zero hxS (sub_self x), mul_zero]
  · set N : ℝ[X] := ∏ t ∈ S, (X - C t) with hN
    have hNx : N.eval x = ∏ t ∈ S, (x - t) := by rw [hN, eval_prod]; simp
    have hN0 : N.eval x ≠ 0 := by
      rw [hNx]
      exact Finset.prod_ne_zero_iff.2 fun t ht => sub_ne_zero.2 fun e => hxS (e ▸ ht)
    set K : ℝ := (f x - P.eval x) / N.eval x with hK
    set Q : ℝ[X] := P + C K * N with hQ
    have hQe : ∀ t, Q.eval t = P.eval t + K * N.eval t := fun t => by rw [hQ]; simp
    have hQc : ContDiff ℝ n fun t => Q.eval t := by simpa using Q.contDiff_aeval (𝕜 := ℝ) n
    have hg : ContDiff ℝ n fun t => f t - Q.eval t := hf.sub hQc
    obtain ⟨ξ, hξ, e⟩ := rolle_finset hg (S := insert x S) (by rw [Finset.card_insert_of_notMem hxS, hS]) (a := a) (b := b)
      (by intro t ht; rcases Finset.mem_insert.1 ht with rfl | ht; exacts [hx, hab t ht])
      (by
        intro t ht
        show f t - Q.eval t = 0
        rw [hQe]
        rcases Finset.mem_insert.1 ht with rfl | ht
        · rw [hK, div_mul_cancel₀ _ hN0]; ring
        · have : N.eval t = 0 := by rw [hN, eval_prod]; exact Finset.prod_eq_zero ht (by simp)
          rw [this, hv t ht]; ring)
    refine ⟨ξ, hξ, ?_⟩
    have e2 : iteratedDeriv n (fun t => f t - Q.eval t) ξ = iteratedDeriv n f ξ - iteratedDeriv n (fun t => Q.eval t) ξ :=
      iteratedDeriv_fun_sub hf.contDiffAt hQc.contDiffAt
    have e3 : derivative^[n] Q = C (K * n.factorial) := by
      have h1 : derivative^[n] P = 0 := iterate_derivative_eq_zero_of_degree_lt hP
      have h2 : derivative^[n] N = C (n.factorial : ℝ) := by
        have := iterate_derivative_prod_X_sub_C (S := S) (k := n) hS.ge
        rw [hN, this, hS, Nat.sub_self, Finset.powersetCard_zero, Finset.sum_singleton, Finset.prod_empty, mul_one]
        simp
      rw [hQ, iterate_map_add, h1, zero_add, iterate_derivative_C_mul, h2, ← C_mul]
    rw [e2, iteratedDeriv_poly, e3] at e
    simp only [eval_C] at e
    have hfac : (n.factorial : ℝ) ≠ 0 := by positivity
    rw [← hNx, show iteratedDeriv n f ξ = K * n.factorial by linarith, mul_div_cancel_right₀ _ hfac, hK, div_mul_cancel₀ _ hN0]

/-- **C180**: the polynomial interpolant of samples of an `n` times differentiable function. Away from the nodes the error is at most
the bound `M` of the `n`-th derivative times the distances to the nodes, over `n!`. -/
theorem C180_polynomial {n : ℕ} {xs : ℕ → ℝ} {f : ℝ → ℝ} (hf : ContDiff ℝ n f) {p : Poly} (h : Poly.new n xs (fun i => f (xs i)) = some p)
    {a b M : ℝ} (hxs : ∀ i < n, xs i ∈ Icc a b) (hM : ∀ t ∈ Icc a b, |iteratedDeriv n f t| ≤ M) {x : ℝ} (hx : x ∈ Icc a b)
    (hfar : ∀ i < n, eps < |x - xs i|) :
    |p.evaluate n x - f x| ≤ M / n.factorial * ∏ i ∈ Finset.range n, |x - xs i| := by
  obtain ⟨⟨P, ⟨hP, hv⟩, _⟩, heval⟩ := C37_polynomial h
  obtain ⟨hn, _, _, hs, _⟩ := new_eq_some h
  have hinj : Set.InjOn xs (Finset.range n) := by
    intro i hi j hj hij
    by_contra hne
    have := hs i (by simpa using hi) j (by simpa using hj) hne
    rw [hij, sub_self, abs_zero] at this
    exact absurd this (not_lt.2 eps_pos.le)
  have hmem : ∀ t ∈ (Finset.range n).image xs, ∃ i < n, xs i = t := fun t ht => by
    obtain ⟨i, hi, e⟩ := Finset.mem_image.1 ht
    exact ⟨i, Finset.mem_range.1 hi, e⟩
  obtain ⟨ξ, hξ, e⟩ := interp_error hf (S := (Finset.range n).image xs) (by rw [Finset.card_image_of_injOn hinj, Finset.card_range]) hP
    (fun t ht => by obtain ⟨i, hi, rfl⟩ := hmem t ht; exact hv i hi) hx
    (fun t ht => by obtain ⟨i, hi, rfl⟩ := hmem t ht; exact hxs i hi)
  rw [heval P hP hv x hfar, abs_sub_comm, e, Finset.prod_image hinj, abs_mul, abs_div, Nat.abs_cast, Finset.abs_prod]
  gcongr
  exact hM ξ hξ

/-- **C180**: within the tolerance of a node the value of the node is returned, and the error is at most the bound of the first derivative
times the tolerance. -/
theorem C180_tolerance {n : ℕ} {xs : ℕ → ℝ} {f : ℝ → ℝ} (hf : Differentiable ℝ f) {p : Poly} (h : Poly.new n xs (fun i => f (xs i)) = some p)
    {a b M : ℝ} (hxs : ∀ i < n, xs i ∈ Icc a b) (hM : ∀ t ∈ Icc a b, |deriv f t| ≤ M) {x : ℝ} (hx : x ∈ Icc a b)
    {i : ℕ} (hi : i < n) (hnear : |x - xs i| ≤ eps) : |p.evaluate n x - f x| ≤ M * eps := by
  obtain ⟨hn, hxs', hys, hs, _⟩ := new_eq_some h
  have hM0 : 0 ≤ M := (abs_nonneg _).trans (hM x hx)
  have hnode : ∀ l : List ℕ, (∀ j ∈ l, j < n) → i ∈ l → ∃ j < n, |x - xs j| ≤ eps ∧ nodeLoop p x l = some (f (xs j)) := by
    intro l
    induction l with
    | nil => intro _ hi; simp at hi
    | cons j l ih =>
      intro hl him
      by_cases hj : |x - p.xs j| ≤ eps
      · exact ⟨j, hl j (by simp), by rwa [hxs'] at hj, by rw [nodeLoop, if_pos hj, hys]⟩
      · have hij : i ≠ j := by rintro rfl; rw [hxs'] at hj; exact hj hnear
        obtain ⟨k, hk, hk2, hk3⟩ := ih (fun m hm => hl m (by simp [hm])) (by simpa [hij] using him)
        exact ⟨k, hk, hk2, by rw [nodeLoop, if_neg hj, hk3]⟩
  obtain ⟨j, hj, hj2, hj3⟩ := hnode (List.range n) (fun j hj => List.mem_range.1 hj) (List.mem_range.2 hi)
  unfold Poly.evaluate
  rw [hj3]
  have := (convex_Icc a b).norm_image_sub_le_of_norm_deriv_le (f := f) (C := M) (fun t _ => hf t) (fun t ht => hM t ht) hx (hxs j hj)
  rw [Real.norm_eq_abs, Real.norm_eq_abs] at this
  refine this.trans (mul_le_mul_of_nonneg_left ?_ hM0)
  rwa [abs_sub_comm]

/-- **C180**: linear interpolation between two samples of a twice differentiable function is off by at most `M (b - a)² / 8`. -/
theorem C180_linear {f : ℝ → ℝ} (hf : ContDiff ℝ 2 f) {a b M : ℝ} (hab : a < b) (hM : ∀ t ∈ Icc a b, |deriv (deriv f) t| ≤ M)
    {t : ℝ} (h0 : 0 ≤ t) (h1 : t ≤ 1) : |lerp (f a) (f b) t - f (lerp a b t)| ≤ M * (b - a) ^ 2 / 8 := by
  have hd : b - a ≠ 0 := (sub_pos.2 hab).ne'
  set P : ℝ[X] := C (f a) + C ((f b - f a) / (b - a)) * (X - C a) with hP
  have hPe : ∀ y, P.eval y = f a + (f b - f a) / (b - a) * (y - a) := fun y => by rw [hP]; simp
  have hdeg : P.degree < (2 : ℕ) := by
    have hle : P.degree ≤ (1 : ℕ) := by
      have e : P = C ((f b - f a) / (b - a)) * X + C (f a - (f b - f a) / (b - a) * a) := by
        rw [hP, C_sub, C_mul]; ring
      rw [e]
      exact degree_linear_le
    exact hle.trans_lt (by norm_num)
  set x := lerp a b t with hx
  have hxe : x = a + t * (b - a) := by rw [hx]; simp [lerp]
  have hxI : x ∈ Icc a b := by
    rw [hxe]
    constructor <;> nlinarith
  have hne : a ≠ b := hab.ne
  obtain ⟨ξ, hξ, e⟩ := interp_error hf (S := {a, b}) (by rw [Finset.card_pair hne]) hdeg
    (by
      intro y hy
      rw [hPe]
      rcases Finset.mem_insert.1 hy with rfl | hy
      · ring
      · rw [Finset.mem_singleton.1 hy, div_mul_cancel₀ _ hd]; ring) hxI
    (by
      intro y hy
      rcases Finset.mem_insert.1 hy with rfl | hy
      · exact ⟨le_rfl, hab.le⟩
      · rw [Finset.mem_singleton.1 hy]; exact ⟨hab.le, le_rfl⟩)
  have hval : P.eval x = lerp (f a) (f b) t := by
    rw [hPe, hxe]; simp only [lerp, smul_eq_mul]; field_simp; ring
  have hi2 : iteratedDeriv 2 f ξ = deriv (deriv f) ξ := by rw [iteratedDeriv_succ', iteratedDeriv_one]
  rw [← hval, abs_sub_comm, e, Finset.prod_pair hne, hi2, hxe]
  have hm := hM ξ hξ
  have hp : |(a + t * (b - a) - a) * (a + t * (b - a) - b)| ≤ (b - a) ^ 2 / 4 := by
    rw [show (a + t * (b - a) - a) * (a + t * (b - a) - b) = -(t * (1 - t) * (b - a) ^ 2) by ring, abs_neg,
      abs_of_nonneg (mul_nonneg (mul_nonneg h0 (by linarith)) (sq_nonneg _))]
    nlinarith [mul_nonneg (sq_nonneg (2 * t - 1)) (sq_nonneg (b - a))]
  rw [abs_mul, abs_div]
  have hfac : |((2 : ℕ).factorial : ℝ)| = 2 := by norm_num [Nat.factorial]
  rw [hfac]
  calc |deriv (deriv f) ξ| / 2 * |(a + t * (b - a) - a) * (a + t * (b - a) - b)| ≤ M / 2 * ((b - a) ^ 2 / 4) :=
        mul_le_mul (by linarith) hp (abs_nonneg _) (by have := (abs_nonneg _).trans hm; linarith)
    _ = _ := by ring

/-- The square of an integral is at most the length times the integral of the square. -/
theorem integral_sq_le {u : ℝ → ℝ} (hu : Continuous u) {a b : ℝ} (hab : a ≤ b) : (∫ x in a..b, u x) ^ 2 ≤ (b - a) * ∫ x in a..b, u x ^ 2 := by
  rcases hab.eq_or_lt with rfl | hab
  · simp
  set I := ∫ x in a..b, u x with hI
  set m := I / (b - a) with hm
  have hd : 0 < b - a := sub_pos.2 hab
  have h0 : 0 ≤ ∫ x in a..b, (u x - m) ^ 2 := integral_nonneg hab.le fun _ _ => sq_nonneg _
  have e : ∫ x in a..b, (u x - m) ^ 2 = (∫ x in a..b, u x ^ 2) - 2 * m * I + m ^ 2 * (b - a) := by
    have : ∫ x in a..b, (u x - m) ^ 2 = ∫ x in a..b, (u x ^ 2 - 2 * m * u x + m ^ 2) := integral_congr fun x _ => by ring
    rw [this, integral_add (by apply Continuous.intervalIntegrable; fun_prop) (by apply Continuous.intervalIntegrable; fun_prop),
      integral_sub (by apply Continuous.intervalIntegrable; fun_prop) (by apply Continuous.intervalIntegrable; fun_prop),
      integral_const_mul, integral_const, smul_eq_mul]
    ring
  have hmI : m * (b - a) = I := by rw [hm, div_mul_cancel₀ _ hd.ne']
  rw [e] at h0
  nlinarith

/-- A twice differentiable function that vanishes at both ends of an interval is small on it when its bending energy is. -/
theorem small_of_energy {d : ℝ → ℝ} (hd : ContDiff ℝ 2 d) {a b x : ℝ} (hab : a < b) (ha : d a = 0) (hb : d b = 0) (hx : x ∈ Icc a b) :
    d x ^ 2 ≤ (b - a) ^ 3 / 4 * ∫ t in a..b, deriv (deriv d) t ^ 2 := by
  obtain ⟨c, hc, hc0⟩ := exists_deriv_eq_zero hab hd.continuous.continuousOn (by rw [ha, hb])
  have c2 := deriv2_continuous hd
  have hsq : Continuous fun t => deriv (deriv d) t ^ 2 := by fun_prop
  set E := ∫ t in a..b, deriv (deriv d) t ^ 2 with hE
  have hsub : ∀ u v, a ≤ u → u ≤ v → v ≤ b → ∫ t in u..v, deriv (deriv d) t ^ 2 ≤ E := fun u v h1 h2 h3 =>
    integral_mono_interval h1 h2 h3 (Filter.Eventually.of_forall fun t => sq_nonneg _) (hsq.intervalIntegrable _ _)
  have hE0 : 0 ≤ E := integral_nonneg hab.le fun _ _ => sq_nonneg _
  have hint : ∀ u v, ∫ t in u..v, deriv (deriv d) t = deriv d v - deriv d u := fun u v =>
    integral_deriv_eq_sub (fun t _ => deriv_differentiable hd t) (c2.intervalIntegrable _ _)
  have hslope : ∀ t ∈ Icc a b, |deriv d t| ≤ √((b - a) * E) := by
    intro t ht
    rw [← Real.sqrt_sq_eq_abs]
    apply Real.sqrt_le_sqrt
    have hlen : 0 ≤ b - a := by linarith
    rcases le_total c t with h | h
    · have := integral_sq_le c2 h
      rw [hint, hc0, sub_zero] at this
      exact this.trans (mul_le_mul (by linarith [ht.2, hc.1]) (hsub c t hc.1.le h ht.2) (integral_nonneg h fun _ _ => sq_nonneg _) hlen)
    · have := integral_sq_le c2 h
      rw [hint, hc0, zero_sub, neg_sq] at this
      exact this.trans (mul_le_mul (by linarith [ht.1, hc.2]) (hsub t c ht.1 h hc.2.le) (integral_nonneg h fun _ _ => sq_nonneg _) hlen)
  have hmv : ∀ e ∈ Icc a b, d e = 0 → |d x| ≤ √((b - a) * E) * |x - e| := by
    intro e he h0
    have := (convex_Icc a b).norm_image_sub_le_of_norm_deriv_le (f := d) (fun t _ => hd.differentiable two_ne_zero t) hslope he hx
    rwa [Real.norm_eq_abs, Real.norm_eq_abs, h0, sub_zero] at this
  have hS : √((b - a) * E) ^ 2 = (b - a) * E := Real.sq_sqrt (mul_nonneg (by linarith) hE0)
  have hS0 := Real.sqrt_nonneg ((b - a) * E)
  have hfin : |d x| ≤ √((b - a) * E) * ((b - a) / 2) := by
    rcases le_total (x - a) ((b - a) / 2) with h | h
    · refine (hmv a ⟨le_rfl, hab.le⟩ ha).trans (mul_le_mul_of_nonneg_left ?_ hS0)
      rwa [abs_of_nonneg (sub_nonneg.2 hx.1)]
    · refine (hmv b ⟨hab.le, le_rfl⟩ hb).trans (mul_le_mul_of_nonneg_left ?_ hS0)
      rw [abs_of_nonpos (sub_nonpos.2 hx.2)]; linarith
  have := pow_le_pow_left₀ (abs_nonneg _) hfin 2
  rw [sq_abs, mul_pow, hS] at this
  refine this.trans (le_of_eq ?_)
  ring

/-- A point between the first and the last knot lies between two neighbours. -/
theorem between_knots {xs : ℕ → ℝ} {x : ℝ} : ∀ m, 0 < m → xs 0 ≤ x → x ≤ xs m → ∃ i < m, x ∈ Icc (xs i) (xs (i + 1)) := by
  intro m
  induction m with
  | zero => intro h; omega
  | succ m ih =>
    intro _ h0 h1
    rcases le_total (xs m) x with h | h
    · exact ⟨m, by omega, h, h1⟩
    · rcases Nat.eq_zero_or_pos m with rfl | hm
      · exact ⟨0, by omega, h0, h1⟩
      · obtain ⟨i, hi, h⟩ := ih hm h0 h
        exact ⟨i, by omega, h⟩

/-- **C180**: the cubic spline through samples of a twice continuously differentiable function. With no gap between knots above `h` the square
of the error is at most `h³ / 4` times the integral of the squared second derivative, everywhere between the first and the last knot. -/
theorem C180_spline {n : ℕ} {xs : ℕ → ℝ} {g : ℝ → ℝ} (hg : ContDiff ℝ 2 g) {s : Spline} (hs : Spline.new n xs (fun i => g (xs i)) = some s)
    {h : ℝ} (hh : ∀ i, i + 1 < n → xs (i + 1) - xs i ≤ h) {x : ℝ} (hx : x ∈ Icc (xs 0) (xs (n - 1))) :
    ∃ y, s.evaluate n x = some y ∧ (y - g x) ^ 2 ≤ h ^ 3 / 4 * ∫ t in xs 0..xs (n - 1), deriv (deriv g) t ^ 2 := by
  obtain ⟨f, hf, hnat⟩ := C38_natural hs
  obtain ⟨hn, hinc⟩ := (C38_new n xs _).1 ⟨s, hs⟩
  refine ⟨f x, hf x, ?_⟩
  have hd : ContDiff ℝ 2 (g - f) := hg.sub hnat.smooth
  have e : ∀ x, deriv (deriv (g - f)) x = deriv (deriv g) x - deriv (deriv f) x := by
    intro x
    have : deriv (g - f) = deriv g - deriv f := by
      funext y
      exact deriv_sub (hg.differentiable two_ne_zero y) (hnat.smooth.differentiable two_ne_zero y)
    rw [this]
    exact deriv_sub (deriv_differentiable hg x) (deriv_differentiable hnat.smooth x)
  obtain ⟨i, hi, hxi⟩ := between_knots (xs := xs) (n - 1) (by omega) hx.1 hx.2
  have hlt := hinc i (by omega)
  have hz : ∀ j < n, (g - f) (xs j) = 0 := fun j hj => by rw [Pi.sub_apply, hnat.interpolates j hj, sub_self]
  have h1 := small_of_energy hd hlt (hz i (by omega)) (hz (i + 1) (by omega)) hxi
  have hmono : ∀ a b, a ≤ b → b < n → xs a ≤ xs b := by
    intro a b hab
    induction b, hab using Nat.le_induction with
    | base => intro _; exact le_rfl
    | succ b _ ih => intro hb; exact (ih (by omega)).trans (hinc b hb).le
  have c1 := deriv2_continuous hnat.smooth
  have c2 := deriv2_continuous hg
  have hcd := deriv2_continuous hd
  have h2 : ∫ t in xs i..xs (i + 1), deriv (deriv (g - f)) t ^ 2 ≤ ∫ t in xs 0..xs (n - 1), deriv (deriv (g - f)) t ^ 2 :=
    integral_mono_interval (hmono 0 i (by omega) (by omega)) hlt.le (hmono (i + 1) (n - 1) (by omega) (by omega))
      (Filter.Eventually.of_forall fun t => sq_nonneg _) (Continuous.intervalIntegrable (by fun_prop) _ _)
  have h3 := natural_energy hinc hnat hg fun j _ => rfl
  have h4 : 0 ≤ ∫ t in xs 0..xs (n - 1), deriv (deriv f) t ^ 2 := integral_nonneg (hmono 0 (n - 1) (by omega) (by omega)) fun _ _ => sq_nonneg _
  have h5 : 0 ≤ ∫ t in xs i..xs (i + 1), deriv (deriv (g - f)) t ^ 2 := integral_nonneg hlt.le fun _ _ => sq_nonneg _
  have h6 : ∫ t in xs 0..xs (n - 1), deriv (deriv (g - f)) t ^ 2 = ∫ t in xs 0..xs (n - 1), (deriv (deriv g) t - deriv (deriv f) t) ^ 2 := by
    simp only [e]
  have hw : 0 ≤ xs (i + 1) - xs i := (sub_pos.2 hlt).le
  have hw3 : (xs (i + 1) - xs i) ^ 3 ≤ h ^ 3 := pow_le_pow_left₀ hw (hh i (by omega)) 3
  have hp3 : 0 ≤ h ^ 3 := (pow_nonneg hw 3).trans hw3
  rw [Pi.sub_apply] at h1
  rw [show (f x - g x) ^ 2 = (g x - f x) ^ 2 by ring]
  refine h1.trans (mul_le_mul (by linarith) (by linarith) h5 (by linarith))

/-- A case that meets the hypotheses of `C180_polynomial`: the sine at 0, 1 and 2, away from these nodes. -/
example : ∃ p, Poly.new 3 (fun i => (i : ℝ)) (fun i => Real.sin (i : ℝ)) = some p ∧ ContDiff ℝ 3 Real.sin ∧
    (∀ i < 3, ((i : ℕ) : ℝ) ∈ Icc (0 : ℝ) 2) ∧ (∀ t ∈ Icc (0 : ℝ) 2, |iteratedDeriv 3 Real.sin t| ≤ 1) ∧
    ∀ i < 3, eps < |(1 / 2 : ℝ) - (i : ℕ)| := by
  have hne : ∃ p, Poly.new 3 (fun i => (i : ℝ)) (fun i => Real.sin (i : ℝ)) = some p := by
    rw [← Option.isSome_iff_exists, ← Option.ne_none_iff_isSome, Ne, C37_new]
    rintro (h | ⟨i, hi, j, hj, hij, h⟩)
    · omega
    · have h1 : (1 : ℝ) ≤ |(i : ℝ) - (j : ℝ)| := by
        have : (1 : ℤ) ≤ |(i : ℤ) - (j : ℤ)| := Int.one_le_abs (by omega)
        exact_mod_cast this
      have h2 : eps < 1 := by norm_num [eps]
      linarith
  obtain ⟨p, hp⟩ := hne
  refine ⟨p, hp, Real.contDiff_sin, fun i hi => ?_, fun t _ => ?_, fun i hi => ?_⟩
  · interval_cases i <;> norm_num
  · rw [iteratedDeriv_succ', iteratedDeriv_succ', iteratedDeriv_one]
    simp only [Real.deriv_sin, Real.deriv_cos', deriv.fun_neg', abs_neg]
    exact Real.abs_cos_le_one t
  · interval_cases i <;> norm_num [eps, abs_of_pos, abs_of_neg]

/-- A case that meets the hypotheses of `C180_spline` and `C180_linear`: the sine. -/
example : ∃ s, Spline.new 4 (fun i => (i : ℝ)) (fun i => Real.sin (i : ℝ)) = some s ∧ ContDiff ℝ 2 Real.sin ∧
    (∀ i : ℕ, i + 1 < 4 → ((i + 1 : ℕ) : ℝ) - (i : ℝ) ≤ 1) ∧ ∀ t : ℝ, |deriv (deriv Real.sin) t| ≤ 1 := by
  obtain ⟨s, hs⟩ := (C38_new 4 (fun i => (i : ℝ)) (fun i => Real.sin (i : ℝ))).2 ⟨by omega, fun i _ => by simp⟩
  refine ⟨s, hs, Real.contDiff_sin, fun i _ => by push_cast; linarith, fun t => ?_⟩
  simp only [Real.deriv_sin, Real.deriv_cos', abs_neg]
  exact Real.abs_sin_le_one t

end Verif.Interp
