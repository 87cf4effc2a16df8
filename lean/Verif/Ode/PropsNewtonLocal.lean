import Verif.Ode.PropsNewton

/-!
# C181: from where Newton's method finds a given root
-/

namespace Verif.Ode

open Set

/-- The remainder of the linearisation, with the derivative known near `z` only. -/
theorem taylor_local {f df : ℝ → ℝ} {z r L : ℝ} (hf : ∀ y, |y - z| ≤ r → HasDerivAt f (df y) y)
    (hL : ∀ a b, |a - z| ≤ r → |b - z| ≤ r → |df a - df b| ≤ L * |a - b|) {x : ℝ} (hx : |x - z| ≤ r) :
    |f z - f x - df x * (z - x)| ≤ L / 2 * (z - x) ^ 2 := by
  have hr : 0 ≤ r := (abs_nonneg _).trans hx
  have hseg : ∀ t ∈ Icc (0 : ℝ) 1, |x + t * (z - x) - z| ≤ r := fun t ht => by
    rw [show x + t * (z - x) - z = (1 - t) * (x - z) by ring, abs_mul, abs_of_nonneg (by linarith [ht.2])]
    exact (mul_le_of_le_one_left (abs_nonneg _) (by linarith [ht.1])).trans hx
  have hg : ∀ t ∈ Icc (0 : ℝ) 1, HasDerivAt (fun t => f (x + t * (z - x)) - f x - df x * (t * (z - x)))
      ((df (x + t * (z - x)) - df x) * (z - x)) t := by
    intro t ht
    have h1 : HasDerivAt (fun t : ℝ => x + t * (z - x)) (z - x) t := by
      simpa using ((hasDerivAt_id t).mul_const (z - x)).const_add x
    have h2 := (hf (x + t * (z - x)) (hseg t ht)).comp t h1
    have h3 : HasDerivAt (fun t : ℝ => df x * (t * (z - x))) (df x * (z - x)) t := by
      simpa using ((hasDerivAt_id t).mul_const (z - x)).const_mul (df x)
    exact ((h2.sub_const (f x)).sub h3).congr_deriv (by ring)
  have hB : ∀ t : ℝ, HasDerivAt (fun t : ℝ => L / 2 * (z - x) ^ 2 * t ^ 2) (L * (z - x) ^ 2 * t) t := by
    intro t
    exact ((hasDerivAt_pow 2 t).const_mul (L / 2 * (z - x) ^ 2)).congr_deriv (by simp; ring)
  have := image_norm_le_of_norm_deriv_right_le_deriv_boundary (a := 0) (b := 1)
    (f := fun t => f (x + t * (z - x)) - f x - df x * (t * (z - x)))
    (f' := fun t => (df (x + t * (z - x)) - df x) * (z - x))
    (B := fun t : ℝ => L / 2 * (z - x) ^ 2 * t ^ 2) (B' := fun t => L * (z - x) ^ 2 * t)
    (fun t ht => (hg t ht).continuousAt.continuousWithinAt) (fun t ht => (hg t (Ico_subset_Icc_self ht)).hasDerivWithinAt) (by simp)
    hB (fun t ht => by
      rw [Real.norm_eq_abs, abs_mul]
      have h1 := hL (x + t * (z - x)) x (hseg t (Ico_subset_Icc_self ht)) hx
      rw [add_sub_cancel_left, abs_mul, abs_of_nonneg ht.1] at h1
      calc |df (x + t * (z - x)) - df x| * |z - x| ≤ L * (t * |z - x|) * |z - x| :=
            mul_le_mul_of_nonneg_right h1 (abs_nonneg _)
        _ = L * (z - x) ^ 2 * t := by rw [← sq_abs (z - x)]; ring)
    (x := 1) ⟨zero_le_one, le_refl 1⟩
  simpa using this

/-- The error after one step is at most a constant times the square of the error before. -/
theorem error_step {f df : ℝ → ℝ} {z r L m : ℝ} (hz : f z = 0) (hf : ∀ y, |y - z| ≤ r → HasDerivAt f (df y) y)
    (hL : ∀ a b, |a - z| ≤ r → |b - z| ≤ r → |df a - df b| ≤ L * |a - b|) (hm : 0 < m) (hd : ∀ y, |y - z| ≤ r → m ≤ |df y|) {x : ℝ} (hx : |x - z| ≤ r) :
    |x - f x / df x - z| ≤ L / (2 * m) * |x - z| ^ 2 := by
  have h1 := taylor_local hf hL hx
  have h2 := hd x hx
  have h0 : df x ≠ 0 := fun e => by rw [e, abs_zero] at h2; linarith
  have e : x - f x / df x - z = (f z - f x - df x * (z - x)) / df x := by rw [hz]; field_simp; ring
  have hp : 0 ≤ L / 2 * (z - x) ^ 2 := (abs_nonneg _).trans h1
  rw [e, abs_div]
  calc |f z - f x - df x * (z - x)| / |df x| ≤ L / 2 * (z - x) ^ 2 / m := div_le_div₀ hp h1 hm h2
    _ = L / (2 * m) * |x - z| ^ 2 := by rw [sq_abs]; field_simp; ring

/-- **C181**: near a simple root. On the points within `r` of the root `z` let the second function be the derivative of the first, of size at
least `m` and varying by at most `L` per unit, with `L r ≤ m`. From any start there, with enough iterations allowed, an answer is
returned; and every answer is within `2 L tol² / m` of the root. The number of iterations needed grows like the logarithm of the logarithm of
the precision asked for. -/
theorem C181_local (tol : ℝ) (f df : ℝ → ℝ) (n : ℕ) (x z r L m : ℝ) (hz : f z = 0) (hf : ∀ y, |y - z| ≤ r → HasDerivAt f (df y) y)
    (hL : ∀ a b, |a - z| ≤ r → |b - z| ≤ r → |df a - df b| ≤ L * |a - b|) (hL0 : 0 ≤ L) (hm : 0 < m) (hd : ∀ y, |y - z| ≤ r → m ≤ |df y|)
    (hr : L * r ≤ m) (hx : |x - z| ≤ r) :
    (0 < n → 3 * r * (1 / 2) ^ 2 ^ (n - 1) < tol → ∃ y, solve tol f df n x = .ok y) ∧
    ∀ y, solve tol f df n x = .ok y → |y - z| ≤ 2 * L * tol ^ 2 / m := by
  have hr0 : 0 ≤ r := (abs_nonneg _).trans hx
  -- errors
  have hin : ∀ k, |iter f df x k - z| ≤ r ∧ |iter f df x k - z| ≤ 2 * r * (1 / 2) ^ 2 ^ k := by
    intro k
    induction k with
    | zero => simp only [iter, pow_zero, pow_one]; exact ⟨hx, by linarith⟩
    | succ k ih =>
      have h1 := error_step hz hf hL hm hd ih.1
      have hnn := abs_nonneg (iter f df x k - z)
      have hhalf : r * (L / (2 * m)) ≤ 1 / 2 := by
        rw [← mul_div_assoc, div_le_iff₀ (by positivity)]; linarith
      have hq : 0 ≤ L / (2 * m) := by positivity
      refine ⟨?_, ?_⟩
      · show |iter f df x k - f (iter f df x k) / df (iter f df x k) - z| ≤ r
        refine h1.trans ?_
        calc L / (2 * m) * |iter f df x k - z| ^ 2 ≤ L / (2 * m) * r ^ 2 := by gcongr; exact ih.1
          _ = r * (L / (2 * m)) * r := by ring
          _ ≤ 1 / 2 * r := by gcongr
          _ ≤ r := by linarith
      · show |iter f df x k - f (iter f df x k) / df (iter f df x k) - z| ≤ _
        refine h1.trans ?_
        calc L / (2 * m) * |iter f df x k - z| ^ 2 ≤ L / (2 * m) * (2 * r * (1 / 2) ^ 2 ^ k) ^ 2 := by gcongr; exact ih.2
          _ = r * (L / (2 * m)) * (4 * r * (1 / 2) ^ 2 ^ (k + 1)) := by rw [pow_succ 2 k, pow_mul]; ring
          _ ≤ 1 / 2 * (4 * r * (1 / 2) ^ 2 ^ (k + 1)) := by gcongr
          _ = _ := by ring
  have hne : ∀ k, df (iter f df x k) ≠ 0 := fun k e => by
    have := hd _ (hin k).1
    rw [e, abs_zero] at this
    linarith
  have hhalf : ∀ k, |iter f df x (k + 1) - z| ≤ |iter f df x k - z| / 2 := by
    intro k
    have h1 : |iter f df x (k + 1) - z| ≤ _ := error_step hz hf hL hm hd (hin k).1
    refine h1.trans ?_
    have h2 : L / (2 * m) * |iter f df x k - z| ≤ 1 / 2 := by
      have : L * |iter f df x k - z| ≤ L * r := mul_le_mul_of_nonneg_left (hin k).1 hL0
      rw [div_mul_eq_mul_div, div_le_iff₀ (by positivity)]; linarith
    have := mul_le_mul_of_nonneg_right h2 (abs_nonneg (iter f df x k - z))
    linarith [this, show L / (2 * m) * |iter f df x k - z| ^ 2 = L / (2 * m) * |iter f df x k - z| * |iter f df x k - z| by ring]
  refine ⟨fun hn htol => ?_, fun y hy => ?_⟩
  · rcases outcome (fun a : ℝ => |a|) (fun a b => decide (a < b)) tol f df n x with ⟨k, _, _, _, h5, _⟩ | ⟨k, _, _, h4, _, _⟩ | ⟨h3, _, _⟩
    · exact ⟨_, h5⟩
    · exact absurd h4 (hne _)
    · have := (h3 (n - 1) (by omega)).2
      simp only [decide_eq_false_iff_not] at this
      refine absurd (lt_of_le_of_lt ?_ htol) this
      have h1 := (hin (n - 1)).2
      have h2 := hhalf (n - 1)
      calc |iter f df x (n - 1 + 1) - iter f df x (n - 1)| = |(iter f df x (n - 1 + 1) - z) - (iter f df x (n - 1) - z)| := by congr 1; ring
        _ ≤ |iter f df x (n - 1 + 1) - z| + |iter f df x (n - 1) - z| := abs_sub _ _
        _ ≤ 3 * r * (1 / 2) ^ 2 ^ (n - 1) := by linarith
  · obtain ⟨k, hk, _, ⟨_, ha⟩, rfl⟩ := ((C71_report _ _ tol f df n x).2.2.1 y).mp hy
    have ha' : |iter f df x (k + 1) - iter f df x k| < tol := by simpa using ha
    have h1 : |iter f df x (k + 1) - z| ≤ _ := error_step hz hf hL hm hd (hin k).1
    have h2 := hhalf k
    have h3 : |iter f df x k - z| ≤ 2 * tol := by
      have : |iter f df x k - z| ≤ |iter f df x k - iter f df x (k + 1)| + |iter f df x (k + 1) - z| := abs_sub_le _ _ _
      rw [abs_sub_comm (iter f df x k) (iter f df x (k + 1))] at this
      linarith
    refine h1.trans ?_
    calc L / (2 * m) * |iter f df x k - z| ^ 2 ≤ L / (2 * m) * (2 * tol) ^ 2 := by
          have : 0 ≤ L / (2 * m) := by positivity
          gcongr
      _ = 2 * L * tol ^ 2 / m := by field_simp

/-- **C181**: to the right of the root of a convex increasing function. If the derivative is positive at the root `z` and does not
decrease to the right of it, then from any start `x ≥ z` an answer is returned as soon as the iterations allowed times the tolerance exceed
`x - z`; every answer lies between the root and the start, within `tol · df x / df z` of the root. -/
theorem C181_convex (tol : ℝ) (f df : ℝ → ℝ) (n : ℕ) (x z : ℝ) (hz : f z = 0) (hf : ∀ y, z ≤ y → HasDerivAt f (df y) y) (hdz : 0 < df z)
    (hmono : ∀ a b, z ≤ a → a ≤ b → df a ≤ df b) (hx : z ≤ x) (htol : 0 < tol) :
    (x - z < n * tol → ∃ y, solve tol f df n x = .ok y) ∧
    ∀ y, solve tol f df n x = .ok y → z ≤ y ∧ y ≤ x ∧ y - z ≤ tol * (df x / df z) := by
  have hpos : ∀ y, z ≤ y → 0 < df y := fun y hy => hdz.trans_le (hmono z y le_rfl hy)
  have hmv : ∀ a b, z ≤ a → a ≤ b → df a * (b - a) ≤ f b - f a ∧ f b - f a ≤ df b * (b - a) := by
    intro a b ha hab
    rcases hab.eq_or_lt with rfl | hlt
    · simp
    obtain ⟨c, hc, e⟩ := exists_hasDerivAt_eq_slope f df hlt (fun t ht => (hf t (ha.trans ht.1)).continuousAt.continuousWithinAt)
      (fun t ht => hf t (ha.trans ht.1.le))
    have hd : 0 < b - a := sub_pos.2 hlt
    rw [eq_div_iff hd.ne'] at e
    rw [← e]
    exact ⟨mul_le_mul_of_nonneg_right (hmono a c ha hc.1.le) hd.le, mul_le_mul_of_nonneg_right (hmono c b (ha.trans hc.1.le) hc.2.le) hd.le⟩
  have hstep : ∀ g, z ≤ g → z ≤ g - f g / df g ∧ 0 ≤ f g / df g := by
    intro g hg
    have h1 := (hmv z g le_rfl hg).2
    have h2 := (hmv z g le_rfl hg).1
    rw [hz, sub_zero] at h1 h2
    have hp := hpos g hg
    have h3 : f g / df g ≤ g - z := by rw [div_le_iff₀ hp]; linarith
    exact ⟨by linarith, div_nonneg ((mul_nonneg hdz.le (sub_nonneg.2 hg)).trans h2) hp.le⟩
  have hin : ∀ k, z ≤ iter f df x k ∧ iter f df x k ≤ x := by
    intro k
    induction k with
    | zero => exact ⟨hx, le_rfl⟩
    | succ k ih =>
      have := hstep _ ih.1
      exact ⟨this.1, by show iter f df x k - _ ≤ x; linarith [this.2, ih.2]⟩
  have hdec : ∀ k, |iter f df x (k + 1) - iter f df x k| = iter f df x k - iter f df x (k + 1) := fun k => by
    have : iter f df x (k + 1) ≤ iter f df x k := by show iter f df x k - _ ≤ _; linarith [(hstep _ (hin k).1).2]
    rw [abs_of_nonpos (by linarith)]; ring
  refine ⟨fun hn => ?_, fun y hy => ?_⟩
  · rcases outcome (fun a : ℝ => |a|) (fun a b => decide (a < b)) tol f df n x with ⟨k, _, _, _, h5, _⟩ | ⟨k, _, _, h4, _, _⟩ | ⟨h3, _, _⟩
    · exact ⟨_, h5⟩
    · exact absurd h4 (hpos _ (hin k).1).ne'
    · have : ∀ k ≤ n, iter f df x k ≤ x - k * tol := by
        intro k
        induction k with
        | zero => intro _; simp [iter]
        | succ k ih =>
          intro hk
          have h1 := (h3 k (by omega)).2
          simp only [decide_eq_false_iff_not, hdec] at h1
          have h2 := ih (by omega)
          push_cast
          linarith
      have h1 := this n le_rfl
      have h2 := (hin n).1
      linarith
  · obtain ⟨k, hk, _, ⟨_, ha⟩, rfl⟩ := ((C71_report _ _ tol f df n x).2.2.1 y).mp hy
    have ha' : |iter f df x (k + 1) - iter f df x k| < tol := by simpa using ha
    have hg := hin k
    have hy' := hin (k + 1)
    have hp := hpos _ hg.1
    have e : iter f df x k - iter f df x (k + 1) = f (iter f df x k) / df (iter f df x k) := by simp only [iter]; ring
    rw [hdec, e, div_lt_iff₀ hp] at ha'
    have h1 := (hmv z _ le_rfl hy'.1).1
    have hle : iter f df x (k + 1) ≤ iter f df x k := by rw [← sub_nonneg, e]; exact (hstep _ hg.1).2
    have h2 := (hmv _ _ hy'.1 hle).1
    rw [hz, sub_zero] at h1
    have h3 : 0 ≤ df (iter f df x (k + 1)) * (iter f df x k - iter f df x (k + 1)) := mul_nonneg (hpos _ hy'.1).le (by linarith)
    have h4 : df (iter f df x k) ≤ df x := hmono _ _ hg.1 hg.2
    have h5 : tol * df (iter f df x k) ≤ tol * df x := mul_le_mul_of_nonneg_left h4 htol.le
    refine ⟨hy'.1, hy'.2, ?_⟩
    rw [← mul_div_assoc, le_div_iff₀ hdz]
    linarith

/-- A case that meets the hypotheses of both: the square root of 4, started at 5/2 and at 100. -/
example : (∃ y, solve (1 / 1000) (fun x => x ^ 2 - 4) (fun x => 2 * x) 5 (5 / 2) = .ok y ∧ |y - 2| ≤ 2 * 2 * (1 / 1000) ^ 2 / 3) ∧
    ∃ y, solve (1 / 10) (fun x => x ^ 2 - 4) (fun x => 2 * x) 981 100 = .ok y ∧ 2 ≤ y := by
  have hf : ∀ y : ℝ, HasDerivAt (fun x : ℝ => x ^ 2 - 4) (2 * y) y := fun y =>
    ((hasDerivAt_pow 2 y).sub_const 4).congr_deriv (by norm_num)
  constructor
  · obtain ⟨h1, h2⟩ := C181_local (1 / 1000) (fun x => x ^ 2 - 4) (fun x => 2 * x) 5 (5 / 2) 2 (1 / 2) 2 3 (by norm_num) (fun y _ => hf y)
      (fun a b _ _ => by rw [← mul_sub, abs_mul]; norm_num) (by norm_num) (by norm_num)
      (fun y hy => by
        rw [abs_le] at hy
        rw [abs_of_pos (by linarith)]
        linarith) (by norm_num) (by rw [abs_of_pos] <;> norm_num)
    obtain ⟨y, hy⟩ := h1 (by norm_num) (by norm_num)
    exact ⟨y, hy, h2 y hy⟩
  · obtain ⟨h1, h2⟩ := C181_convex (1 / 10) (fun x => x ^ 2 - 4) (fun x => 2 * x) 981 100 2 (by norm_num) (fun y _ => hf y) (by norm_num)
      (fun a b _ h => by linarith) (by norm_num) (by norm_num)
    obtain ⟨y, hy⟩ := h1 (by norm_num)
    exact ⟨y, hy, (h2 y hy).1⟩

end Verif.Ode
