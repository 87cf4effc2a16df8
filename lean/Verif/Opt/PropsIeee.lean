import Verif.Opt.PropsGD
import Verif.Ieee.Special

/-!
# Gradient descent in IEEE arithmetic (C157, C158, C159)

The objective and the gradient are arbitrary functions on vectors of IEEE numbers: they may return infinities and NaN.
-/

namespace Verif.Opt

open Verif.Mat Verif.Ieee

variable {n : ℕ} {F : Format} {fl : ℝ → ℝ}

noncomputable instance : HasSqrt (IE F fl) := ⟨IE.sqrt⟩

/-! ## The main loop, for any scalars -/

section Generic

variable {α : Type} [Zero α] [One α] [Add α] [Neg α] [Sub α] [Mul α] [LE α] [LT α] [DecidableLE α] [DecidableLT α] [OfScientific α] [HasSqrt α]

omit [Zero α] [One α] [Neg α] [Sub α] [HasSqrt α] in
theorem search_limit (o : GD α n) (K : ℕ) (f : (Fin n → α) → α) (xOld d : Fin n → α) (fxOld gd : α) : ∀ (fuel : ℕ) (s : α),
    GD.search { o with maxIters := K } f xOld d fxOld gd fuel s = GD.search o f xOld d fxOld gd fuel s
  | 0, _ => rfl
  | fuel + 1, s => by
    unfold GD.search
    simp only [search_limit o K f xOld d fxOld gd fuel]
    rfl

omit [One α] [Sub α] in
theorem move_limit (o : GD α n) (K : ℕ) (f : (Fin n → α) → α) (fuel : ℕ) (x v : Fin n → α) (fx : α) (grad : Fin n → α) :
    GD.move { o with maxIters := K } f fuel x v fx grad = GD.move o f fuel x v fx grad := by
  unfold GD.move
  simp only [search_limit o K]
  rfl

omit [Zero α] [One α] [Neg α] [Sub α] [HasSqrt α] in
theorem search_value (o : GD α n) (f : (Fin n → α) → α) (xOld d : Fin n → α) (fxOld gd : α) : ∀ (fuel : ℕ) (s : α) {y : Fin n → α} {fy : α},
    GD.search o f xOld d fxOld gd fuel s = some (y, fy) → fy = f y ∧ ∃ z, y = o.project z
  | 0, _, _, _, h => by cases h
  | fuel + 1, s, y, fy, h => by
    unfold GD.search at h
    dsimp only at h
    by_cases h1 : f (o.project fun i => xOld i + s * d i) ≤ fxOld + o.armijoC1 * s * gd
    · rw [if_pos h1] at h
      cases h
      exact ⟨rfl, _, rfl⟩
    · rw [if_neg h1] at h
      by_cases h2 : s * o.tau ≤ 1e-20
      · rw [if_pos h2] at h
        cases h
        exact ⟨rfl, _, rfl⟩
      · rw [if_neg h2] at h
        exact search_value o f xOld d fxOld gd fuel _ h

omit [One α] [Sub α] in
theorem move_value (o : GD α n) (f : (Fin n → α) → α) (fuel : ℕ) (x v : Fin n → α) (fx : α) (grad : Fin n → α) {y : Fin n → α} {fy : α}
    (h : GD.move o f fuel x v fx grad = some (y, fy)) : fy = f y ∧ ∃ z, y = o.project z := by
  unfold GD.move at h
  dsimp only at h
  by_cases h1 : o.useBacktracking = true
  · rw [if_pos h1] at h
    by_cases h2 : dot grad (fun i => -grad i + o.momentum * v i) ≥ 0
    · rw [if_pos h2] at h
      exact search_value o f _ _ _ _ _ _ h
    · rw [if_neg h2] at h
      exact search_value o f _ _ _ _ _ _ h
  · rw [if_neg h1] at h
    cases h
    exact ⟨rfl, _, rfl⟩

omit [One α] in
/-- What a run that returns has done, for any scalars. -/
theorem loop_gen (o : GD α n) (f : (Fin n → α) → α) (g : (Fin n → α) → Fin n → α) (fuel : ℕ) :
    ∀ (m k : ℕ) (x v : Fin n → α) (fx : α) (y : Fin n → α) (fy : α) (K : ℕ) (c : Bool), fx = f x → k + m = o.maxIters →
      o.loop f g fuel m k x v fx = some (y, fy, K, c) →
      fy = f y ∧ k ≤ K ∧ K ≤ o.maxIters ∧ (K = k → y = x) ∧ (k < K → ∃ z, y = o.project z) ∧ (c = false → K = o.maxIters) ∧
      (c = true → norm2 (g y) ≤ o.tolGrad ∨
        k < K ∧ ∃ x', GD.loop { o with maxIters := K - 1 } f g fuel (K - 1 - k) k x v fx = some (x', f x', K - 1, false) ∧
          norm2 (fun i => y i - x' i) ≤ o.tolStep)
  | 0, k, x, v, fx, y, fy, K, c, hfx, hk, h => by
    unfold GD.loop at h
    cases h
    exact ⟨hfx, by omega, le_rfl, fun _ => rfl, fun hlt => absurd hlt (by omega), fun _ => rfl, fun hc => Bool.noConfusion hc⟩
  | m + 1, k, x, v, fx, y, fy, K, c, hfx, hk, h => by
    unfold GD.loop at h
    dsimp only at h
    by_cases h1 : norm2 (g x) ≤ o.tolGrad
    · rw [if_pos h1] at h
      cases h
      exact ⟨hfx, le_rfl, by omega, fun _ => rfl, fun hlt => absurd hlt (lt_irrefl _), fun hc => Bool.noConfusion hc, fun _ => Or.inl h1⟩
    · rw [if_neg h1] at h
      rcases hm : GD.move o f fuel x v fx (g x) with _ | ⟨x', fx'⟩
      · rw [hm] at h; cases h
      obtain ⟨hv, z, hz⟩ := move_value o f fuel x v fx (g x) hm
      rw [hm] at h
      change (if norm2 (fun i => x' i - x i) ≤ o.tolStep then some (x', fx', k + 1, true)
        else GD.loop o f g fuel m (k + 1) x' (fun i => x' i - x i) fx') = some (y, fy, K, c) at h
      by_cases h2 : norm2 (fun i => x' i - x i) ≤ o.tolStep
      · rw [if_pos h2] at h
        cases h
        refine ⟨hv, by omega, by omega, fun e => absurd e (by omega), fun _ => ⟨z, hz⟩, fun hc => Bool.noConfusion hc, fun _ => Or.inr ⟨by omega, x, ?_, h2⟩⟩
        rw [show k + 1 - 1 - k = 0 by omega, show k + 1 - 1 = k by omega]
        unfold GD.loop
        rw [hfx]
      · rw [if_neg h2] at h
        obtain ⟨a1, a2, a3, a4, a5, a6, a7⟩ := loop_gen o f g fuel m (k + 1) x' _ fx' y fy K c hv (by omega) h
        refine ⟨a1, by omega, a3, fun e => absurd e (by omega), fun _ => ?_, a6, fun hc => ?_⟩
        · rcases Nat.eq_or_lt_of_le a2 with e | e
          · exact ⟨z, by rw [a4 e.symm, hz]⟩
          · exact a5 e
        · rcases a7 hc with b | ⟨b1, w, b2, b3⟩
          · exact Or.inl b
          · refine Or.inr ⟨by omega, w, ?_, b3⟩
            rw [show K - 1 - k = (K - 1 - (k + 1)) + 1 by omega]
            unfold GD.loop
            dsimp only
            rw [if_neg h1, move_limit, hm]
            change (if norm2 (fun i => x' i - x i) ≤ o.tolStep then _ else _) = _
            rw [if_neg h2]
            exact b2

omit [One α] in
/-- A run never ends in a failed search if each search ends. -/
theorem loop_returns (o : GD α n) (f : (Fin n → α) → α) (g : (Fin n → α) → Fin n → α) (fuel : ℕ)
    (hs : ∀ xOld d fxOld gd, ∃ r, GD.search o f xOld d fxOld gd fuel o.lr = some r) :
    ∀ (m k : ℕ) (x v : Fin n → α) (fx : α), ∃ r, o.loop f g fuel m k x v fx = some r
  | 0, k, x, v, fx => ⟨_, rfl⟩
  | m + 1, k, x, v, fx => by
    unfold GD.loop
    dsimp only
    by_cases h1 : norm2 (g x) ≤ o.tolGrad
    · rw [if_pos h1]; exact ⟨_, rfl⟩
    · rw [if_neg h1]
      have hm : ∃ r, GD.move o f fuel x v fx (g x) = some r := by
        unfold GD.move
        dsimp only
        by_cases h2 : o.useBacktracking = true
        · rw [if_pos h2]
          by_cases h3 : dot (g x) (fun i => -g x i + o.momentum * v i) ≥ 0
          · rw [if_pos h3]; exact hs _ _ _ _
          · rw [if_neg h3]; exact hs _ _ _ _
        · rw [if_neg h2]; exact ⟨_, rfl⟩
      obtain ⟨⟨x', fx'⟩, hm⟩ := hm
      rw [hm]
      change ∃ r, (if norm2 (fun i => x' i - x i) ≤ o.tolStep then _ else _) = some r
      by_cases h2 : norm2 (fun i => x' i - x i) ≤ o.tolStep
      · rw [if_pos h2]; exact ⟨_, rfl⟩
      · rw [if_neg h2]; exact loop_returns o f g fuel hs m (k + 1) _ _ _

end Generic

/-! ## The length of a vector -/

theorem add_partial (h : Rounds F fl) {a b : IE F fl} (ha : Partial a) (hb : Partial b) :
    Partial (a + b) ∧ ∀ r, a + b = IE.num r → ∃ x y, a = IE.num x ∧ b = IE.num y ∧ x ≤ r ∧ y ≤ r := by
  rcases ha with rfl | rfl | ⟨x, rfl, gx, px⟩
  · exact ⟨Or.inl rfl, fun r e => by cases e⟩
  · rcases hb with rfl | rfl | ⟨y, rfl, gy, py⟩
    · exact ⟨Or.inl rfl, fun r e => by cases e⟩
    · exact ⟨Or.inr (Or.inl rfl), fun r e => by cases e⟩
    · exact ⟨Or.inr (Or.inl rfl), fun r e => by cases e⟩
  · rcases hb with rfl | rfl | ⟨y, rfl, gy, py⟩
    · exact ⟨Or.inl rfl, fun r e => by cases e⟩
    · exact ⟨Or.inr (Or.inl rfl), fun r e => by cases e⟩
    · rw [add_num]
      rcases ofReal_nonneg h (add_nonneg px py) with e | ⟨e, e1, e2⟩
      · exact ⟨Or.inr (Or.inl e), fun r er => by rw [e] at er; cases er⟩
      · refine ⟨Or.inr (Or.inr ⟨_, e, e1, e2⟩), fun r er => ⟨x, y, rfl, rfl, ?_⟩⟩
        rw [e, num_inj] at er
        subst er
        constructor
        · conv_lhs => rw [← h.fix gx]
          exact h.mono (by linarith)
        · conv_lhs => rw [← h.fix gy]
          exact h.mono (by linarith)

theorem squares_le (h : Rounds F fl) (v : Fin n → IE F fl) : ∀ (l : List (Fin n)) (a : IE F fl), Partial a →
    ∀ r, l.foldl (fun acc i => acc + v i * v i) a = IE.num r → (∃ x, a = IE.num x ∧ x ≤ r) ∧ ∀ i ∈ l, ∃ x, v i = IE.num x ∧ fl (x * x) ≤ r
  | [], a, _, r, e => ⟨⟨r, e, le_rfl⟩, by simp⟩
  | i :: l, a, ha, r, e => by
    obtain ⟨hp, hs⟩ := add_partial h ha (square_partial h (v i))
    obtain ⟨⟨x, ex, hx⟩, hl⟩ := squares_le h v l _ hp r e
    obtain ⟨y, z, ey, ez, hy, hz⟩ := hs x ex
    refine ⟨⟨y, ey, hy.trans hx⟩, fun j hj => ?_⟩
    rcases List.mem_cons.1 hj with rfl | hj
    · rcases hv : v j with ⟨_ | s | w⟩
      · rw [hv] at ez; cases ez
      · rw [hv] at ez; cases ez
      · refine ⟨w, rfl, ?_⟩
        rw [hv] at ez
        have ez : (IE.ofReal (w * w) : IE F fl) = IE.num z := ez
        rcases ofReal_nonneg h (mul_self_nonneg w) with e | ⟨e, -⟩
        · rw [e] at ez; cases ez
        · rw [e, num_inj] at ez
          rw [ez]; exact hz.trans hx
    · exact hl j hj

/-- If the computed length of a vector compares as at most `t`, then every component is a finite number, and is at most about `t` or so small
that its square may underflow. -/
theorem norm_le (hp : 1 ≤ F.p) (h : Rounds F fl) {θ : ℝ} (hθ0 : 0 ≤ θ) (hθ1 : 2 ^ (F.emin + F.p - 1) ≤ θ ^ 2)
    (hθ2 : 2 ^ (F.emin + F.p - 1) ≤ (1 - unit F) * θ) (v : Fin n → IE F fl) (t : ℝ) (hv : norm2 v ≤ IE.num t) (i : Fin n) :
    ∃ x, v i = IE.num x ∧ (|x| ≤ θ ∨ (1 - unit F) ^ 2 * |x| ≤ t) := by
  have hu := unit_lt hp
  have hu0 := unit_pos (F := F)
  have hpart : ∀ (l : List (Fin n)) (a : IE F fl), Partial a → Partial (l.foldl (fun acc i => acc + v i * v i) a) := by
    intro l
    induction l with
    | nil => exact fun a ha => ha
    | cons j l ih => exact fun a ha => ih _ (add_partial h ha (square_partial h (v j))).1
  have hz : Partial (0 : IE F fl) := Or.inr (Or.inr ⟨0, rfl, onGrid_zero, le_rfl⟩)
  unfold norm2 Mat.norm at hv
  rcases hpart (rng n 0 n) 0 hz with e | e | ⟨r, e, _, hr⟩
  · rw [e] at hv
    exact absurd hv (nan_le _)
  · rw [e] at hv
    exact absurd hv (inf_le_num t)
  · obtain ⟨x, hx, hxr⟩ := (squares_le h v _ 0 hz r e).2 i (by simp [mem_rng])
    refine ⟨x, hx, ?_⟩
    rw [e] at hv
    change IE.sqrt (IE.num r) ≤ IE.num t at hv
    rw [sqrt_num hr] at hv
    have hv : fl √r ≤ t := by
      rcases ofReal_nonneg (F := F) h (Real.sqrt_nonneg r) with e | ⟨e, -⟩
      · rw [e] at hv; exact absurd hv (inf_le_num t)
      · rw [e] at hv; exact hv
    by_cases hs : |x| ≤ θ
    · exact Or.inl hs
    · right
      have hs := not_le.1 hs
      have h1 := h.normal hp (x := x * x) (by
        rw [abs_mul_self, ← abs_mul_abs_self, ← pow_two]
        exact hθ1.trans (pow_le_pow_left₀ hθ0 hs.le 2))
      rw [abs_mul_self] at h1
      have h2 : (1 - unit F) * (x * x) ≤ r := by
        have := (abs_le.1 h1).1
        linarith
      have h3 : (1 - unit F) * |x| ≤ √r := by
        apply Real.le_sqrt_of_sq_le
        rw [mul_pow, sq_abs, pow_two x]
        refine le_trans ?_ h2
        have : (1 - unit F) ^ 2 ≤ 1 - unit F := by nlinarith
        exact mul_le_mul_of_nonneg_right this (mul_self_nonneg x)
      have h4 := h.normal hp (x := √r) (by
        rw [abs_of_nonneg (Real.sqrt_nonneg r)]
        refine hθ2.trans (le_trans ?_ h3)
        exact mul_le_mul_of_nonneg_left hs.le (by linarith))
      rw [abs_of_nonneg (Real.sqrt_nonneg r)] at h4
      have h5 := (abs_le.1 h4).1
      have h6 : (1 - unit F) * ((1 - unit F) * |x|) ≤ (1 - unit F) * √r := mul_le_mul_of_nonneg_left h3 (by linarith)
      rw [pow_two, mul_assoc]
      linarith

/-! ## C157 -/

/-- Every component is a finite number, and is at most about `t` or at most `θ`. -/
def Small (θ t : ℝ) (v : Fin n → IE F fl) : Prop := ∀ i, ∃ x, v i = IE.num x ∧ (|x| ≤ θ ∨ (1 - unit F) ^ 2 * |x| ≤ t)

/-- **C157**. For every objective and gradient, also such that return infinities or NaN: the value returned is the objective at the point
returned, the count is within the limit, and only a run that reports convergence ends before it. A run that reports convergence with finite
tolerances has found a gradient, or made a step from where the same run with one iteration less ends, all components of which are finite
numbers within the tolerance, up to rounding and up to numbers `θ` so small that their squares underflow. -/
theorem C157_honest (hp : 1 ≤ F.p) (h : Rounds F fl) {θ : ℝ} (hθ0 : 0 ≤ θ) (hθ1 : 2 ^ (F.emin + F.p - 1) ≤ θ ^ 2)
    (hθ2 : 2 ^ (F.emin + F.p - 1) ≤ (1 - unit F) * θ) (o : GD (IE F fl) n) (f : (Fin n → IE F fl) → IE F fl)
    (g : (Fin n → IE F fl) → Fin n → IE F fl) (fuel : ℕ) (x y : Fin n → IE F fl) (fy : IE F fl) (K : ℕ) (c : Bool)
    (hr : o.minimize f g fuel x = some (y, fy, K, c)) :
    fy = f y ∧ K ≤ o.maxIters ∧ (c = false → K = o.maxIters) ∧
      ∀ tg ts, o.tolGrad = IE.num tg → o.tolStep = IE.num ts → c = true →
        Small θ tg (g y) ∨
          0 < K ∧ ∃ x', GD.minimize { o with maxIters := K - 1 } f g fuel x = some (x', f x', K - 1, false) ∧ Small θ ts fun i => y i - x' i := by
  obtain ⟨a1, -, a3, -, -, a6, a7⟩ := loop_gen o f g fuel o.maxIters 0 x (fun _ => 0) (f x) y fy K c rfl (by omega) hr
  refine ⟨a1, a3, a6, fun tg ts htg hts hc => ?_⟩
  rcases a7 hc with b | ⟨b1, x', b2, b3⟩
  · rw [htg] at b
    exact Or.inl fun i => norm_le hp h hθ0 hθ1 hθ2 _ tg b i
  · rw [hts] at b3
    refine Or.inr ⟨b1, x', ?_, fun i => norm_le hp h hθ0 hθ1 hθ2 _ ts b3 i⟩
    unfold GD.minimize
    exact b2

/-- A run with a gradient that vanishes reports convergence at once, at the default tolerances. -/
example (h : Rounds binary64 fl) (f : (Fin 2 → IE binary64 fl) → IE binary64 fl) (x : Fin 2 → IE binary64 fl) :
    (GD.new 2).minimize f (fun _ _ => 0) 1 x = some (x, f x, 0, true) := by
  have hn : norm2 (fun _ : Fin 2 => (0 : IE binary64 fl)) = IE.num 0 := by
    unfold norm2 Mat.norm
    have : ∀ l : List (Fin 2), l.foldl (fun acc (_ : Fin 2) => acc + (0 : IE binary64 fl) * 0) 0 = 0 := by
      intro l
      induction l with
      | nil => rfl
      | cons a l ih =>
        have : (0 : IE binary64 fl) + 0 * 0 = 0 := by rw [ie_zero, zero_mul_zero h, zero_add_zero h]
        rw [List.foldl_cons, this]
        exact ih
    rw [this]
    exact sqrt_zero_num h
  unfold GD.minimize GD.new GD.loop
  dsimp only
  rw [hn, if_pos]
  change IE.num 0 ≤ IE.ofReal (1e-6)
  rcases ofReal_nonneg (F := binary64) h (x := 1e-6) (by norm_num) with e | ⟨e, -, e2⟩
  · rw [e]; exact rfl
  · rw [e]; exact e2

set_option exponentiation.threshold 2000 in
/-- In `f64`, `θ` can be `2⁻⁵¹¹`; in `f32`, `2⁻⁶³`. -/
example : Rounds binary64 (rnd binary64) ∧ Rounds binary32 (rnd binary32) ∧
    (2 : ℝ) ^ (binary64.emin + binary64.p - 1) ≤ (2 ^ (-511 : ℤ)) ^ 2 ∧ (2 : ℝ) ^ (binary64.emin + binary64.p - 1) ≤ (1 - unit binary64) * 2 ^ (-511 : ℤ) ∧
    (2 : ℝ) ^ (binary32.emin + binary32.p - 1) ≤ (2 ^ (-63 : ℤ)) ^ 2 ∧ (2 : ℝ) ^ (binary32.emin + binary32.p - 1) ≤ (1 - unit binary32) * 2 ^ (-63 : ℤ) := by
  refine ⟨rnd_rounds (by decide), rnd_rounds (by decide), ?_, ?_, ?_, ?_⟩ <;> norm_num [binary64, binary32, unit]

/-! ## C158 -/

theorem below_one (hp : 1 ≤ F.p) {t : ℝ} (ht : OnGrid F t) (h1 : t < 1) : t ≤ 1 - unit F := by
  obtain ⟨m, e, hm, -, rfl⟩ := ht
  have hm' : ((m : ℤ) : ℝ) < 2 ^ F.p := by exact_mod_cast (abs_lt.1 hm).2
  rcases le_or_gt (-F.p : ℤ) e with he | he
  · obtain ⟨d, hd⟩ := Int.eq_ofNat_of_zero_le (show 0 ≤ e + F.p by omega)
    have e1 : (m : ℝ) * 2 ^ e = (m * 2 ^ d : ℤ) * unit F := by
      unfold unit
      rw [show e = d + (-F.p : ℤ) by omega, zpow_add₀ (by norm_num)]
      push_cast
      rw [zpow_natCast]; ring
    have e2 : unit F * 2 ^ F.p = 1 := by
      unfold unit
      rw [zpow_neg, zpow_natCast, inv_mul_cancel₀ (by positivity)]
    rw [e1] at h1 ⊢
    have hu := unit_pos (F := F)
    generalize m * 2 ^ d = k at h1 ⊢
    have h2 : (k : ℝ) < 2 ^ F.p := by
      by_contra hc
      have := mul_le_mul_of_nonneg_left (not_lt.1 hc) hu.le
      rw [e2] at this
      linarith
    have h3 : (k : ℝ) ≤ 2 ^ F.p - 1 := by
      have : k < 2 ^ F.p := by exact_mod_cast h2
      have : k ≤ 2 ^ F.p - 1 := by omega
      exact_mod_cast this
    have := mul_le_mul_of_nonneg_left h3 hu.le
    rw [mul_sub, e2] at this
    linarith
  · have h2 : (2 : ℝ) ^ e ≤ 2 ^ (-F.p - 1 : ℤ) := zpow_le_zpow_right₀ (by norm_num) (by omega)
    have h3 : (2 : ℝ) ^ F.p * 2 ^ (-F.p - 1 : ℤ) = 1 / 2 := by
      rw [← zpow_natCast, ← zpow_add₀ (by norm_num), show (F.p : ℤ) + (-F.p - 1) = -1 by ring]; norm_num
    have h4 : (m : ℝ) * 2 ^ e ≤ 2 ^ F.p * 2 ^ (-F.p - 1 : ℤ) :=
      mul_le_mul hm'.le h2 (by positivity) (by positivity)
    have h5 : unit F ≤ 1 / 2 := by
      have : (2 : ℝ) ^ (-F.p : ℤ) ≤ 2 ^ (-1 : ℤ) := zpow_le_zpow_right₀ (by norm_num) (by omega)
      unfold unit
      refine this.trans (by norm_num)
    linarith

/-- A format with enough room: more than three bits, `10⁻²⁰` well above the subnormal numbers, `1` below the bound. -/
structure Roomy (F : Format) : Prop where
  bits : 4 ≤ F.p
  low : F.emin + F.p ≤ -66
  high : 1 ≤ F.emax

example : Roomy binary64 ∧ Roomy binary32 := ⟨⟨by decide, by decide, by decide⟩, ⟨by decide, by decide, by decide⟩⟩

theorem one_lt_top (hF : Roomy F) : (1 : ℝ) < 2 ^ F.emax := one_lt_zpow₀ (by norm_num) (by have := hF.high; omega)

theorem lit_num (hF : Roomy F) (h : Rounds F fl) {x : ℝ} (h0 : 0 ≤ x) (h1 : x ≤ 1) :
    (IE.ofReal x : IE F fl) = IE.num (fl x) ∧ 0 ≤ fl x ∧ Finite F (fl x) := by
  have a0 : 0 ≤ fl x := by rw [← h.zero]; exact h.mono h0
  have a1 : fl x ≤ 1 := by
    have : fl 1 = 1 := h.fix (by
      have := onGrid_pow (F := F) (by have := hF.bits; omega) (e := 0) (by have := hF.low; omega)
      simpa using this)
    rw [← this]; exact h.mono h1
  have a2 : |fl x| < 2 ^ F.emax := by
    rw [abs_of_nonneg a0]; exact a1.trans_lt (one_lt_top hF)
  exact ⟨ofReal_num a2, a0, (h x).1, a2⟩

/-- The shortest step the search goes on with is above this normal number. -/
theorem lit_tiny (hF : Roomy F) (h : Rounds F fl) : (2 : ℝ) ^ (-67 : ℤ) ≤ fl 1e-20 := by
  have : fl (2 ^ (-67 : ℤ)) = 2 ^ (-67 : ℤ) := h.fix (onGrid_pow (by have := hF.bits; omega) (by have := hF.bits; have := hF.low; omega))
  rw [← this]
  exact h.mono (by norm_num)

/-- One shortening of the step. -/
theorem shorten (hF : Roomy F) (h : Rounds F fl) {x t : ℝ} (hx0 : 0 ≤ x) (hx : Finite F x) (ht0 : 0 < t) (ht1 : t < 1) (ht : OnGrid F t) :
    ∃ y, (IE.num x * IE.num t : IE F fl) = IE.num y ∧ 0 ≤ y ∧ Finite F y ∧ (y ≤ fl 1e-20 ∨ y ≤ (1 - unit F ^ 2) * x) := by
  have hp : 1 ≤ F.p := by have := hF.bits; omega
  have a0 : 0 ≤ fl (x * t) := by rw [← h.zero]; exact h.mono (by positivity)
  have a1 : fl (x * t) ≤ x := by
    conv_rhs => rw [← h.fix hx.1]
    exact h.mono (by nlinarith)
  have a2 : |fl (x * t)| < 2 ^ F.emax := by
    rw [abs_of_nonneg a0]
    exact a1.trans_lt ((le_abs_self x).trans_lt hx.2)
  refine ⟨fl (x * t), by rw [mul_num, ofReal_num a2], a0, ⟨(h _).1, a2⟩, ?_⟩
  by_cases hn : 2 ^ (F.emin + F.p - 1) ≤ |x * t|
  · right
    have hb := below_one hp ht ht1
    have hu := unit_pos (F := F)
    have h1 := (abs_le.1 (h.normal hp hn)).2
    rw [abs_of_nonneg (by positivity)] at h1
    have h2 : (1 + unit F) * (x * t) ≤ (1 + unit F) * (x * (1 - unit F)) :=
      mul_le_mul_of_nonneg_left (mul_le_mul_of_nonneg_left hb hx0) (by linarith)
    nlinarith
  · left
    rw [abs_of_nonneg (by positivity)] at hn
    refine le_trans ?_ (lit_tiny hF h)
    have : fl (2 ^ (-67 : ℤ)) = 2 ^ (-67 : ℤ) := h.fix (onGrid_pow hp (by have := hF.bits; have := hF.low; omega))
    rw [← this]
    refine h.mono ((not_le.1 hn).le.trans (zpow_le_zpow_right₀ (by norm_num) (by have := hF.low; omega)))

theorem search_ends (hF : Roomy F) (h : Rounds F fl) (o : GD (IE F fl) n) {t : ℝ} (ht : o.tau = IE.num t) (ht0 : 0 < t) (ht1 : t < 1)
    (htg : OnGrid F t) (f : (Fin n → IE F fl) → IE F fl) (xOld d : Fin n → IE F fl) (fxOld gd : IE F fl) :
    ∀ (fuel : ℕ) (x : ℝ), 0 ≤ x → Finite F x → (1 - unit F ^ 2) ^ fuel * x ≤ fl 1e-20 →
      ∃ r, GD.search o f xOld d fxOld gd (fuel + 1) (IE.num x) = some r
  | fuel, x, hx0, hx, hb => by
    unfold GD.search
    dsimp only
    by_cases h1 : f (o.project fun i => xOld i + IE.num x * d i) ≤ fxOld + o.armijoC1 * IE.num x * gd
    · rw [if_pos h1]; exact ⟨_, rfl⟩
    rw [if_neg h1, ht]
    obtain ⟨y, ey, hy0, hy, hc⟩ := shorten hF h hx0 hx ht0 ht1 htg
    rw [ey]
    have hlit : (1e-20 : IE F fl) = IE.num (fl 1e-20) := (lit_num hF h (x := 1e-20) (by norm_num) (by norm_num)).1
    rw [hlit]
    by_cases h2 : y ≤ fl 1e-20
    · rw [if_pos ((le_num _ _).2 h2)]; exact ⟨_, rfl⟩
    · rw [if_neg (fun hh => h2 ((le_num _ _).1 hh))]
      have hc := hc.resolve_left h2
      match fuel, hb with
      | 0, hb =>
        have hu : (1 - unit F ^ 2) * x ≤ x := by nlinarith [sq_nonneg (unit F)]
        rw [pow_zero, one_mul] at hb
        exact absurd (hc.trans (hu.trans hb)) h2
      | fuel + 1, hb =>
        refine search_ends hF h o ht ht0 ht1 htg f xOld d fxOld gd fuel y hy0 hy ?_
        have hu : 0 ≤ 1 - unit F ^ 2 := by
          have := unit_lt (F := F) (by have := hF.bits; omega)
          have := unit_pos (F := F)
          nlinarith
        rw [pow_succ, mul_assoc] at hb
        exact (mul_le_mul_of_nonneg_left hc (pow_nonneg hu fuel)).trans hb

/-- What the setters keep true of the learning rate and the shrink factor. -/
def Tame (o : GD (IE F fl) n) : Prop :=
  (∃ a, o.lr = IE.num a ∧ 0 ≤ a ∧ Finite F a) ∧ ∃ t, o.tau = IE.num t ∧ 0 < t ∧ t < 1 ∧ OnGrid F t

/-- A value of the format other than NaN. -/
def IsOrdered (a : IE F fl) : Prop := a ≠ IE.nan ∧ ∀ x, a = IE.num x → Finite F x

theorem lit_half (hF : Roomy F) (h : Rounds F fl) : (0.5 : IE F fl) = IE.num (1 / 2) := by
  have : (0.5 : IE F fl) = IE.num (fl 0.5) := (lit_num hF h (x := 0.5) (by norm_num) (by norm_num)).1
  rw [this, num_inj, show (0.5 : ℝ) = 2 ^ (-1 : ℤ) by norm_num, h.fix (onGrid_pow (by have := hF.bits; omega) (by have := hF.low; omega))]
  norm_num

theorem lit_most (hF : Roomy F) (h : Rounds F fl) : ∃ t, (0.9 : IE F fl) = IE.num t ∧ 0 < t ∧ t < 1 ∧ OnGrid F t := by
  refine ⟨fl 0.9, (lit_num hF h (x := 0.9) (by norm_num) (by norm_num)).1, ?_, ?_, (h _).1⟩
  · have : fl (2 ^ (-1 : ℤ)) = 2 ^ (-1 : ℤ) := h.fix (onGrid_pow (by have := hF.bits; omega) (by have := hF.low; omega))
    have h2 : fl (2 ^ (-1 : ℤ)) ≤ fl 0.9 := h.mono (by norm_num)
    rw [this] at h2
    exact lt_of_lt_of_le (by positivity) h2
  · have : fl ((15 : ℤ) * 2 ^ (-4 : ℤ)) = (15 : ℤ) * 2 ^ (-4 : ℤ) := h.fix ⟨15, -4, by
      have : (2 : ℤ) ^ 4 ≤ 2 ^ F.p := pow_le_pow_right₀ (by norm_num) hF.bits
      norm_num at this ⊢
      omega, by have := hF.bits; have := hF.low; omega, rfl⟩
    have h2 : fl 0.9 ≤ fl ((15 : ℤ) * 2 ^ (-4 : ℤ)) := h.mono (by norm_num)
    rw [this] at h2
    norm_num at h2 ⊢
    linarith

theorem tame_new (hF : Roomy F) (h : Rounds F fl) (n : ℕ) : Tame (GD.new n : GD (IE F fl) n) := by
  refine ⟨⟨fl 1e-2, lit_num hF h (x := 1e-2) (by norm_num) (by norm_num)⟩, 1 / 2, lit_half hF h, by norm_num, by norm_num, ?_⟩
  have := onGrid_pow (F := F) (e := -1) (by have := hF.bits; omega) (by have := hF.low; omega)
  norm_num at this ⊢
  exact this

theorem tame_set (hF : Roomy F) (h : Rounds F fl) (o : GD (IE F fl) n) (ho : Tame o) (s : Setter (IE F fl) n)
    (h1 : ∀ a, s = .learningRate a → IsOrdered a ∧ a ≠ IE.inf false) (h2 : ∀ c t, s = .armijo c t → IsOrdered t) : Tame (o.set s) := by
  rcases s with on | ⟨c, t⟩ | a | mu | ⟨tg, ts⟩ | k | ⟨lo, hi⟩ | _
  · exact ho
  · refine ⟨ho.1, ?_⟩
    obtain ⟨hn, hf⟩ := h2 c t rfl
    show ∃ t', (if t ≤ 0 then 0.5 else if t ≥ 1 then 0.9 else t) = IE.num t' ∧ _
    by_cases c1 : t ≤ 0
    · rw [if_pos c1]
      exact (tame_new hF h n).2
    · rw [if_neg c1]
      by_cases c2 : t ≥ 1
      · rw [if_pos c2]
        exact lit_most hF h
      · rw [if_neg c2]
        rcases t with ⟨_ | s | x⟩
        · exact absurd rfl hn
        · cases s
          · exact absurd (show (IE.num 1 : IE F fl) ≤ IE.inf false from rfl) c2
          · exact absurd (show (IE.inf true : IE F fl) ≤ IE.num 0 from rfl) c1
        · exact ⟨x, rfl, not_le.1 c1, not_le.1 c2, (hf x rfl).1⟩
  · refine ⟨?_, ho.2⟩
    obtain ⟨⟨hn, hf⟩, hi⟩ := h1 a rfl
    show ∃ a', (if a ≤ 0 then 0 else a) = IE.num a' ∧ _
    by_cases c1 : a ≤ 0
    · rw [if_pos c1]
      exact ⟨0, rfl, le_rfl, onGrid_zero, by rw [abs_zero]; positivity⟩
    · rw [if_neg c1]
      rcases a with ⟨_ | s | x⟩
      · exact absurd rfl hn
      · cases s
        · exact absurd rfl hi
        · exact absurd (show (IE.inf true : IE F fl) ≤ IE.num 0 from rfl) c1
      · exact ⟨x, rfl, (not_le.1 c1).le, hf x rfl⟩
  · exact ho
  · exact ho
  · exact ho
  · exact ho
  · exact ho

/-- **C158**, partial: there is a number of passes, the same for all problems and settings, within which every line search ends, so that
`minimize` returns, whatever the objective and the gradient return: as long as no learning rate was NaN or infinite and no shrink factor was
NaN. What is missing: the setters accept these values, and then the search need not end (`C158_fails`). -/
theorem C158_partial (hF : Roomy F) (h : Rounds F fl) :
    ∃ passes : ℕ, ∀ fuel, passes ≤ fuel → ∀ (n : ℕ) (settings : List (Setter (IE F fl) n)),
      (∀ a, .learningRate a ∈ settings → IsOrdered a ∧ a ≠ IE.inf false) → (∀ c t, .armijo c t ∈ settings → IsOrdered t) →
      ∀ (f : (Fin n → IE F fl) → IE F fl) (g : (Fin n → IE F fl) → Fin n → IE F fl) (x : Fin n → IE F fl),
        ∃ r, (settings.foldl GD.set (GD.new n)).minimize f g fuel x = some r := by
  have hu : unit F < 1 := by
    have := unit_lt (F := F) (by have := hF.bits; omega)
    linarith
  have hu0 := unit_pos (F := F)
  obtain ⟨k, hk⟩ := exists_pow_lt_of_lt_one (show (0 : ℝ) < 2 ^ (-67 : ℤ) / 2 ^ F.emax by positivity) (show 1 - unit F ^ 2 < 1 by nlinarith)
  have hq : 0 ≤ 1 - unit F ^ 2 := by nlinarith
  refine ⟨k + 1, fun fuel hfuel n settings h1 h2 f g x => ?_⟩
  have ht : ∀ (l : List (Setter (IE F fl) n)) (o : GD (IE F fl) n), Tame o → (∀ a, .learningRate a ∈ l → IsOrdered a ∧ a ≠ IE.inf false) →
      (∀ c t, .armijo c t ∈ l → IsOrdered t) → Tame (l.foldl GD.set o) := by
    intro l
    induction l with
    | nil => exact fun o ho _ _ => ho
    | cons s l ih =>
      intro o ho h1 h2
      exact ih _ (tame_set hF h o ho s (fun a e => h1 a (by simp [e])) (fun c t e => h2 c t (by simp [e])))
        (fun a ha => h1 a (List.mem_cons_of_mem _ ha)) (fun c t ha => h2 c t (List.mem_cons_of_mem _ ha))
  obtain ⟨⟨a, ea, ha0, ha⟩, t, et, ht0, ht1, htg⟩ := ht settings _ (tame_new hF h n) h1 h2
  generalize settings.foldl GD.set (GD.new n) = o at ea et ⊢
  obtain ⟨m, rfl⟩ : ∃ m, fuel = m + 1 := ⟨fuel - 1, by omega⟩
  refine loop_returns o f g (m + 1) (fun xOld d fxOld gd => ?_) _ _ _ _ _
  rw [ea]
  refine search_ends hF h o et ht0 ht1 htg f xOld d fxOld gd m a ha0 ha (le_trans ?_ (lit_tiny hF h))
  have b1 : (1 - unit F ^ 2) ^ m ≤ (1 - unit F ^ 2) ^ k := pow_le_pow_of_le_one hq (by nlinarith) (by omega)
  have b2 : a ≤ 2 ^ F.emax := (le_abs_self a).trans ha.2.le
  have b3 : (0 : ℝ) < 2 ^ F.emax := by positivity
  calc (1 - unit F ^ 2) ^ m * a ≤ (2 ^ (-67 : ℤ) / 2 ^ F.emax) * 2 ^ F.emax :=
        mul_le_mul (b1.trans hk.le) b2 ha0 (by positivity)
    _ = 2 ^ (-67 : ℤ) := by field_simp

/-- Settings as the theorem asks for: a learning rate of 1, a shrink factor of minus infinity. -/
example : IsOrdered (IE.num 1 : IE binary64 fl) ∧ (IE.num 1 : IE binary64 fl) ≠ IE.inf false ∧ IsOrdered (IE.inf true : IE binary64 fl) := by
  refine ⟨⟨nofun, fun x e => ?_⟩, nofun, nofun, nofun⟩
  rw [num_inj] at e
  subst e
  have := onGrid_pow (F := binary64) (e := 0) (by decide) (by decide)
  exact ⟨by simpa using this, by rw [abs_one]; exact one_lt_top ⟨by decide, by decide, by decide⟩⟩

/-- A search with a step that is not a number does not end. -/
theorem search_nan (o : GD (IE F fl) n) (f : (Fin n → IE F fl) → IE F fl) (xOld d : Fin n → IE F fl) (fxOld gd : IE F fl) :
    ∀ fuel, GD.search o f xOld d fxOld gd fuel IE.nan = none
  | 0 => rfl
  | fuel + 1 => by
    unfold GD.search
    dsimp only
    rw [mul_nan, nan_mul, add_nan, if_neg (le_nan _), nan_mul, if_neg (nan_le _)]
    exact search_nan o f xOld d fxOld gd fuel

theorem norm_one (hF : Roomy F) (h : Rounds F fl) : norm2 (fun _ : Fin 1 => (IE.num 1 : IE F fl)) = IE.num 1 := by
  have h1 : (IE.ofReal 1 : IE F fl) = IE.num 1 := by
    rw [(lit_num hF h (x := 1) (by norm_num) le_rfl).1, num_inj]
    refine h.fix ?_
    have := onGrid_pow (F := F) (by have := hF.bits; omega) (e := 0) (by have := hF.low; omega)
    simpa using this
  show IE.sqrt ((rng 1 0 1).foldl (fun acc (_ : Fin 1) => acc + (IE.num 1 : IE F fl) * IE.num 1) 0) = _
  rw [show rng 1 0 1 = [0] by decide, List.foldl_cons, List.foldl_nil, mul_num, mul_one, h1, ie_zero, add_num, zero_add, h1,
    sqrt_num (by norm_num), Real.sqrt_one, h1]

theorem lit_lt (hF : Roomy F) (h : Rounds F fl) : ¬ (IE.num 1 : IE F fl) ≤ 1e-6 := by
  have e : (1e-6 : IE F fl) = IE.num (fl 1e-6) := (lit_num hF h (x := 1e-6) (by norm_num) (by norm_num)).1
  rw [e, le_num, not_le]
  have : fl (2 ^ (-1 : ℤ)) = 2 ^ (-1 : ℤ) := h.fix (onGrid_pow (by have := hF.bits; omega) (by have := hF.low; omega))
  have h2 : fl 1e-6 ≤ fl (2 ^ (-1 : ℤ)) := h.mono (by norm_num)
  rw [this] at h2
  refine h2.trans_lt (by norm_num)

/-- With the default tolerances, where the gradient is one at the start, a run does not return if its searches do not. -/
theorem stuck (hF : Roomy F) (h : Rounds F fl) (o : GD (IE F fl) 1) (ho : o.tolGrad = 1e-6) (hb : o.useBacktracking = true) (hm : o.maxIters ≠ 0)
    (hmu : o.momentum = 0) (f : (Fin 1 → IE F fl) → IE F fl) (g : (Fin 1 → IE F fl) → Fin 1 → IE F fl) (fuel : ℕ) (x : Fin 1 → IE F fl)
    (hg : g x = fun _ => IE.num 1) (hs : GD.search o f x (fun _ => IE.num (-1)) (f x) (IE.num (-1)) fuel o.lr = none) :
    o.minimize f g fuel x = none := by
  obtain ⟨m, hm⟩ := Nat.exists_eq_succ_of_ne_zero hm
  have hn : (IE.ofReal (-1) : IE F fl) = IE.num (-1) := by
    have hf : fl (-1) = -1 := h.fix (by
      have := (onGrid_pow (F := F) (by have := hF.bits; omega) (e := 0) (by have := hF.low; omega)).neg
      simpa using this)
    rw [ofReal_num (by rw [hf, abs_neg, abs_one]; exact one_lt_top hF), hf]
  unfold GD.minimize
  rw [hm]
  unfold GD.loop
  dsimp only
  rw [ho, hg, norm_one hF h, if_neg (lit_lt hF h)]
  have hd : (-IE.num 1 + o.momentum * 0 : IE F fl) = IE.num (-1) := by
    rw [hmu, ie_zero, zero_mul_zero h]
    show IE.num (-1) + IE.num 0 = _
    rw [add_num, add_zero, hn]
  have hgd : dot (fun _ : Fin 1 => (IE.num 1 : IE F fl)) (fun _ => IE.num (-1)) = IE.num (-1) := by
    show (rng 1 0 1).foldl (fun acc (_ : Fin 1) => acc + (IE.num 1 : IE F fl) * IE.num (-1)) 0 = _
    rw [show rng 1 0 1 = [0] by decide, List.foldl_cons, List.foldl_nil, mul_num, one_mul, hn, ie_zero, add_num, zero_add, hn]
  have : GD.move o f fuel x (fun _ => 0) (f x) (fun _ => IE.num 1) = none := by
    unfold GD.move
    dsimp only
    rw [if_pos hb, hd, hgd, if_neg]
    · exact hs
    · intro hc
      have : (0 : ℝ) ≤ -1 := hc
      norm_num at this
  rw [this]
  rfl

/-- **C158** fails: `learning_rate(NaN)` is accepted, and then no call with a gradient above the tolerance ever returns: here for every
objective, every start, and a gradient that is one there. -/
theorem C158_fails (hF : Roomy F) (h : Rounds F fl) (f : (Fin 1 → IE F fl) → IE F fl) (g : (Fin 1 → IE F fl) → Fin 1 → IE F fl)
    (x : Fin 1 → IE F fl) (hg : g x = fun _ => IE.num 1) (fuel : ℕ) :
    ((GD.new 1).set (.learningRate IE.nan)).minimize f g fuel x = none := by
  have e : ((GD.new 1 : GD (IE F fl) 1).set (.learningRate IE.nan)).lr = IE.nan := if_neg (nan_le _)
  refine stuck hF h _ rfl rfl (by show 10000 ≠ 0; decide) rfl f g fuel x hg ?_
  rw [e]
  exact search_nan _ _ _ _ _ _ _

/-- The gradient `2x` is one at one half. -/
theorem double_half (hF : Roomy F) (h : Rounds F fl) : (fun _ : Fin 1 => (IE.num (1 / 2) + IE.num (1 / 2) : IE F fl)) = fun _ => IE.num 1 := by
  funext _
  rw [add_num, add_halves, (lit_num hF h (x := 1) (by norm_num) le_rfl).1, num_inj]
  refine h.fix ?_
  have := onGrid_pow (F := F) (by have := hF.bits; omega) (e := 0) (by have := hF.low; omega)
  simpa using this

/-- The failing case for the objective `x²`, with its gradient `2x`, from one half. -/
example (h : Rounds binary64 fl) (fuel : ℕ) :
    ((GD.new 1).set (.learningRate IE.nan)).minimize (fun x : Fin 1 → IE binary64 fl => x 0 * x 0) (fun x i => x i + x i) fuel
      (fun _ => IE.num (1 / 2)) = none :=
  have hF : Roomy binary64 := ⟨by decide, by decide, by decide⟩
  C158_fails hF h _ _ _ (double_half hF h) fuel

/-- **C158** fails: an infinite learning rate is accepted too, and minimising `x²` from one half with it does not return: the trial point is
infinite, the objective there exceeds any bound, and the step stays infinite. -/
theorem C158_infinite_fails (hF : Roomy F) (h : Rounds F fl) (fuel : ℕ) :
    ((GD.new 1).set (.learningRate (IE.inf false))).minimize (fun x : Fin 1 → IE F fl => x 0 * x 0) (fun x i => x i + x i) fuel
      (fun _ => IE.num (1 / 2)) = none := by
  have hz : ¬ (IE.inf false : IE F fl) ≤ 0 := inf_le_num 0
  have e : (GD.new 1 : GD (IE F fl) 1).set (.learningRate (IE.inf false)) = { (GD.new 1 : GD (IE F fl) 1) with lr := IE.inf false } := by
    show { (GD.new 1 : GD (IE F fl) 1) with lr := if (IE.inf false : IE F fl) ≤ 0 then 0 else IE.inf false } = _
    rw [if_neg hz]
  rw [e]
  refine stuck hF h _ rfl rfl (by show 10000 ≠ 0; decide) rfl _ _ fuel _ (double_half hF h) ?_
  have hc : (1e-4 : IE F fl) = IE.num (fl 1e-4) := (lit_num hF h (x := 1e-4) (by norm_num) (by norm_num)).1
  have hc0 : 0 < fl 1e-4 := by
    have : fl (2 ^ (-14 : ℤ)) = 2 ^ (-14 : ℤ) := h.fix (onGrid_pow (by have := hF.bits; omega) (by have := hF.bits; have := hF.low; omega))
    have h2 : fl (2 ^ (-14 : ℤ)) ≤ fl 1e-4 := h.mono (by norm_num)
    rw [this] at h2
    exact lt_of_lt_of_le (by positivity) h2
  have hh : (0.5 : IE F fl) = IE.num (1 / 2) := lit_half hF h
  have m1 : ∀ x : ℝ, x < 0 → (IE.inf false * IE.num x : IE F fl) = IE.inf true := by
    intro x hx
    show (if x = 0 then IE.nan else IE.inf (xor false (IE.isNeg x))) = _
    rw [if_neg hx.ne]
    unfold IE.isNeg
    rw [decide_eq_true hx]; rfl
  have m2 : ∀ x : ℝ, 0 < x → (IE.inf false * IE.num x : IE F fl) = IE.inf false := by
    intro x hx
    show (if x = 0 then IE.nan else IE.inf (xor false (IE.isNeg x))) = _
    rw [if_neg hx.ne']
    unfold IE.isNeg
    rw [decide_eq_false hx.le.not_gt]; rfl
  have m3 : ∀ x : ℝ, 0 < x → (IE.num x * IE.inf false : IE F fl) = IE.inf false := by
    intro x hx
    show (if x = 0 then IE.nan else IE.inf (xor (IE.isNeg x) false)) = _
    rw [if_neg hx.ne']
    unfold IE.isNeg
    rw [decide_eq_false hx.le.not_gt]; rfl
  have hq : ∃ q, (IE.num (1 / 2) * IE.num (1 / 2) : IE F fl) = IE.num q := by
    rw [mul_num]
    exact ⟨_, (lit_num hF h (x := 1 / 2 * (1 / 2)) (by norm_num) (by norm_num)).1⟩
  obtain ⟨q, hq⟩ := hq
  dsimp only
  rw [hq]
  induction fuel with
  | zero => rfl
  | succ fuel ih =>
    unfold GD.search
    dsimp only
    rw [m1 (-1) (by norm_num)]
    have hp : ∀ z, GD.project { (GD.new 1 : GD (IE F fl) 1) with lr := IE.inf false } z = z := fun z => rfl
    rw [hp]
    show (if (IE.inf false : IE F fl) ≤ IE.num q + 1e-4 * IE.inf false * IE.num (-1) then _ else
      if (IE.inf false : IE F fl) * 0.5 ≤ 1e-20 then _ else
        GD.search { (GD.new 1 : GD (IE F fl) 1) with lr := IE.inf false } _ _ _ _ _ fuel (IE.inf false * 0.5)) = none
    rw [hc, m3 _ hc0, m1 (-1) (by norm_num), hh, m2 _ (by norm_num), if_neg, if_neg]
    · exact ih
    · have hl : (1e-20 : IE F fl) = IE.num (fl 1e-20) := (lit_num hF h (x := 1e-20) (by norm_num) (by norm_num)).1
      rw [hl]
      exact inf_le_num _
    · rintro (hc | hc) <;> cases hc

/-- **C158** fails: a shrink factor of NaN is accepted as well; then a search whose first trial is refused, as it is where the objective is NaN,
does not end. -/
theorem C158_shrink_fails (hF : Roomy F) (h : Rounds F fl) (c : IE F fl) (g : (Fin 1 → IE F fl) → Fin 1 → IE F fl)
    (x : Fin 1 → IE F fl) (hg : g x = fun _ => IE.num 1) (fuel : ℕ) :
    ((GD.new 1).set (.armijo c IE.nan)).minimize (fun _ => IE.nan) g fuel x = none := by
  have e : ((GD.new 1 : GD (IE F fl) 1).set (.armijo c IE.nan)).tau = IE.nan := by
    show (if (IE.nan : IE F fl) ≤ 0 then 0.5 else if (IE.nan : IE F fl) ≥ 1 then 0.9 else IE.nan) = _
    rw [if_neg (nan_le _), if_neg (le_nan _)]
  refine stuck hF h _ rfl rfl (by show 10000 ≠ 0; decide) rfl _ g fuel x hg ?_
  rcases fuel with _ | fuel
  · rfl
  · unfold GD.search
    dsimp only
    rw [if_neg (nan_le _), e, mul_nan, if_neg (nan_le _)]
    exact search_nan _ _ _ _ _ _ _

/-! ## C159 -/

/-- **C159**, partial: with bounds in order, every component of the point returned lies within them or is NaN, if the start does or a step was
made; for every objective and gradient. What is missing: NaN (`C159_fails`). -/
theorem C159_partial (o : GD (IE F fl) n) (f : (Fin n → IE F fl) → IE F fl) (g : (Fin n → IE F fl) → Fin n → IE F fl) (fuel : ℕ)
    (x y : Fin n → IE F fl) (fy : IE F fl) (K : ℕ) (c : Bool) (hr : o.minimize f g fuel x = some (y, fy, K, c))
    (hb : o.hasBounds = true) (hle : ∀ i, o.minB i ≤ o.maxB i) (hx : 0 < K ∨ ∀ i, x i = IE.nan ∨ o.minB i ≤ x i ∧ x i ≤ o.maxB i) (i : Fin n) :
    y i = IE.nan ∨ o.minB i ≤ y i ∧ y i ≤ o.maxB i := by
  obtain ⟨-, -, -, a4, a5, -, -⟩ := loop_gen o f g fuel o.maxIters 0 x (fun _ => 0) (f x) y fy K c rfl (by omega) hr
  rcases Nat.eq_zero_or_pos K with h0 | h0
  · rw [a4 h0]
    rcases hx with hx | hx
    · omega
    · exact hx i
  · obtain ⟨z, rfl⟩ := a5 h0
    unfold GD.project
    rw [projectBox_apply, if_pos hb]
    generalize o.minB i = lo, o.maxB i = hi, z i = v, hle i = hl at *
    have refl : ∀ a b : IE F fl, a ≤ b → a ≤ a ∧ b ≤ b := by
      rintro ⟨_ | s | a⟩ ⟨_ | t | b⟩ hab <;> first | exact absurd hab (nan_le _) | exact absurd hab (le_nan _) | skip
      · exact ⟨by cases s; exacts [Or.inr rfl, Or.inl rfl], by cases t; exacts [Or.inr rfl, Or.inl rfl]⟩
      · exact ⟨by cases s; exacts [Or.inr rfl, Or.inl rfl], le_refl b⟩
      · exact ⟨le_refl a, by cases t; exacts [Or.inr rfl, Or.inl rfl]⟩
      · exact ⟨le_refl a, le_refl b⟩
    have total : ∀ a b : IE F fl, a ≠ IE.nan → b ≠ IE.nan → ¬ a < b → b ≤ a := by
      rintro ⟨_ | s | a⟩ ⟨_ | t | b⟩ ha hb hab <;> first | exact absurd rfl ha | exact absurd rfl hb | skip
      · cases s <;> cases t
        · exact Or.inr rfl
        · exact Or.inl rfl
        · exact absurd ⟨rfl, rfl⟩ hab
        · exact Or.inl rfl
      · cases s
        · exact rfl
        · exact absurd rfl hab
      · cases t
        · exact absurd rfl hab
        · exact rfl
      · exact (le_num b a).2 (not_lt.1 fun hlt => hab ((lt_num a b).2 hlt))
    have hlo : lo ≠ IE.nan := fun e => nan_le hi (e ▸ hl)
    have hhi : hi ≠ IE.nan := fun e => le_nan lo (e ▸ hl)
    by_cases c1 : v < lo
    · rw [if_pos c1]; exact Or.inr ⟨(refl _ _ hl).1, hl⟩
    · rw [if_neg c1]
      by_cases c2 : v > hi
      · rw [if_pos c2]; exact Or.inr ⟨hl, (refl _ _ hl).2⟩
      · rw [if_neg c2]
        by_cases hv : v = IE.nan
        · exact Or.inl hv
        · exact Or.inr ⟨total _ _ hv hlo c1, total _ _ hhi hv c2⟩

/-- **C159** fails: a NaN passes the projection. The gradient of `|x|`, computed as `x / |x|`, is NaN at zero; one fixed step from there within
the box from -1 to 1 leaves the box. -/
theorem C159_fails (f : (Fin 1 → IE F fl) → IE F fl) (fuel : ℕ) :
    ∃ fy c, ([.backtracking false, .maxIters 1, .setBounds (fun _ => IE.num (-1)) (fun _ => IE.num 1)].foldl GD.set (GD.new 1)).minimize f
      (fun x i => x i / x i) fuel (fun _ => 0) = some ((fun _ => IE.nan : Fin 1 → IE F fl), fy, 1, c) := by
  have hd : ((0 : IE F fl) / 0) = IE.nan := by
    show (if (0 : ℝ) = 0 then (if (0 : ℝ) = 0 then IE.nan else _) else _) = _
    rw [if_pos rfl, if_pos rfl]
  have hn : norm2 (fun _ : Fin 1 => (IE.nan : IE F fl)) = IE.nan := by
    show IE.sqrt ((rng 1 0 1).foldl (fun acc (_ : Fin 1) => acc + (IE.nan : IE F fl) * IE.nan) 0) = _
    rw [show rng 1 0 1 = [0] by decide, List.foldl_cons, List.foldl_nil, mul_nan, add_nan]; rfl
  have key : ∀ o : GD (IE F fl) 1, o.useBacktracking = false → o.maxIters = 1 →
      o.minimize f (fun x i => x i / x i) fuel (fun _ => 0) = some ((fun _ => IE.nan), f fun _ => IE.nan, 1, false) := by
    intro o h1 h2
    have hp : o.project (fun _ => IE.nan) = fun _ => IE.nan := by
      funext i
      unfold GD.project
      rw [projectBox_apply]
      by_cases hb : o.hasBounds = true
      · rw [if_pos hb, if_neg (nan_lt _), if_neg (lt_nan _)]
      · rw [if_neg hb]
    have hm : o.move f fuel (fun _ => 0) (fun _ => 0) (f fun _ => 0) (fun _ => IE.nan) = some ((fun _ => IE.nan), f fun _ => IE.nan) := by
      unfold GD.move
      dsimp only
      rw [h1, if_neg Bool.false_ne_true]
      have : (fun _ : Fin 1 => (0 : IE F fl) + o.lr * (-IE.nan + o.momentum * 0)) = fun _ => IE.nan := by
        funext _
        rw [show (-IE.nan : IE F fl) = IE.nan from rfl, nan_add, mul_nan, add_nan]
      rw [this, hp]
    unfold GD.minimize
    rw [h2]
    unfold GD.loop
    dsimp only
    rw [hd, hn, if_neg (nan_le _), hm]
    show (if norm2 (fun _ : Fin 1 => (IE.nan : IE F fl) - 0) ≤ o.tolStep then _ else _) = _
    rw [show (fun _ : Fin 1 => (IE.nan : IE F fl) - 0) = fun _ => IE.nan from rfl, hn, if_neg (nan_le _)]
    unfold GD.loop
    rw [h2]
  exact ⟨_, _, key _ rfl rfl⟩

/-- The bounds of the example are in order, and the start lies within them. -/
example : (IE.num (-1) : IE binary64 fl) ≤ IE.num 1 ∧ (IE.num (-1) : IE binary64 fl) ≤ 0 ∧ (0 : IE binary64 fl) ≤ IE.num 1 :=
  ⟨(le_num _ _).2 (by norm_num), (le_num _ _).2 (by norm_num), (le_num _ _).2 (by norm_num)⟩

end Verif.Opt
