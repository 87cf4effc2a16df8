import Verif.Float.Coord
import Verif.Float.Eval
import Verif.Frames.PropsFrames
import Mathlib.Analysis.SpecialFunctions.Trigonometric.Bounds

/-!
# C190, C191: points converted to spherical or cylindrical coordinates and back in floating point
-/

namespace Verif.Float

open Verif.Simd (Accurate)
open Real

variable {fl : ℝ → ℝ} {p : ℕ} {lib : Libm}

/-- The sine, cosine, inverse cosine and two-argument inverse tangent of the library are within `e` of the exact
functions. -/
structure LibNear (lib : Libm) (e : ℝ) : Prop where
  sin : ∀ x, |lib.sin x - Real.sin x| ≤ e
  cos : ∀ x, |lib.cos x - Real.cos x| ≤ e
  acos : ∀ x, |x| ≤ 1 → |lib.acos x - Real.arccos x| ≤ e
  atan2 : ∀ y x, |lib.atan2 y x - Verif.Att.atan2 y x| ≤ e

/-- The library that returns the exact values. -/
noncomputable def exactLib : Libm where
  sin := Real.sin
  cos := Real.cos
  asin := Real.arcsin
  acos := Real.arccos
  atan2 := Verif.Att.atan2
  powf := fun x y => x ^ y
  fracPi2 := Real.pi / 2

theorem exactLib_near {e : ℝ} (he : 0 ≤ e) : LibNear exactLib e where
  sin x := by simpa [exactLib] using he
  cos x := by simpa [exactLib] using he
  acos x _ := by simpa [exactLib] using he
  atan2 y x := by simpa [exactLib] using he

/-! ## Estimates -/

theorem cos_lip (a b : ℝ) : |Real.cos a - Real.cos b| ≤ |a - b| := Real.abs_cos_sub_cos_le a b

theorem sin_lip (a b : ℝ) : |Real.sin a - Real.sin b| ≤ |a - b| := Real.abs_sin_sub_sin_le a b

/-- One product `a' * C`, rounded, for approximations of `a` and of `c`. -/
theorem mul_step {u a b C c α β γ : ℝ} (h : Accurate fl u) (hu : 0 ≤ u) (ha : |b - a| ≤ α) (hC : |C - c| ≤ β)
    (hg : |C| ≤ γ) : |fl (b * C) - a * c| ≤ u * (|b| * γ) + α * γ + |a| * β := by
  have h1 := h (b * C)
  have h2 : |b * C| ≤ |b| * γ := by
    rw [abs_mul]
    exact mul_le_mul_of_nonneg_left hg (abs_nonneg _)
  have h3 : |(b - a) * C| ≤ α * γ := by
    rw [abs_mul]
    exact mul_le_mul ha hg (abs_nonneg _) ((abs_nonneg _).trans ha)
  have h4 : |a * (C - c)| ≤ |a| * β := by
    rw [abs_mul]
    exact mul_le_mul_of_nonneg_left hC (abs_nonneg _)
  have h5 : u * |b * C| ≤ u * (|b| * γ) := mul_le_mul_of_nonneg_left h2 hu
  have e : fl (b * C) - a * c = (fl (b * C) - b * C) + ((b - a) * C + a * (C - c)) := by ring
  rw [e]
  have := abs_add_le (fl (b * C) - b * C) ((b - a) * C + a * (C - c))
  have := abs_add_le ((b - a) * C) (a * (C - c))
  linarith

/-- The square root of an approximation, rounded. -/
theorem sqrt_step {u D E ε : ℝ} (h : Accurate fl u) (hu : 0 ≤ u) (hD : 0 ≤ D) (hE : 0 ≤ E)
    (hd : |E - D| ≤ ε * D) : |fl √E - √D| ≤ ((1 + u) * (1 + ε) - 1) * √D := by
  have h1 : |√E - √D| ≤ ε * √D := by
    rcases hD.eq_or_lt with h0 | h0
    · rw [← h0] at hd ⊢
      have : E = 0 := by
        rw [mul_zero, sub_zero] at hd
        exact abs_eq_zero.1 (le_antisymm hd (abs_nonneg _))
      rw [this]
      simp
    · have hs : 0 < √D := Real.sqrt_pos.2 h0
      have e : (√E - √D) * (√E + √D) = E - D := by
        have := Real.mul_self_sqrt hD
        have := Real.mul_self_sqrt hE
        linarith
      have h2 : |√E - √D| * √D ≤ |E - D| := by
        rw [← e, abs_mul]
        refine mul_le_mul_of_nonneg_left ?_ (abs_nonneg _)
        exact (le_add_of_nonneg_left (Real.sqrt_nonneg _)).trans (le_abs_self _)
      have h3 : |√E - √D| * √D ≤ ε * √D * √D := by
        rw [mul_assoc, Real.mul_self_sqrt hD]
        exact h2.trans hd
      exact le_of_mul_le_mul_right h3 hs
  have h2 := h √E
  rw [abs_of_nonneg (Real.sqrt_nonneg E)] at h2
  have h3 : √E ≤ (1 + ε) * √D := by linarith [(abs_le.1 h1).2]
  have h4 : u * √E ≤ u * ((1 + ε) * √D) := mul_le_mul_of_nonneg_left h3 hu
  have := abs_sub_le (fl √E) √E √D
  nlinarith

/-- A sum of two non-negative terms known up to a factor, rounded. -/
theorem add_step {u A B A' B' α : ℝ} (h : Accurate fl u) (hu : 0 ≤ u) (hA : 0 ≤ A) (hB : 0 ≤ B)
    (ha : |A' - A| ≤ α * A) (hb : |B' - B| ≤ α * B) :
    |fl (A' + B') - (A + B)| ≤ ((1 + u) * (1 + α) - 1) * (A + B) := by
  have h1 := h (A' + B')
  have h2 : |A' + B' - (A + B)| ≤ α * (A + B) := by
    have := abs_add_le (A' - A) (B' - B)
    rw [show A' + B' - (A + B) = (A' - A) + (B' - B) by ring]
    linarith
  have h3 : |A' + B'| ≤ (1 + α) * (A + B) := by
    have := abs_add_le (A' + B' - (A + B)) (A + B)
    rw [sub_add_cancel, abs_of_nonneg (add_nonneg hA hB)] at this
    linarith
  have h4 : u * |A' + B'| ≤ u * ((1 + α) * (A + B)) := mul_le_mul_of_nonneg_left h3 hu
  have := abs_sub_le (fl (A' + B')) (A' + B') (A + B)
  nlinarith

theorem sq_step {u : ℝ} (h : Accurate fl u) (x : ℝ) : |fl (x * x) - x * x| ≤ u * (x * x) := by
  have := h (x * x)
  rwa [abs_of_nonneg (mul_self_nonneg x)] at this

theorem pow_step {α K A B : ℝ} (hA : 0 ≤ A) (hK : α ≤ K) (h : |B - A| ≤ α * A) : |B - A| ≤ K * A :=
  h.trans (mul_le_mul_of_nonneg_right hK hA)

/-- Two sines of inclinations from their cosines: always within the square root of twice the difference. -/
theorem sine_root {a b d : ℝ} (ha : |a| ≤ 1) (hb : |b| ≤ 1) (hd : |a - b| ≤ d) :
    |√(1 - a ^ 2) - √(1 - b ^ 2)| ≤ √(2 * d) := by
  have key : |(1 - a ^ 2) - (1 - b ^ 2)| ≤ 2 * d := by
    rw [show (1 - a ^ 2) - (1 - b ^ 2) = -((a - b) * (a + b)) by ring, abs_neg, abs_mul]
    have h1 : |a + b| ≤ 2 := (abs_add_le a b).trans (by linarith)
    calc |a - b| * |a + b| ≤ d * 2 := mul_le_mul hd h1 (abs_nonneg _) ((abs_nonneg _).trans hd)
      _ = 2 * d := mul_comm _ _
  have hA : 0 ≤ 1 - a ^ 2 := by nlinarith [abs_le.1 ha]
  have hB : 0 ≤ 1 - b ^ 2 := by nlinarith [abs_le.1 hb]
  apply Real.le_sqrt_of_sq_le
  refine le_trans ?_ key
  have e : ((1 - a ^ 2) - (1 - b ^ 2)) = (√(1 - a ^ 2) - √(1 - b ^ 2)) * (√(1 - a ^ 2) + √(1 - b ^ 2)) := by
    have := Real.mul_self_sqrt hA
    have := Real.mul_self_sqrt hB
    linarith
  rw [e, abs_mul, sq]
  refine mul_le_mul_of_nonneg_left ?_ (abs_nonneg _)
  have h1 := Real.sqrt_nonneg (1 - a ^ 2)
  have h2 := Real.sqrt_nonneg (1 - b ^ 2)
  rw [abs_of_nonneg (add_nonneg h1 h2)]
  exact abs_le.2 ⟨by linarith, by linarith⟩

/-- Two sines of inclinations from their cosines: the error of the cosine over the sine. -/
theorem sine_ratio {a b d : ℝ} (ha : |a| ≤ 1) (hb : |b| ≤ 1) (hd : |a - b| ≤ d) :
    |√(1 - a ^ 2) - √(1 - b ^ 2)| * √(1 - b ^ 2) ≤ 2 * d := by
  have key : |(1 - a ^ 2) - (1 - b ^ 2)| ≤ 2 * d := by
    rw [show (1 - a ^ 2) - (1 - b ^ 2) = -((a - b) * (a + b)) by ring, abs_neg, abs_mul]
    have h1 : |a + b| ≤ 2 := (abs_add_le a b).trans (by linarith)
    calc |a - b| * |a + b| ≤ d * 2 := mul_le_mul hd h1 (abs_nonneg _) ((abs_nonneg _).trans hd)
      _ = 2 * d := mul_comm _ _
  have hA : 0 ≤ 1 - a ^ 2 := by nlinarith [abs_le.1 ha]
  have hB : 0 ≤ 1 - b ^ 2 := by nlinarith [abs_le.1 hb]
  refine le_trans ?_ key
  have e : ((1 - a ^ 2) - (1 - b ^ 2)) = (√(1 - a ^ 2) - √(1 - b ^ 2)) * (√(1 - a ^ 2) + √(1 - b ^ 2)) := by
    have := Real.mul_self_sqrt hA
    have := Real.mul_self_sqrt hB
    linarith
  rw [e, abs_mul]
  refine mul_le_mul_of_nonneg_left ?_ (abs_nonneg _)
  have h1 := Real.sqrt_nonneg (1 - a ^ 2)
  exact (le_add_of_nonneg_left h1).trans (le_abs_self _)

/-- The library's cosine and sine of an approximate angle. -/
theorem LibNear.cos_of {e θ t : ℝ} (h : LibNear lib e) (ht : |t - θ| ≤ e) : |lib.cos t - Real.cos θ| ≤ 2 * e := by
  have := abs_sub_le (lib.cos t) (Real.cos t) (Real.cos θ)
  linarith [h.cos t, (cos_lip t θ).trans ht]

theorem LibNear.sin_of {e θ t : ℝ} (h : LibNear lib e) (ht : |t - θ| ≤ e) : |lib.sin t - Real.sin θ| ≤ 2 * e := by
  have := abs_sub_le (lib.sin t) (Real.sin t) (Real.sin θ)
  linarith [h.sin t, (sin_lip t θ).trans ht]

theorem LibNear.cos_le {e : ℝ} (h : LibNear lib e) (he : e ≤ 1 / 16) (t : ℝ) : |lib.cos t| ≤ 17 / 16 := by
  have := abs_sub_abs_le_abs_sub (lib.cos t) (Real.cos t)
  linarith [h.cos t, Real.abs_cos_le_one t]

theorem LibNear.sin_le {e : ℝ} (h : LibNear lib e) (he : e ≤ 1 / 16) (t : ℝ) : |lib.sin t| ≤ 17 / 16 := by
  have := abs_sub_abs_le_abs_sub (lib.sin t) (Real.sin t)
  linarith [h.sin t, Real.abs_sin_le_one t]

/-! ## C190 -/

/-- **C190**, cylindrical coordinates: with any rounding to `p ≥ 4` significant bits and a library whose functions are
within `e`, a point converted to cylindrical coordinates and back has its first two coordinates within
`6 * 2⁻ᵖ + 2 * e` times its distance from the axis, and its third coordinate unchanged. -/
theorem C190_cylindrical (hp : 4 ≤ p) (h : Nearest p fl) {e : ℝ} (he : e ≤ 1 / 16) (hl : LibNear lib e)
    (c : Fin 3 → ℝ) :
    ∃ q : Fin 3 → ℝ, cartesianOfCylindrical (cylindricalOfCartesian fun i => (CF.num (c i) : CF fl lib)) =
        (fun i => CF.num (q i)) ∧
      (∀ i, i = 0 ∨ i = 1 → |q i - c i| ≤ (6 * 2 ^ (-p : ℤ) + 2 * e) * √(c 0 ^ 2 + c 1 ^ 2)) ∧ q 2 = c 2 := by
  have hacc := h.accurate (by omega)
  set u : ℝ := 2 ^ (-p : ℤ) with hu
  have hu0 : 0 ≤ u := by positivity
  have hu1 : u ≤ 1 / 16 := by
    have : u ≤ 2 ^ (-4 : ℤ) := zpow_le_zpow_right₀ (by norm_num) (by omega)
    exact this.trans (by norm_num)
  have u2 : u * u ≤ u / 16 := by nlinarith
  have u3 : u * u * u ≤ u / 256 := by nlinarith
  set E := fl (fl (c 0 * c 0) + fl (c 1 * c 1)) with hE
  have hE0 : 0 ≤ E := h.nonneg (add_nonneg (h.nonneg (mul_self_nonneg _)) (h.nonneg (mul_self_nonneg _)))
  have hd : 0 ≤ c 0 * c 0 + c 1 * c 1 := add_nonneg (mul_self_nonneg _) (mul_self_nonneg _)
  have s1 := add_step hacc hu0 (mul_self_nonneg (c 0)) (mul_self_nonneg (c 1)) (sq_step hacc (c 0))
    (sq_step hacc (c 1))
  have s2 := sqrt_step hacc hu0 hd hE0 s1
  have hs0 := Real.sqrt_nonneg (c 0 * c 0 + c 1 * c 1)
  have s3 : |fl √E - √(c 0 * c 0 + c 1 * c 1)| ≤ 4 * u * √(c 0 * c 0 + c 1 * c 1) :=
    pow_step hs0 (by linarith) s2
  have hx := Frames.polar_x (c 0) (c 1)
  have hy := Frames.polar_y (c 0) (c 1)
  have es : √(c 0 ^ 2 + c 1 ^ 2) = √(c 0 * c 0 + c 1 * c 1) := by rw [sq, sq]
  rw [es]
  generalize √(c 0 * c 0 + c 1 * c 1) = s at *
  have hat := hl.atan2 (c 1) (c 0)
  have hr : |fl √E| ≤ 5 / 4 * s := by
    have := abs_sub_abs_le_abs_sub (fl √E) s
    rw [abs_of_nonneg hs0] at this
    nlinarith
  have fin : ∀ C k : ℝ, |C - k| ≤ 2 * e → |C| ≤ 17 / 16 → |fl (fl √E * C) - s * k| ≤ (6 * u + 2 * e) * s := by
    intro C k h1 h2
    have := mul_step hacc hu0 s3 h1 h2
    rw [abs_of_nonneg hs0] at this
    have h3 : u * (|fl √E| * (17 / 16)) ≤ u * (5 / 4 * s * (17 / 16)) := by gcongr
    have h4 : 0 ≤ u * s := mul_nonneg hu0 hs0
    nlinarith
  refine ⟨![fl (fl √E * lib.cos (lib.atan2 (c 1) (c 0))), fl (fl √E * lib.sin (lib.atan2 (c 1) (c 0))), c 2], ?_, ?_,
    rfl⟩
  · unfold cartesianOfCylindrical cylindricalOfCartesian
    dsimp only
    simp only [cf_mul, cf_add, ← hE, cf_sqrt hE0, cf_atan2, Matrix.cons_val, cf_cos, cf_sin]
    funext i
    fin_cases i <;> rfl
  · rintro i (rfl | rfl)
    · have := fin _ _ (hl.cos_of hat) (hl.cos_le he _)
      rwa [hx] at this
    · have := fin _ _ (hl.sin_of hat) (hl.sin_le he _)
      rwa [hy] at this

/-- What the two conversions compute, where the radius is not zero. -/
theorem spherical_eval (c : Fin 3 → ℝ) (hE0 : 0 ≤ fl (fl (fl (c 0 * c 0) + fl (c 1 * c 1)) + fl (c 2 * c 2)))
    (hR0 : fl √(fl (fl (fl (c 0 * c 0) + fl (c 1 * c 1)) + fl (c 2 * c 2))) ≠ 0)
    (hC : |fl (c 2 / fl √(fl (fl (fl (c 0 * c 0) + fl (c 1 * c 1)) + fl (c 2 * c 2))))| ≤ 1) :
    cartesianOfSpherical (sphericalOfCartesian fun i => (CF.num (c i) : CF fl lib)) = fun i => CF.num (
      (![fl (fl (fl √(fl (fl (fl (c 0 * c 0) + fl (c 1 * c 1)) + fl (c 2 * c 2))) *
            lib.sin (lib.acos (fl (c 2 / fl √(fl (fl (fl (c 0 * c 0) + fl (c 1 * c 1)) + fl (c 2 * c 2))))))) *
          lib.cos (lib.atan2 (c 1) (c 0))),
        fl (fl (fl √(fl (fl (fl (c 0 * c 0) + fl (c 1 * c 1)) + fl (c 2 * c 2))) *
            lib.sin (lib.acos (fl (c 2 / fl √(fl (fl (fl (c 0 * c 0) + fl (c 1 * c 1)) + fl (c 2 * c 2))))))) *
          lib.sin (lib.atan2 (c 1) (c 0))),
        fl (fl √(fl (fl (fl (c 0 * c 0) + fl (c 1 * c 1)) + fl (c 2 * c 2))) *
            lib.cos (lib.acos (fl (c 2 / fl √(fl (fl (fl (c 0 * c 0) + fl (c 1 * c 1)) + fl (c 2 * c 2)))))))] :
        Fin 3 → ℝ) i) := by
  unfold cartesianOfSpherical sphericalOfCartesian
  dsimp only
  simp only [cf_mul, cf_add, cf_sqrt hE0, cf_atan2, Matrix.cons_val, cf_cos, cf_sin, cf_zero, cf_eq, hR0, if_false,
    cf_div _ hR0, cf_acos hC]
  funext i
  fin_cases i <;> rfl

/-- The cosine of the inclination, from a radius within `5 u`. -/
theorem incl_step {u ρ R z : ℝ} (hacc : Accurate fl u) (hu0 : 0 < u) (hu1 : u ≤ 1 / 16) (hρ : 0 < ρ)
    (hz : |z| ≤ ρ) (s3 : |R - ρ| ≤ 5 * u * ρ) :
    11 / 16 * ρ ≤ R ∧ R ≤ 21 / 16 * ρ ∧ |z / ρ| ≤ 1 ∧ |fl (z / R) - z / ρ| ≤ 10 * u := by
  have u2 : u * u ≤ u / 16 := by nlinarith
  obtain ⟨r1, r2⟩ := abs_le.1 s3
  have h5 : 5 * u * ρ ≤ 5 / 16 * ρ := mul_le_mul_of_nonneg_right (by linarith) hρ.le
  have hRpos : 11 / 16 * ρ ≤ R := by linarith
  have hR0 : 0 < R := lt_of_lt_of_le (by positivity) hRpos
  have hRle : R ≤ 21 / 16 * ρ := by linarith
  have hk1 : |z / ρ| ≤ 1 := by
    rw [abs_div, abs_of_pos hρ, div_le_one hρ]
    exact hz
  refine ⟨hRpos, hRle, hk1, ?_⟩
  obtain ⟨k, hk⟩ : ∃ k, k = z / ρ := ⟨_, rfl⟩
  rw [← hk] at hk1 ⊢
  have hzk : z = ρ * k := by rw [hk]; field_simp
  have q1 : |z / R - k| ≤ 8 * u := by
    have e1 : z / R - k = k * ((ρ - R) / R) := by
      rw [hzk]
      field_simp
    rw [e1, abs_mul, abs_div (ρ - R), abs_of_pos hR0]
    have h1 : |ρ - R| / R ≤ 8 * u := by
      rw [div_le_iff₀ hR0, abs_sub_comm]
      have : 8 * u * (11 / 16 * ρ) ≤ 8 * u * R := mul_le_mul_of_nonneg_left hRpos (by linarith)
      have := mul_pos hu0 hρ
      linarith
    calc |k| * (|ρ - R| / R) ≤ 1 * (8 * u) := mul_le_mul hk1 h1 (by positivity) zero_le_one
      _ = 8 * u := one_mul _
  have h1 := hacc (z / R)
  have h2 : |z / R| ≤ 1 + 8 * u := by
    have := abs_sub_abs_le_abs_sub (z / R) k
    linarith
  have h3 := abs_sub_le (fl (z / R)) (z / R) k
  have h4 : u * |z / R| ≤ u * (1 + 8 * u) := mul_le_mul_of_nonneg_left h2 hu0.le
  linarith

/-- The library's sine and cosine of the inclination, from its cosine. -/
theorem incl_lib {u e C k : ℝ} (hl : LibNear lib e) (hC : |C| ≤ 1) (hCk : |C - k| ≤ 10 * u) :
    |lib.cos (lib.acos C) - k| ≤ 2 * e + 10 * u ∧
      |lib.sin (lib.acos C) - √(1 - k ^ 2)| ≤ 2 * e + |√(1 - C ^ 2) - √(1 - k ^ 2)| := by
  obtain ⟨c1, c2⟩ := abs_le.1 hC
  have hac := hl.acos C hC
  constructor
  · have h1 := hl.cos_of hac
    rw [Real.cos_arccos c1 c2] at h1
    have := abs_sub_le (lib.cos (lib.acos C)) C k
    linarith
  · have h1 := hl.sin_of hac
    rw [Real.sin_arccos] at h1
    have := abs_sub_le (lib.sin (lib.acos C)) √(1 - C ^ 2) √(1 - k ^ 2)
    linarith

/-- The distance from the axis, from the radius and the sine of the inclination. -/
theorem axis_step {u e ρ R S σ δ : ℝ} (hacc : Accurate fl u) (hu0 : 0 < u) (hu1 : u ≤ 1 / 16) (hρ : 0 < ρ)
    (s3 : |R - ρ| ≤ 5 * u * ρ) (hR0 : 0 < R) (hRle : R ≤ 21 / 16 * ρ) (hS : |S - σ| ≤ 2 * e + δ) (hS1 : |S| ≤ 17 / 16) :
    |fl (R * S) - ρ * σ| ≤ (7 * u + 2 * e + δ) * ρ ∧ |fl (R * S)| ≤ 3 / 2 * ρ := by
  constructor
  · have := mul_step hacc hu0.le s3 hS hS1
    rw [abs_of_pos hρ, abs_of_pos hR0] at this
    have h3 : u * (R * (17 / 16)) ≤ u * (21 / 16 * ρ * (17 / 16)) := by gcongr
    have := mul_pos hu0 hρ
    linarith
  · have h1 := hacc (R * S)
    have h2 : |R * S| ≤ 21 / 16 * ρ * (17 / 16) := by
      rw [abs_mul, abs_of_pos hR0]
      exact mul_le_mul hRle hS1 (abs_nonneg _) (by positivity)
    have h3 := abs_sub_abs_le_abs_sub (fl (R * S)) (R * S)
    have h4 : u * |R * S| ≤ 1 / 16 * (21 / 16 * ρ * (17 / 16)) :=
      mul_le_mul hu1 h2 (abs_nonneg _) (by norm_num)
    linarith

/-- One of the first two coordinates, from the distance from the axis. -/
theorem coord_step {u e ρ s H δ D t σ : ℝ} (hacc : Accurate fl u) (hu0 : 0 < u) (he0 : 0 ≤ e) (hρ : 0 < ρ)
    (hs0 : 0 ≤ s) (hsρ : s ≤ ρ) (hsσ : s = ρ * σ) (hHs : |H - s| ≤ (7 * u + 2 * e + δ) * ρ) (hHle : |H| ≤ 3 / 2 * ρ)
    (d1 : δ ≤ √(2 * (10 * u))) (d2 : δ * σ ≤ 2 * (10 * u)) (h1 : |D - t| ≤ 2 * e) (h2 : |D| ≤ 17 / 16) :
    |fl (H * D) - s * t| ≤ (10 * u + 5 * e + 5 * √u) * ρ ∧
      |fl (H * D) - s * t| * s ≤ (10 * u + 5 * e) * ρ * s + 22 * u * (ρ * ρ) := by
  have hf : |fl (H * D) - s * t| ≤ (10 * u + 5 * e + 17 / 16 * δ) * ρ := by
    have := mul_step hacc hu0.le hHs h1 h2
    rw [abs_of_nonneg hs0] at this
    have h3 : u * (|H| * (17 / 16)) ≤ u * (3 / 2 * ρ * (17 / 16)) := by gcongr
    have h4 : s * (2 * e) ≤ ρ * (2 * e) := by gcongr
    have h5 : 0 ≤ e * ρ := by positivity
    have h6 := mul_pos hu0 hρ
    linarith
  constructor
  · have h3 : 17 / 16 * δ ≤ 5 * √u := by
      have h4 : √(2 * (10 * u)) ≤ 80 / 17 * √u := by
        rw [Real.sqrt_le_left (by positivity), mul_pow, Real.sq_sqrt hu0.le]
        linarith
      linarith
    refine hf.trans (mul_le_mul_of_nonneg_right ?_ hρ.le)
    linarith
  · have h3 : |fl (H * D) - s * t| * s ≤ (10 * u + 5 * e + 17 / 16 * δ) * ρ * s :=
      mul_le_mul_of_nonneg_right hf hs0
    have h4 : δ * ρ * s ≤ 20 * u * (ρ * ρ) := by
      have h5 : δ * σ * (ρ * ρ) ≤ 2 * (10 * u) * (ρ * ρ) := mul_le_mul_of_nonneg_right d2 (by positivity)
      have e2 : δ * ρ * s = δ * σ * (ρ * ρ) := by rw [hsσ]; ring
      rw [e2]
      linarith
    have h6 : 0 ≤ u * (ρ * ρ) := by positivity
    linarith

/-- The radius. -/
theorem radius_step (h : Nearest p fl) {u : ℝ} (hacc : Accurate fl u) (hu0 : 0 < u) (hu1 : u ≤ 1 / 16) (x y z : ℝ) :
    fl (z * z) ≤ fl (fl (fl (x * x) + fl (y * y)) + fl (z * z)) ∧
    0 ≤ fl (fl (fl (x * x) + fl (y * y)) + fl (z * z)) ∧
      |fl √(fl (fl (fl (x * x) + fl (y * y)) + fl (z * z))) - √(x * x + y * y + z * z)| ≤
        5 * u * √(x * x + y * y + z * z) := by
  have u2 : u * u ≤ u / 16 := by nlinarith
  have u3 : u * u * u ≤ u / 256 := by nlinarith
  have u4 : u * u * u * u ≤ u / 4096 := by nlinarith
  have hA0 : 0 ≤ fl (fl (x * x) + fl (y * y)) :=
    h.nonneg (add_nonneg (h.nonneg (mul_self_nonneg _)) (h.nonneg (mul_self_nonneg _)))
  have hEz : fl (z * z) ≤ fl (fl (fl (x * x) + fl (y * y)) + fl (z * z)) := h.le_add hA0 (h.float _)
  have hE0 := (h.nonneg (mul_self_nonneg z)).trans hEz
  have hd2 : 0 ≤ x * x + y * y := add_nonneg (mul_self_nonneg _) (mul_self_nonneg _)
  have hz2 := mul_self_nonneg z
  have s1 := add_step hacc hu0.le (mul_self_nonneg x) (mul_self_nonneg y) (sq_step hacc x) (sq_step hacc y)
  have s1' : |fl (z * z) - z * z| ≤ ((1 + u) * (1 + u) - 1) * (z * z) :=
    pow_step hz2 (by nlinarith) (sq_step hacc z)
  have s2 := sqrt_step hacc hu0.le (add_nonneg hd2 hz2) hE0 (add_step hacc hu0.le hd2 hz2 s1 s1')
  exact ⟨hEz, hE0, pow_step (Real.sqrt_nonneg _) (by linarith) s2⟩

/-- **C190**, spherical coordinates: with any rounding to `p ≥ 4` significant bits and a library whose functions are
within `e`, a point off the origin converted to spherical coordinates and back has, relative to its distance from the
origin, its third coordinate within `17 * 2⁻ᵖ + 2 * e`; its first two coordinates are within `10 * 2⁻ᵖ + 5 * e` and, on
top of it, the smaller of `5 * √(2⁻ᵖ)` and `22 * 2⁻ᵖ` over the sine of the inclination. -/
theorem C190_spherical (hp : 4 ≤ p) (h : Nearest p fl) {e : ℝ} (he : e ≤ 1 / 16) (hl : LibNear lib e)
    (c : Fin 3 → ℝ) (hc : ∀ i, IsFloat p (c i)) (h0 : ∃ i, c i ≠ 0) :
    ∃ q : Fin 3 → ℝ, cartesianOfSpherical (sphericalOfCartesian fun i => (CF.num (c i) : CF fl lib)) =
        (fun i => CF.num (q i)) ∧
      |q 2 - c 2| ≤ (17 * 2 ^ (-p : ℤ) + 2 * e) * √(c 0 ^ 2 + c 1 ^ 2 + c 2 ^ 2) ∧
      (∀ i, i = 0 ∨ i = 1 →
        |q i - c i| ≤ (10 * 2 ^ (-p : ℤ) + 5 * e + 5 * √(2 ^ (-p : ℤ))) * √(c 0 ^ 2 + c 1 ^ 2 + c 2 ^ 2) ∧
        |q i - c i| * √(c 0 ^ 2 + c 1 ^ 2) ≤ (10 * 2 ^ (-p : ℤ) + 5 * e) * √(c 0 ^ 2 + c 1 ^ 2 + c 2 ^ 2) *
          √(c 0 ^ 2 + c 1 ^ 2) + 22 * 2 ^ (-p : ℤ) * (c 0 ^ 2 + c 1 ^ 2 + c 2 ^ 2)) := by
  have hacc := h.accurate (by omega)
  set u : ℝ := 2 ^ (-p : ℤ) with hu
  have hu0 : 0 < u := by positivity
  have hu1 : u ≤ 1 / 16 := by
    have : u ≤ 2 ^ (-4 : ℤ) := zpow_le_zpow_right₀ (by norm_num) (by omega)
    exact this.trans (by norm_num)
  clear_value u
  have he0 : 0 ≤ e := (abs_nonneg _).trans (hl.sin 0)
  obtain ⟨hEz, hE0, s3⟩ := radius_step h hacc hu0 hu1 (c 0) (c 1) (c 2)
  have hd2 : 0 ≤ c 0 * c 0 + c 1 * c 1 := add_nonneg (mul_self_nonneg _) (mul_self_nonneg _)
  have hpos : 0 < c 0 * c 0 + c 1 * c 1 + c 2 * c 2 := by
    obtain ⟨i, hi⟩ := h0
    have := mul_self_pos.2 hi
    have h1 := mul_self_nonneg (c 0)
    have h2 := mul_self_nonneg (c 1)
    have h3 := mul_self_nonneg (c 2)
    fin_cases i
    · simp only [Fin.zero_eta] at this; linarith
    · simp only [Fin.mk_one] at this; linarith
    · simp only [Fin.reduceFinMk] at this; linarith
  have hx := Frames.polar_x (c 0) (c 1)
  have hy := Frames.polar_y (c 0) (c 1)
  have es : √(c 0 ^ 2 + c 1 ^ 2) = √(c 0 * c 0 + c 1 * c 1) := by rw [sq, sq]
  have ed : c 0 ^ 2 + c 1 ^ 2 + c 2 ^ 2 = c 0 * c 0 + c 1 * c 1 + c 2 * c 2 := by ring
  rw [es, ed]
  have hρ : 0 < √(c 0 * c 0 + c 1 * c 1 + c 2 * c 2) := Real.sqrt_pos.2 hpos
  have hρ2 := Real.mul_self_sqrt hpos.le
  have hs0 := Real.sqrt_nonneg (c 0 * c 0 + c 1 * c 1)
  have hs2 := Real.mul_self_sqrt hd2
  have hsρ : √(c 0 * c 0 + c 1 * c 1) ≤ √(c 0 * c 0 + c 1 * c 1 + c 2 * c 2) :=
    Real.sqrt_le_sqrt (by linarith [mul_self_nonneg (c 2)])
  have hz : |c 2| ≤ √(c 0 * c 0 + c 1 * c 1 + c 2 * c 2) := by
    apply Real.abs_le_sqrt
    rw [sq]
    linarith
  obtain ⟨hRpos, hRle, hk1, q2⟩ := incl_step hacc hu0 hu1 hρ hz s3
  have hR0 := lt_of_lt_of_le (mul_pos (by norm_num) hρ) hRpos
  have hratio := h.ratio (by omega) (hc 2) hEz hR0.ne'
  have heval := spherical_eval (lib := lib) c hE0 hR0.ne' hratio
  refine ⟨_, heval, ?_⟩
  generalize fl √(fl (fl (fl (c 0 * c 0) + fl (c 1 * c 1)) + fl (c 2 * c 2))) = R at *
  generalize fl (c 2 / R) = C at *
  generalize √(c 0 * c 0 + c 1 * c 1) = s at *
  generalize √(c 0 * c 0 + c 1 * c 1 + c 2 * c 2) = ρ at *
  obtain ⟨k, hk⟩ : ∃ k, k = c 2 / ρ := ⟨_, rfl⟩
  rw [← hk] at hk1 q2
  have hzk : c 2 = ρ * k := by rw [hk]; field_simp
  have hsk : s = ρ * √(1 - k ^ 2) := by
    have h1 : s ^ 2 = ρ ^ 2 * (1 - k ^ 2) := by
      have : ρ ^ 2 * (1 - k ^ 2) = ρ * ρ - (ρ * k) * (ρ * k) := by ring
      rw [this, ← hzk, hρ2, sq, hs2]
      ring
    rw [← Real.sqrt_sq hs0, h1, Real.sqrt_mul (sq_nonneg _), Real.sqrt_sq hρ.le]
  obtain ⟨hcos, hsin⟩ := incl_lib hl hratio q2
  have d1 := sine_root hratio hk1 q2
  have d2 := sine_ratio hratio hk1 q2
  obtain ⟨hHs, hHle⟩ := axis_step hacc hu0 hu1 hρ s3 hR0 hRle hsin (hl.sin_le he _)
  rw [← hsk] at hHs
  have hat := hl.atan2 (c 1) (c 0)
  constructor
  · show |fl (R * lib.cos (lib.acos C)) - c 2| ≤ _
    have := mul_step hacc hu0.le s3 hcos (hl.cos_le he (lib.acos C))
    rw [abs_of_pos hρ, abs_of_pos hR0, ← hzk] at this
    have h3 : u * (R * (17 / 16)) ≤ u * (21 / 16 * ρ * (17 / 16)) := by gcongr
    have := mul_pos hu0 hρ
    linarith
  · rintro i (rfl | rfl)
    · have := coord_step hacc hu0 he0 hρ hs0 hsρ hsk hHs hHle d1 d2 (hl.cos_of hat) (hl.cos_le he _)
      rwa [hx, hρ2] at this
    · have := coord_step hacc hu0 he0 hρ hs0 hsρ hsk hHs hHle d1 d2 (hl.sin_of hat) (hl.sin_le he _)
      rwa [hy, hρ2] at this

/-- At the origin both give the origin. -/
theorem C190_origin (h : Nearest p fl) (lib : Libm) :
    cartesianOfSpherical (sphericalOfCartesian fun _ => (CF.num 0 : CF fl lib)) = (fun _ => CF.num 0) ∧
      cartesianOfCylindrical (cylindricalOfCartesian fun _ => (CF.num 0 : CF fl lib)) = (fun _ => CF.num 0) := by
  have f0 : fl 0 = 0 := h.fix isFloat_zero
  constructor
  · unfold cartesianOfSpherical sphericalOfCartesian
    dsimp only
    simp only [cf_mul, cf_add, cf_sqrt, f0, mul_zero, add_zero, le_refl, Real.sqrt_zero, cf_atan2, Matrix.cons_val, cf_cos,
      cf_sin, cf_zero, cf_eq, if_true, zero_mul]
    funext i
    fin_cases i <;> rfl
  · unfold cartesianOfCylindrical cylindricalOfCartesian
    dsimp only
    simp only [cf_mul, cf_add, cf_sqrt, f0, mul_zero, add_zero, le_refl, Real.sqrt_zero, cf_atan2, Matrix.cons_val, cf_cos,
      cf_sin, zero_mul]
    funext i
    fin_cases i <;> rfl

/-- The hypotheses hold for `f64`, the exact library and the point (3, 4, 12). -/
example : Nearest 53 (rnd 53) ∧ LibNear exactLib 0 ∧ (∀ i, IsFloat 53 ((![3, 4, 12] : Fin 3 → ℝ) i)) ∧
    ∃ i, (![3, 4, 12] : Fin 3 → ℝ) i ≠ 0 := by
  refine ⟨rnd_nearest (by norm_num), exactLib_near le_rfl, fun i => ?_, 0, by norm_num⟩
  fin_cases i
  · exact ⟨3, 0, by norm_num, by norm_num⟩
  · exact ⟨4, 0, by norm_num, by norm_num⟩
  · exact ⟨12, 0, by norm_num, by norm_num⟩

/-! ## C191 -/

/-- **C191** (partial): a point at least thirty degrees from the axis, seen from the origin, comes back from its spherical
coordinates with every coordinate within `54 * 2⁻ᵖ + 5 * e` times its distance. Missing: points near the axis, see
`C191_fails`; for them `C190_spherical` gives half the digits. -/
theorem C191_partial (hp : 4 ≤ p) (h : Nearest p fl) {e : ℝ} (he : e ≤ 1 / 16) (hl : LibNear lib e)
    (c : Fin 3 → ℝ) (hc : ∀ i, IsFloat p (c i)) (h0 : ∃ i, c i ≠ 0)
    (hs : c 2 ^ 2 ≤ 3 * (c 0 ^ 2 + c 1 ^ 2)) :
    ∃ q : Fin 3 → ℝ, cartesianOfSpherical (sphericalOfCartesian fun i => (CF.num (c i) : CF fl lib)) =
        (fun i => CF.num (q i)) ∧
      ∀ i, |q i - c i| ≤ (54 * 2 ^ (-p : ℤ) + 5 * e) * √(c 0 ^ 2 + c 1 ^ 2 + c 2 ^ 2) := by
  obtain ⟨q, h1, h2, h3⟩ := C190_spherical hp h he hl c hc h0
  have he0 : 0 ≤ e := (abs_nonneg _).trans (hl.sin 0)
  have hu0 : (0 : ℝ) < 2 ^ (-p : ℤ) := by positivity
  generalize (2 : ℝ) ^ (-p : ℤ) = u at *
  have hs0 : 0 ≤ c 0 ^ 2 + c 1 ^ 2 := by positivity
  have hpos : 0 < c 0 ^ 2 + c 1 ^ 2 + c 2 ^ 2 := by
    obtain ⟨i, hi⟩ := h0
    have := sq_pos_of_ne_zero hi
    have g0 := sq_nonneg (c 0)
    have g1 := sq_nonneg (c 1)
    have g2 := sq_nonneg (c 2)
    fin_cases i
    · simp only [Fin.zero_eta] at this; linarith
    · simp only [Fin.mk_one] at this; linarith
    · simp only [Fin.reduceFinMk] at this; linarith
  have hρ := Real.sqrt_pos.2 hpos
  have hρ2 := Real.sq_sqrt hpos.le
  have hρ3 := Real.mul_self_sqrt hpos.le
  have hs1 := Real.sqrt_nonneg (c 0 ^ 2 + c 1 ^ 2)
  have hs2 := Real.sq_sqrt hs0
  have hhalf : √(c 0 ^ 2 + c 1 ^ 2 + c 2 ^ 2) ≤ 2 * √(c 0 ^ 2 + c 1 ^ 2) := by
    refine abs_le_of_sq_le_sq' ?_ (by positivity) |>.2
    rw [mul_pow, hρ2, hs2]
    linarith
  generalize √(c 0 ^ 2 + c 1 ^ 2) = s at *
  generalize √(c 0 ^ 2 + c 1 ^ 2 + c 2 ^ 2) = ρ at *
  have hspos : 0 < s := by linarith
  have main : ∀ i, i = 0 ∨ i = 1 → |q i - c i| ≤ (54 * u + 5 * e) * ρ := by
    intro i hi
    have h4 := (h3 i hi).2
    refine le_of_mul_le_mul_right (h4.trans ?_) hspos
    have h5 : u * ρ * ρ ≤ u * ρ * (2 * s) := mul_le_mul_of_nonneg_left hhalf (by positivity)
    have h6 : 0 ≤ u * ρ * s := by positivity
    rw [← hρ3]
    linarith
  refine ⟨q, h1, fun i => ?_⟩
  fin_cases i
  · exact main 0 (Or.inl rfl)
  · exact main 1 (Or.inr rfl)
  · refine h2.trans (mul_le_mul_of_nonneg_right ?_ hρ.le)
    linarith

example : (![3, 4, 5] : Fin 3 → ℝ) 2 ^ 2 ≤ 3 * ((![3, 4, 5] : Fin 3 → ℝ) 0 ^ 2 + (![3, 4, 5] : Fin 3 → ℝ) 1 ^ 2) := by
  simp only [Matrix.cons_val]
  norm_num

/-- For every precision, with the exact values `acos 1 = 0` and `sin 0 = 0`, the point at height one and at distance
`2 ^ -(p / 2 + 1)` from the axis comes back on the axis. -/
theorem pole_lost (hp : 1 ≤ p) (h : Nearest p fl) (lib : Libm) (ha : lib.acos 1 = 0) (hs : lib.sin 0 = 0) {x : ℝ}
    (hx : x = 2 ^ (-((p / 2 : ℕ) + 1) : ℤ)) :
    cartesianOfSpherical (sphericalOfCartesian fun i => (CF.num ((![x, 0, 1] : Fin 3 → ℝ) i) : CF fl lib)) 0 =
      CF.num 0 := by
  have f0 : fl 0 = 0 := h.fix isFloat_zero
  have f1 : fl 1 = 1 := h.fix (isFloat_one hp)
  have hx2 : x * x = 2 ^ (-(2 * ((p / 2 : ℕ) + 1)) : ℤ) := by
    rw [hx, ← zpow_add₀ (by norm_num)]
    congr 1
    ring
  have fx : fl (x * x) = x * x := by
    rw [hx2]
    exact h.fix (isFloat_zpow hp _)
  have hsum : fl (x * x + 1) = 1 := by
    have e1 : ((2 ^ (p - 1) : ℤ) : ℝ) * 2 ^ ((0 : ℤ) + 1 - p) = 1 := by
      push_cast
      rw [← zpow_natCast, ← zpow_add₀ (by norm_num), show ((p - 1 : ℕ) : ℤ) + (1 - p) = 0 by omega]
      simp
    have e2 : x * x < 2 ^ ((0 : ℤ) + 1 - p) / 2 := by
      rw [hx2, show (2 : ℝ) ^ ((0 : ℤ) + 1 - p) / 2 = 2 ^ (-p : ℤ) by
        rw [show ((0 : ℤ) + 1 - p) = -p + 1 by ring, zpow_add₀ (by norm_num)]
        norm_num]
      exact zpow_lt_zpow_right₀ (by norm_num) (by omega)
    have := h.eq_grid hp (x := x * x + 1) (k := 0) (m := 2 ^ (p - 1)) ?_ ?_ ?_
    · rw [this, e1]
    · rw [zpow_zero]
      linarith [mul_self_nonneg x]
    · rw [abs_of_nonneg (by positivity)]
      exact pow_le_pow_right₀ (by norm_num) (by omega)
    · rw [e1, show (1 : ℝ) - (x * x + 1) = -(x * x) by ring, abs_neg, abs_of_nonneg (mul_self_nonneg x)]
      exact e2
  have hE : fl (fl (fl (x * x) + fl (0 * 0)) + fl (1 * 1)) = 1 := by
    rw [mul_zero, f0, add_zero, fx, fx, mul_one, f1, hsum]
  have hr : fl √(fl (fl (fl (x * x) + fl (0 * 0)) + fl (1 * 1))) = 1 := by rw [hE, Real.sqrt_one, f1]
  have hq : fl (1 / fl √(fl (fl (fl (x * x) + fl (0 * 0)) + fl (1 * 1)))) = 1 := by rw [hr, div_one, f1]
  have := spherical_eval (fl := fl) (lib := lib) ![x, 0, 1] (by simp only [Matrix.cons_val]; rw [hE]; norm_num)
    (by simp only [Matrix.cons_val]; rw [hr]; norm_num) (by simp only [Matrix.cons_val]; rw [hq]; norm_num)
  rw [this]
  simp only [Matrix.cons_val]
  rw [hq, ha, hs, hr, mul_zero, f0, zero_mul, f0]

/-- **C191** fails: in `f64`, with any library for which `acos 1 = 0` and `sin 0 = 0`, the point `(2⁻²⁷, 0, 1)` comes
back on the axis: its first coordinate is lost, more than a million times the accuracy of the arithmetic. -/
theorem C191_fails (h : Nearest 53 fl) (lib : Libm) (ha : lib.acos 1 = 0) (hs : lib.sin 0 = 0) :
    ∃ c : Fin 3 → ℝ, (∀ i, IsFloat 53 (c i)) ∧ ∃ q : ℝ,
      cartesianOfSpherical (sphericalOfCartesian fun i => (CF.num (c i) : CF fl lib)) 0 = CF.num q ∧
      1000000 * 2 ^ (-53 : ℤ) * √(c 0 ^ 2 + c 1 ^ 2 + c 2 ^ 2) < |q - c 0| := by
  refine ⟨![2 ^ (-27 : ℤ), 0, 1], fun i => ?_, 0, pole_lost (by norm_num) h lib ha hs (by norm_num), ?_⟩
  · fin_cases i
    · exact isFloat_zpow (by norm_num) _
    · exact isFloat_zero
    · exact isFloat_one (by norm_num)
  · simp only [Matrix.cons_val]
    have : √((2 ^ (-27 : ℤ)) ^ 2 + 0 ^ 2 + 1 ^ 2) ≤ (2 : ℝ) := by
      rw [Real.sqrt_le_left (by norm_num)]
      norm_num
    rw [zero_sub, abs_neg, abs_of_pos (by positivity)]
    refine lt_of_le_of_lt (mul_le_mul_of_nonneg_left this (by positivity)) ?_
    norm_num

example : Nearest 53 (rnd 53) ∧ exactLib.acos 1 = 0 ∧ exactLib.sin 0 = 0 :=
  ⟨rnd_nearest (by norm_num), Real.arccos_one, Real.sin_zero⟩

end Verif.Float
