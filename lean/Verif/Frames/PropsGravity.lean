import Verif.Frames.Gravity
import Verif.Frames.PropsForce
import Mathlib.Analysis.SpecialFunctions.Trigonometric.ArctanDeriv
import Mathlib.Analysis.Calculus.Deriv.MeanValue

/-!
# C98: the gravity vector of the Earth

Specification. `point u β λ` is the position with ellipsoidal coordinates `u`, `β` and longitude `λ`, `pointU` and `pointB` are its
partial derivatives, and `normalPotential` is the published potential of normal gravity (attraction and rotation) at that position.
Normal gravity is the gradient of the potential, so its scalar product with `pointU` is the derivative of the potential along `u`.
-/

namespace Verif.Frames

open Verif.Mat Verif.Att Real

/-- Position with ellipsoidal coordinates `u`, `β` and longitude `lon`. -/
noncomputable def point (u β lon : ℝ) : Fin 3 → ℝ :=
  ![√(u ^ 2 + wgsLinE ^ 2) * cos β * cos lon, √(u ^ 2 + wgsLinE ^ 2) * cos β * sin lon, u * sin β]

/-- Derivative of `point` in `u`. -/
noncomputable def pointU (u β lon : ℝ) : Fin 3 → ℝ :=
  ![u / √(u ^ 2 + wgsLinE ^ 2) * cos β * cos lon, u / √(u ^ 2 + wgsLinE ^ 2) * cos β * sin lon, sin β]

/-- Derivative of `point` in `β`. -/
noncomputable def pointB (u β lon : ℝ) : Fin 3 → ℝ :=
  ![-(√(u ^ 2 + wgsLinE ^ 2) * sin β * cos lon), -(√(u ^ 2 + wgsLinE ^ 2) * sin β * sin lon), u * cos β]

/-- The function `q` of the published potential. -/
noncomputable def potQ (u : ℝ) : ℝ :=
  1 / 2 * ((1 + 3 * u ^ 2 / wgsLinE ^ 2) * arctan (wgsLinE / u) - 3 * u / wgsLinE)

/-- The published potential of normal gravity. -/
noncomputable def normalPotential (u β : ℝ) : ℝ :=
  wgsGM / wgsLinE * arctan (wgsLinE / u) + 1 / 2 * wgsW ^ 2 * wgsA ^ 2 * (potQ u / potQ wgsB) * (sin β ^ 2 - 1 / 3) +
    1 / 2 * wgsW ^ 2 * (u ^ 2 + wgsLinE ^ 2) * cos β ^ 2

theorem linE_pos : 0 < wgsLinE := by unfold wgsLinE; norm_num

/-- `pointU` is the derivative of `point` (check of the specification). -/
theorem point_hasDerivAt_u {u β lon : ℝ} : ∀ i, HasDerivAt (fun u => point u β lon i) (pointU u β lon i) u := by
  have hE := linE_pos
  have hp : u ^ 2 + wgsLinE ^ 2 ≠ 0 := by positivity
  have h : HasDerivAt (fun u : ℝ => √(u ^ 2 + wgsLinE ^ 2)) (u / √(u ^ 2 + wgsLinE ^ 2)) u := by
    have h1 := (((hasDerivAt_id u).pow 2).add_const (wgsLinE ^ 2)).sqrt (by simpa using hp)
    refine h1.congr_deriv ?_
    simp
    ring
  intro i
  fin_cases i
  · exact (h.mul_const _).mul_const _
  · exact (h.mul_const _).mul_const _
  · simpa [point, pointU] using (hasDerivAt_id u).mul_const (sin β)

/-- `pointB` is the derivative of `point` (check of the specification). -/
theorem point_hasDerivAt_b {u β lon : ℝ} : ∀ i, HasDerivAt (fun β => point u β lon i) (pointB u β lon i) β := by
  intro i
  fin_cases i
  · exact (((hasDerivAt_cos β).const_mul _).mul_const _).congr_deriv (by simp [pointB])
  · exact (((hasDerivAt_cos β).const_mul _).mul_const _).congr_deriv (by simp [pointB])
  · exact ((hasDerivAt_sin β).const_mul u).congr_deriv (by simp [pointB])

section
variable {u β lon : ℝ}

theorem point_rho2 : point u β lon 0 ^ 2 + point u β lon 1 ^ 2 = (u ^ 2 + wgsLinE ^ 2) * cos β ^ 2 := by
  have h : √(u ^ 2 + wgsLinE ^ 2) ^ 2 = u ^ 2 + wgsLinE ^ 2 := Real.sq_sqrt (by positivity)
  simp only [point, Matrix.cons_val]
  generalize √(u ^ 2 + wgsLinE ^ 2) = m at *
  rw [← h]
  linear_combination m ^ 2 * cos β ^ 2 * sin_sq_add_cos_sq lon

/-- C98. The ellipsoidal coordinates used internally are those of the position, at every point off the polar axis with `u > E`
(everything outside the innermost 522 km). -/
theorem C98_coordinates (hu : wgsLinE < u) (h1 : -(π / 2) < β) (h2 : β < π / 2) :
    let p := point u β lon
    ellipsoidalHeight (p 0) (p 1) (p 2) = u ∧ ellipsoidalBeta (p 0) (p 1) (p 2) u = β := by
  intro p
  have hE := linE_pos
  have hc : 0 < cos β := cos_pos_of_mem_Ioo ⟨h1, h2⟩
  have hu0 : 0 < u := lt_trans hE hu
  have hr := point_rho2 (u := u) (β := β) (lon := lon)
  have hsc := sin_sq_add_cos_sq β
  have hs1 : sin β ^ 2 ≤ 1 := by nlinarith [sq_nonneg (cos β)]
  constructor
  · unfold ellipsoidalHeight
    dsimp only
    rw [hr]
    have hz : p 2 = u * sin β := rfl
    rw [hz]
    have ht : (u ^ 2 + wgsLinE ^ 2) * cos β ^ 2 + (u * sin β) ^ 2 - wgsLinE ^ 2 = u ^ 2 - wgsLinE ^ 2 * sin β ^ 2 := by
      rw [cos_sq']; ring
    rw [ht]
    have htp : 0 < u ^ 2 - wgsLinE ^ 2 * sin β ^ 2 := by nlinarith [sq_nonneg wgsLinE]
    have hroot : √(1 + 4 * wgsLinE ^ 2 * (u * sin β) ^ 2 / (u ^ 2 - wgsLinE ^ 2 * sin β ^ 2) ^ 2) =
        (u ^ 2 + wgsLinE ^ 2 * sin β ^ 2) / (u ^ 2 - wgsLinE ^ 2 * sin β ^ 2) := by
      rw [Real.sqrt_eq_iff_mul_self_eq_of_pos (by positivity)]
      field_simp
      ring
    rw [hroot]
    rw [show (0.5 : ℝ) * (u ^ 2 - wgsLinE ^ 2 * sin β ^ 2) *
        (1 + (u ^ 2 + wgsLinE ^ 2 * sin β ^ 2) / (u ^ 2 - wgsLinE ^ 2 * sin β ^ 2)) = u ^ 2 by field_simp; ring]
    exact Real.sqrt_sq hu0.le
  · unfold ellipsoidalBeta
    rw [hr, Real.sqrt_mul (by positivity), Real.sqrt_sq hc.le]
    have hz : p 2 = u * sin β := rfl
    rw [hz]
    have hm : 0 < √(u ^ 2 + wgsLinE ^ 2) := Real.sqrt_pos.2 (by positivity)
    rw [show u * sin β * √(u ^ 2 + wgsLinE ^ 2) / (u * (√(u ^ 2 + wgsLinE ^ 2) * cos β)) = tan β by
      rw [tan_eq_sin_div_cos]; field_simp]
    exact arctan_tan h1 h2

theorem point_longitude (h1 : -(π / 2) < β) (h2 : β < π / 2) (hl : -π < lon) (hl' : lon ≤ π) :
    ferrari (point u β lon 0) (point u β lon 1) (point u β lon 2) 1 = lon := by
  have hE := linE_pos
  have hc : 0 < cos β := cos_pos_of_mem_Ioo ⟨h1, h2⟩
  have hm : 0 < √(u ^ 2 + wgsLinE ^ 2) := Real.sqrt_pos.2 (by positivity)
  show Complex.arg ⟨point u β lon 0, point u β lon 1⟩ = lon
  have : (⟨point u β lon 0, point u β lon 1⟩ : ℂ) =
      ((√(u ^ 2 + wgsLinE ^ 2) * cos β : ℝ) : ℂ) * (Complex.cos lon + Complex.sin lon * Complex.I) := by
    apply Complex.ext <;> simp [point, ← Complex.ofReal_cos, ← Complex.ofReal_sin]
  rw [this, Complex.arg_mul_cos_add_sin_mul_I (by positivity) ⟨hl, hl'⟩]

theorem ellipsoidalW_sq (hu : wgsLinE < u) :
    0 < ellipsoidalW u β ∧ ellipsoidalW u β ^ 2 = (u ^ 2 + wgsLinE ^ 2 * sin (sin β)) / (u ^ 2 + wgsLinE ^ 2) := by
  have hE := linE_pos
  have h : 0 < (u ^ 2 + wgsLinE ^ 2 * sin (sin β)) / (u ^ 2 + wgsLinE ^ 2) := by
    apply div_pos _ (by positivity)
    nlinarith [neg_one_le_sin (sin β), sq_nonneg wgsLinE]
  exact ⟨Real.sqrt_pos.2 h, Real.sq_sqrt h.le⟩

/-- Tangential component of a vector given in the local basis of the code. -/
theorem comp_b {gU gB w m u sb cb sl cl : ℝ} (hl : sl ^ 2 + cl ^ 2 = 1) (hw : w ≠ 0) (hm : m ≠ 0) :
    (u / (w * m) * cb * cl * gU + -1 / w * sb * cl * gB) * -(m * sb * cl) +
        (u / (w * m) * cb * sl * gU + -1 / w * sb * sl * gB) * -(m * sb * sl) +
      (1 / w * sb * gU + u / (w * m) * cb * gB) * (u * cb) = gB * (m ^ 2 * sb ^ 2 + u ^ 2 * cb ^ 2) / (w * m) := by
  have hc : cl ^ 2 = 1 - sl ^ 2 := by linarith
  field_simp
  ring_nf
  rw [hc]
  ring

/-- Component along `u` of a vector given in the local basis of the code. -/
theorem comp_u {gU gB w m u sb cb sl cl : ℝ} (hl : sl ^ 2 + cl ^ 2 = 1) (hw : w ≠ 0) (hm : m ≠ 0) :
    (u / (w * m) * cb * cl * gU + -1 / w * sb * cl * gB) * (u / m * cb * cl) +
        (u / (w * m) * cb * sl * gU + -1 / w * sb * sl * gB) * (u / m * cb * sl) +
      (1 / w * sb * gU + u / (w * m) * cb * gB) * sb = gU * (m ^ 2 * sb ^ 2 + u ^ 2 * cb ^ 2) / (w * m ^ 2) := by
  have hc : cl ^ 2 = 1 - sl ^ 2 := by linarith
  field_simp
  ring_nf
  rw [hc]
  ring

/-- The bracket of the tangential component. -/
noncomputable def tangBracket (u : ℝ) : ℝ :=
  wgsW ^ 2 * wgsA ^ 2 / (u ^ 2 + wgsLinE ^ 2) * (potQ u / potQ wgsB) - wgsW ^ 2 * √(u ^ 2 + wgsLinE ^ 2)

/-- The bracket of the component along `u`. -/
noncomputable def normBracket (u β : ℝ) : ℝ :=
  -(wgsGM / (u ^ 2 + wgsLinE ^ 2) +
      wgsW ^ 2 * wgsA ^ 2 * wgsLinE / (u ^ 2 + wgsLinE ^ 2) *
        ((3 * (1 + u ^ 2 / wgsLinE ^ 2) * (1 - u / wgsLinE * arctan (wgsLinE / u)) - 1) / potQ wgsB) *
        (1 / 2 * sin (sin β) - 1 / 6)) +
    wgsW ^ 2 * u * cos (cos β)

theorem half_q (v : ℝ) : 0.5 * ((1 + 3 * v ^ 2 / wgsLinE ^ 2) * arctan (wgsLinE / v) - 3 * v / wgsLinE) = potQ v := by
  unfold potQ; ring

theorem w_and_m (hu : wgsLinE < u) :
    (√(u ^ 2 + wgsLinE ^ 2) ^ 2 * sin β ^ 2 + u ^ 2 * cos β ^ 2) / (ellipsoidalW u β ^ 2 * √(u ^ 2 + wgsLinE ^ 2) ^ 2) =
      (u ^ 2 + wgsLinE ^ 2 * sin β ^ 2) / (u ^ 2 + wgsLinE ^ 2 * sin (sin β)) := by
  have hE := linE_pos
  obtain ⟨hw, hw2⟩ := ellipsoidalW_sq (β := β) hu
  have hm2 : √(u ^ 2 + wgsLinE ^ 2) ^ 2 = u ^ 2 + wgsLinE ^ 2 := Real.sq_sqrt (by positivity)
  have hp : u ^ 2 + wgsLinE ^ 2 ≠ 0 := by positivity
  rw [hw2, hm2, div_mul_cancel₀ _ hp]
  congr 1
  linear_combination u ^ 2 * sin_sq_add_cos_sq β

/-- The reported vector along the meridian. -/
theorem gravity_dot_pointB (hu : wgsLinE < u) (h1 : -(π / 2) < β) (h2 : β < π / 2) (hl : -π < lon) (hl' : lon ≤ π) :
    let p := point u β lon
    dot3 (gravityRectangular (p 0) (p 1) (p 2)) (pointB u β lon) =
      tangBracket u * sin β * cos β * √(u ^ 2 + wgsLinE ^ 2) *
        ((u ^ 2 + wgsLinE ^ 2 * sin β ^ 2) / (u ^ 2 + wgsLinE ^ 2 * sin (sin β))) := by
  intro p
  have hE := linE_pos
  obtain ⟨hw, hw2⟩ := ellipsoidalW_sq (β := β) hu
  obtain ⟨e1, e2⟩ := C98_coordinates (lon := lon) hu h1 h2
  have e3 := point_longitude (u := u) h1 h2 hl hl'
  have hm : 0 < √(u ^ 2 + wgsLinE ^ 2) := Real.sqrt_pos.2 (by positivity)
  rw [← w_and_m hu]
  unfold dot3 gravityRectangular
  simp only [mulVec3, gravityEllipsoidal, p]
  rw [e1, e2, e3]
  simp only [Matrix.cons_val, pointB, mul_zero, add_zero]
  rw [comp_b (sin_sq_add_cos_sq lon) hw.ne' hm.ne', half_q, half_q]
  unfold tangBracket
  generalize ellipsoidalW u β = w at *
  generalize √(u ^ 2 + wgsLinE ^ 2) = m at *
  field_simp

/-- The reported vector along `u`. -/
theorem gravity_dot_pointU (hu : wgsLinE < u) (h1 : -(π / 2) < β) (h2 : β < π / 2) (hl : -π < lon) (hl' : lon ≤ π) :
    let p := point u β lon
    dot3 (gravityRectangular (p 0) (p 1) (p 2)) (pointU u β lon) =
      normBracket u β * ((u ^ 2 + wgsLinE ^ 2 * sin β ^ 2) / (u ^ 2 + wgsLinE ^ 2 * sin (sin β))) := by
  intro p
  have hE := linE_pos
  obtain ⟨hw, hw2⟩ := ellipsoidalW_sq (β := β) hu
  obtain ⟨e1, e2⟩ := C98_coordinates (lon := lon) hu h1 h2
  have e3 := point_longitude (u := u) h1 h2 hl hl'
  have hm : 0 < √(u ^ 2 + wgsLinE ^ 2) := Real.sqrt_pos.2 (by positivity)
  rw [← w_and_m hu]
  unfold dot3 gravityRectangular
  simp only [mulVec3, gravityEllipsoidal, p]
  rw [e1, e2, e3]
  simp only [Matrix.cons_val, pointU, mul_zero, add_zero]
  rw [comp_u (sin_sq_add_cos_sq lon) hw.ne' hm.ne', half_q]
  unfold normBracket
  generalize ellipsoidalW u β = w at *
  generalize √(u ^ 2 + wgsLinE ^ 2) = m at *
  generalize (3 * (1 + u ^ 2 / wgsLinE ^ 2) * (1 - u / wgsLinE * arctan (wgsLinE / u)) - 1) / potQ wgsB = k
  have hp : u ^ 2 + wgsLinE ^ 2 ≠ 0 := by positivity
  field_simp
  ring

/-- The derivatives of the published potential. -/
theorem potential_hasDerivAt_u (hu : 0 < u) :
    HasDerivAt (fun u => normalPotential u β)
      (-(wgsGM / (u ^ 2 + wgsLinE ^ 2) +
          wgsW ^ 2 * wgsA ^ 2 * wgsLinE / (u ^ 2 + wgsLinE ^ 2) *
            ((3 * (1 + u ^ 2 / wgsLinE ^ 2) * (1 - u / wgsLinE * arctan (wgsLinE / u)) - 1) / potQ wgsB) *
            (1 / 2 * sin β ^ 2 - 1 / 6)) +
        wgsW ^ 2 * u * cos β ^ 2) u := by
  have hE := linE_pos
  have ht : HasDerivAt (fun u : ℝ => arctan (wgsLinE / u)) (-(wgsLinE / (u ^ 2 + wgsLinE ^ 2))) u := by
    have h := (((hasDerivAt_inv hu.ne').const_mul wgsLinE).arctan)
    refine (h.congr_deriv ?_)
    field_simp
  have hsq : HasDerivAt (fun u : ℝ => u ^ 2) (2 * u) u := by simpa using hasDerivAt_pow 2 u
  have hq : HasDerivAt potQ
      (1 / 2 * ((3 * (2 * u) / wgsLinE ^ 2) * arctan (wgsLinE / u) +
        (1 + 3 * u ^ 2 / wgsLinE ^ 2) * -(wgsLinE / (u ^ 2 + wgsLinE ^ 2)) - 3 / wgsLinE)) u := by
    have h1 : HasDerivAt (fun u : ℝ => 1 + 3 * u ^ 2 / wgsLinE ^ 2) (3 * (2 * u) / wgsLinE ^ 2) u :=
      ((hsq.const_mul 3).div_const _).const_add 1
    have h2 : HasDerivAt (fun u : ℝ => 3 * u / wgsLinE) (3 / wgsLinE) u := by
      have := ((hasDerivAt_id u).const_mul (3 : ℝ)).div_const wgsLinE
      simpa using this
    exact ((h1.fun_mul ht).fun_sub h2).const_mul (1 / 2)
  have h3 := ((ht.const_mul (wgsGM / wgsLinE)).fun_add
    ((((hq.div_const (potQ wgsB)).const_mul (1 / 2 * wgsW ^ 2 * wgsA ^ 2)).mul_const (sin β ^ 2 - 1 / 3)))).fun_add
    (((hsq.add_const (wgsLinE ^ 2)).const_mul (1 / 2 * wgsW ^ 2)).mul_const (cos β ^ 2))
  refine h3.congr_deriv ?_
  have hp : u ^ 2 + wgsLinE ^ 2 ≠ 0 := by positivity
  generalize (sin β) = sb
  generalize (cos β) = cb
  generalize arctan (wgsLinE / u) = t
  rw [div_eq_mul_inv _ (potQ wgsB), div_eq_mul_inv _ (potQ wgsB)]
  generalize (potQ wgsB)⁻¹ = k
  field_simp
  ring

theorem potential_hasDerivAt_b :
    HasDerivAt (fun β => normalPotential u β)
      (wgsW ^ 2 * (wgsA ^ 2 * (potQ u / potQ wgsB) - (u ^ 2 + wgsLinE ^ 2)) * sin β * cos β) β := by
  have hs : HasDerivAt (fun β : ℝ => sin β ^ 2) (2 * sin β * cos β) β := by
    simpa using (hasDerivAt_sin β).fun_pow 2
  have hc : HasDerivAt (fun β : ℝ => cos β ^ 2) (2 * cos β * -sin β) β := by
    simpa using (hasDerivAt_cos β).fun_pow 2
  have h := (((hs.sub_const (1 / 3)).const_mul (1 / 2 * wgsW ^ 2 * wgsA ^ 2 * (potQ u / potQ wgsB))).const_add
    (wgsGM / wgsLinE * arctan (wgsLinE / u))).fun_add (hc.const_mul (1 / 2 * wgsW ^ 2 * (u ^ 2 + wgsLinE ^ 2)))
  refine h.congr_deriv ?_
  ring

/-- C98 fails on the equator, at every longitude and every distance: the component of the reported vector along `u` differs from the
derivative of the potential by `ω² u (1 - cos 1)` (0.0156 m/s² on the surface): the rotation term has the cosine of the cosine
where the formula has the square of the cosine. -/
theorem C98_equator_fails (hu : wgsLinE < u) (hl : -π < lon) (hl' : lon ≤ π) :
    let p := point u 0 lon
    HasDerivAt (fun u => normalPotential u 0)
        (dot3 (gravityRectangular (p 0) (p 1) (p 2)) (pointU u 0 lon) + wgsW ^ 2 * u * (1 - cos 1)) u ∧
      ¬HasDerivAt (fun u => normalPotential u 0) (dot3 (gravityRectangular (p 0) (p 1) (p 2)) (pointU u 0 lon)) u := by
  intro p
  have hE := linE_pos
  have hu0 : 0 < u := lt_trans hE hu
  have hg := gravity_dot_pointU (β := 0) hu (by linarith [two_le_pi]) (by linarith [two_le_pi]) hl hl'
  have h1 : HasDerivAt (fun u => normalPotential u 0)
      (dot3 (gravityRectangular (p 0) (p 1) (p 2)) (pointU u 0 lon) + wgsW ^ 2 * u * (1 - cos 1)) u := by
    refine (potential_hasDerivAt_u (β := 0) hu0).congr_deriv ?_
    rw [hg]
    unfold normBracket
    simp only [sin_zero, cos_zero]
    have hp : u ^ 2 ≠ 0 := by positivity
    have : (u ^ 2 + wgsLinE ^ 2 * 0 ^ 2) / (u ^ 2 + wgsLinE ^ 2 * 0) = 1 := by
      simp [hp]
    rw [this]
    ring
  refine ⟨h1, fun h => ?_⟩
  have h2 := h1.unique h
  have h3 : wgsW ^ 2 * u * (1 - cos 1) = 0 := by linarith
  have hw : 0 < wgsW := by unfold wgsW; norm_num
  have h4 : 0 < 1 - cos 1 := by
    have h5 : (1 : ℝ) < π := by linarith [two_le_pi]
    have := cos_lt_cos_of_nonneg_of_le_pi (le_refl 0) h5.le one_pos
    rw [cos_zero] at this
    linarith
  have : 0 < wgsW ^ 2 * u * (1 - cos 1) := by positivity
  linarith

example : wgsLinE < 6356752 ∧ -π < (1 : ℝ) ∧ (1 : ℝ) ≤ π := by
  refine ⟨by unfold wgsLinE; norm_num, by linarith [two_le_pi], by linarith [two_le_pi]⟩

end

/-- `3 t / (3 + t²) < arctan t` for positive `t`. -/
theorem lt_arctan {t : ℝ} (ht : 0 < t) : 3 * t / (3 + t ^ 2) < arctan t := by
  have hmono : StrictMonoOn (fun t : ℝ => arctan t - 3 * t / (3 + t ^ 2)) (Set.Ici 0) := by
    apply strictMonoOn_of_deriv_pos (convex_Ici 0)
    · apply ContinuousOn.sub continuous_arctan.continuousOn
      apply ContinuousOn.div (by fun_prop) (by fun_prop)
      intro x _; positivity
    · intro x hx
      rw [interior_Ici] at hx
      have hx0 : 0 < x := hx
      have h1 : HasDerivAt (fun t : ℝ => 3 * t / (3 + t ^ 2)) ((3 * (3 + x ^ 2) - 3 * x * (2 * x)) / (3 + x ^ 2) ^ 2) x := by
        have ha : HasDerivAt (fun t : ℝ => 3 * t) 3 x := by simpa using (hasDerivAt_id x).const_mul (3 : ℝ)
        have hb : HasDerivAt (fun t : ℝ => 3 + t ^ 2) (2 * x) x := by
          simpa using (hasDerivAt_pow 2 x).const_add (3 : ℝ)
        exact ha.fun_div hb (by positivity)
      have h2 := (hasDerivAt_arctan x).fun_sub h1
      rw [h2.deriv]
      have : 1 / (1 + x ^ 2) - (3 * (3 + x ^ 2) - 3 * x * (2 * x)) / (3 + x ^ 2) ^ 2 =
          4 * x ^ 4 / ((1 + x ^ 2) * (3 + x ^ 2) ^ 2) := by field_simp; ring
      rw [this]
      positivity
  have h := hmono (Set.self_mem_Ici) (Set.mem_Ici.2 ht.le) ht
  simp at h
  linarith

theorem potQ_pos {u : ℝ} (hu : 0 < u) : 0 < potQ u := by
  have hE := linE_pos
  have h := lt_arctan (div_pos hE hu)
  unfold potQ
  have h1 : 3 * (wgsLinE / u) / (3 + (wgsLinE / u) ^ 2) * (1 + 3 * u ^ 2 / wgsLinE ^ 2) = 3 * u / wgsLinE := by
    field_simp; ring
  have h2 : 0 < 1 + 3 * u ^ 2 / wgsLinE ^ 2 := by positivity
  have h3 := mul_lt_mul_of_pos_right h h2
  rw [h1] at h3
  linarith

theorem linE_lt_b : wgsLinE < wgsB := by unfold wgsLinE wgsB; norm_num

theorem root_b : 6000000 < √(wgsB ^ 2 + wgsLinE ^ 2) := by
  apply Real.lt_sqrt_of_sq_lt
  unfold wgsLinE wgsB; norm_num

theorem tangBracket_b : tangBracket wgsB < -(wgsW ^ 2 * 5000000) := by
  unfold tangBracket
  rw [div_self (potQ_pos b_pos).ne', mul_one]
  have h := root_b
  have hw : 0 < wgsW ^ 2 := by unfold wgsW; norm_num
  have h1 : wgsW ^ 2 * wgsA ^ 2 / (wgsB ^ 2 + wgsLinE ^ 2) < wgsW ^ 2 * 2 := by
    rw [mul_div_assoc]
    apply mul_lt_mul_of_pos_left _ hw
    unfold wgsLinE wgsB wgsA; norm_num
  have h2 := mul_lt_mul_of_pos_left h hw
  linarith

theorem ratio_bounds {β : ℝ} :
    0.9 < (wgsB ^ 2 + wgsLinE ^ 2 * sin β ^ 2) / (wgsB ^ 2 + wgsLinE ^ 2 * sin (sin β)) := by
  have h1 : 0 ≤ sin β ^ 2 := sq_nonneg _
  have h2 := sin_le_one (sin β)
  have h3 := neg_one_le_sin (sin β)
  have hE : 0 < wgsLinE ^ 2 := by have := linE_pos; positivity
  have hn : 0.9 * (wgsB ^ 2 + wgsLinE ^ 2) < wgsB ^ 2 := by unfold wgsLinE wgsB; norm_num
  have hd : wgsLinE ^ 2 < wgsB ^ 2 := by unfold wgsLinE wgsB; norm_num
  rw [lt_div_iff₀ (by nlinarith)]
  nlinarith

/-- C98 fails on the reference ellipsoid, at every longitude and every northern reduced latitude: there the tangential derivative of
the potential is practically zero, but the reported vector has a tangential component. The attraction term is divided by
`u² + E²` where the formula has its square root. -/
theorem C98_surface_fails {β lon : ℝ} (h1 : 0 < β) (h2 : β < π / 2) (hl : -π < lon) (hl' : lon ≤ π) :
    let p := point wgsB β lon
    ¬HasDerivAt (fun β => normalPotential wgsB β) (dot3 (gravityRectangular (p 0) (p 1) (p 2)) (pointB wgsB β lon)) β := by
  intro p h
  have hg := gravity_dot_pointB linE_lt_b (by linarith) h2 hl hl'
  have hd := potential_hasDerivAt_b.unique h
  rw [hg, div_self (potQ_pos b_pos).ne'] at hd
  have hs : 0 < sin β := sin_pos_of_pos_of_lt_pi h1 (by linarith)
  have hc : 0 < cos β := cos_pos_of_mem_Ioo ⟨by linarith, h2⟩
  have ht := tangBracket_b
  have hr := ratio_bounds (β := β)
  have hm := root_b
  generalize (wgsB ^ 2 + wgsLinE ^ 2 * sin β ^ 2) / (wgsB ^ 2 + wgsLinE ^ 2 * sin (sin β)) = r at *
  generalize tangBracket wgsB = t at *
  generalize √(wgsB ^ 2 + wgsLinE ^ 2) = m at *
  have hw : 0 < wgsW ^ 2 := by unfold wgsW; norm_num
  have hsc : 0 < sin β * cos β := by positivity
  have e : wgsW ^ 2 * (wgsA ^ 2 * 1 - (wgsB ^ 2 + wgsLinE ^ 2)) = t * m * r := by
    apply mul_right_cancel₀ hsc.ne'
    linear_combination hd
  have hA : -1000000 < wgsA ^ 2 * 1 - (wgsB ^ 2 + wgsLinE ^ 2) := by unfold wgsLinE wgsB wgsA; norm_num
  have h3 : wgsW ^ 2 * -1000000 < t * m * r := by rw [← e]; exact mul_lt_mul_of_pos_left hA hw
  have hmr : 5400000 < m * r := by nlinarith
  have h4 : t * (m * r) < -(wgsW ^ 2 * 5000000) * 5400000 := by nlinarith
  nlinarith

example : (0 : ℝ) < 1 / 2 ∧ (1 / 2 : ℝ) < π / 2 ∧ -π < (1 : ℝ) ∧ (1 : ℝ) ≤ π := by
  refine ⟨by norm_num, ?_, ?_, ?_⟩ <;> linarith [two_le_pi]

/-- C98 fails: on the reference ellipsoid the gravity at the mirror image of a position in the equatorial plane is not the mirror image
of the gravity there, at any longitude and any reduced latitude off the equator. -/
theorem C98_mirror_fails {β lon : ℝ} (h1 : 0 < β) (h2 : β < π / 2) (hl : -π < lon) (hl' : lon ≤ π) :
    let p := point wgsB β lon
    let g := gravityRectangular (p 0) (p 1) (p 2)
    gravityRectangular (p 0) (p 1) (-p 2) ≠ ![g 0, g 1, -g 2] := by
  intro p g heq
  have hg := gravity_dot_pointB linE_lt_b (by linarith) h2 hl hl'
  have hg' := gravity_dot_pointB (β := -β) linE_lt_b (by linarith) (by linarith) hl hl'
  have e0 : point wgsB (-β) lon 0 = p 0 := by simp [point, p]
  have e1 : point wgsB (-β) lon 1 = p 1 := by simp [point, p]
  have e2 : point wgsB (-β) lon 2 = -p 2 := by simp [point, p]
  dsimp only at hg hg'
  rw [e0, e1, e2, heq] at hg'
  have hs : 0 < sin β := sin_pos_of_pos_of_lt_pi h1 (by linarith)
  have hc : 0 < cos β := cos_pos_of_mem_Ioo ⟨by linarith, h2⟩
  have hss : 0 < sin (sin β) := sin_pos_of_pos_of_lt_pi hs (by linarith [sin_le_one β, two_le_pi])
  have hss1 := sin_le_one (sin β)
  have hrel : dot3 ![g 0, g 1, -g 2] (pointB wgsB (-β) lon) =
      -dot3 (gravityRectangular (point wgsB β lon 0) (point wgsB β lon 1) (point wgsB β lon 2)) (pointB wgsB β lon) := by
    simp only [dot3, pointB, Matrix.cons_val, sin_neg, cos_neg, g, p]
    ring
  rw [hrel, hg] at hg'
  simp only [sin_neg, cos_neg, neg_sq] at hg'
  have ht := tangBracket_b
  have hm := root_b
  have hw : 0 < wgsW ^ 2 := by unfold wgsW; norm_num
  have hd : wgsLinE ^ 2 < wgsB ^ 2 := by unfold wgsLinE wgsB; norm_num
  have hE : 0 < wgsLinE ^ 2 := by have := linE_pos; positivity
  have hB : 0 < wgsB ^ 2 := by have := b_pos; positivity
  have hn : 0 < wgsB ^ 2 + wgsLinE ^ 2 * sin β ^ 2 := by positivity
  have hk : tangBracket wgsB * sin β * cos β * √(wgsB ^ 2 + wgsLinE ^ 2) ≠ 0 := by
    have : tangBracket wgsB ≠ 0 := by nlinarith
    have : √(wgsB ^ 2 + wgsLinE ^ 2) ≠ 0 := by linarith
    positivity
  have e3 : (wgsB ^ 2 + wgsLinE ^ 2 * sin β ^ 2) / (wgsB ^ 2 + wgsLinE ^ 2 * sin (sin β)) =
      (wgsB ^ 2 + wgsLinE ^ 2 * sin β ^ 2) / (wgsB ^ 2 + wgsLinE ^ 2 * -sin (sin β)) := by
    apply mul_left_cancel₀ hk
    linear_combination -hg'
  rw [div_eq_div_iff (by nlinarith) (by nlinarith)] at e3
  have e4 := mul_left_cancel₀ hn.ne' e3
  nlinarith

/-- C98. The reported vector has no component across the meridian plane, lies in the equatorial plane at positions there, and its
component along the axis and its radial component depend only on the distance from the axis and on z. (Off the axis, where the latitude is
the arc tangent of a quotient by the distance from it, and far enough out for the roots and divisors to be positive.) -/
theorem C98_axisymmetric_partial {x y x' y' z : ℝ} (h : x ^ 2 + y ^ 2 = x' ^ 2 + y' ^ 2) (_h0 : 0 < x ^ 2 + y ^ 2)
    (_h2 : 2 * wgsLinE ^ 2 < x ^ 2 + y ^ 2 + z ^ 2) :
    let g := gravityRectangular x y z
    let g' := gravityRectangular x' y' z
    x * g 1 = y * g 0 ∧ g 2 = g' 2 ∧ x * g 0 + y * g 1 = x' * g' 0 + y' * g' 1 ∧
      (2 * wgsLinE ^ 2 < x ^ 2 + y ^ 2 → gravityRectangular x y 0 2 = 0) := by
  intro g g'
  have hx := polar_x x y
  have hy := polar_y x y
  have hx' := polar_x x' y'
  have hy' := polar_y x' y'
  have hxy : x * sin (atan2 y x) = y * cos (atan2 y x) := by
    linear_combination -sin (atan2 y x) * hx + cos (atan2 y x) * hy
  have hr : ∀ x y : ℝ, √(x * x + y * y) * cos (atan2 y x) = x → √(x * x + y * y) * sin (atan2 y x) = y →
      x * cos (atan2 y x) + y * sin (atan2 y x) = √(x * x + y * y) := by
    intro x y hx hy
    linear_combination -cos (atan2 y x) * hx - sin (atan2 y x) * hy + √(x * x + y * y) * sin_sq_add_cos_sq (atan2 y x)
  have hro := hr x y hx hy
  have hro' := hr x' y' hx' hy'
  have hlon : ∀ a b c : ℝ, ferrari a b c 1 = atan2 b a := fun _ _ _ => rfl
  have hsq : x * x + y * y = x' * x' + y' * y' := by nlinarith
  rw [hsq] at hro
  have hu : ellipsoidalHeight x y z = ellipsoidalHeight x' y' z := by simp only [ellipsoidalHeight, h]
  have hb : ∀ u, ellipsoidalBeta x y z u = ellipsoidalBeta x' y' z u := by intro u; simp only [ellipsoidalBeta, h]
  have hge : gravityEllipsoidal x y z = gravityEllipsoidal x' y' z := by simp only [gravityEllipsoidal, hu, hb]
  have hg2 : gravityEllipsoidal x' y' z 2 = 0 := rfl
  refine ⟨?_, ?_, ?_, ?_⟩
  · simp only [g, gravityRectangular, mulVec3, Matrix.cons_val, hlon, hge, hg2, mul_zero, add_zero]
    rw [hu, hb]
    set u := ellipsoidalHeight x' y' z
    set β := ellipsoidalBeta x' y' z u
    set w := ellipsoidalW u β
    linear_combination (u / (w * √(u ^ 2 + wgsLinE ^ 2)) * cos β * gravityEllipsoidal x' y' z 0 +
      -1 / w * sin β * gravityEllipsoidal x' y' z 1) * hxy
  · simp only [g, g', gravityRectangular, mulVec3, Matrix.cons_val, hlon, hge, hg2, hu, hb, mul_zero, add_zero]
  · simp only [g, g', gravityRectangular, mulVec3, Matrix.cons_val, hlon, hge, hg2, hu, hb, mul_zero, add_zero]
    set u := ellipsoidalHeight x' y' z
    set β := ellipsoidalBeta x' y' z u
    set w := ellipsoidalW u β
    linear_combination (u / (w * √(u ^ 2 + wgsLinE ^ 2)) * cos β * gravityEllipsoidal x' y' z 0 +
      -1 / w * sin β * gravityEllipsoidal x' y' z 1) * (hro - hro')
  · intro _
    have hb0 : ∀ u, ellipsoidalBeta x y 0 u = 0 := by intro u; simp [ellipsoidalBeta]
    simp only [gravityRectangular, mulVec3, Matrix.cons_val, hb0, sin_zero, gravityEllipsoidal, mul_zero, zero_mul, sub_zero,
      add_zero]

example : (3000000 : ℝ) ^ 2 + 4000000 ^ 2 = 5000000 ^ 2 + 0 ^ 2 ∧ 2 * wgsLinE ^ 2 < (3000000 : ℝ) ^ 2 + 4000000 ^ 2 + 0 ^ 2 := by
  unfold wgsLinE; norm_num

/-- C98. The gravitational force on a body is its mass times the vector. -/
theorem C98_force (p : Fin 3 → ℝ) (mass : ℝ) (i : Fin 3) :
    earthGravityForce p mass i = mass * gravityRectangular (p 0) (p 1) (p 2) i := by
  simp only [earthGravityForce, scaled, mul_comm]

end Verif.Frames
