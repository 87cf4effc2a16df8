import Verif.Stars.Model
import Mathlib.Analysis.SpecialFunctions.Trigonometric.Deriv
import Mathlib.Analysis.Real.Pi.Bounds
import Mathlib.Tactic.FieldSimp
import Mathlib.Tactic.FinCases
import Mathlib.Tactic.NormNum

/-!
# C95 and C96: positions, velocities and uncertainties of catalogue stars

Specification vocabulary: the unit vector `sky α δ` towards right ascension `α` and declination `δ` (radians), and the unit
vectors `east`, `north` tangent to the celestial sphere there.
-/

namespace Verif.Stars

open Real

/-- The direction with right ascension `α` and declination `δ`. -/
noncomputable def sky (α δ : ℝ) : Fin 3 → ℝ := ![cos δ * cos α, cos δ * sin α, sin δ]
/-- The unit tangent towards increasing right ascension. -/
noncomputable def east (α : ℝ) : Fin 3 → ℝ := ![-sin α, cos α, 0]
/-- The unit tangent towards increasing declination. -/
noncomputable def north (α δ : ℝ) : Fin 3 → ℝ := ![-cos α * sin δ, -sin α * sin δ, cos δ]
/-- The right ascension of the star at an epoch, in radians: proper motions are in milliarcseconds per year. -/
noncomputable def Star.alpha (s : Star) (t : ℝ) : ℝ := (s.ra + s.pmra.getD 0 * (t - 2016) / 3600000) * (π / 180)
/-- The declination of the star at an epoch, in radians. -/
noncomputable def Star.delta (s : Star) (t : ℝ) : ℝ := (s.de + s.pmde.getD 0 * (t - 2016) / 3600000) * (π / 180)

theorem position_eq (s : Star) (t : ℝ) (i : Fin 3) : (s.icrsSample t).position i = sky (s.alpha t) (s.delta t) i * s.distance := rfl

theorem velocity_eq (s : Star) (t : ℝ) {p a d : ℝ} (hp : s.plx = some p) (h0 : 0 < p) (ha : s.pmra = some a) (hd : s.pmde = some d)
    (i : Fin 3) : (s.icrsSample t).velocity i = 4.74047 / p * (a * east (s.alpha t) i + d * north (s.alpha t) (s.delta t) i) := by
  dsimp only [Star.icrsSample]
  simp only [hp, ha, hd]
  rw [if_pos h0]
  simp only [Star.alpha, Star.delta, ha, hd, toRadians, east, north]

theorem distance_eq (s : Star) : (∀ p, s.plx = some p → 0 < p → s.distance = 206264.806 / (p / 1000)) ∧
    ((∀ p, s.plx = some p → p ≤ 0) → s.distance = 1) := by
  constructor
  · intro p hp h0
    unfold Star.distance
    simp only [hp]
    rw [if_pos h0]
    ring
  · intro h
    unfold Star.distance
    rcases hp : s.plx with _ | p
    · rfl
    · simp only
      exact if_neg (not_lt.mpr (h p hp))

theorem distance_pos (s : Star) : 0 < s.distance := by
  by_cases h : ∃ p, s.plx = some p ∧ 0 < p
  · obtain ⟨p, hp, h0⟩ := h
    rw [(distance_eq s).1 p hp h0]
    positivity
  · rw [(distance_eq s).2 fun p hp => not_lt.mp fun h0 => h ⟨p, hp, h0⟩]
    exact one_pos

theorem sin_cos_sq (x : ℝ) : sin x * sin x + cos x * cos x = 1 := by have := sin_sq_add_cos_sq x; nlinarith

/-- C95. The position of every star at every epoch lies in the direction of its catalogue right ascension and declination moved by the
proper motions, at the distance given by its parallax (one parsec is 206264.806 AU), or 1 AU when the parallax is absent or not positive. -/
theorem C95_position (s : Star) (t : ℝ) : ∃ D : ℝ, 0 < D ∧
    (∀ p, s.plx = some p → 0 < p → D = 206264.806 / (p / 1000)) ∧ ((∀ p, s.plx = some p → p ≤ 0) → D = 1) ∧
    (∀ i, (s.icrsSample t).position i = D * sky (s.alpha t) (s.delta t) i) ∧
    (s.icrsSample t).position 0 ^ 2 + (s.icrsSample t).position 1 ^ 2 + (s.icrsSample t).position 2 ^ 2 = D ^ 2 ∧
    (s.icrsSample t).epoch = t := by
  refine ⟨s.distance, distance_pos s, (distance_eq s).1, (distance_eq s).2, fun i => ?_, ?_, rfl⟩
  · rw [position_eq]; ring
  · rw [position_eq, position_eq, position_eq]
    have h1 := sin_cos_sq (s.alpha t)
    have h2 := sin_cos_sq (s.delta t)
    simp only [sky, Matrix.cons_val_zero, Matrix.cons_val_one, Matrix.cons_val]
    linear_combination (cos (s.delta t)) ^ 2 * s.distance ^ 2 * h1 + s.distance ^ 2 * h2

/-- At the catalogue epoch the direction is the catalogue direction. -/
example : (Star.icrsSample ⟨90, 0, 0, 0, some 5, some 7, none, none, some 1000, none, none, none, none, none, none, none⟩ 2016).position 1
    = 206264.806 := by
  rw [position_eq, (distance_eq _).1 1000 rfl (by norm_num)]
  simp only [sky, Star.alpha, Star.delta, Option.getD_some, sub_self, mul_zero, zero_div, add_zero, zero_mul, cos_zero, one_mul,
    Matrix.cons_val_one, Matrix.cons_val_zero]
  rw [show (90 : ℝ) * (π / 180) = π / 2 by ring, sin_pi_div_two]
  norm_num

/-- C95. The velocity is tangent to the celestial sphere. Without a positive parallax and both proper motions it is zero; otherwise its
size is 4.74047 / parallax times the size of the proper motion (the tangential speed in km/s). -/
theorem C95_tangential (s : Star) (t : ℝ) :
    (s.icrsSample t).position 0 * (s.icrsSample t).velocity 0 + (s.icrsSample t).position 1 * (s.icrsSample t).velocity 1
      + (s.icrsSample t).position 2 * (s.icrsSample t).velocity 2 = 0 ∧
    (∀ p a d, s.plx = some p → 0 < p → s.pmra = some a → s.pmde = some d →
      (s.icrsSample t).velocity 0 ^ 2 + (s.icrsSample t).velocity 1 ^ 2 + (s.icrsSample t).velocity 2 ^ 2
        = (4.74047 / p) ^ 2 * (a ^ 2 + d ^ 2)) ∧
    ((¬ ∃ p a d, s.plx = some p ∧ 0 < p ∧ s.pmra = some a ∧ s.pmde = some d) → (s.icrsSample t).velocity = 0) := by
  have h1 := sin_cos_sq (s.alpha t)
  have h2 := sin_cos_sq (s.delta t)
  have hz : (¬ ∃ p a d, s.plx = some p ∧ 0 < p ∧ s.pmra = some a ∧ s.pmde = some d) → (s.icrsSample t).velocity = 0 := by
    intro h
    dsimp only [Star.icrsSample]
    rcases hp : s.plx with _ | p
    · rfl
    rcases ha : s.pmra with _ | a
    · rfl
    rcases hd : s.pmde with _ | d
    · rfl
    simp only
    rw [if_neg fun h0 => h ⟨p, a, d, hp, h0, ha, hd⟩]
    rfl
  refine ⟨?_, fun p a d hp h0 ha hd => ?_, hz⟩
  · by_cases h : ∃ p a d, s.plx = some p ∧ 0 < p ∧ s.pmra = some a ∧ s.pmde = some d
    · obtain ⟨p, a, d, hp, h0, ha, hd⟩ := h
      rw [velocity_eq s t hp h0 ha hd, velocity_eq s t hp h0 ha hd, velocity_eq s t hp h0 ha hd, position_eq, position_eq, position_eq]
      simp only [sky, east, north, Matrix.cons_val_zero, Matrix.cons_val_one, Matrix.cons_val]
      linear_combination (-(cos (s.delta t) * sin (s.delta t) * s.distance * (4.74047 / p) * d)) * h1
    · rw [hz h]; simp
  · rw [velocity_eq s t hp h0 ha hd, velocity_eq s t hp h0 ha hd, velocity_eq s t hp h0 ha hd]
    simp only [east, north, Matrix.cons_val_zero, Matrix.cons_val_one, Matrix.cons_val]
    linear_combination ((4.74047 / p) ^ 2 * (a ^ 2 + d ^ 2 * sin (s.delta t) ^ 2)) * h1 + ((4.74047 / p) ^ 2 * d ^ 2) * h2

theorem alpha_deriv (s : Star) (t : ℝ) : HasDerivAt s.alpha (s.pmra.getD 0 * (π / 648000000)) t := by
  unfold Star.alpha
  have h : HasDerivAt (fun t : ℝ => (s.ra + s.pmra.getD 0 * (t - 2016) / 3600000) * (π / 180)) (s.pmra.getD 0 * 1 / 3600000 * (π / 180)) t :=
    ((((hasDerivAt_id t).sub_const 2016).const_mul (s.pmra.getD 0) |>.div_const 3600000).const_add s.ra).mul_const _
  convert h using 1
  ring

theorem delta_deriv (s : Star) (t : ℝ) : HasDerivAt s.delta (s.pmde.getD 0 * (π / 648000000)) t := by
  unfold Star.delta
  have h : HasDerivAt (fun t : ℝ => (s.de + s.pmde.getD 0 * (t - 2016) / 3600000) * (π / 180)) (s.pmde.getD 0 * 1 / 3600000 * (π / 180)) t :=
    ((((hasDerivAt_id t).sub_const 2016).const_mul (s.pmde.getD 0) |>.div_const 3600000).const_add s.de).mul_const _
  convert h using 1
  ring

theorem position_deriv (s : Star) (t : ℝ) (i : Fin 3) : HasDerivAt (fun t => (s.icrsSample t).position i)
    (s.distance * (π / 648000000) * (s.pmra.getD 0 * cos (s.delta t) * east (s.alpha t) i + s.pmde.getD 0 * north (s.alpha t) (s.delta t) i)) t := by
  have ha := alpha_deriv s t
  have hd := delta_deriv s t
  simp only [position_eq]
  have h3 : ∀ i : Fin 3, i = 0 ∨ i = 1 ∨ i = 2 := by decide
  rcases h3 i with rfl | rfl | rfl
  · simp only [sky, east, north, Matrix.cons_val_zero]
    refine ((hd.cos.fun_mul ha.cos).mul_const s.distance).congr_deriv ?_
    ring
  · simp only [sky, east, north, Matrix.cons_val_one, Matrix.cons_val_zero]
    refine ((hd.cos.fun_mul ha.sin).mul_const s.distance).congr_deriv ?_
    ring
  · simp only [sky, east, north, Matrix.cons_val]
    refine (hd.sin.mul_const s.distance).congr_deriv ?_
    ring

/-- C95 (in part). The velocity is the rate of change of the position only up to a constant factor, and only for a star moving along its
meridian or on the equator: for a star with positive parallax and both proper motions, if the motion in right ascension is zero or the star
is on the celestial equator, the position has a derivative in AU per year and the velocity is `4.74047 / κ` times it, with `κ` the number
of AU in 1000 pc-milliarcseconds (1 to seven digits). Missing: the factor 1 promised by the name `icrs_velocity_au_per_yr`, and all other
stars (see `C95_fails`, `C95_direction_fails`). -/
theorem C95_partial (s : Star) (t p a d : ℝ) (hp : s.plx = some p) (h0 : 0 < p) (ha : s.pmra = some a) (hd : s.pmde = some d)
    (hs : a = 0 ∨ s.delta t = 0) (i : Fin 3) :
    HasDerivAt (fun t => (s.icrsSample t).position i) ((206264.806 * π / 648000) / 4.74047 * (s.icrsSample t).velocity i) t := by
  convert position_deriv s t i using 1
  rw [velocity_eq s t hp h0 ha hd, (distance_eq s).1 p hp h0, ha, hd, Option.getD_some, Option.getD_some]
  have : a * cos (s.delta t) = a := by
    rcases hs with h | h
    · rw [h, zero_mul]
    · rw [h, cos_zero, mul_one]
  rw [this]
  field_simp
  ring

/-- A star of the required kind: on the equator, moving north-east. -/
example : Star.delta ⟨10, 0, 0, 0, some 300, some 400, none, none, some 50, none, none, none, none, none, none, none⟩ 2016 = 0 := by
  simp [Star.delta]

/-- C95 fails: the velocity is documented in AU per year but its size is the speed in km/s. A star on the equator at one parsec moving
north by one arcsecond per year moves by one AU per year; the reported velocity is 4.74. -/
theorem C95_fails : ∃ (s : Star) (t : ℝ) (d : ℝ), HasDerivAt (fun t => (s.icrsSample t).position 2) d t ∧ 0 < d ∧
    4.7 * d < (s.icrsSample t).velocity 2 := by
  refine ⟨⟨0, 0, 0, 0, some 0, some 1000, none, none, some 1000, none, none, none, none, none, none, none⟩, 2016, _, position_deriv _ _ 2, ?_⟩
  rw [velocity_eq _ _ (p := 1000) (a := 0) (d := 1000) rfl (by norm_num) rfl rfl, (distance_eq _).1 1000 rfl (by norm_num)]
  simp only [east, north, Star.delta, Option.getD_some, sub_self, mul_zero, zero_div, add_zero, zero_mul, cos_zero, Matrix.cons_val]
  have := pi_pos
  have := pi_lt_d4
  constructor
  · positivity
  · norm_num
    nlinarith

/-- C95 fails also in direction: the proper motion in right ascension is added to the right ascension as it stands, but enters the velocity as
a motion along the sky. For a star at declination 60 degrees moving equally in both, no multiple of the velocity is the rate of change of the
position. -/
theorem C95_direction_fails : ∃ (s : Star) (t : ℝ) (d : Fin 3 → ℝ), (∀ i, HasDerivAt (fun t => (s.icrsSample t).position i) (d i) t) ∧
    ¬ ∃ k : ℝ, ∀ i, (s.icrsSample t).velocity i = k * d i := by
  refine ⟨⟨0, 60, 0, 0, some 1000, some 1000, none, none, some 1000, none, none, none, none, none, none, none⟩, 2016, _,
    fun i => position_deriv _ _ i, ?_⟩
  rintro ⟨k, hk⟩
  have h1 := hk 1
  have h2 := hk 2
  rw [velocity_eq _ _ (p := 1000) (a := 1000) (d := 1000) rfl (by norm_num) rfl rfl, (distance_eq _).1 1000 rfl (by norm_num)] at h1 h2
  simp only [east, north, Star.delta, Star.alpha, Option.getD_some, sub_self, mul_zero, zero_div, add_zero, zero_mul, cos_zero, sin_zero,
    neg_zero, Matrix.cons_val, Matrix.cons_val_one, Matrix.cons_val_zero] at h1 h2
  rw [show (60 : ℝ) * (π / 180) = π / 3 by ring, cos_pi_div_three] at h1 h2
  norm_num at h1 h2
  linarith

/-! ## C96 -/

theorem sqrt?_some {x : ℝ} (h : 0 ≤ x) : sqrt? x = some √x := if_neg (not_lt.mpr h)

theorem sqrt?_spec {x e : ℝ} (h : sqrt? x = some e) : 0 ≤ x ∧ 0 ≤ e ∧ e ^ 2 = x := by
  unfold sqrt? at h
  by_cases hx : x < 0
  · rw [if_pos hx] at h; cases h
  · rw [if_neg hx] at h
    cases h
    exact ⟨not_lt.mp hx, sqrt_nonneg _, sq_sqrt (not_lt.mp hx)⟩

/-- The epoch at which the position of the star was measured. -/
noncomputable def Star.measured (s : Star) : ℝ := if s.cat = some "GAIADR3" then 2016 else 1991.25

theorem uncertainty_eq (s : Star) (t : ℝ) : s.uncertainty t =
    (sqrt? (s.eRa ^ 2 + (s.ePmra.getD 0) ^ 2 * ((t - s.measured) ^ 2 - (2016 - s.measured) ^ 2)),
     sqrt? (s.eDe ^ 2 + (s.ePmde.getD 0) ^ 2 * ((t - s.measured) ^ 2 - (2016 - s.measured) ^ 2))) := by
  unfold Star.uncertainty Star.measured
  by_cases h : s.cat = some "GAIADR3"
  · simp only [if_pos h, sub_self]; norm_num
  · simp only [if_neg h]

/-- C96. Where the uncertainties at two epochs are numbers, they differ as variances do: the difference of the squares is the square of
the proper-motion error times the difference of the squared times since the measurement (2016 for Gaia, 1991.25 otherwise). At the catalogue
epoch 2016 they are the catalogue values. -/
theorem C96_variance (s : Star) (h1 : 0 ≤ s.eRa) (h2 : 0 ≤ s.eDe) :
    ((s.icrsSample 2016).uncertaintyRa = some s.eRa ∧ (s.icrsSample 2016).uncertaintyDec = some s.eDe) ∧
    (∀ t u e f, (s.icrsSample t).uncertaintyRa = some e → (s.icrsSample u).uncertaintyRa = some f →
      0 ≤ e ∧ e ^ 2 - f ^ 2 = (s.ePmra.getD 0) ^ 2 * ((t - s.measured) ^ 2 - (u - s.measured) ^ 2)) ∧
    (∀ t u e f, (s.icrsSample t).uncertaintyDec = some e → (s.icrsSample u).uncertaintyDec = some f →
      0 ≤ e ∧ e ^ 2 - f ^ 2 = (s.ePmde.getD 0) ^ 2 * ((t - s.measured) ^ 2 - (u - s.measured) ^ 2)) := by
  have e1 : ∀ t, (s.icrsSample t).uncertaintyRa = (s.uncertainty t).1 := fun _ => rfl
  have e2 : ∀ t, (s.icrsSample t).uncertaintyDec = (s.uncertainty t).2 := fun _ => rfl
  refine ⟨⟨?_, ?_⟩, fun t u e f he hf => ?_, fun t u e f he hf => ?_⟩
  · rw [e1, uncertainty_eq, sub_self, mul_zero, add_zero, sqrt?_some (sq_nonneg _), sqrt_sq h1]
  · rw [e2, uncertainty_eq, sub_self, mul_zero, mul_zero, add_zero, add_zero]
    exact (sqrt?_some (sq_nonneg _)).trans (by rw [sqrt_sq h2])
  · rw [e1, uncertainty_eq] at he hf
    obtain ⟨_, h, h'⟩ := sqrt?_spec he
    obtain ⟨_, _, h''⟩ := sqrt?_spec hf
    exact ⟨h, by rw [h', h'']; ring⟩
  · rw [e2, uncertainty_eq] at he hf
    obtain ⟨_, h, h'⟩ := sqrt?_spec he
    obtain ⟨_, _, h''⟩ := sqrt?_spec hf
    exact ⟨h, by rw [h', h'']; ring⟩

/-- C96 (in part). The uncertainties are numbers at every epoch for a Gaia star, and for any other star whose catalogue uncertainties are at
least 24.75 years of proper-motion error. Missing: other stars at epochs between 1966.5 and 2016, see `C96_fails`; outside that span they too
are numbers. -/
theorem C96_partial (s : Star) (t : ℝ)
    (h : s.cat = some "GAIADR3" ∨ (24.75 * |s.ePmra.getD 0| ≤ |s.eRa| ∧ 24.75 * |s.ePmde.getD 0| ≤ |s.eDe|) ∨ t ≤ 1966.5 ∨ 2016 ≤ t) :
    (s.icrsSample t).uncertaintyRa.isSome ∧ (s.icrsSample t).uncertaintyDec.isSome := by
  have e1 : (s.icrsSample t).uncertaintyRa = (s.uncertainty t).1 := rfl
  have e2 : (s.icrsSample t).uncertaintyDec = (s.uncertainty t).2 := rfl
  have key : ∀ e q : ℝ, (s.cat = some "GAIADR3" ∨ 24.75 * |q| ≤ |e| ∨ t ≤ 1966.5 ∨ 2016 ≤ t) →
      0 ≤ e ^ 2 + q ^ 2 * ((t - s.measured) ^ 2 - (2016 - s.measured) ^ 2) := by
    intro e q hq
    by_cases hc : s.cat = some "GAIADR3"
    · have : s.measured = 2016 := if_pos hc
      rw [this]
      norm_num
      positivity
    · have hm : s.measured = 1991.25 := if_neg hc
      rw [hm]
      rcases hq with hq | hq | hq
      · exact absurd hq hc
      · have h3 : (24.75 * |q|) ^ 2 ≤ |e| ^ 2 := pow_le_pow_left₀ (by positivity) hq 2
        rw [mul_pow, sq_abs, sq_abs] at h3
        have : 0 ≤ q ^ 2 * (t - 1991.25) ^ 2 := by positivity
        nlinarith
      · have : 0 ≤ (t - 1991.25) ^ 2 - (2016 - 1991.25) ^ 2 := by
          rcases hq with hq | hq <;> nlinarith
        positivity
  rw [e1, e2, uncertainty_eq]
  constructor
  · have hk := key s.eRa (s.ePmra.getD 0) (by
      rcases h with h | h | h | h
      exacts [.inl h, .inr (.inl h.1), .inr (.inr (.inl h)), .inr (.inr (.inr h))])
    simp only [sqrt?_some hk, Option.isSome_some]
  · have hk := key s.eDe (s.ePmde.getD 0) (by
      rcases h with h | h | h | h
      exacts [.inl h, .inr (.inl h.2), .inr (.inr (.inl h)), .inr (.inr (.inr h))])
    simp only [sqrt?_some hk, Option.isSome_some]

/-- A Hipparcos star of the required kind, with nonzero errors. -/
example : (24.75 * |(some (0.5 : ℝ)).getD 0| ≤ |(20 : ℝ)|) := by norm_num

/-- C96. Neither uncertainty decreases with the time since the measurement. -/
theorem C96_growth (s : Star) (t u e f : ℝ) (h : |t - s.measured| ≤ |u - s.measured|) :
    ((s.icrsSample t).uncertaintyRa = some e → (s.icrsSample u).uncertaintyRa = some f → e ≤ f) ∧
    ((s.icrsSample t).uncertaintyDec = some e → (s.icrsSample u).uncertaintyDec = some f → e ≤ f) := by
  have e1 : ∀ t, (s.icrsSample t).uncertaintyRa = (s.uncertainty t).1 := fun _ => rfl
  have e2 : ∀ t, (s.icrsSample t).uncertaintyDec = (s.uncertainty t).2 := fun _ => rfl
  have h0 := sq_le_sq.mpr h
  constructor
  · intro he hf
    rw [e1, uncertainty_eq] at he hf
    obtain ⟨_, h1, h'⟩ := sqrt?_spec he
    obtain ⟨_, h2, h''⟩ := sqrt?_spec hf
    refine (abs_le_of_sq_le_sq' ?_ h2).2
    rw [h', h'']
    nlinarith [sq_nonneg (s.ePmra.getD 0)]
  · intro he hf
    rw [e2, uncertainty_eq] at he hf
    obtain ⟨_, h1, h'⟩ := sqrt?_spec he
    obtain ⟨_, h2, h''⟩ := sqrt?_spec hf
    refine (abs_le_of_sq_le_sq' ?_ h2).2
    rw [h', h'']
    nlinarith [sq_nonneg (s.ePmde.getD 0)]

/-- A Gaia star with errors 3 and 4: the uncertainty is 3 in 2016 and 5 a year later. -/
example : (Star.icrsSample ⟨0, 0, 3, 3, none, none, some 4, some 4, none, some "GAIADR3", none, none, none, none, none, none⟩ 2017).uncertaintyRa
    = some 5 := by
  change (Star.uncertainty _ _).1 = some 5
  rw [uncertainty_eq]
  unfold Star.measured sqrt?
  simp only [Option.getD_some, if_true]
  rw [if_neg (by norm_num), show (3 : ℝ) ^ 2 + 4 ^ 2 * ((2017 - 2016) ^ 2 - (2016 - 2016) ^ 2) = 5 ^ 2 by norm_num, sqrt_sq (by norm_num)]

/-- C96 fails: a star not from Gaia, with catalogue uncertainty 1 and proper-motion error 1, has no uncertainty (NaN) in 1991.25. -/
theorem C96_fails : ∃ (s : Star) (t : ℝ), 0 < s.eRa ∧ s.ePmra = some 1 ∧ (s.icrsSample t).uncertaintyRa = none := by
  refine ⟨⟨0, 0, 1, 1, none, none, some 1, some 1, none, some "HIP", none, none, none, none, none, none⟩, 1991.25, by norm_num, rfl, ?_⟩
  change (Star.uncertainty _ _).1 = none
  rw [uncertainty_eq]
  unfold Star.measured sqrt?
  simp only [Option.getD_some]
  rw [if_neg (by decide : ¬ (some "HIP" = some "GAIADR3"))]
  norm_num

end Verif.Stars
