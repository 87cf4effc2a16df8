import Verif.Frames.PropsFerrari
import Mathlib.Analysis.SpecialFunctions.Trigonometric.ArctanDeriv

/-!
# C97: how far the closed-form geodetic conversion is from the truth
-/

namespace Verif.Frames

open Verif.Att Real

/-- The value of `s + 1/s + 1` for `s` the cube root of `T`. -/
theorem resolvent {T : ℝ} (hT : 1 ≤ T) :
    let k := T ^ (1 / 3 : ℝ) + 1 / T ^ (1 / 3 : ℝ) + 1
    3 ≤ k ∧ k ^ 2 * (k - 3) = (T - 1) ^ 2 / T := by
  intro k
  have h1 : 1 ≤ T ^ (1 / 3 : ℝ) := Real.one_le_rpow hT (by norm_num)
  have h3 : (T ^ (1 / 3 : ℝ)) ^ 3 = T := by
    rw [← Real.rpow_natCast, ← Real.rpow_mul (by linarith)]; norm_num
  simp only [k]
  generalize T ^ (1 / 3 : ℝ) = s at *
  subst h3
  have hs : 0 < s := by linarith
  constructor
  · have : s + 1 / s + 1 - 3 = (s - 1) ^ 2 / s := by field_simp; ring
    have : 0 ≤ (s - 1) ^ 2 / s := by positivity
    linarith
  · field_simp; ring

/-- The foot point satisfies the first quadratic factor of the quartic, if the resolvent is solved exactly. -/
theorem ferrari_root {a E p z r0 P Q : ℝ} (ha : 0 < a) (hE : 0 < E) (hr : 0 ≤ r0) (hra : r0 ≤ a) (hp : 0 ≤ p) (hpr : E * r0 ≤ p) (hQ : 1 ≤ Q)
    (hQ2 : Q ^ 2 = 1 + 2 * E ^ 2 * P) (hquart : r0 ^ 2 * (p - E * r0) ^ 2 + (1 - E) * z ^ 2 * r0 ^ 2 = a ^ 2 * (p - E * r0) ^ 2)
    (hV : 2 * E ^ 2 * a ^ 2 < (p - E * r0) ^ 2 + (1 - E) * z ^ 2)
    (hP : P * (p ^ 2 + (1 - E) * z ^ 2 - a ^ 2 * E ^ 2 + 2 * E ^ 2 * P * p ^ 2) ^ 2 = 2 * a ^ 2 * (1 - E) * z ^ 2) :
    (r0 + (Q - 1) * p / (2 * E)) ^ 2 = 1 / 2 * (a * a) * (1 + 1 / Q) - P * (1 - E) * (z * z) / (Q * (1 + Q)) - 1 / 2 * P * (p * p) := by
  have hPQ : P = (Q ^ 2 - 1) / (2 * E ^ 2) := by rw [hQ2]; field_simp; ring
  set F1 := 2 * E ^ 2 * Q * r0 ^ 2 + 2 * E * Q * (Q - 1) * p * r0 + ((Q - 1) * (Q ^ 2 * p ^ 2 + (1 - E) * z ^ 2) - a ^ 2 * E ^ 2 * (Q + 1)) with hF1
  set F2 := 2 * E ^ 2 * Q * r0 ^ 2 - 2 * E * Q * (Q + 1) * p * r0 + ((Q + 1) * (Q ^ 2 * p ^ 2 + (1 - E) * z ^ 2) - a ^ 2 * E ^ 2 * (Q - 1)) with hF2
  have hP' : (Q ^ 2 - 1) * (Q ^ 2 * p ^ 2 + (1 - E) * z ^ 2 - a ^ 2 * E ^ 2) ^ 2 = 4 * E ^ 2 * a ^ 2 * (1 - E) * z ^ 2 := by
    have e : p ^ 2 + (1 - E) * z ^ 2 - a ^ 2 * E ^ 2 + 2 * E ^ 2 * P * p ^ 2 = Q ^ 2 * p ^ 2 + (1 - E) * z ^ 2 - a ^ 2 * E ^ 2 := by
      linear_combination (-p ^ 2) * hQ2
    rw [e] at hP
    linear_combination 2 * E ^ 2 * hP + (Q ^ 2 * p ^ 2 + (1 - E) * z ^ 2 - a ^ 2 * E ^ 2) ^ 2 * hQ2
  have hprod : F1 * F2 = 0 := by
    rw [hF1, hF2]
    linear_combination 4 * E ^ 2 * Q ^ 2 * hquart + hP'
  have hF2pos : 0 < F2 := by
    have h1 : (p - E * r0) ^ 2 ≤ (Q * p - E * r0) ^ 2 := by
      have : p ≤ Q * p := by nlinarith only [hp, hQ]
      apply pow_le_pow_left₀ (by linarith)
      linarith
    have h2 : E ^ 2 * r0 ^ 2 ≤ E ^ 2 * a ^ 2 := by gcongr
    have h3 : E ^ 2 * a ^ 2 < (Q * p - E * r0) ^ 2 - E ^ 2 * r0 ^ 2 + (1 - E) * z ^ 2 := by linarith
    have h4 : F2 = (Q + 1) * ((Q * p - E * r0) ^ 2 - E ^ 2 * r0 ^ 2 + (1 - E) * z ^ 2) + 2 * E ^ 2 * Q * r0 ^ 2 - a ^ 2 * E ^ 2 * (Q - 1) := by
      rw [hF2]; ring
    have h5 : (Q + 1) * (E ^ 2 * a ^ 2) < (Q + 1) * ((Q * p - E * r0) ^ 2 - E ^ 2 * r0 ^ 2 + (1 - E) * z ^ 2) :=
      mul_lt_mul_of_pos_left h3 (by linarith)
    have h6 : 0 ≤ 2 * E ^ 2 * Q * r0 ^ 2 := by positivity
    have h7 : 0 < E ^ 2 * a ^ 2 := by positivity
    rw [h4]
    nlinarith only [h5, h6, h7]
  have hF1z : F1 = 0 := by
    rcases mul_eq_zero.1 hprod with h | h
    · exact h
    · exact absurd h hF2pos.ne'
  have hQ0 : 0 < Q := by linarith
  have hQ1 : 0 < 1 + Q := by linarith
  have : (r0 + (Q - 1) * p / (2 * E)) ^ 2 - (1 / 2 * (a * a) * (1 + 1 / Q) - P * (1 - E) * (z * z) / (Q * (1 + Q)) - 1 / 2 * P * (p * p)) =
      F1 / (2 * E ^ 2 * Q) := by
    rw [hPQ, hF1]
    field_simp
    ring
  rw [hF1z, zero_div] at this
  linarith

/-- The value under the root that gives the foot point. -/
noncomputable def footSq (a E p z P Q : ℝ) : ℝ :=
  1 / 2 * (a * a) * (1 + 1 / Q) - P * (1 - E) * (z * z) / (Q * (1 + Q)) - 1 / 2 * P * (p * p)

set_option maxHeartbeats 800000 in
/-- A larger `P` moves the foot point inwards by a small amount. -/
theorem perturb {a E p z r0 P P' Q Q' : ℝ} (hE : 0 < E) (hE1 : E < 1) (hr : 0 ≤ r0) (hp : 0 ≤ p) (hPP : P ≤ P')
    (hQ : 1 ≤ Q) (hQ' : 1 ≤ Q') (hQ2 : Q ^ 2 = 1 + 2 * E ^ 2 * P) (hQ2' : Q' ^ 2 = 1 + 2 * E ^ 2 * P')
    (hroot : (r0 + (Q - 1) * p / (2 * E)) ^ 2 = footSq a E p z P Q) :
    let r0' := -P' * E * p / (1 + Q') + √(if footSq a E p z P' Q' > 0 then footSq a E p z P' Q' else 0)
    0 ≤ r0 - r0' ∧ r0 * (r0 - r0') ≤ (P' - P) * ((r0 * E * p + p ^ 2 + (1 - E) * z ^ 2 + E ^ 2 * a ^ 2) / 2) ∧ (P' = P → r0' = r0) := by
  intro r0'
  have hQ0 : 0 < Q := by linarith
  have hQ0' : 0 < Q' := by linarith
  have hPQ : P = (Q ^ 2 - 1) / (2 * E ^ 2) := by rw [hQ2]; field_simp; ring
  have hPQ' : P' = (Q' ^ 2 - 1) / (2 * E ^ 2) := by rw [hQ2']; field_simp; ring
  have hQQ : Q ≤ Q' := by
    by_contra h
    push Not at h
    nlinarith only [hQ, hQ2, hQ2', h, hQ', mul_nonneg (sq_nonneg E) (sub_nonneg.2 hPP)]
  have hdQ : Q' - Q ≤ E ^ 2 * (P' - P) := by
    have : (Q' - Q) * (Q' + Q) = 2 * (E ^ 2 * (P' - P)) := by linear_combination hQ2' - hQ2
    nlinarith only [this, hQ, hQ', hQQ]
  have hα : -P' * E * p / (1 + Q') = -((Q' - 1) * p / (2 * E)) := by
    rw [hPQ']; field_simp; ring
  have hX : ∀ {P Q : ℝ}, 0 < Q → P = (Q ^ 2 - 1) / (2 * E ^ 2) →
      footSq a E p z P Q = a ^ 2 / 2 * (1 + 1 / Q) - (1 - 1 / Q) * ((1 - E) * z ^ 2 / (2 * E ^ 2)) - (Q ^ 2 - 1) * p ^ 2 / (4 * E ^ 2) := by
    intro P Q hQ e
    unfold footSq
    rw [e]
    have : 1 + Q ≠ 0 := by positivity
    field_simp
    ring
  set X := footSq a E p z P Q with hXd
  set X' := footSq a E p z P' Q' with hXd'
  have hdX : X - X' = (1 / Q - 1 / Q') * (a ^ 2 / 2 + (1 - E) * z ^ 2 / (2 * E ^ 2)) + (P' - P) * p ^ 2 / 2 := by
    rw [hXd, hXd', hX hQ0 hPQ, hX hQ0' hPQ', hPQ, hPQ']
    field_simp
    ring
  have hinv0 : 0 ≤ 1 / Q - 1 / Q' := sub_nonneg.2 (one_div_le_one_div_of_le hQ0 hQQ)
  have hinv : 1 / Q - 1 / Q' ≤ E ^ 2 * (P' - P) := by
    have e : 1 / Q - 1 / Q' = (Q' - Q) / (Q * Q') := by field_simp
    rw [e]
    refine le_trans (div_le_self (by linarith) (by nlinarith only [hQ, hQ'])) hdQ
  have hz : 0 ≤ (1 - E) * z ^ 2 := mul_nonneg (by linarith) (sq_nonneg z)
  have hdX0 : 0 ≤ X - X' := by
    rw [hdX]
    have := mul_nonneg (sub_nonneg.2 hPP) (sq_nonneg p)
    have := mul_nonneg hinv0 (show 0 ≤ a ^ 2 / 2 + (1 - E) * z ^ 2 / (2 * E ^ 2) by positivity)
    linarith
  have hdX1 : X - X' ≤ (P' - P) * ((p ^ 2 + (1 - E) * z ^ 2 + E ^ 2 * a ^ 2) / 2) := by
    rw [hdX]
    have h1 := mul_le_mul_of_nonneg_right hinv (show 0 ≤ a ^ 2 / 2 + (1 - E) * z ^ 2 / (2 * E ^ 2) by positivity)
    have h2 : E ^ 2 * (P' - P) * (a ^ 2 / 2 + (1 - E) * z ^ 2 / (2 * E ^ 2)) = (P' - P) * ((E ^ 2 * a ^ 2 + (1 - E) * z ^ 2) / 2) := by
      field_simp
    rw [h2] at h1
    linarith
  set α := (Q - 1) * p / (2 * E) with hαd
  set α' := (Q' - 1) * p / (2 * E) with hαd'
  have hα0 : 0 ≤ α := div_nonneg (mul_nonneg (by linarith) hp) (by linarith)
  have hαα : α' - α = (Q' - Q) * p / (2 * E) := by rw [hαd, hαd']; ring
  have hαα0 : 0 ≤ α' - α := by
    rw [hαα]; exact div_nonneg (mul_nonneg (by linarith) hp) (by linarith)
  have hαα1 : α' - α ≤ (P' - P) * (E * p / 2) := by
    rw [hαα, div_le_iff₀ (by linarith)]
    have := mul_le_mul_of_nonneg_right hdQ hp
    linarith
  set y := √(if X' > 0 then X' else 0) with hy
  have hy0 : 0 ≤ y := Real.sqrt_nonneg _
  have hy2 : X' ≤ y ^ 2 ∧ y ^ 2 ≤ X := by
    rw [hy]
    split_ifs with h
    · rw [Real.sq_sqrt h.le]; exact ⟨le_rfl, by linarith⟩
    · rw [Real.sqrt_zero]
      refine ⟨by push Not at h; simpa using h, ?_⟩
      rw [← hroot]; simpa using sq_nonneg (r0 + α)
  have hyx : y ≤ r0 + α := by
    have h := hy2.2
    rw [← hroot] at h
    exact (pow_le_pow_iff_left₀ hy0 (by linarith) (by norm_num)).1 h
  have hr' : r0 - r0' = (α' - α) + (r0 + α - y) := by
    simp only [r0']
    rw [hα]
    ring
  refine ⟨by rw [hr']; linarith, ?_, ?_⟩
  · have h1 : (r0 + α) * (r0 + α - y) ≤ X - X' := by
      have : (r0 + α) * (r0 + α - y) ≤ (r0 + α) ^ 2 - y ^ 2 := by nlinarith only [mul_nonneg hy0 (sub_nonneg.2 hyx)]
      linarith [hy2.1]
    have h2 : r0 * (r0 + α - y) ≤ (r0 + α) * (r0 + α - y) :=
      mul_le_mul_of_nonneg_right (by linarith) (by linarith)
    have h3 : r0 * (α' - α) ≤ r0 * ((P' - P) * (E * p / 2)) := mul_le_mul_of_nonneg_left hαα1 hr
    rw [hr', mul_add]
    linarith only [h1, h2, h3, hdX1]
  · intro e
    have hQe : Q' = Q := by
      have : Q' ^ 2 = Q ^ 2 := by rw [hQ2, hQ2', e]
      exact (pow_left_inj₀ hQ0'.le hQ0.le (by norm_num)).1 this
    have hαe : α' = α := by rw [hαd, hαd', hQe]
    have hXe : X' = X := by rw [hXd, hXd', e, hQe]
    have hye : y ^ 2 = (r0 + α) ^ 2 := by
      rw [hroot]; exact le_antisymm hy2.2 (hXe ▸ hy2.1)
    have : y = r0 + α := (pow_left_inj₀ hy0 (by linarith) (by norm_num)).1 hye
    have h0 : r0 - r0' = 0 := by rw [hr', hαe, this]; ring
    linarith

/-- Height and latitude depend little on the foot point. -/
theorem height_near {a E U V c d x : ℝ} (hE : 0 < E) (hU : 0 < U) (hV : 0 < V) (hVU : V ≤ U) (hc : 0 ≤ c) (hd : 0 ≤ d) (ha : 0 < a) (hE1 : E < 1)
    (hx : U ^ 2 - V ^ 2 ≤ E * U ^ 2) (hxx : x = 2 * U * c * (E * d) + (E * d) ^ 2) :
    let U' := √(U ^ 2 + x)
    let V' := √(V ^ 2 + x)
    |U' * (1 - a * (1 - E) / V') - U * (1 - a * (1 - E) / V)| ≤ x / (2 * U) + a * (E * U ^ 2 * x / (2 * V ^ 4)) ∧ 0 ≤ 1 / V - 1 / V' ∧
      1 / V - 1 / V' ≤ x / (2 * V ^ 3) := by
  intro U' V'
  have hx0 : 0 ≤ x := by rw [hxx]; positivity
  have hU2 : U' ^ 2 = U ^ 2 + x := Real.sq_sqrt (by positivity)
  have hV2 : V' ^ 2 = V ^ 2 + x := Real.sq_sqrt (by positivity)
  have hUU : U ≤ U' := Real.le_sqrt_of_sq_le (by linarith)
  have hVV : V ≤ V' := Real.le_sqrt_of_sq_le (by linarith)
  have hV' : 0 < V' := by linarith
  have hU' : 0 < U' := by linarith
  have h1 : U' - U ≤ x / (2 * U) := by
    rw [le_div_iff₀ (by positivity)]; nlinarith only [hU2, hUU]
  have h1v : V' - V ≤ x / (2 * V) := by
    rw [le_div_iff₀ (by positivity)]; nlinarith only [hV2, hVV]
  have hVU' : V' ≤ U' := Real.sqrt_le_sqrt (by nlinarith only [hVU, hV])
  have hr : U / V - U' / V' = x * (U ^ 2 - V ^ 2) / (V ^ 2 * V' ^ 2) / (U / V + U' / V') := by
    rw [eq_div_iff (by positivity)]
    field_simp
    linear_combination (-V ^ 2) * hU2 + U ^ 2 * hV2
  have hsq : 0 ≤ U ^ 2 - V ^ 2 := by nlinarith only [hVU, hV]
  have hr0 : 0 ≤ U / V - U' / V' := by rw [hr]; positivity
  have hden : 2 ≤ U / V + U' / V' := by
    have := (one_le_div hV).2 hVU
    have := (one_le_div hV').2 hVU'
    linarith
  have hr1 : U / V - U' / V' ≤ E * U ^ 2 * x / (2 * V ^ 4) := by
    rw [hr, div_div]
    apply div_le_div₀ (by positivity)
    · nlinarith only [mul_le_mul_of_nonneg_left hx hx0]
    · positivity
    · have : V ^ 2 * V ^ 2 ≤ V ^ 2 * V' ^ 2 := by gcongr
      calc 2 * V ^ 4 = V ^ 2 * V ^ 2 * 2 := by ring
        _ ≤ V ^ 2 * V' ^ 2 * (U / V + U' / V') := by gcongr
  have e : U' * (1 - a * (1 - E) / V') - U * (1 - a * (1 - E) / V) = (U' - U) + a * (1 - E) * (U / V - U' / V') := by ring
  refine ⟨?_, ?_, ?_⟩
  · rw [e, abs_of_nonneg (add_nonneg (by linarith) (mul_nonneg (mul_nonneg ha.le (by linarith)) hr0))]
    have h2 : a * (1 - E) * (U / V - U' / V') ≤ a * (U / V - U' / V') := by
      apply mul_le_mul_of_nonneg_right _ hr0; nlinarith only [ha, hE]
    have h3 := mul_le_mul_of_nonneg_left hr1 ha.le
    linarith
  · exact sub_nonneg.2 (one_div_le_one_div_of_le hV hVV)
  · have e : 1 / V - 1 / V' = (V' - V) / (V * V') := by field_simp
    rw [e, div_le_iff₀ (by positivity)]
    have h2 : x / (2 * V) = x / (2 * V ^ 3) * (V * V) := by field_simp
    have h3 : x / (2 * V ^ 3) * (V * V) ≤ x / (2 * V ^ 3) * (V * V') := by gcongr
    linarith

/-- The product is largest at two thirds. -/
theorem cubic_bound {Y Z : ℝ} (hY : 0 ≤ Y) (hZ : 0 ≤ Z) : Z ^ 2 * Y ≤ 4 / 27 * (Y + Z) ^ 3 := by
  have : 4 / 27 * (Y + Z) ^ 3 - Z ^ 2 * Y = (Z - 2 * Y) ^ 2 * (4 * Z + Y) / 27 := by ring
  have : 0 ≤ (Z - 2 * Y) ^ 2 * (4 * Z + Y) / 27 := by positivity
  linarith

set_option maxHeartbeats 1000000 in
/-- The change of `P`: `A` is `a²`, `Y` the square of the distance from the axis and `Z` that of the scaled height. -/
theorem delta_bound {A E Y Z G k k' c : ℝ} (hE : 0 < E) (hE2 : E ≤ 0.0066945) (hA : 0 < A) (hY : 0 ≤ Y) (hZ : 0 ≤ Z) (hR : 0 < Y + Z)
    (hAR : A ≤ 1.0204 * (Y + Z)) (hG : G = Y + Z - E ^ 2 * A) (hc : c = 54 * E ^ 2 * A * Z * Y / G ^ 3)
    (hk : 3 ≤ k) (hkc : k ^ 2 * (k - 3) = 2 * c) (hk' : 3 ≤ k') (hkc' : k' ^ 2 * (k' - 3) ≤ 2 * c) :
    0 < G ∧ 18 * A * Z / (k ^ 2 * G ^ 2) ≤ 18 * A * Z / (k' ^ 2 * G ^ 2) ∧
      18 * A * Z / (k' ^ 2 * G ^ 2) - 18 * A * Z / (k ^ 2 * G ^ 2) ≤ 16.21 * E ^ 2 * A ^ 2 * (Z ^ 2 * Y) / (Y + Z) ^ 5 := by
  set R := Y + Z with hRd
  have hE22 : E ^ 2 ≤ 0.0000449 := by
    have := pow_le_pow_left₀ hE.le hE2 2
    norm_num at this ⊢; linarith
  have hGR : 0.99995 * R ≤ G := by
    rw [hG]
    have : E ^ 2 * A ≤ 0.0000449 * (1.0204 * R) := mul_le_mul hE22 hAR hA.le (by norm_num)
    linarith
  have hG0 : 0 < G := by linarith
  have hc0 : 0 ≤ c := by rw [hc]; positivity
  have hc1 : c ≤ 0.001 := by
    rw [hc, div_le_iff₀ (by positivity)]
    have h1 : Z * Y ≤ R ^ 2 / 4 := by rw [hRd]; nlinarith only [sq_nonneg (Y - Z)]
    have h2 : (0.99995 * R) ^ 3 ≤ G ^ 3 := pow_le_pow_left₀ (by positivity) hGR 3
    have h3 : 54 * E ^ 2 * A * Z * Y ≤ 54 * 0.0000449 * (1.0204 * R) * (R ^ 2 / 4) := by
      have : 54 * E ^ 2 * A * Z * Y = 54 * E ^ 2 * A * (Z * Y) := by ring
      rw [this]; gcongr
    have h4 : 0 < R ^ 3 := by positivity
    linarith
  have hkk : k' ≤ k := by
    by_contra h
    push Not at h
    have h1 : k ^ 2 < k' ^ 2 := by nlinarith only [h, hk]
    nlinarith only [hkc, hkc', mul_nonneg (sub_nonneg.2 hk) (sub_nonneg.2 h1.le), mul_pos (sub_pos.2 h) (show 0 < k' ^ 2 by positivity)]
  have hk3 : k ≤ 3 + 2 * c / 9 := by
    have : 9 * (k - 3) ≤ k ^ 2 * (k - 3) := mul_le_mul_of_nonneg_right (by nlinarith only [hk]) (by linarith)
    linarith
  have hkpos : 0 < k := by linarith
  have hkpos' : 0 < k' := by linarith
  set N := 18 * A * Z / G ^ 2 with hN
  have hN0 : 0 ≤ N := by positivity
  have e1 : 18 * A * Z / (k ^ 2 * G ^ 2) = N / k ^ 2 := by rw [hN, div_div, mul_comm (k ^ 2)]
  have e2 : 18 * A * Z / (k' ^ 2 * G ^ 2) = N / k' ^ 2 := by rw [hN, div_div, mul_comm (k' ^ 2)]
  refine ⟨hG0, by rw [e1, e2]; gcongr, ?_⟩
  rw [e1, e2]
  have h9 : N / k' ^ 2 ≤ N / 9 := by
    apply div_le_div_of_nonneg_left hN0 (by norm_num); nlinarith only [hk']
  have hrel : N / k' ^ 2 - N / k ^ 2 ≤ N / 9 * (0.15 * c) := by
    have hk2 : N / 9 * (1 - 0.15 * c) ≤ N / k ^ 2 := by
      rw [le_div_iff₀ (by positivity)]
      have : (1 - 0.15 * c) * k ^ 2 ≤ 9 := by
        have h1 : k ^ 2 ≤ (3 + 2 * c / 9) ^ 2 := pow_le_pow_left₀ hkpos.le hk3 2
        have h2 : (1 - 0.15 * c) * k ^ 2 ≤ (1 - 0.15 * c) * (3 + 2 * c / 9) ^ 2 := mul_le_mul_of_nonneg_left h1 (by linarith)
        have h3 : (1 - 0.15 * c) * (3 + 2 * c / 9) ^ 2 ≤ 9 := by nlinarith only [hc0, hc1, mul_nonneg hc0 (sub_nonneg.2 hc1), mul_nonneg hc0 hc0, mul_nonneg (mul_nonneg hc0 hc0) hc0]
        linarith
      have := mul_le_mul_of_nonneg_left this hN0
      linarith
    linarith
  refine hrel.trans ?_
  have e3 : N / 9 * (0.15 * c) = 16.2 * E ^ 2 * A ^ 2 * (Z ^ 2 * Y) / G ^ 5 := by
    rw [hN, hc]; field_simp; ring
  rw [e3, div_le_div_iff₀ (by positivity) (by positivity)]
  have h5 : (0.99995 * R) ^ 5 ≤ G ^ 5 := pow_le_pow_left₀ (by positivity) hGR 5
  have h6 : 16.2 * R ^ 5 ≤ 16.21 * G ^ 5 := by
    have : 0 < R ^ 5 := by positivity
    linarith
  have h7 : 0 ≤ E ^ 2 * A ^ 2 * (Z ^ 2 * Y) := by positivity
  have h8 := mul_le_mul_of_nonneg_right h6 h7
  linarith

set_option maxHeartbeats 1000000 in
/-- How far the computed foot point is from the true one: `d` is the difference of the distances from the axis. -/
theorem foot_bound {a E c M V p z r0 d dP : ℝ} (hE : 0 < E) (hE2 : E ≤ 0.0066945) (ha : 0 < a) (hc : 0 ≤ c) (hN : a * c ≤ r0) (hra : r0 ≤ a)
    (hd : 0 ≤ d) (hp : p = M * c) (hV : 0 < V) (hVa : 0.99 * a ≤ V) (hVR : V ^ 2 ≤ p ^ 2 + (1 - E) * z ^ 2) (hM : M ^ 2 ≤ 1.0206 * V ^ 2)
    (hp0 : 0 ≤ p)
    (hdP : dP ≤ 16.21 * E ^ 2 * (a ^ 2) ^ 2 * (((1 - E) * z ^ 2) ^ 2 * p ^ 2) / (p ^ 2 + (1 - E) * z ^ 2) ^ 5)
    (hroot : r0 * d ≤ dP * ((r0 * E * p + p ^ 2 + (1 - E) * z ^ 2 + E ^ 2 * a ^ 2) / 2)) (hzero : c = 0 → d = 0) :
    c * d ≤ 1.236 * E ^ 2 * a ∧ d ≤ 8.52 * E ^ 2 * a * c := by
  have hZ : 0 ≤ (1 - E) * z ^ 2 := mul_nonneg (by linarith) (sq_nonneg z)
  generalize (1 - E) * z ^ 2 = Z at *
  set R := p ^ 2 + Z with hR
  have hR0 : 0 < R := lt_of_lt_of_le (by positivity) hVR
  have hAV : a ^ 2 ≤ 1.0204 * V ^ 2 := by nlinarith only [hVa, ha]
  have hAR : a ^ 2 ≤ 1.0204 * R := by linarith
  have hE22 : E ^ 2 ≤ 0.0000449 := by
    have := pow_le_pow_left₀ hE.le hE2 2
    norm_num at this ⊢; linarith
  have hr0 : 0 ≤ r0 := le_trans (by positivity) hN
  have hD2 : (r0 * E * p + p ^ 2 + Z + E ^ 2 * a ^ 2) / 2 ≤ 0.504 * R := by
    have h1 : r0 * p ≤ 1.0102 * R := by
      have : r0 * p ≤ (r0 ^ 2 + p ^ 2) / 2 := by nlinarith only [sq_nonneg (r0 - p)]
      have : r0 ^ 2 ≤ a ^ 2 := pow_le_pow_left₀ hr0 hra 2
      linarith
    have h2 : E * (r0 * p) ≤ 0.0066945 * (1.0102 * R) := mul_le_mul hE2 h1 (mul_nonneg hr0 hp0) (by norm_num)
    have h3 : E ^ 2 * a ^ 2 ≤ 0.0000449 * (1.0204 * R) := mul_le_mul hE22 hAR (sq_nonneg a) (by norm_num)
    have h4 : r0 * E * p = E * (r0 * p) := by ring
    rw [h4]
    linarith
  have hD0 : 0 ≤ (r0 * E * p + p ^ 2 + Z + E ^ 2 * a ^ 2) / 2 := by positivity
  have hmain : r0 * d ≤ 8.17 * (E ^ 2 * a ^ 4) * (Z ^ 2 * p ^ 2) / R ^ 4 := by
    have h1 := mul_le_mul_of_nonneg_right hdP hD0
    have h2 := mul_le_mul_of_nonneg_left hD2 (show 0 ≤ 16.21 * E ^ 2 * (a ^ 2) ^ 2 * (Z ^ 2 * p ^ 2) / R ^ 5 by positivity)
    have h3 : 16.21 * E ^ 2 * (a ^ 2) ^ 2 * (Z ^ 2 * p ^ 2) / R ^ 5 * (0.504 * R) = 8.16984 * (E ^ 2 * a ^ 4) * (Z ^ 2 * p ^ 2) / R ^ 4 := by
      field_simp; ring
    have h4 : 8.16984 * (E ^ 2 * a ^ 4) * (Z ^ 2 * p ^ 2) / R ^ 4 ≤ 8.17 * (E ^ 2 * a ^ 4) * (Z ^ 2 * p ^ 2) / R ^ 4 := by
      gcongr; norm_num
    linarith
  have hacd : a * (c * d) ≤ r0 * d := by
    have := mul_le_mul_of_nonneg_right hN hd
    linarith
  constructor
  · have h1 : 8.17 * (E ^ 2 * a ^ 4) * (Z ^ 2 * p ^ 2) / R ^ 4 ≤ 1.236 * E ^ 2 * a ^ 2 := by
      rw [div_le_iff₀ (by positivity)]
      have h2 := cubic_bound (sq_nonneg p) hZ
      rw [← hR] at h2
      have h3 : 8.17 * (E ^ 2 * a ^ 4) * (Z ^ 2 * p ^ 2) ≤ 8.17 * (E ^ 2 * a ^ 4) * (4 / 27 * R ^ 3) :=
        mul_le_mul_of_nonneg_left h2 (by positivity)
      have h4 : a ^ 2 * (E ^ 2 * a ^ 2 * R ^ 3) ≤ 1.0204 * R * (E ^ 2 * a ^ 2 * R ^ 3) := mul_le_mul_of_nonneg_right hAR (by positivity)
      have h5 : 0 ≤ E ^ 2 * a ^ 2 * R ^ 4 := by positivity
      linarith
    have h2 : a * (c * d) ≤ a * (1.236 * E ^ 2 * a) := by linarith
    exact le_of_mul_le_mul_left h2 ha
  · rcases hc.eq_or_lt with e | hcp
    · rw [hzero e.symm, ← e]; simp
    have h1 : 8.17 * (E ^ 2 * a ^ 4) * (Z ^ 2 * p ^ 2) / R ^ 4 ≤ 8.52 * E ^ 2 * a ^ 2 * c ^ 2 := by
      rw [div_le_iff₀ (by positivity)]
      have hp2 : p ^ 2 ≤ 1.0206 * R * c ^ 2 := by
        rw [hp, mul_pow]
        exact mul_le_mul_of_nonneg_right (by linarith) (sq_nonneg c)
      have hZR : Z ^ 2 ≤ R ^ 2 := pow_le_pow_left₀ hZ (by rw [hR]; linarith [sq_nonneg p]) 2
      have h2 : Z ^ 2 * p ^ 2 ≤ R ^ 2 * (1.0206 * R * c ^ 2) := mul_le_mul hZR hp2 (sq_nonneg p) (by positivity)
      have h3 : 8.17 * (E ^ 2 * a ^ 4) * (Z ^ 2 * p ^ 2) ≤ 8.17 * (E ^ 2 * a ^ 4) * (R ^ 2 * (1.0206 * R * c ^ 2)) :=
        mul_le_mul_of_nonneg_left h2 (by positivity)
      have h4 : a ^ 2 * (E ^ 2 * a ^ 2 * R ^ 3 * c ^ 2) ≤ 1.0204 * R * (E ^ 2 * a ^ 2 * R ^ 3 * c ^ 2) := mul_le_mul_of_nonneg_right hAR (by positivity)
      have h5 : 0 ≤ E ^ 2 * a ^ 2 * R ^ 4 * c ^ 2 := by positivity
      linarith
    have h2 : (a * c) * d ≤ (a * c) * (8.52 * E ^ 2 * a * c) := by linarith
    exact le_of_mul_le_mul_left h2 (by positivity)

end Verif.Frames
