import Verif.Float.PropsQuatDcm

/-!
# C182: the quaternion of a matrix that is nearly a rotation, in floating point
-/

namespace Verif.Float

open Verif.Mat (Mat)
open Verif.Att (Quat)

variable {fl : ℝ → ℝ} {p : ℕ}

theorem unit_le (hp : 8 ≤ p) : (2 : ℝ) ^ (-p : ℤ) ≤ 1 / 256 := by
  calc (2 : ℝ) ^ (-p : ℤ) ≤ 2 ^ (-8 : ℤ) := zpow_le_zpow_right₀ (by norm_num) (by omega)
    _ = _ := by norm_num

/-- The pivot: three rounded additions of numbers known up to `δ`. -/
theorem pivot_near (hp : 8 ≤ p) (h : Nearest p fl) {a b c A B C δ : ℝ} (hδ : δ ≤ 1 / 64) (ha : |a - A| ≤ δ) (hb : |b - B| ≤ δ) (hc : |c - C| ≤ δ)
    (hA : |A| ≤ 1) (hB : |B| ≤ 1) (hC : |C| ≤ 1) :
    |fl (fl (fl (1 + a) + b) + c) - (1 + A + B + C)| ≤ 3 * δ + 10 * 2 ^ (-p : ℤ) := by
  have hu := unit_le hp
  have hu0 : (0 : ℝ) < 2 ^ (-p : ℤ) := by positivity
  set u : ℝ := 2 ^ (-p : ℤ) with hudef
  have acc : ∀ x K : ℝ, |x| ≤ K → |fl x - x| ≤ u * K := fun x K hx =>
    (h.accurate (by omega) x).trans (mul_le_mul_of_nonneg_left hx hu0.le)
  obtain ⟨a1, a2⟩ := abs_le.1 ha
  obtain ⟨b1, b2⟩ := abs_le.1 hb
  obtain ⟨c1, c2⟩ := abs_le.1 hc
  obtain ⟨A1, A2⟩ := abs_le.1 hA
  obtain ⟨B1, B2⟩ := abs_le.1 hB
  obtain ⟨C1, C2⟩ := abs_le.1 hC
  obtain ⟨s1, s2⟩ := abs_le.1 (acc (1 + a) (17 / 8) (abs_le.2 ⟨by linarith, by linarith⟩))
  obtain ⟨t1, t2⟩ := abs_le.1 (acc (fl (1 + a) + b) (13 / 4) (abs_le.2 ⟨by linarith, by linarith⟩))
  obtain ⟨r1, r2⟩ := abs_le.1 (acc (fl (fl (1 + a) + b) + c) (9 / 2) (abs_le.2 ⟨by linarith, by linarith⟩))
  exact abs_le.2 ⟨by linarith, by linarith⟩

/-- A numerator: one rounded sum of two numbers known up to `δ`. -/
theorem numer_near (hp : 8 ≤ p) (h : Nearest p fl) {a b A B δ : ℝ} (hδ : δ ≤ 1 / 64) (ha : |a - A| ≤ δ) (hb : |b - B| ≤ δ)
    (hA : |A| ≤ 1) (hB : |B| ≤ 1) : |fl (a + b) - (A + B)| ≤ 2 * δ + 3 * 2 ^ (-p : ℤ) := by
  have hu0 : (0 : ℝ) < 2 ^ (-p : ℤ) := by positivity
  set u : ℝ := 2 ^ (-p : ℤ) with hudef
  obtain ⟨a1, a2⟩ := abs_le.1 ha
  obtain ⟨b1, b2⟩ := abs_le.1 hb
  obtain ⟨A1, A2⟩ := abs_le.1 hA
  obtain ⟨B1, B2⟩ := abs_le.1 hB
  have := (h.accurate (by omega) (a + b)).trans (mul_le_mul_of_nonneg_left (show |a + b| ≤ 3 from abs_le.2 ⟨by linarith, by linarith⟩) hu0.le)
  obtain ⟨s1, s2⟩ := abs_le.1 this
  exact abs_le.2 ⟨by linarith, by linarith⟩

/-- The components computed from an accepted pivot `c`, close to four times the square of `P`. -/
theorem branch_near (hp : 8 ≤ p) (h : Nearest p fl) (lib : Libm) {c P δ : ℝ} (hδ0 : 0 ≤ δ) (hδ : δ ≤ 1 / 64) (hf : IsFloat p c) (hc : 1 / 4 < c)
    (hcP : |c - 4 * P ^ 2| ≤ 3 * δ + 10 * 2 ^ (-p : ℤ)) (hP : |P| ≤ 1) :
    ∃ s σ : ℝ, Scalar.sqrt (CF.num c / CF.num 4 : CF fl lib) = CF.num s ∧ (CF.num s * CF.num 4 : CF fl lib) = CF.num (s * 4) ∧ s * 4 ≠ 0 ∧
      (σ = 1 ∨ σ = -1) ∧ |s - σ * P| ≤ 15 * δ + 56 * 2 ^ (-p : ℤ) ∧
      ∀ d O : ℝ, |O| ≤ 1 → |d - 4 * P * O| ≤ 2 * δ + 3 * 2 ^ (-p : ℤ) → |fl (d / (s * 4)) - σ * O| ≤ 15 * δ + 56 * 2 ^ (-p : ℤ) := by
  have hu := unit_le hp
  have hu0 : (0 : ℝ) < 2 ^ (-p : ℤ) := by positivity
  set u : ℝ := 2 ^ (-p : ℤ) with hudef
  have hp1 : 1 ≤ p := by omega
  have e4 : fl (c / 4) = c / 4 := by
    have := h.fix (hf.scale (-2))
    rwa [show c * (2 : ℝ) ^ (-2 : ℤ) = c / 4 by norm_num; ring] at this
  set t := √(c / 4) with ht
  have ht2 : t ^ 2 = c / 4 := Real.sq_sqrt (by linarith)
  have ht0 : 1 / 4 < t := Real.lt_sqrt_of_sq_lt (by linarith)
  have es4 : fl (fl t * 4) = fl t * 4 := by
    have := h.fix ((h.float t).scale 2)
    rwa [show fl t * (2 : ℝ) ^ (2 : ℤ) = fl t * 4 by norm_num] at this
  have htP : |t - abs P| ≤ 3 * δ + 10 * u := by
    have e : (t - |P|) * (t + |P|) = (c - 4 * P ^ 2) / 4 := by
      rw [show (t - |P|) * (t + |P|) = t ^ 2 - |P| ^ 2 by ring, sq_abs, ht2]; ring
    have hpos : 1 / 4 ≤ t + |P| := by have := abs_nonneg P; linarith
    have h1 : |t - abs P| * (t + |P|) ≤ (3 * δ + 10 * u) / 4 := by
      rw [← abs_of_nonneg (show 0 ≤ t + |P| by linarith), ← abs_mul, e, abs_div, abs_of_pos (show (0 : ℝ) < 4 by norm_num)]
      linarith
    have h2 : |t - abs P| * (1 / 4) ≤ |t - abs P| * (t + |P|) := mul_le_mul_of_nonneg_left hpos (abs_nonneg _)
    linarith
  have hs := h.accurate hp1 t
  rw [← hudef, abs_of_pos (show 0 < t by linarith)] at hs
  set s := fl t with hsdef
  obtain ⟨t1, t2⟩ := abs_le.1 htP
  obtain ⟨s1, s2⟩ := abs_le.1 hs
  have htle : t ≤ 9 / 8 := by linarith
  have hut : u * t ≤ u * (9 / 8) := mul_le_mul_of_nonneg_left htle hu0.le
  have hut2 : u * t ≤ 1 / 256 * t := mul_le_mul_of_nonneg_right hu (by linarith)
  have hs0 : 255 / 256 * (1 / 4) ≤ s := by linarith
  have hsP : |s - abs P| ≤ 3 * δ + 12 * u := abs_le.2 ⟨by linarith, by linarith⟩
  obtain ⟨σ, hσ, hσP⟩ : ∃ σ : ℝ, (σ = 1 ∨ σ = -1) ∧ σ * P = |P| := by
    rcases le_total 0 P with h0 | h0
    · exact ⟨1, Or.inl rfl, by rw [abs_of_nonneg h0, one_mul]⟩
    · exact ⟨-1, Or.inr rfl, by rw [abs_of_nonpos h0, neg_one_mul]⟩
  have hσ2 : σ * σ = 1 := by rcases hσ with rfl | rfl <;> norm_num
  have hσ1 : |σ| = 1 := by rcases hσ with rfl | rfl <;> norm_num
  refine ⟨s, σ, ?_, ?_, by positivity, hσ, ?_, ?_⟩
  · rw [cf_div _ (by norm_num), e4, cf_sqrt (by linarith)]
  · rw [cf_mul, es4]
  · rw [hσP]; linarith
  · intro d O hO hd
    have hs4 : 255 / 256 ≤ s * 4 := by linarith
    have e : d / (s * 4) - σ * O = ((d - 4 * P * O) + 4 * (σ * O) * (|P| - s)) / (s * 4) := by
      rw [← hσP, eq_div_iff (by positivity), sub_mul, div_mul_cancel₀ _ (by positivity)]
      linear_combination (-(4 * P * O)) * hσ2
    have hnum : |(d - 4 * P * O) + 4 * (σ * O) * (|P| - s)| ≤ 14 * δ + 51 * u := by
      refine (abs_add_le _ _).trans ?_
      have : |4 * (σ * O) * (|P| - s)| ≤ 4 * (3 * δ + 12 * u) := by
        rw [abs_mul, abs_mul, abs_mul, hσ1, one_mul, abs_of_pos (show (0 : ℝ) < 4 by norm_num), abs_sub_comm (abs P) s]
        have : |O| * |s - abs P| ≤ 1 * (3 * δ + 12 * u) := mul_le_mul hO hsP (abs_nonneg _) zero_le_one
        linarith
      linarith
    have hex : |d / (s * 4) - σ * O| ≤ (14 * δ + 51 * u) * (256 / 255) := by
      rw [e, abs_div, abs_of_pos (show 0 < s * 4 by linarith), div_le_iff₀ (by linarith)]
      refine hnum.trans ?_
      have h1 : 1 ≤ 256 / 255 * (s * 4) := by linarith
      have h2 : 0 ≤ 14 * δ + 51 * u := by positivity
      nlinarith
    have hsize : |d / (s * 4)| ≤ 3 / 2 := by
      have h1 : |d / (s * 4)| ≤ |d / (s * 4) - σ * O| + |σ * O| := by
        have := abs_add_le (d / (s * 4) - σ * O) (σ * O); rwa [sub_add_cancel] at this
      have h2 : |σ * O| ≤ 1 := by rw [abs_mul, hσ1, one_mul]; exact hO
      have : (14 * δ + 51 * u) * (256 / 255) ≤ 1 / 2 := by linarith
      linarith
    have hr := (h.accurate hp1 (d / (s * 4))).trans (mul_le_mul_of_nonneg_left hsize hu0.le)
    rw [← hudef] at hr
    calc |fl (d / (s * 4)) - σ * O| ≤ |fl (d / (s * 4)) - d / (s * 4)| + |d / (s * 4) - σ * O| := abs_sub_le _ _ _
      _ ≤ 15 * δ + 56 * u := by linarith

/-- Every component of a unit quaternion, and every entry of its matrix, is at most one in size. -/
theorem unit_entries {Q : Quat ℝ} (hQ : Q.w ^ 2 + Q.i ^ 2 + Q.j ^ 2 + Q.k ^ 2 = 1) :
    (|Q.w| ≤ 1 ∧ |Q.i| ≤ 1 ∧ |Q.j| ≤ 1 ∧ |Q.k| ≤ 1) ∧ ∀ r c, |Verif.Att.dcmOfQuat Q r c| ≤ 1 := by
  have hsq : ∀ x : ℝ, x ^ 2 ≤ 1 → |x| ≤ 1 := fun x hx => (sq_le_one_iff_abs_le_one x).1 hx
  refine ⟨⟨hsq _ ?_, hsq _ ?_, hsq _ ?_, hsq _ ?_⟩, fun r c => ?_⟩
  · nlinarith [sq_nonneg Q.i, sq_nonneg Q.j, sq_nonneg Q.k]
  · nlinarith [sq_nonneg Q.w, sq_nonneg Q.j, sq_nonneg Q.k]
  · nlinarith [sq_nonneg Q.i, sq_nonneg Q.w, sq_nonneg Q.k]
  · nlinarith [sq_nonneg Q.i, sq_nonneg Q.j, sq_nonneg Q.w]
  · have := sq_nonneg Q.w; have := sq_nonneg Q.i; have := sq_nonneg Q.j; have := sq_nonneg Q.k
    rw [abs_le]
    have h1 := sq_nonneg (Q.w + Q.i); have h2 := sq_nonneg (Q.w - Q.i); have h3 := sq_nonneg (Q.w + Q.j)
    have h4 := sq_nonneg (Q.w - Q.j); have h5 := sq_nonneg (Q.w + Q.k); have h6 := sq_nonneg (Q.w - Q.k)
    have h7 := sq_nonneg (Q.i + Q.j); have h8 := sq_nonneg (Q.i - Q.j); have h9 := sq_nonneg (Q.i + Q.k)
    have h10 := sq_nonneg (Q.i - Q.k); have h11 := sq_nonneg (Q.j + Q.k); have h12 := sq_nonneg (Q.j - Q.k)
    fin_cases r <;> fin_cases c <;> simp [Verif.Att.dcmOfQuat] <;> constructor <;> linarith

/-- `q` is a quaternion of numbers, each within `ε` of the component of `σ Q`. -/
def NearQuat {lib : Libm} (q : Quat (CF fl lib)) (Q : Quat ℝ) (σ ε : ℝ) : Prop :=
  ∃ w i j k : ℝ, q = ⟨CF.num w, CF.num i, CF.num j, CF.num k⟩ ∧
    |w - σ * Q.w| ≤ ε ∧ |i - σ * Q.i| ≤ ε ∧ |j - σ * Q.j| ≤ ε ∧ |k - σ * Q.k| ≤ ε

/-- **C182**: let the entries of a matrix be within `δ ≤ 1/64` of those of the rotation matrix of a unit quaternion `Q`. In floating point with at
least eight bits the conversion succeeds, and every component is within `15 δ + 56 u` of `Q` or of `-Q`, where `u` is the rounding
unit. -/
theorem C182_near (hp : 8 ≤ p) (h : Nearest p fl) (lib : Libm) (m : Fin 3 → Fin 3 → ℝ) (Q : Quat ℝ) (hQ : Q.w ^ 2 + Q.i ^ 2 + Q.j ^ 2 + Q.k ^ 2 = 1)
    (δ : ℝ) (hδ : δ ≤ 1 / 64) (hm : ∀ r c, |m r c - Verif.Att.dcmOfQuat Q r c| ≤ δ) :
    ∃ q σ, quatOfDcm (fun r c => (CF.num (m r c) : CF fl lib)) = some q ∧ (σ = 1 ∨ σ = -1) ∧ NearQuat q Q σ (15 * δ + 56 * 2 ^ (-p : ℤ)) := by
  have hp1 : 1 ≤ p := by omega
  have hδ0 : 0 ≤ δ := (abs_nonneg _).trans (hm 0 0)
  have hu := unit_le hp
  have hu0 : (0 : ℝ) < 2 ^ (-p : ℤ) := by positivity
  obtain ⟨⟨lw, li, lj, lk⟩, lm⟩ := unit_entries hQ
  have quarter : fl (1 / 4) = 1 / 4 := by
    rw [show (1 / 4 : ℝ) = 2 ^ (-2 : ℤ) by norm_num]
    exact h.fix (isFloat_zpow hp1 _)
  set R := Verif.Att.dcmOfQuat Q with hR
  have neg : ∀ {x X : ℝ}, |x - X| ≤ δ → |-x - -X| ≤ δ := fun {x X} hx => by rw [show -x - -X = -(x - X) by ring, abs_neg]; exact hx
  have nle : ∀ {X : ℝ}, |X| ≤ 1 → |-X| ≤ 1 := fun {X} hx => by rwa [abs_neg]
  have d1 := pivot_near hp h hδ (hm 0 0) (hm 1 1) (hm 2 2) (lm 0 0) (lm 1 1) (lm 2 2)
  have d2 := pivot_near hp h hδ (hm 0 0) (neg (hm 1 1)) (neg (hm 2 2)) (lm 0 0) (nle (lm 1 1)) (nle (lm 2 2))
  have d3 := pivot_near hp h hδ (neg (hm 0 0)) (hm 1 1) (neg (hm 2 2)) (nle (lm 0 0)) (lm 1 1) (nle (lm 2 2))
  have d4 := pivot_near hp h hδ (neg (hm 0 0)) (neg (hm 1 1)) (hm 2 2) (nle (lm 0 0)) (nle (lm 1 1)) (lm 2 2)
  simp only [← sub_eq_add_neg] at d2 d3 d4
  have add : ∀ a b c d : Fin 3, |fl (m a b + m c d) - (R a b + R c d)| ≤ 2 * δ + 3 * 2 ^ (-p : ℤ) := fun a b c d =>
    numer_near hp h hδ (hm a b) (hm c d) (lm a b) (lm c d)
  have sub : ∀ a b c d : Fin 3, |fl (m a b - m c d) - (R a b - R c d)| ≤ 2 * δ + 3 * 2 ^ (-p : ℤ) := fun a b c d => by
    have := numer_near hp h hδ (hm a b) (neg (hm c d)) (lm a b) (nle (lm c d))
    simpa only [← sub_eq_add_neg] using this
  have g1 : 1 + R 0 0 + R 1 1 + R 2 2 = 4 * Q.w ^ 2 := by simp [hR, Verif.Att.dcmOfQuat]; linear_combination (-1) * hQ
  have g2 : 1 + R 0 0 - R 1 1 - R 2 2 = 4 * Q.i ^ 2 := by simp [hR, Verif.Att.dcmOfQuat]; linear_combination (-1) * hQ
  have g3 : 1 - R 0 0 + R 1 1 - R 2 2 = 4 * Q.j ^ 2 := by simp [hR, Verif.Att.dcmOfQuat]; linear_combination (-1) * hQ
  have g4 : 1 - R 0 0 - R 1 1 + R 2 2 = 4 * Q.k ^ 2 := by simp [hR, Verif.Att.dcmOfQuat]; linear_combination (-1) * hQ
  have a1 : R 1 2 - R 2 1 = 4 * Q.w * Q.i := by simp [hR, Verif.Att.dcmOfQuat]; ring
  have a2 : R 2 0 - R 0 2 = 4 * Q.w * Q.j := by simp [hR, Verif.Att.dcmOfQuat]; ring
  have a3 : R 0 1 - R 1 0 = 4 * Q.w * Q.k := by simp [hR, Verif.Att.dcmOfQuat]; ring
  have b1 : R 0 1 + R 1 0 = 4 * Q.i * Q.j := by simp [hR, Verif.Att.dcmOfQuat]; ring
  have b2 : R 2 0 + R 0 2 = 4 * Q.i * Q.k := by simp [hR, Verif.Att.dcmOfQuat]; ring
  have b3 : R 1 2 + R 2 1 = 4 * Q.j * Q.k := by simp [hR, Verif.Att.dcmOfQuat]; ring
  rw [g1] at d1
  rw [g2] at d2
  rw [g3] at d3
  rw [g4] at d4
  have A1 := sub 1 2 2 1
  have A2 := sub 2 0 0 2
  have A3 := sub 0 1 1 0
  have B1 := add 0 1 1 0
  have B2 := add 2 0 0 2
  have B3 := add 1 2 2 1
  rw [a1] at A1
  rw [a2] at A2
  rw [a3] at A3
  rw [b1] at B1
  rw [b2] at B2
  rw [b3] at B3
  have sw : ∀ a b : ℝ, 4 * a * b = 4 * b * a := fun a b => by ring
  unfold quatOfDcm
  dsimp only
  rw [cf_one, cf_add, h.two hp1, cf_add, h.four hp1, cf_div 1 (by norm_num : (4 : ℝ) ≠ 0), quarter]
  have E1 : (CF.num 1 + CF.num (m 0 0) + CF.num (m 1 1) + CF.num (m 2 2) : CF fl lib) =
      CF.num (fl (fl (fl (1 + m 0 0) + m 1 1) + m 2 2)) := by simp only [cf_add]
  have E2 : (CF.num 1 + CF.num (m 0 0) - CF.num (m 1 1) - CF.num (m 2 2) : CF fl lib) =
      CF.num (fl (fl (fl (1 + m 0 0) - m 1 1) - m 2 2)) := by simp only [cf_add, cf_sub]
  have E3 : (CF.num 1 - CF.num (m 0 0) + CF.num (m 1 1) - CF.num (m 2 2) : CF fl lib) =
      CF.num (fl (fl (fl (1 - m 0 0) + m 1 1) - m 2 2)) := by simp only [cf_add, cf_sub]
  have E4 : (CF.num 1 - CF.num (m 0 0) - CF.num (m 1 1) + CF.num (m 2 2) : CF fl lib) =
      CF.num (fl (fl (fl (1 - m 0 0) - m 1 1) + m 2 2)) := by simp only [cf_add, cf_sub]
  rw [E1, E2, E3, E4]
  clear E1 E2 E3 E4
  have f1 := h.float (fl (fl (1 + m 0 0) + m 1 1) + m 2 2)
  have f2 := h.float (fl (fl (1 + m 0 0) - m 1 1) - m 2 2)
  have f3 := h.float (fl (fl (1 - m 0 0) + m 1 1) - m 2 2)
  have f4 := h.float (fl (fl (1 - m 0 0) - m 1 1) + m 2 2)
  generalize fl (fl (fl (1 + m 0 0) + m 1 1) + m 2 2) = c1 at *
  generalize fl (fl (fl (1 + m 0 0) - m 1 1) - m 2 2) = c2 at *
  generalize fl (fl (fl (1 - m 0 0) + m 1 1) - m 2 2) = c3 at *
  generalize fl (fl (fl (1 - m 0 0) - m 1 1) + m 2 2) = c4 at *
  by_cases h1 : 1 / 4 < c1
  · obtain ⟨s, σ, e1, e2, e3, hσ, hs, ho⟩ := branch_near hp h lib hδ0 hδ f1 h1 d1 lw
    rw [if_pos ((cf_lt _ _).2 h1), e1, e2]
    simp only [cf_sub, cf_div _ e3]
    exact ⟨_, σ, rfl, hσ, _, _, _, _, rfl, hs, ho _ _ li A1, ho _ _ lj A2, ho _ _ lk A3⟩
  rw [if_neg (mt (cf_lt _ _).1 h1)]
  by_cases h2 : 1 / 4 < c2
  · obtain ⟨s, σ, e1, e2, e3, hσ, hs, ho⟩ := branch_near hp h lib hδ0 hδ f2 h2 d2 li
    rw [if_pos ((cf_lt _ _).2 h2), e1, e2]
    simp only [cf_add, cf_sub, cf_div _ e3]
    exact ⟨_, σ, rfl, hσ, _, _, _, _, rfl, ho _ _ lw (sw Q.i Q.w ▸ A1), hs, ho _ _ lj B1, ho _ _ lk B2⟩
  rw [if_neg (mt (cf_lt _ _).1 h2)]
  by_cases h3 : 1 / 4 < c3
  · obtain ⟨s, σ, e1, e2, e3, hσ, hs, ho⟩ := branch_near hp h lib hδ0 hδ f3 h3 d3 lj
    rw [if_pos ((cf_lt _ _).2 h3), e1, e2]
    simp only [cf_add, cf_sub, cf_div _ e3]
    exact ⟨_, σ, rfl, hσ, _, _, _, _, rfl, ho _ _ lw (sw Q.j Q.w ▸ A2), ho _ _ li (sw Q.j Q.i ▸ B1), hs, ho _ _ lk B3⟩
  rw [if_neg (mt (cf_lt _ _).1 h3)]
  by_cases h4 : 1 / 4 < c4
  · obtain ⟨s, σ, e1, e2, e3, hσ, hs, ho⟩ := branch_near hp h lib hδ0 hδ f4 h4 d4 lk
    rw [if_pos ((cf_lt _ _).2 h4), e1, e2]
    simp only [cf_add, cf_sub, cf_div _ e3]
    exact ⟨_, σ, rfl, hσ, _, _, _, _, rfl, ho _ _ lw (sw Q.k Q.w ▸ A3), ho _ _ li (sw Q.k Q.i ▸ B2), ho _ _ lj (sw Q.k Q.j ▸ B3), hs⟩
  exfalso
  have l1 := (abs_le.1 d1).1
  have l2 := (abs_le.1 d2).1
  have l3 := (abs_le.1 d3).1
  have l4 := (abs_le.1 d4).1
  linarith

/-- The hypotheses are met by the half turn about the third axis, where the first three pivots are rejected. -/
example : Nearest 53 (rnd 53) ∧ ((0 : ℝ) ^ 2 + 0 ^ 2 + 0 ^ 2 + 1 ^ 2 = 1) ∧
    ∀ r c, |(![![-1, 0, 0], ![0, -1, 0], ![0, 0, 1]] : Fin 3 → Fin 3 → ℝ) r c - Verif.Att.dcmOfQuat (⟨0, 0, 0, 1⟩ : Quat ℝ) r c| ≤ 0 := by
  refine ⟨rnd_nearest (by norm_num), by norm_num, fun r c => ?_⟩
  fin_cases r <;> fin_cases c <;> simp [Verif.Att.dcmOfQuat]

/-- Four signed squares, each rounded, added with three roundings. -/
theorem diag_near (hp : 8 ≤ p) (h : Nearest p fl) {a b c d A B C D : ℝ} (hN : |a| + |b| + |c| + |d| ≤ 33 / 32)
    (ha : |A - a| ≤ 2 ^ (-p : ℤ) * |a|) (hb : |B - b| ≤ 2 ^ (-p : ℤ) * |b|) (hc : |C - c| ≤ 2 ^ (-p : ℤ) * |c|)
    (hd : |D - d| ≤ 2 ^ (-p : ℤ) * |d|) : |fl (fl (fl (A + B) + C) + D) - (a + b + c + d)| ≤ 6 * 2 ^ (-p : ℤ) := by
  have hu := unit_le hp
  have hu0 : (0 : ℝ) < 2 ^ (-p : ℤ) := by positivity
  set u : ℝ := 2 ^ (-p : ℤ) with hudef
  have acc : ∀ x K : ℝ, |x| ≤ K → |fl x - x| ≤ u * K := fun x K hx =>
    (h.accurate (by omega) x).trans (mul_le_mul_of_nonneg_left hx hu0.le)
  have uN : u * |a| + u * |b| + u * |c| + u * |d| ≤ u * (33 / 32) := by
    rw [← mul_add, ← mul_add, ← mul_add]
    exact mul_le_mul_of_nonneg_left hN hu0.le
  have na := mul_nonneg hu0.le (abs_nonneg a); have nb := mul_nonneg hu0.le (abs_nonneg b)
  have nc := mul_nonneg hu0.le (abs_nonneg c); have nd := mul_nonneg hu0.le (abs_nonneg d)
  obtain ⟨A1, A2⟩ := abs_le.1 ha
  obtain ⟨B1, B2⟩ := abs_le.1 hb
  obtain ⟨C1, C2⟩ := abs_le.1 hc
  obtain ⟨D1, D2⟩ := abs_le.1 hd
  have a1 := neg_abs_le a; have a2 := le_abs_self a; have b1 := neg_abs_le b; have b2 := le_abs_self b
  have c1 := neg_abs_le c; have c2 := le_abs_self c; have d1 := neg_abs_le d; have d2 := le_abs_self d
  have pa := abs_nonneg a; have pb := abs_nonneg b; have pc := abs_nonneg c; have pd := abs_nonneg d
  obtain ⟨s1, s2⟩ := abs_le.1 (acc (A + B) (9 / 8) (abs_le.2 ⟨by linarith, by linarith⟩))
  obtain ⟨t1, t2⟩ := abs_le.1 (acc (fl (A + B) + C) (9 / 8) (abs_le.2 ⟨by linarith, by linarith⟩))
  obtain ⟨r1, r2⟩ := abs_le.1 (acc (fl (fl (A + B) + C) + D) (9 / 8) (abs_le.2 ⟨by linarith, by linarith⟩))
  exact abs_le.2 ⟨by linarith, by linarith⟩

/-- Twice the rounded sum of two rounded products. -/
theorem off_near (hp : 8 ≤ p) (h : Nearest p fl) {x y X Y : ℝ} (hN : |x| + |y| ≤ 33 / 64) (hx : |X - x| ≤ 2 ^ (-p : ℤ) * |x|)
    (hy : |Y - y| ≤ 2 ^ (-p : ℤ) * |y|) : |fl (2 * fl (X + Y)) - 2 * (x + y)| ≤ 6 * 2 ^ (-p : ℤ) := by
  have hu := unit_le hp
  have hu0 : (0 : ℝ) < 2 ^ (-p : ℤ) := by positivity
  set u : ℝ := 2 ^ (-p : ℤ) with hudef
  have e2 : fl (2 * fl (X + Y)) = 2 * fl (X + Y) := by
    have := h.fix ((h.float (X + Y)).scale 1)
    rwa [zpow_one, mul_comm] at this
  have uN : u * |x| + u * |y| ≤ u * (33 / 64) := by
    rw [← mul_add]
    exact mul_le_mul_of_nonneg_left hN hu0.le
  have nx := mul_nonneg hu0.le (abs_nonneg x); have ny := mul_nonneg hu0.le (abs_nonneg y)
  obtain ⟨A1, A2⟩ := abs_le.1 hx
  obtain ⟨B1, B2⟩ := abs_le.1 hy
  have a1 := neg_abs_le x; have a2 := le_abs_self x; have b1 := neg_abs_le y; have b2 := le_abs_self y
  obtain ⟨s1, s2⟩ := abs_le.1 ((h.accurate (by omega) (X + Y)).trans
    (mul_le_mul_of_nonneg_left (show |X + Y| ≤ 1 from abs_le.2 ⟨by linarith, by linarith⟩) hu0.le))
  rw [e2]
  exact abs_le.2 ⟨by linarith, by linarith⟩

/-- The matrix of a quaternion whose squared length is at most `33/32` has numbers as entries, each within `6 u` of the exact one. The library's
square may be off by one rounding. -/
theorem C182_matrix (hp : 8 ≤ p) (h : Nearest p fl) (lib : Libm) (hpow : ∀ x, |lib.powf x 2 - x ^ 2| ≤ 2 ^ (-p : ℤ) * x ^ 2) (q : Quat ℝ)
    (hq : q.w ^ 2 + q.i ^ 2 + q.j ^ 2 + q.k ^ 2 ≤ 33 / 32) :
    ∃ m : Fin 3 → Fin 3 → ℝ, (dcmOfQuat ⟨CF.num q.w, CF.num q.i, CF.num q.j, CF.num q.k⟩ : Mat (CF fl lib) 3 3) = (fun r c => CF.num (m r c)) ∧
      ∀ r c, |m r c - Verif.Att.dcmOfQuat q r c| ≤ 6 * 2 ^ (-p : ℤ) := by
  have hp1 : 1 ≤ p := by omega
  obtain ⟨s, i, j, k⟩ := q
  simp only at hq
  have pw : ∀ x, |lib.powf x 2 - x ^ 2| ≤ 2 ^ (-p : ℤ) * |x ^ 2| := fun x => by rw [abs_of_nonneg (sq_nonneg x)]; exact hpow x
  have pn : ∀ x, |-lib.powf x 2 - -x ^ 2| ≤ 2 ^ (-p : ℤ) * |-x ^ 2| := fun x => by
    rw [show -lib.powf x 2 - -x ^ 2 = -(lib.powf x 2 - x ^ 2) by ring, abs_neg, abs_neg]; exact pw x
  have ml : ∀ x y : ℝ, |fl (x * y) - x * y| ≤ 2 ^ (-p : ℤ) * |x * y| := fun x y => h.accurate hp1 _
  have mn : ∀ x y : ℝ, |-fl (x * y) - -(x * y)| ≤ 2 ^ (-p : ℤ) * |-(x * y)| := fun x y => by
    rw [show -fl (x * y) - -(x * y) = -(fl (x * y) - x * y) by ring, abs_neg, abs_neg]; exact ml x y
  have am : ∀ x y : ℝ, |x * y| ≤ (x ^ 2 + y ^ 2) / 2 := fun x y => by
    rw [abs_le]; constructor <;> nlinarith [sq_nonneg (x + y), sq_nonneg (x - y)]
  have an : ∀ x y : ℝ, |-(x * y)| ≤ (x ^ 2 + y ^ 2) / 2 := fun x y => by rw [abs_neg]; exact am x y
  have ps : ∀ x : ℝ, |x ^ 2| = x ^ 2 := fun x => abs_of_nonneg (sq_nonneg x)
  have ns : ∀ x : ℝ, |-x ^ 2| = x ^ 2 := fun x => by rw [abs_neg, ps]
  refine ⟨![![fl (fl (fl (lib.powf s 2 + lib.powf i 2) - lib.powf j 2) - lib.powf k 2), fl (2 * fl (fl (i * j) + fl (s * k))),
      fl (2 * fl (fl (i * k) - fl (s * j)))],
    ![fl (2 * fl (fl (i * j) - fl (s * k))), fl (fl (fl (lib.powf s 2 - lib.powf i 2) + lib.powf j 2) - lib.powf k 2),
      fl (2 * fl (fl (j * k) + fl (s * i)))],
    ![fl (2 * fl (fl (i * k) + fl (s * j))), fl (2 * fl (fl (j * k) - fl (s * i))),
      fl (fl (fl (lib.powf s 2 - lib.powf i 2) - lib.powf j 2) + lib.powf k 2)]], ?_, ?_⟩
  · unfold dcmOfQuat
    dsimp only
    rw [cf_one, cf_add, h.two hp1]
    simp only [cf_powf2, cf_mul, cf_add, cf_sub]
    funext r c
    fin_cases r <;> fin_cases c <;> rfl
  · have D1 := diag_near hp h (by rw [ps, ps, ns, ns]; exact hq) (pw s) (pw i) (pn j) (pn k)
    have D2 := diag_near hp h (by rw [ps, ns, ps, ns]; exact hq) (pw s) (pn i) (pw j) (pn k)
    have D3 := diag_near hp h (by rw [ps, ns, ns, ps]; exact hq) (pw s) (pn i) (pn j) (pw k)
    have O1 := off_near hp h (by linarith [am i j, am s k]) (ml i j) (ml s k)
    have O2 := off_near hp h (by linarith [am i k, an s j]) (ml i k) (mn s j)
    have O3 := off_near hp h (by linarith [am i j, an s k]) (ml i j) (mn s k)
    have O4 := off_near hp h (by linarith [am j k, am s i]) (ml j k) (ml s i)
    have O5 := off_near hp h (by linarith [am i k, am s j]) (ml i k) (ml s j)
    have O6 := off_near hp h (by linarith [am j k, an s i]) (ml j k) (mn s i)
    simp only [← sub_eq_add_neg] at D1 D2 D3 O1 O2 O3 O4 O5 O6
    intro r c
    fin_cases r <;> fin_cases c <;> simp [Verif.Att.dcmOfQuat, one_add_one_eq_two] at * <;> assumption

/-- **C182**: from a quaternion of nearly unit length to its matrix and back, in floating point with at least eleven bits. If the squared length is
within `ε ≤ 1/128` of one, the result is the quaternion or its negative with every component off by at most `16 ε + 146 u`. -/
theorem C182_round_trip (hp : 11 ≤ p) (h : Nearest p fl) (lib : Libm) (hpow : ∀ x, |lib.powf x 2 - x ^ 2| ≤ 2 ^ (-p : ℤ) * x ^ 2) (q : Quat ℝ) (ε : ℝ)
    (hε : ε ≤ 1 / 128) (hq : |q.w ^ 2 + q.i ^ 2 + q.j ^ 2 + q.k ^ 2 - 1| ≤ ε) :
    ∃ q' σ, quatOfDcm (dcmOfQuat ⟨(CF.num q.w : CF fl lib), CF.num q.i, CF.num q.j, CF.num q.k⟩) = some q' ∧ (σ = 1 ∨ σ = -1) ∧
      NearQuat q' q σ (16 * ε + 146 * 2 ^ (-p : ℤ)) := by
  obtain ⟨n1, n2⟩ := abs_le.1 hq
  obtain ⟨m, em, hm⟩ := C182_matrix (by omega) h lib hpow q (by linarith)
  have hu0 : (0 : ℝ) < 2 ^ (-p : ℤ) := by positivity
  have hu : (2 : ℝ) ^ (-p : ℤ) ≤ 1 / 2048 := by
    calc (2 : ℝ) ^ (-p : ℤ) ≤ 2 ^ (-11 : ℤ) := zpow_le_zpow_right₀ (by norm_num) (by omega)
      _ = _ := by norm_num
  obtain ⟨w, i, j, k⟩ := q
  simp only at hq n1 n2 em hm ⊢
  set n := w ^ 2 + i ^ 2 + j ^ 2 + k ^ 2 with hn
  set r := √n with hr
  have hr0 : 0 < r := Real.sqrt_pos.2 (by linarith)
  have hr2 : r ^ 2 = n := Real.sq_sqrt (by linarith)
  have hQ : (w / r) ^ 2 + (i / r) ^ 2 + (j / r) ^ 2 + (k / r) ^ 2 = 1 := by
    simp only [div_pow, hr2]
    rw [← add_div, ← add_div, ← add_div, ← hn, div_self (by linarith)]
  have hent : ∀ a b, Verif.Att.dcmOfQuat (⟨w, i, j, k⟩ : Quat ℝ) a b = n * Verif.Att.dcmOfQuat (⟨w / r, i / r, j / r, k / r⟩ : Quat ℝ) a b := by
    intro a b
    rw [← hr2]
    fin_cases a <;> fin_cases b <;> simp [Verif.Att.dcmOfQuat] <;> field_simp
  obtain ⟨⟨lw, li, lj, lk⟩, lm⟩ := unit_entries (Q := ⟨w / r, i / r, j / r, k / r⟩) hQ
  simp only at lw li lj lk
  obtain ⟨q', σ, e, hσ, w', i', j', k', e', dw, di, dj, dk⟩ := C182_near (by omega) h lib m ⟨w / r, i / r, j / r, k / r⟩ hQ (ε + 6 * 2 ^ (-p : ℤ))
    (by linarith) (fun a b => by
      have h1 := hm a b
      rw [hent] at h1
      refine (abs_sub_le _ _ _).trans (show _ ≤ 6 * 2 ^ (-p : ℤ) + ε from add_le_add h1 ?_) |>.trans_eq (add_comm _ _)
      rw [← sub_one_mul, abs_mul]
      calc _ ≤ ε * 1 := mul_le_mul hq (lm a b) (abs_nonneg _) ((abs_nonneg _).trans hq)
        _ = ε := mul_one ε)
  have hr1 : |1 - r| ≤ ε := by
    have h1 : |1 - r| * (1 + r) = |n - 1| := by
      rw [← abs_of_pos (show 0 < 1 + r by linarith), ← abs_mul, abs_sub_comm n 1, ← hr2]; congr 1; ring
    have h2 := mul_nonneg (abs_nonneg (1 - r)) hr0.le
    linarith
  have hσ1 : |σ| = 1 := by rcases hσ with rfl | rfl <;> norm_num
  have fin : ∀ x' x : ℝ, |x / r| ≤ 1 → |x' - σ * (x / r)| ≤ 15 * (ε + 6 * 2 ^ (-p : ℤ)) + 56 * 2 ^ (-p : ℤ) →
      |x' - σ * x| ≤ 16 * ε + 146 * 2 ^ (-p : ℤ) := by
    intro x' x hx hx'
    have e1 : σ * (x / r) - σ * x = σ * ((1 - r) * (x / r)) := by field_simp
    have e2 : |σ * (x / r) - σ * x| ≤ ε * 1 := by
      rw [e1, abs_mul, hσ1, one_mul, abs_mul]
      exact mul_le_mul hr1 hx (abs_nonneg _) ((abs_nonneg _).trans hr1)
    have := abs_sub_le x' (σ * (x / r)) (σ * x)
    linarith
  refine ⟨q', σ, ?_, hσ, w', i', j', k', e', fin _ _ lw dw, fin _ _ li di, fin _ _ lj dj, fin _ _ lk dk⟩
  rw [em]
  exact e

/-- The hypotheses are met: a library that rounds the exact square, and the quaternion `(0.6, 0, 0.8, 0)`. -/
example : ∃ lib : Libm, (∀ x, |lib.powf x 2 - x ^ 2| ≤ 2 ^ (-(53 : ℕ) : ℤ) * x ^ 2) ∧ |(0.6 : ℝ) ^ 2 + 0 ^ 2 + 0.8 ^ 2 + 0 ^ 2 - 1| ≤ 0 := by
  refine ⟨⟨0, 0, 0, 0, 0, fun x _ => rnd 53 (x ^ 2), 0⟩, fun x => ?_, by norm_num⟩
  have := (rnd_nearest (p := 53) (by norm_num)).accurate (by norm_num) (x ^ 2)
  rwa [abs_of_nonneg (sq_nonneg x)] at this

end Verif.Float
