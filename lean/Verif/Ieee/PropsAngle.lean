import Verif.Ieee.Angle
import Verif.Ieee.PropsNorm
import Mathlib.Analysis.Real.Pi.Bounds

/-!
# C148, C149: conversions between degrees and radians in IEEE arithmetic

The true results are `x * π / 180` and `x * 180 / π`.
-/

namespace Verif.Ieee

open Real (pi_gt_d20 pi_lt_d20)

variable {F : Format} {fl : ℝ → ℝ} {n : ℕ}

/-- `p` stands for π in the format: a number of the format within half a unit of π. -/
def IsPi (F : Format) (p : ℝ) : Prop := OnGrid F p ∧ |p - Real.pi| ≤ unit F / 2 * Real.pi

theorem isPi64 : IsPi binary64 pi64 := by
  refine ⟨⟨884279719003555, -48, by norm_num [binary64], by norm_num [binary64], ?_⟩, ?_⟩
  · unfold pi64
    norm_num
  · have h1 := pi_gt_d20
    have h2 := pi_lt_d20
    unfold pi64 unit binary64
    rw [abs_le]
    constructor <;> norm_num <;> linarith

theorem isPi32 : IsPi binary32 pi32 := by
  refine ⟨⟨13176795, -22, by norm_num [binary32], by norm_num [binary32], ?_⟩, ?_⟩
  · unfold pi32
    norm_num
  · have h1 := pi_gt_d20
    have h2 := pi_lt_d20
    unfold pi32 unit binary32
    rw [abs_le]
    constructor <;> norm_num <;> linarith

theorem unit_small (hp : 8 ≤ F.p) : unit F ≤ 1 / 256 := by
  unfold unit
  rw [zpow_neg, zpow_natCast, one_div]
  apply inv_anti₀ (by norm_num)
  have : (2 : ℝ) ^ 8 ≤ 2 ^ F.p := pow_le_pow_right₀ (by norm_num) hp
  linarith

theorem IsPi.bounds (hp : 8 ≤ F.p) {p : ℝ} (h : IsPi F p) : 3 < p ∧ p < 4 := by
  have h1 := pi_gt_d20
  have h2 := pi_lt_d20
  have hu := unit_small hp
  have hu0 := unit_pos (F := F)
  have := abs_le.1 h.2
  have : unit F / 2 * Real.pi ≤ 1 / 512 * 4 := by
    apply mul_le_mul <;> linarith
  constructor <;> linarith

/-- One operation: a result in range is a finite number with a relative error of one rounding. -/
theorem ie_op (hp : 8 ≤ F.p) (h : Rounds F fl) {y : ℝ} (hlo : 2 ^ (F.emin + F.p - 1) ≤ |y|) (hhi : |y| ≤ 2 ^ (F.emax - 1)) :
    (IE.ofReal y : IE F fl) = IE.num (fl y) ∧ Finite F (fl y) ∧ |fl y - y| ≤ unit F * |y| := by
  have he := h.normal (by omega) hlo
  have hpos : (0 : ℝ) < 2 ^ (F.emax - 1) := zpow_pos (by norm_num) _
  have e : (2 : ℝ) ^ F.emax = 2 * 2 ^ (F.emax - 1) := by rw [zpow_sub₀ (by norm_num), zpow_one]; ring
  have hlt : |fl y| < 2 ^ F.emax := by
    have h1 := abs_sub_abs_le_abs_sub (fl y) y
    have hu := unit_small hp
    have : unit F * |y| ≤ 1 / 256 * 2 ^ (F.emax - 1) := mul_le_mul hu hhi (abs_nonneg _) (by norm_num)
    rw [e]
    linarith
  exact ⟨ofReal_num hlt, ⟨(h y).1, hlt⟩, he⟩

/-- Two factors in a row. -/
theorem two_err {u x a b c d : ℝ} (hu0 : 0 ≤ u) (h1 : |a - x * c| ≤ u * |x * c|) (h2 : |b - a * d| ≤ u * |a * d|) :
    |b - x * c * d| ≤ (2 * u + u ^ 2) * |x * c * d| := by
  have t : b - x * c * d = (b - a * d) + (a - x * c) * d := by ring
  have h3 : |(a - x * c) * d| ≤ u * |x * c * d| := by
    rw [abs_mul, abs_mul (x * c) d, ← mul_assoc]
    exact mul_le_mul_of_nonneg_right h1 (abs_nonneg _)
  have h4 : |a * d| ≤ (1 + u) * |x * c * d| := by
    have : a * d = x * c * d + (a - x * c) * d := by ring
    rw [this]
    refine (abs_add_le _ _).trans ?_
    linarith
  rw [t]
  refine (abs_add_le _ _).trans ?_
  have := mul_le_mul_of_nonneg_left h4 hu0
  nlinarith

/-- A product by two factors in a row, both results in range. -/
theorem ie_two (hp : 8 ≤ F.p) (h : Rounds F fl) {x c d : ℝ} (h1 : 2 ^ (F.emin + F.p - 1) ≤ |x * c|) (h2 : |x * c| ≤ 2 ^ (F.emax - 1))
    (h3 : 2 * 2 ^ (F.emin + F.p - 1) ≤ |x * c * d|) (h4 : 2 * |x * c * d| ≤ 2 ^ (F.emax - 1)) :
    ∃ a b, (IE.ofReal (x * c) : IE F fl) = IE.num a ∧ (IE.ofReal (a * d) : IE F fl) = IE.num b ∧ Finite F b ∧
      |b - x * c * d| ≤ (2 * unit F + unit F ^ 2) * |x * c * d| := by
  have hu := unit_small hp
  have hu0 := unit_pos (F := F)
  obtain ⟨e1, _, r1⟩ := ie_op hp h h1 h2
  have hd : |fl (x * c) * d - x * c * d| ≤ 1 / 256 * |x * c * d| := by
    rw [← sub_mul, abs_mul, abs_mul (x * c) d, ← mul_assoc]
    apply mul_le_mul_of_nonneg_right _ (abs_nonneg _)
    exact r1.trans (mul_le_mul_of_nonneg_right hu (abs_nonneg _))
  have t1 := abs_sub_abs_le_abs_sub (fl (x * c) * d) (x * c * d)
  have t2 := abs_sub_abs_le_abs_sub (x * c * d) (fl (x * c) * d)
  rw [abs_sub_comm] at t2
  have hn := abs_nonneg (x * c * d)
  obtain ⟨e2, f2, r2⟩ := ie_op hp h (y := fl (x * c) * d) (by linarith) (by linarith)
  exact ⟨_, _, e1, e2, f2, two_err hu0.le r1 r2⟩

theorem zero_div_num (h : Rounds F fl) {y : ℝ} (hy : y ≠ 0) : (IE.num 0 / IE.num y : IE F fl) = IE.num 0 := by
  rw [div_num _ hy, zero_div, ofReal_num (by rw [h.zero, abs_zero]; exact zpow_pos (by norm_num) _), h.zero]

theorem zero_mul_num (h : Rounds F fl) (y : ℝ) : (IE.num 0 * IE.num y : IE F fl) = IE.num 0 := by
  rw [mul_num, zero_mul, ofReal_num (by rw [h.zero, abs_zero]; exact zpow_pos (by norm_num) _), h.zero]

theorem finite_zero : Finite F 0 := ⟨onGrid_zero, by rw [abs_zero]; exact zpow_pos (by norm_num) _⟩

/-- The magnitudes at which no conversion underflows or overflows. -/
def InRange (F : Format) (x : ℝ) : Prop := x = 0 ∨ (2 ^ (F.emin + F.p + 9) ≤ |x| ∧ |x| ≤ 2 ^ (F.emax - 11))

/-- Multiplied by a factor between `2⁻⁹` and `2⁹` such a number is far from both ends. -/
theorem scaled {x c : ℝ} (h1 : 2 ^ (F.emin + F.p + 9) ≤ |x|) (h2 : |x| ≤ 2 ^ (F.emax - 11)) (hc1 : 1 / 512 ≤ |c|) (hc2 : |c| ≤ 512) :
    2 * 2 ^ (F.emin + F.p - 1) ≤ |x * c| ∧ 2 * |x * c| ≤ 2 ^ (F.emax - 1) := by
  have e1 : (2 : ℝ) ^ (F.emin + F.p + 9) = 1024 * 2 ^ (F.emin + F.p - 1) := by
    rw [show F.emin + F.p + 9 = 10 + (F.emin + F.p - 1) by ring, zpow_add₀ (by norm_num)]
    norm_num
  have e2 : (2 : ℝ) ^ (F.emax - 1) = 1024 * 2 ^ (F.emax - 11) := by
    rw [show F.emax - 1 = 10 + (F.emax - 11) by ring, zpow_add₀ (by norm_num)]
    norm_num
  have p1 : (0 : ℝ) < 2 ^ (F.emin + F.p - 1) := zpow_pos (by norm_num) _
  rw [e1] at h1
  rw [e2, abs_mul]
  generalize (2 : ℝ) ^ (F.emin + F.p - 1) = A at *
  generalize (2 : ℝ) ^ (F.emax - 11) = B at *
  have hx := abs_nonneg x
  constructor
  · have := mul_le_mul h1 hc1 (by norm_num) hx
    linarith
  · have := mul_le_mul h2 hc2 (abs_nonneg c) (hx.trans h2)
    linarith

theorem scaled' {x c : ℝ} (h1 : 2 ^ (F.emin + F.p + 9) ≤ |x|) (h2 : |x| ≤ 2 ^ (F.emax - 11)) (hc1 : 1 / 512 ≤ |c|) (hc2 : |c| ≤ 512) :
    2 ^ (F.emin + F.p - 1) ≤ |x * c| ∧ |x * c| ≤ 2 ^ (F.emax - 1) := by
  obtain ⟨a, b⟩ := scaled h1 h2 hc1 hc2
  have p1 : (0 : ℝ) < 2 ^ (F.emin + F.p - 1) := zpow_pos (by norm_num) _
  have := abs_nonneg (x * c)
  constructor <;> linarith

/-- The result of `to_radians` against the product by the constant in use. -/
theorem radians_near (hp : 8 ≤ F.p) (h : Rounds F fl) {p : ℝ} (hpi : IsPi F p) {x : ℝ} (hx : InRange F x) :
    ∃ r, toRadians (IE.num p) (IE.num 180) (IE.num x : IE F fl) = IE.num r ∧ Finite F r ∧
      |r - x * p / 180| ≤ (2 * unit F + unit F ^ 2) * |x * p / 180| := by
  obtain ⟨b1, b2⟩ := hpi.bounds hp
  unfold toRadians
  rcases hx with rfl | ⟨hlo, hhi⟩
  · exact ⟨0, by rw [zero_mul_num h, zero_div_num h (by norm_num)], finite_zero, by simp⟩
  · have c1 : |p| = p := abs_of_pos (by linarith)
    have c2 : |p * (1 / 180)| = p * (1 / 180) := abs_of_pos (by linarith)
    obtain ⟨g1, g2⟩ := scaled' hlo hhi (c := p) (by rw [c1]; linarith) (by rw [c1]; linarith)
    obtain ⟨g3, g4⟩ := scaled hlo hhi (c := p * (1 / 180)) (by rw [c2]; linarith) (by rw [c2]; linarith)
    rw [← mul_assoc] at g3 g4
    obtain ⟨a, b, e1, e2, f, r⟩ := ie_two hp h g1 g2 g3 g4
    refine ⟨b, ?_, f, ?_⟩
    · rw [mul_num, e1, div_num _ (by norm_num), ← e2, div_eq_mul_one_div]
    · rwa [div_eq_mul_one_div (x * p) 180]

/-- The result of `to_degrees` against the quotient by the constant in use. -/
theorem degrees_near (hp : 8 ≤ F.p) (h : Rounds F fl) {p : ℝ} (hpi : IsPi F p) {x : ℝ} (hx : InRange F x) :
    ∃ r, toDegrees (IE.num p) (IE.num 180) (IE.num x : IE F fl) = IE.num r ∧ Finite F r ∧
      |r - x * 180 / p| ≤ (2 * unit F + unit F ^ 2) * |x * 180 / p| := by
  obtain ⟨b1, b2⟩ := hpi.bounds hp
  have hp0 : p ≠ 0 := by linarith
  unfold toDegrees
  rcases hx with rfl | ⟨hlo, hhi⟩
  · exact ⟨0, by rw [zero_mul_num h, zero_div_num h hp0], finite_zero, by simp⟩
  · have c2 : |180 * (1 / p)| = 180 / p := by rw [mul_one_div]; exact abs_of_pos (by positivity)
    have c3 : (1 : ℝ) / 512 ≤ 180 / p := by rw [le_div_iff₀ (by linarith)]; linarith
    have c4 : 180 / p ≤ 512 := by rw [div_le_iff₀ (by linarith)]; linarith
    obtain ⟨g1, g2⟩ := scaled' hlo hhi (c := 180) (by norm_num) (by norm_num)
    obtain ⟨g3, g4⟩ := scaled hlo hhi (c := 180 * (1 / p)) (by rw [c2]; exact c3) (by rw [c2]; exact c4)
    rw [← mul_assoc] at g3 g4
    obtain ⟨a, b, e1, e2, f, r⟩ := ie_two hp h g1 g2 g3 g4
    refine ⟨b, ?_, f, ?_⟩
    · rw [mul_num, e1, div_num _ hp0, ← e2, div_eq_mul_one_div]
    · rwa [div_eq_mul_one_div (x * 180) p]

/-- From the constant in use to π. -/
theorem to_pi {u r t s : ℝ} (hu0 : 0 ≤ u) (hu : u ≤ 1 / 256) (h1 : |r - s| ≤ (2 * u + u ^ 2) * |s|) (h2 : |s - t| ≤ 3 / 4 * u * |t|) :
    |r - t| ≤ 3 * u * |t| := by
  have h3 := abs_sub_abs_le_abs_sub s t
  have h4 := abs_sub_le r s t
  have ht := abs_nonneg t
  have h5 : |s| ≤ (1 + u) * |t| := by nlinarith
  have h6 : (2 * u + u ^ 2) * |s| ≤ (2 * u + u ^ 2) * ((1 + u) * |t|) := mul_le_mul_of_nonneg_left h5 (by positivity)
  have h7 : (2 * u + u ^ 2) * ((1 + u) * |t|) ≤ 9 / 4 * u * |t| := by
    rw [← mul_assoc]
    apply mul_le_mul_of_nonneg_right _ ht
    have : u * u ≤ 1 / 256 * u := mul_le_mul_of_nonneg_right hu hu0
    nlinarith
  linarith

/-- C148. `to_radians` returns a finite number within three roundings of `x π / 180`. -/
theorem C148_radians (hp : 8 ≤ F.p) (h : Rounds F fl) {p : ℝ} (hpi : IsPi F p) {x : ℝ} (hx : InRange F x) :
    ∃ r, toRadians (IE.num p) (IE.num 180) (IE.num x : IE F fl) = IE.num r ∧ Finite F r ∧
      |r - x * Real.pi / 180| ≤ 3 * unit F * |x * Real.pi / 180| := by
  obtain ⟨r, e, f, hr⟩ := radians_near hp h hpi hx
  refine ⟨r, e, f, to_pi unit_pos.le (unit_small hp) hr ?_⟩
  have hd : x * p / 180 - x * Real.pi / 180 = x / 180 * (p - Real.pi) := by ring
  have e2 : x * Real.pi / 180 = x / 180 * Real.pi := by ring
  rw [hd, e2, abs_mul, abs_mul (x / 180), abs_of_pos Real.pi_pos]
  have := mul_le_mul_of_nonneg_left hpi.2 (abs_nonneg (x / 180))
  have h0 : 0 ≤ unit F * (|x / 180| * Real.pi) := mul_nonneg unit_pos.le (mul_nonneg (abs_nonneg _) Real.pi_pos.le)
  nlinarith

/-- C148. `to_degrees` returns a finite number within three roundings of `x 180 / π`. -/
theorem C148_degrees (hp : 8 ≤ F.p) (h : Rounds F fl) {p : ℝ} (hpi : IsPi F p) {x : ℝ} (hx : InRange F x) :
    ∃ r, toDegrees (IE.num p) (IE.num 180) (IE.num x : IE F fl) = IE.num r ∧ Finite F r ∧
      |r - x * 180 / Real.pi| ≤ 3 * unit F * |x * 180 / Real.pi| := by
  obtain ⟨r, e, f, hr⟩ := degrees_near hp h hpi hx
  obtain ⟨b1, b2⟩ := hpi.bounds hp
  refine ⟨r, e, f, to_pi unit_pos.le (unit_small hp) hr ?_⟩
  have hπ := Real.pi_pos
  have hd : x * 180 / p - x * 180 / Real.pi = x * 180 / Real.pi * ((Real.pi - p) / p) := by
    have : p ≠ 0 := by linarith
    field_simp
  rw [hd, abs_mul, mul_comm]
  apply mul_le_mul_of_nonneg_right _ (abs_nonneg _)
  rw [abs_div, abs_of_pos (show 0 < p by linarith), div_le_iff₀ (by linarith), abs_sub_comm]
  refine hpi.2.trans ?_
  have := pi_lt_d20
  have hu := unit_pos (F := F)
  nlinarith

/-- C148. Degrees converted to radians and back differ from the original by at most five roundings: the error of the constant does not enter. -/
theorem C148_round_trip (hp : 8 ≤ F.p) (h : Rounds F fl) {p : ℝ} (hpi : IsPi F p) {x : ℝ}
    (hx : x = 0 ∨ (2 ^ (F.emin + F.p + 17) ≤ |x| ∧ |x| ≤ 2 ^ (F.emax - 11))) :
    ∃ r, toDegrees (IE.num p) (IE.num 180) (toRadians (IE.num p) (IE.num 180) (IE.num x : IE F fl)) = IE.num r ∧ Finite F r ∧
      |r - x| ≤ 5 * unit F * |x| := by
  obtain ⟨b1, b2⟩ := hpi.bounds hp
  have hu := unit_small hp
  have hu0 := unit_pos (F := F)
  have hx' : InRange F x := by
    rcases hx with h0 | ⟨h1, h2⟩
    · exact Or.inl h0
    · exact Or.inr ⟨(zpow_le_zpow_right₀ (by norm_num) (by omega)).trans h1, h2⟩
  obtain ⟨y, e, _, hy⟩ := radians_near hp h hpi hx'
  have hsq : (2 * unit F + unit F ^ 2) ≤ 1 / 100 := by nlinarith
  have hyr : InRange F y := by
    rcases hx with rfl | ⟨h1, h2⟩
    · left
      simpa using hy
    · right
      have e1 : (2 : ℝ) ^ (F.emin + F.p + 17) = 256 * 2 ^ (F.emin + F.p + 9) := by
        rw [show F.emin + F.p + 17 = 8 + (F.emin + F.p + 9) by ring, zpow_add₀ (by norm_num)]
        norm_num
      have ha : |x * p / 180| = |x| * (p / 180) := by
        rw [mul_div_assoc, abs_mul, abs_of_pos (show 0 < p / 180 by positivity)]
      have t1 := abs_sub_abs_le_abs_sub y (x * p / 180)
      have t2 := abs_sub_abs_le_abs_sub (x * p / 180) y
      rw [abs_sub_comm] at t2
      have t3 : (2 * unit F + unit F ^ 2) * |x * p / 180| ≤ 1 / 100 * |x * p / 180| := mul_le_mul_of_nonneg_right hsq (abs_nonneg _)
      have t4 := hy.trans t3
      rw [ha] at t1 t2 t4
      have hx0 := abs_nonneg x
      have u1 : |x| * (p / 180) ≤ |x| * (4 / 180) := mul_le_mul_of_nonneg_left (by linarith) hx0
      have u2 : |x| * (3 / 180) ≤ |x| * (p / 180) := mul_le_mul_of_nonneg_left (by linarith) hx0
      constructor
      · rw [e1] at h1
        linarith
      · linarith
  obtain ⟨r, e2, f2, hr⟩ := degrees_near hp h hpi hyr
  refine ⟨r, by rw [e, e2], f2, ?_⟩
  have hp0 : p ≠ 0 := by linarith
  have k1 : |y * 180 / p - x| ≤ (2 * unit F + unit F ^ 2) * |x| := by
    have q1 : y * 180 / p - x = (y - x * p / 180) * (180 / p) := by field_simp
    have q2 : x = x * p / 180 * (180 / p) := by field_simp
    rw [q1, abs_mul]
    conv_rhs => rw [q2, abs_mul, ← mul_assoc]
    exact mul_le_mul_of_nonneg_right hy (abs_nonneg _)
  have k2 := abs_sub_abs_le_abs_sub (y * 180 / p) x
  have k3 := abs_sub_le r (y * 180 / p) x
  have hx0 := abs_nonneg x
  have k4 : 2 * (2 * unit F + unit F ^ 2) + (2 * unit F + unit F ^ 2) ^ 2 ≤ 5 * unit F := by
    generalize unit F = u at hu hu0
    have : u * u ≤ 1 / 256 * u := mul_le_mul_of_nonneg_right hu hu0.le
    have : u * u * u ≤ 1 / 256 * (1 / 256 * u) := by nlinarith
    have : u * u * u * u ≤ 1 / 256 * (1 / 256 * (1 / 256 * u)) := by nlinarith
    nlinarith
  have hw : 0 ≤ 2 * unit F + unit F ^ 2 := by positivity
  generalize |y * 180 / p| = A at *
  generalize 2 * unit F + unit F ^ 2 = w at *
  have k5 : A ≤ (1 + w) * |x| := by linarith
  have k6 := mul_le_mul_of_nonneg_left k5 hw
  have k7 := mul_le_mul_of_nonneg_right k4 hx0
  nlinarith

/-- The operations preserve order. -/
theorem ofReal_mono (h : Rounds F fl) {x y a b : ℝ} (hxy : x ≤ y) (ha : (IE.ofReal x : IE F fl) = IE.num a)
    (hb : (IE.ofReal y : IE F fl) = IE.num b) : a ≤ b := by
  have key : ∀ {x a : ℝ}, (IE.ofReal x : IE F fl) = IE.num a → a = fl x := by
    intro x a e
    by_cases hb : |fl x| < 2 ^ F.emax
    · rw [ofReal_num hb, num_inj] at e
      exact e.symm
    · obtain ⟨s, hs⟩ := ofReal_inf (F := F) hb
      rw [hs] at e
      cases e
  rw [key ha, key hb]
  exact h.mono hxy

theorem ofReal_cases (x : ℝ) : (∃ a, (IE.ofReal x : IE F fl) = IE.num a) ∨ ∃ s, (IE.ofReal x : IE F fl) = IE.inf s := by
  by_cases hb : |fl x| < 2 ^ F.emax
  · exact Or.inl ⟨_, ofReal_num hb⟩
  · exact Or.inr (ofReal_inf hb)

theorem inf_div {s : Bool} {y : ℝ} : ∃ t, (IE.inf s / IE.num y : IE F fl) = IE.inf t := ⟨_, rfl⟩

theorem convert_mono (h : Rounds F fl) {c d : ℝ} (hc : 0 < c) (hd : 0 < d) {x y a b : ℝ} (hxy : x ≤ y)
    (ha : (IE.num x * IE.num c / IE.num d : IE F fl) = IE.num a) (hb : (IE.num y * IE.num c / IE.num d : IE F fl) = IE.num b) :
    a ≤ b := by
  rw [mul_num] at ha hb
  rcases ofReal_cases (F := F) (fl := fl) (x * c) with ⟨s, hs⟩ | ⟨s, hs⟩
  · rcases ofReal_cases (F := F) (fl := fl) (y * c) with ⟨t, ht⟩ | ⟨t, ht⟩
    · have hst := ofReal_mono h (mul_le_mul_of_nonneg_right hxy hc.le) hs ht
      rw [hs, div_num _ hd.ne'] at ha
      rw [ht, div_num _ hd.ne'] at hb
      exact ofReal_mono h (div_le_div_of_nonneg_right hst hd.le) ha hb
    · rw [ht] at hb
      obtain ⟨u, hu⟩ := inf_div (F := F) (fl := fl) (s := t) (y := d)
      rw [hu] at hb
      cases hb
  · rw [hs] at ha
    obtain ⟨u, hu⟩ := inf_div (F := F) (fl := fl) (s := s) (y := d)
    rw [hu] at ha
    cases ha

/-- C148. Conversions never swap two angles, whatever their size. -/
theorem C148_monotone (hp : 8 ≤ F.p) (h : Rounds F fl) {p : ℝ} (hpi : IsPi F p) {x y a b : ℝ} (hxy : x ≤ y) :
    (toRadians (IE.num p) (IE.num 180) (IE.num x : IE F fl) = IE.num a → toRadians (IE.num p) (IE.num 180) (IE.num y : IE F fl) = IE.num b → a ≤ b) ∧
    (toDegrees (IE.num p) (IE.num 180) (IE.num x : IE F fl) = IE.num a → toDegrees (IE.num p) (IE.num 180) (IE.num y : IE F fl) = IE.num b → a ≤ b) := by
  obtain ⟨b1, b2⟩ := hpi.bounds hp
  exact ⟨convert_mono h (by linarith) (by norm_num) hxy, convert_mono h (by norm_num) (by linarith) hxy⟩

/-- C148. The conversions of `Real` without the standard library, which multiply by one rounded constant, are as accurate. -/
theorem C148_real (hp : 8 ≤ F.p) (h : Rounds F fl) (hemin : F.emin + F.p + 9 ≤ 0) (hemax : 11 ≤ F.emax) {p : ℝ} (hpi : IsPi F p)
    {x : ℝ} (hx : InRange F x) :
    (∃ r, toRadiansReal (IE.num p) (IE.num 180) (IE.num x : IE F fl) = IE.num r ∧ Finite F r ∧
      |r - x * Real.pi / 180| ≤ 3 * unit F * |x * Real.pi / 180|) ∧
    ∃ r, toDegreesReal (IE.num p) (IE.num 180) (IE.num x : IE F fl) = IE.num r ∧ Finite F r ∧
      |r - x * 180 / Real.pi| ≤ 3 * unit F * |x * 180 / Real.pi| := by
  obtain ⟨b1, b2⟩ := hpi.bounds hp
  have hu := unit_small hp
  have hu0 := unit_pos (F := F)
  have hp0 : p ≠ 0 := by linarith
  have hone : (2 : ℝ) ^ (F.emin + F.p + 9) ≤ |(1 : ℝ)| := by
    rw [abs_one]
    exact zpow_le_one_of_nonpos₀ (by norm_num) hemin
  have hone' : |(1 : ℝ)| ≤ 2 ^ (F.emax - 11) := by
    rw [abs_one]
    exact one_le_zpow₀ (by norm_num) (by omega)
  -- the product of `x` by a constant `c` rounded once
  have key : ∀ c : ℝ, 1 / 256 ≤ c → c ≤ 256 → ∃ k, (IE.ofReal c : IE F fl) = IE.num k ∧
      ∃ r, (IE.num x * IE.num k : IE F fl) = IE.num r ∧ Finite F r ∧ |r - x * c| ≤ (2 * unit F + unit F ^ 2) * |x * c| := by
    intro c h1 h2
    have hc : |c| = c := abs_of_pos (by linarith)
    obtain ⟨g1, g2⟩ := scaled' hone hone' (c := c) (by rw [hc]; linarith) (by rw [hc]; linarith)
    rw [one_mul] at g1 g2
    obtain ⟨e1, _, r1⟩ := ie_op hp h g1 g2
    refine ⟨_, e1, ?_⟩
    rcases hx with rfl | ⟨hlo, hhi⟩
    · exact ⟨0, by rw [zero_mul_num h], finite_zero, by simp⟩
    · rw [hc] at r1
      have r2 := abs_le.1 r1
      have r3 : unit F * c ≤ 1 / 256 * c := mul_le_mul_of_nonneg_right hu (by linarith)
      have hk : |fl c| = fl c := abs_of_pos (by linarith)
      obtain ⟨g3, g4⟩ := scaled' hlo hhi (c := fl c) (by rw [hk]; linarith) (by rw [hk]; linarith)
      obtain ⟨e2, f2, r4⟩ := ie_op hp h g3 g4
      refine ⟨_, by rw [mul_num, e2], f2, ?_⟩
      have := two_err (u := unit F) (x := c) (a := fl c) (b := fl (x * fl c)) (c := 1) (d := x) hu0.le
        (by rw [mul_one, hc]; exact r1) (by rw [mul_comm (fl c) x]; exact r4)
      rwa [mul_one, mul_comm c x] at this
  constructor
  · obtain ⟨k, e1, r, e2, f, hr⟩ := key (p / 180) (by rw [le_div_iff₀ (by norm_num)]; linarith) (by rw [div_le_iff₀ (by norm_num)]; linarith)
    refine ⟨r, ?_, f, to_pi hu0.le hu hr ?_⟩
    · unfold toRadiansReal
      rw [div_num _ (by norm_num), e1, e2]
    · have hd : x * (p / 180) - x * Real.pi / 180 = x / 180 * (p - Real.pi) := by ring
      have e2 : x * Real.pi / 180 = x / 180 * Real.pi := by ring
      rw [hd, e2, abs_mul, abs_mul (x / 180), abs_of_pos Real.pi_pos]
      have := mul_le_mul_of_nonneg_left hpi.2 (abs_nonneg (x / 180))
      have h0 : 0 ≤ unit F * (|x / 180| * Real.pi) := mul_nonneg unit_pos.le (mul_nonneg (abs_nonneg _) Real.pi_pos.le)
      nlinarith
  · obtain ⟨k, e1, r, e2, f, hr⟩ := key (180 / p) (by rw [le_div_iff₀ (by linarith)]; linarith) (by rw [div_le_iff₀ (by linarith)]; linarith)
    refine ⟨r, ?_, f, to_pi hu0.le hu hr ?_⟩
    · unfold toDegreesReal
      rw [div_num _ hp0, e1, e2]
    · have hπ := Real.pi_pos
      have hd : x * (180 / p) - x * 180 / Real.pi = x * 180 / Real.pi * ((Real.pi - p) / p) := by field_simp
      rw [hd, abs_mul, mul_comm]
      apply mul_le_mul_of_nonneg_right _ (abs_nonneg _)
      rw [abs_div, abs_of_pos (show 0 < p by linarith), div_le_iff₀ (by linarith), abs_sub_comm]
      refine hpi.2.trans ?_
      have := pi_lt_d20
      nlinarith

/-- C148 for `f64` vectors, attitude angles included: components between `2⁻¹⁰⁰⁰` and `2¹⁰⁰⁰`, or zero. -/
theorem C148_f64 (h : Rounds binary64 fl) (v : Fin n → ℝ) (hv : ∀ i, v i = 0 ∨ (2 ^ (-1000 : ℤ) ≤ |v i| ∧ |v i| ≤ 2 ^ (1000 : ℤ))) :
    (∃ r : Fin n → ℝ, toRadiansVec (IE.num pi64) (IE.num 180) (fun i => (IE.num (v i) : IE binary64 fl)) = (fun i => IE.num (r i)) ∧
      ∀ i, Finite binary64 (r i) ∧ |r i - v i * Real.pi / 180| ≤ 3 * 2 ^ (-53 : ℤ) * |v i * Real.pi / 180|) ∧
    (∃ r : Fin n → ℝ, toDegreesVec (IE.num pi64) (IE.num 180) (fun i => (IE.num (v i) : IE binary64 fl)) = (fun i => IE.num (r i)) ∧
      ∀ i, Finite binary64 (r i) ∧ |r i - v i * 180 / Real.pi| ≤ 3 * 2 ^ (-53 : ℤ) * |v i * 180 / Real.pi|) ∧
    ∃ r : Fin n → ℝ, toDegreesVec (IE.num pi64) (IE.num 180) (toRadiansVec (IE.num pi64) (IE.num 180) (fun i => (IE.num (v i) : IE binary64 fl))) =
      (fun i => IE.num (r i)) ∧ ∀ i, Finite binary64 (r i) ∧ |r i - v i| ≤ 5 * 2 ^ (-53 : ℤ) * |v i| := by
  have hp : 8 ≤ binary64.p := by norm_num [binary64]
  have r1 : ∀ i, InRange binary64 (v i) := fun i => (hv i).imp id fun ⟨a, b⟩ =>
    ⟨(zpow_le_zpow_right₀ (by norm_num) (by norm_num [binary64])).trans a, b.trans (zpow_le_zpow_right₀ (by norm_num) (by norm_num [binary64]))⟩
  have r2 : ∀ i, v i = 0 ∨ ((2 : ℝ) ^ (binary64.emin + binary64.p + 17) ≤ |v i| ∧ |v i| ≤ 2 ^ (binary64.emax - 11)) :=
    fun i => (hv i).imp id fun ⟨a, b⟩ =>
    ⟨(zpow_le_zpow_right₀ (by norm_num) (by norm_num [binary64])).trans a, b.trans (zpow_le_zpow_right₀ (by norm_num) (by norm_num [binary64]))⟩
  choose a a1 a2 a3 using fun i => C148_radians hp h isPi64 (r1 i)
  choose b b1 b2 b3 using fun i => C148_degrees hp h isPi64 (r1 i)
  choose c c1 c2 c3 using fun i => C148_round_trip hp h isPi64 (r2 i)
  exact ⟨⟨a, funext a1, fun i => ⟨a2 i, a3 i⟩⟩, ⟨b, funext b1, fun i => ⟨b2 i, b3 i⟩⟩, ⟨c, funext c1, fun i => ⟨c2 i, c3 i⟩⟩⟩

/-- C148 for `f32` vectors: components between `2⁻¹⁰⁰` and `2¹⁰⁰`, or zero. -/
theorem C148_f32 (h : Rounds binary32 fl) (v : Fin n → ℝ) (hv : ∀ i, v i = 0 ∨ (2 ^ (-100 : ℤ) ≤ |v i| ∧ |v i| ≤ 2 ^ (100 : ℤ))) :
    (∃ r : Fin n → ℝ, toRadiansVec (IE.num pi32) (IE.num 180) (fun i => (IE.num (v i) : IE binary32 fl)) = (fun i => IE.num (r i)) ∧
      ∀ i, Finite binary32 (r i) ∧ |r i - v i * Real.pi / 180| ≤ 3 * 2 ^ (-24 : ℤ) * |v i * Real.pi / 180|) ∧
    (∃ r : Fin n → ℝ, toDegreesVec (IE.num pi32) (IE.num 180) (fun i => (IE.num (v i) : IE binary32 fl)) = (fun i => IE.num (r i)) ∧
      ∀ i, Finite binary32 (r i) ∧ |r i - v i * 180 / Real.pi| ≤ 3 * 2 ^ (-24 : ℤ) * |v i * 180 / Real.pi|) ∧
    ∃ r : Fin n → ℝ, toDegreesVec (IE.num pi32) (IE.num 180) (toRadiansVec (IE.num pi32) (IE.num 180) (fun i => (IE.num (v i) : IE binary32 fl))) =
      (fun i => IE.num (r i)) ∧ ∀ i, Finite binary32 (r i) ∧ |r i - v i| ≤ 5 * 2 ^ (-24 : ℤ) * |v i| := by
  have hp : 8 ≤ binary32.p := by norm_num [binary32]
  have r1 : ∀ i, InRange binary32 (v i) := fun i => (hv i).imp id fun ⟨a, b⟩ =>
    ⟨(zpow_le_zpow_right₀ (by norm_num) (by norm_num [binary32])).trans a, b.trans (zpow_le_zpow_right₀ (by norm_num) (by norm_num [binary32]))⟩
  have r2 : ∀ i, v i = 0 ∨ ((2 : ℝ) ^ (binary32.emin + binary32.p + 17) ≤ |v i| ∧ |v i| ≤ 2 ^ (binary32.emax - 11)) :=
    fun i => (hv i).imp id fun ⟨a, b⟩ =>
    ⟨(zpow_le_zpow_right₀ (by norm_num) (by norm_num [binary32])).trans a, b.trans (zpow_le_zpow_right₀ (by norm_num) (by norm_num [binary32]))⟩
  choose a a1 a2 a3 using fun i => C148_radians hp h isPi32 (r1 i)
  choose b b1 b2 b3 using fun i => C148_degrees hp h isPi32 (r1 i)
  choose c c1 c2 c3 using fun i => C148_round_trip hp h isPi32 (r2 i)
  exact ⟨⟨a, funext a1, fun i => ⟨a2 i, a3 i⟩⟩, ⟨b, funext b1, fun i => ⟨b2 i, b3 i⟩⟩, ⟨c, funext c1, fun i => ⟨c2 i, c3 i⟩⟩⟩

-- Ninety degrees and no rotation, converted in `f64`.
example : ∃ r : Fin 2 → ℝ, toRadiansVec (IE.num pi64) (IE.num 180) (fun i => (IE.num (![90, 0] i) : IE binary64 (rnd binary64))) =
    (fun i => IE.num (r i)) ∧ |r 0 - Real.pi / 2| ≤ 3 * 2 ^ (-53 : ℤ) * (Real.pi / 2) ∧ r 1 = 0 := by
  obtain ⟨⟨r, e, hr⟩, _⟩ := C148_f64 (rnd_rounds (F := binary64) (by norm_num [binary64])) ![90, 0] (by
    intro i
    fin_cases i
    · right
      refine ⟨(zpow_le_one_of_nonpos₀ (by norm_num) (by norm_num)).trans (by norm_num), ?_⟩
      have : (2 : ℝ) ^ (7 : ℤ) ≤ 2 ^ (1000 : ℤ) := zpow_le_zpow_right₀ (by norm_num) (by norm_num)
      exact le_trans (by norm_num) this
    · left
      rfl)
  refine ⟨r, e, ?_, ?_⟩
  · have := (hr 0).2
    have e : (![90, 0] : Fin 2 → ℝ) 0 * Real.pi / 180 = Real.pi / 2 := by
      change 90 * Real.pi / 180 = _
      ring
    rwa [e, abs_of_pos (a := Real.pi / 2) (by have := Real.pi_pos; positivity)] at this
  · have := (hr 1).2
    have e : (![90, 0] : Fin 2 → ℝ) 1 * Real.pi / 180 = 0 := by
      change 0 * Real.pi / 180 = _
      ring
    rw [e, abs_zero, mul_zero, sub_zero] at this
    exact abs_nonpos_iff.1 this

-- One radian in `f32`, converted without the standard library.
example : ∃ r, toDegreesReal (IE.num pi32) (IE.num 180) (IE.num 1 : IE binary32 (rnd binary32)) = IE.num r ∧
    |r - 1 * 180 / Real.pi| ≤ 3 * unit binary32 * |1 * 180 / Real.pi| := by
  obtain ⟨_, r, e, _, hr⟩ := C148_real (by norm_num [binary32]) (rnd_rounds (F := binary32) (by norm_num [binary32]))
    (by norm_num [binary32]) (by norm_num [binary32]) isPi32 (x := 1) (Or.inr ⟨by
      rw [abs_one]
      exact zpow_le_one_of_nonpos₀ (by norm_num) (by norm_num [binary32]), by
      rw [abs_one]
      exact one_le_zpow₀ (by norm_num) (by norm_num [binary32])⟩)
  exact ⟨r, e, hr⟩

/-- C149, the part that holds: angles up to `2 ^ (emax - 11)` give finite results. Missing: the rest of the range, where it fails. -/
theorem C149_finite_partial (hp : 8 ≤ F.p) (h : Rounds F fl) {p : ℝ} (hpi : IsPi F p) {x : ℝ} (hx : InRange F x) :
    (toRadians (IE.num p) (IE.num 180) (IE.num x : IE F fl)).IsNum ∧ (toDegrees (IE.num p) (IE.num 180) (IE.num x : IE F fl)).IsNum := by
  obtain ⟨r, e, f, _⟩ := C148_radians hp h hpi hx
  obtain ⟨s, e', f', _⟩ := C148_degrees hp h hpi hx
  exact ⟨⟨r, e, f⟩, ⟨s, e', f'⟩⟩

theorem ofReal_over (h : Rounds F fl) {y : ℝ} (hp : 1 ≤ F.p) (he : F.emin ≤ F.emax) (hy : 2 ^ F.emax ≤ y) : (IE.ofReal y : IE F fl) = IE.inf false := by
  have hpos : (0 : ℝ) < 2 ^ F.emax := zpow_pos (by norm_num) _
  have h1 : fl (2 ^ F.emax) = 2 ^ F.emax := h.fix (onGrid_pow hp he)
  have h2 : (2 : ℝ) ^ F.emax ≤ fl y := by
    have := h.mono hy
    rwa [h1] at this
  unfold IE.ofReal
  rw [if_neg (by rw [abs_of_pos (by linarith)]; exact not_lt.2 h2), decide_eq_false (not_lt.2 (by linarith))]

/-- C149 fails in `f64`: `2 ^ 1023` degrees are fewer than `2 ^ 1018` radians, yet `to_radians` returns an infinity. -/
theorem C149_radians_fails (h : Rounds binary64 fl) :
    Finite binary64 (2 ^ (1023 : ℤ)) ∧ 2 ^ (1023 : ℤ) * Real.pi / 180 < 2 ^ (1018 : ℤ) ∧
      toRadians (IE.num pi64) (IE.num 180) (IE.num (2 ^ (1023 : ℤ)) : IE binary64 fl) = IE.inf false := by
  have hpos : (0 : ℝ) < 2 ^ (1018 : ℤ) := zpow_pos (by norm_num) _
  have e : (2 : ℝ) ^ (1023 : ℤ) = 32 * 2 ^ (1018 : ℤ) := by
    rw [show (1023 : ℤ) = 5 + 1018 by norm_num, zpow_add₀ (by norm_num)]
    norm_num
  have e2 : (2 : ℝ) ^ (binary64.emax) = 64 * 2 ^ (1018 : ℤ) := by
    change (2 : ℝ) ^ (1024 : ℤ) = _
    rw [show (1024 : ℤ) = 6 + 1018 by norm_num, zpow_add₀ (by norm_num)]
    norm_num
  obtain ⟨b1, b2⟩ := isPi64.bounds (by norm_num [binary64])
  have hπ := pi_lt_d20
  have aux : ∀ A : ℝ, 0 < A → 32 * A < 64 * A ∧ 32 * A * Real.pi / 180 < A ∧ 64 * A ≤ 32 * A * pi64 := fun A hA => by
    refine ⟨by linarith, ?_, by nlinarith⟩
    rw [div_lt_iff₀ (by norm_num)]
    nlinarith
  obtain ⟨a1, a2, a3⟩ := aux _ hpos
  refine ⟨⟨onGrid_pow (by norm_num [binary64]) (by norm_num [binary64]), ?_⟩, ?_, ?_⟩
  · rw [abs_of_pos (zpow_pos (by norm_num) _), e, e2]
    exact a1
  · rw [e]
    exact a2
  · unfold toRadians
    rw [mul_num, ofReal_over h (by norm_num [binary64]) (by norm_num [binary64]) (by rw [e, e2]; exact a3)]
    change IE.inf (xor false (IE.isNeg 180)) = _
    unfold IE.isNeg
    rw [decide_eq_false (by norm_num)]
    rfl

/-- C149 fails in `f64`: `2 ^ 1017` radians are fewer than `2 ^ 1023` degrees, yet `to_degrees` returns an infinity. -/
theorem C149_degrees_fails (h : Rounds binary64 fl) :
    Finite binary64 (2 ^ (1017 : ℤ)) ∧ 2 ^ (1017 : ℤ) * 180 / Real.pi < 2 ^ (1023 : ℤ) ∧
      toDegrees (IE.num pi64) (IE.num 180) (IE.num (2 ^ (1017 : ℤ)) : IE binary64 fl) = IE.inf false := by
  have hpos : (0 : ℝ) < 2 ^ (1017 : ℤ) := zpow_pos (by norm_num) _
  have e : (2 : ℝ) ^ (1023 : ℤ) = 64 * 2 ^ (1017 : ℤ) := by
    rw [show (1023 : ℤ) = 6 + 1017 by norm_num, zpow_add₀ (by norm_num)]
    norm_num
  have e2 : (2 : ℝ) ^ (binary64.emax) = 128 * 2 ^ (1017 : ℤ) := by
    change (2 : ℝ) ^ (1024 : ℤ) = _
    rw [show (1024 : ℤ) = 7 + 1017 by norm_num, zpow_add₀ (by norm_num)]
    norm_num
  obtain ⟨b1, b2⟩ := isPi64.bounds (by norm_num [binary64])
  have hπ := pi_gt_d20
  have aux : ∀ A : ℝ, 0 < A → A < 128 * A ∧ A * 180 < 64 * A * Real.pi ∧ 128 * A ≤ A * 180 := fun A hA =>
    ⟨by linarith, by nlinarith, by linarith⟩
  obtain ⟨a1, a2, a3⟩ := aux _ hpos
  refine ⟨⟨onGrid_pow (by norm_num [binary64]) (by norm_num [binary64]), ?_⟩, ?_, ?_⟩
  · rw [abs_of_pos hpos, e2]
    exact a1
  · rw [e, div_lt_iff₀ Real.pi_pos]
    exact a2
  · unfold toDegrees
    rw [mul_num, ofReal_over h (by norm_num [binary64]) (by norm_num [binary64]) (by rw [e2]; exact a3)]
    change IE.inf (xor false (IE.isNeg pi64)) = _
    unfold IE.isNeg
    rw [decide_eq_false (by linarith)]
    rfl

end Verif.Ieee
