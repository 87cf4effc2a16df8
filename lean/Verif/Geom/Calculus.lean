import Verif.Geom.Spec
import Verif.Round.Lemmas

/-!
# Lemmas: a calculus of rounding errors

`Rel u k a x`: `a` is `x` up to `k` roundings. `Near u k A a x`: `a` differs from `x` by at most the effect of `k` roundings
on a number of size `A`.
-/

namespace Verif.Geom

open Verif.Simd (Fl Accurate)
open Verif.Round

variable {fl : ℝ → ℝ} {u : ℝ} {k l : Nat} {a b x y A B : ℝ}

/-- `a = x θ` with `θ` between `(1 - u)ᵏ` and `(1 - u)⁻ᵏ`. -/
def Rel (u : ℝ) (k : Nat) (a x : ℝ) : Prop :=
  ∃ t, 0 < t ∧ t ≤ (1 - u)⁻¹ ^ k ∧ t⁻¹ ≤ (1 - u)⁻¹ ^ k ∧ a = x * t

/-- `a` differs from `x` by at most the effect of `k` roundings on a number of size `A ≥ |x|`. -/
def Near (u : ℝ) (k : Nat) (A a x : ℝ) : Prop := |x| ≤ A ∧ |a - x| ≤ growth u k * A

section Rel

theorem Rel.refl (x : ℝ) : Rel u 0 x x := ⟨1, one_pos, by simp, by simp, by simp⟩

theorem Rel.mono (h : Accurate fl u) (hu : u < 1) (hkl : k ≤ l) : Rel u k a x → Rel u l a x := by
  rintro ⟨t, h0, h1, h2, h3⟩
  have := pow_le_pow_right₀ (one_le_rho h hu) hkl
  exact ⟨t, h0, h1.trans this, h2.trans this, h3⟩

theorem rho_pos (hu : u < 1) : 0 < (1 - u)⁻¹ := inv_pos.2 (by linarith)

theorem Rel.mul (hu : u < 1) : Rel u k a x → Rel u l b y → Rel u (k + l) (a * b) (x * y) := by
  rintro ⟨t, h0, h1, h2, rfl⟩ ⟨s, g0, g1, g2, rfl⟩
  have := pow_pos (rho_pos hu) k
  refine ⟨t * s, mul_pos h0 g0, ?_, ?_, by ring⟩
  · rw [pow_add]; exact mul_le_mul h1 g1 g0.le this.le
  · rw [pow_add, mul_inv]; exact mul_le_mul h2 g2 (inv_pos.2 g0).le this.le

theorem Rel.div (hu : u < 1) : Rel u k a x → Rel u l b y → Rel u (k + l) (a / b) (x / y) := by
  rintro ⟨t, h0, h1, h2, rfl⟩ ⟨s, g0, g1, g2, rfl⟩
  have := pow_pos (rho_pos hu) k
  refine ⟨t / s, div_pos h0 g0, ?_, ?_, ?_⟩
  · rw [pow_add, div_eq_mul_inv]; exact mul_le_mul h1 g2 (inv_pos.2 g0).le this.le
  · rw [pow_add, inv_div, div_eq_inv_mul]; exact mul_le_mul h2 g1 g0.le this.le
  · rw [mul_div_mul_comm]

theorem Rel.round (h : Accurate fl u) (hu : u < 1) : Rel u k a x → Rel u (k + 1) (fl a) x := by
  intro hr
  have key : Rel u 1 (fl a) a := by
    by_cases ha : a = 0
    · have := h a
      rw [ha, abs_zero, mul_zero] at this
      have hf : fl 0 = 0 := by
        have := abs_nonpos_iff.1 this
        linarith
      rw [ha, hf]
      exact (Rel.refl 0).mono h hu (Nat.zero_le 1)
    · have hpos : 0 < |a| := abs_pos.2 ha
      have hd : |fl a / a - 1| ≤ u := by
        have : fl a / a - 1 = (fl a - a) / a := by field_simp
        rw [this, abs_div, div_le_iff₀ hpos]
        exact h a
      obtain ⟨h1, h2⟩ := abs_le.1 hd
      have hu0 := h.nonneg
      have h3 : 1 - u ≤ fl a / a := by linarith
      have h4 : 0 < fl a / a := by linarith
      refine ⟨fl a / a, h4, ?_, ?_, by field_simp⟩
      · rw [pow_one, ← one_div, le_div_iff₀ (by linarith)]
        nlinarith
      · rw [pow_one]
        exact inv_anti₀ (by linarith) h3
  obtain ⟨t, h0, h1, h2, h3⟩ := hr
  obtain ⟨s, g0, g1, g2, g3⟩ := key
  rw [h3] at g3
  have := pow_pos (rho_pos hu) k
  refine ⟨t * s, mul_pos h0 g0, ?_, ?_, by rw [h3, g3, mul_assoc]⟩
  · rw [pow_add]; exact mul_le_mul h1 g1 g0.le this.le
  · rw [pow_add, mul_inv]; exact mul_le_mul h2 g2 (inv_pos.2 g0).le this.le

theorem Rel.sqrt (hu : u < 1) (hx : 0 ≤ x) : Rel u (2 * k) a x → Rel u k √a √x := by
  rintro ⟨t, h0, h1, h2, rfl⟩
  have hp := (pow_pos (rho_pos hu) k).le
  have e : (1 - u)⁻¹ ^ (2 * k) = ((1 - u)⁻¹ ^ k) ^ 2 := by rw [← pow_mul, mul_comm]
  refine ⟨√t, Real.sqrt_pos.2 h0, ?_, ?_, Real.sqrt_mul hx t⟩
  · exact Real.sqrt_le_iff.2 ⟨hp, by rw [← e]; exact h1⟩
  · rw [← Real.sqrt_inv]
    exact Real.sqrt_le_iff.2 ⟨hp, by rw [← e]; exact h2⟩

theorem Rel.nonneg (hx : 0 ≤ x) : Rel u k a x → 0 ≤ a := by
  rintro ⟨t, h0, _, _, rfl⟩
  exact mul_nonneg hx h0.le

theorem Rel.add (hu : u < 1) (hx : 0 ≤ x) (hy : 0 ≤ y) (ha : Rel u k a x) (hb : Rel u k b y) :
    Rel u k (a + b) (x + y) := by
  obtain ⟨t, h0, h1, h2, rfl⟩ := ha
  obtain ⟨s, g0, g1, g2, rfl⟩ := hb
  have hp := pow_pos (rho_pos hu) k
  rcases (add_nonneg hx hy).eq_or_lt with hz | hpos
  · have hx0 : x = 0 := by linarith
    have hy0 : y = 0 := by linarith
    exact ⟨t, h0, h1, h2, by rw [hx0, hy0]; ring⟩
  · have h3 : 1 ≤ (1 - u)⁻¹ ^ k * t := by rwa [← div_le_iff₀ h0, one_div]
    have g3 : 1 ≤ (1 - u)⁻¹ ^ k * s := by rwa [← div_le_iff₀ g0, one_div]
    have hnum : 0 < x * t + y * s := by
      rcases hx.eq_or_lt with hx0 | hx0
      · have : 0 < y := by linarith
        have := mul_pos this g0
        have := mul_nonneg hx h0.le
        linarith
      · have := mul_pos hx0 h0
        have := mul_nonneg hy g0.le
        linarith
    refine ⟨(x * t + y * s) / (x + y), div_pos hnum hpos, ?_, ?_, by field_simp⟩
    · rw [div_le_iff₀ hpos]
      nlinarith
    · rw [inv_div, div_le_iff₀ hnum]
      nlinarith [mul_le_mul_of_nonneg_left h3 hx, mul_le_mul_of_nonneg_left g3 hy]

theorem Rel.near (h : Accurate fl u) (hu : u < 1) : Rel u k a x → Near u k |x| a x := by
  rintro ⟨t, h0, h1, h2, rfl⟩
  refine ⟨le_rfl, ?_⟩
  have e : x * t - x = (t - 1) * x := by ring
  rw [e, abs_mul]
  refine mul_le_mul_of_nonneg_right ?_ (abs_nonneg _)
  rw [growth_eq, abs_le]
  refine ⟨?_, by linarith⟩
  have h3 : 1 ≤ (1 - u)⁻¹ ^ k * t := by rwa [← div_le_iff₀ h0, one_div]
  have h4 := one_le_pow₀ (n := k) (one_le_rho h hu)
  by_contra hc
  have h5 : t < 2 - (1 - u)⁻¹ ^ k := by linarith
  nlinarith [sq_nonneg ((1 - u)⁻¹ ^ k - 1)]

theorem Rel.abs_le (hr : Rel u k a x) : |a| ≤ (1 - u)⁻¹ ^ k * |x| := by
  obtain ⟨t, h0, h1, _, rfl⟩ := hr
  rw [abs_mul, abs_of_pos h0, mul_comm]
  exact mul_le_mul_of_nonneg_right h1 (abs_nonneg _)

end Rel

section Near

theorem Near.refl (x : ℝ) : Near u 0 |x| x x := ⟨le_rfl, by simp [growth_zero]⟩

theorem Near.nonneg (h : Near u k A a x) : 0 ≤ A := (abs_nonneg _).trans h.1

theorem Near.mono (h : Accurate fl u) (hu : u < 1) (hkl : k ≤ l) (hAB : A ≤ B) (hn : Near u k A a x) : Near u l B a x :=
  ⟨hn.1.trans hAB, hn.2.trans (mul_le_mul (growth_mono h hu hkl) hAB hn.nonneg (growth_nonneg h hu l))⟩

theorem Near.abs_le (hn : Near u k A a x) : |a| ≤ (1 + growth u k) * A := by
  have : |a| ≤ |a - x| + |x| := by
    calc |a| = abs ((a - x) + x) := by ring_nf
      _ ≤ _ := abs_add_le _ _
  linarith [hn.1, hn.2]

theorem Near.round (h : Accurate fl u) (hu : u < 1) (hn : Near u k A a x) : Near u (k + 1) A (fl a) x := by
  refine ⟨hn.1, ?_⟩
  have h1 := h a
  have h2 := mul_le_mul_of_nonneg_left hn.abs_le h.nonneg
  have h3 : |fl a - x| ≤ |fl a - a| + |a - x| := abs_sub_le _ _ _
  have h4 : growth u (k + 1) = growth u k * growth u 1 + growth u k + growth u 1 := growth_add u k 1
  have h5 := u_le_growth h hu
  have hA := hn.nonneg
  have hg := growth_nonneg h hu k
  rw [h4]
  nlinarith [hn.2, mul_le_mul_of_nonneg_right h5 (mul_nonneg (add_nonneg zero_le_one hg) hA)]

theorem Near.mul (h : Accurate fl u) (hu : u < 1) (ha : Near u k A a x) (hb : Near u l B b y) :
    Near u (k + l) (A * B) (a * b) (x * y) := by
  have hA := ha.nonneg
  have hB := hb.nonneg
  refine ⟨by rw [abs_mul]; exact mul_le_mul ha.1 hb.1 (abs_nonneg _) hA, ?_⟩
  have e : a * b - x * y = (a - x) * (b - y) + (a - x) * y + x * (b - y) := by ring
  have hgk := growth_nonneg h hu k
  have hgl := growth_nonneg h hu l
  rw [e, growth_add]
  have t1 : |(a - x) * (b - y)| ≤ growth u k * A * (growth u l * B) := by
    rw [abs_mul]; exact mul_le_mul ha.2 hb.2 (abs_nonneg _) (mul_nonneg hgk hA)
  have t2 : |(a - x) * y| ≤ growth u k * A * B := by
    rw [abs_mul]; exact mul_le_mul ha.2 hb.1 (abs_nonneg _) (mul_nonneg hgk hA)
  have t3 : |x * (b - y)| ≤ A * (growth u l * B) := by
    rw [abs_mul]; exact mul_le_mul ha.1 hb.2 (abs_nonneg _) hA
  refine (abs_add_le _ _).trans ((add_le_add (abs_add_le _ _) le_rfl).trans ?_)
  nlinarith

theorem Near.add (ha : Near u k A a x) (hb : Near u k B b y) : Near u k (A + B) (a + b) (x + y) := by
  refine ⟨(abs_add_le _ _).trans (add_le_add ha.1 hb.1), ?_⟩
  have e : a + b - (x + y) = (a - x) + (b - y) := by ring
  rw [e, mul_add]
  exact (abs_add_le _ _).trans (add_le_add ha.2 hb.2)

theorem Near.neg (ha : Near u k A a x) : Near u k A (-a) (-x) := by
  refine ⟨by rw [abs_neg]; exact ha.1, ?_⟩
  have e : -a - -x = -(a - x) := by ring
  rw [e, abs_neg]
  exact ha.2

theorem Near.sub (ha : Near u k A a x) (hb : Near u k B b y) : Near u k (A + B) (a - b) (x - y) := by
  rw [sub_eq_add_neg, sub_eq_add_neg]
  exact ha.add hb.neg

/-- A rounded product. -/
theorem Near.rmul (h : Accurate fl u) (hu : u < 1) (ha : Near u k A a x) (hb : Near u l B b y) :
    Near u (k + l + 1) (A * B) (fl (a * b)) (x * y) := (ha.mul h hu hb).round h hu

/-- A rounded sum. -/
theorem Near.radd (h : Accurate fl u) (hu : u < 1) (ha : Near u k A a x) (hb : Near u l B b y) (hl : l ≤ k) :
    Near u (k + 1) (A + B) (fl (a + b)) (x + y) := (ha.add (hb.mono h hu hl le_rfl)).round h hu

/-- A rounded difference. -/
theorem Near.rsub (h : Accurate fl u) (hu : u < 1) (ha : Near u k A a x) (hb : Near u l B b y) (hl : l ≤ k) :
    Near u (k + 1) (A + B) (fl (a - b)) (x - y) := (ha.sub (hb.mono h hu hl le_rfl)).round h hu

end Near

end Verif.Geom
