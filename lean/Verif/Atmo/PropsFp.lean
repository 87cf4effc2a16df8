import Verif.Atmo.FpModel
import Verif.Atmo.Isa
import Verif.Float.Eval
import Verif.Float.Rel
import Mathlib.Analysis.SpecialFunctions.Log.Deriv

/-!
# C198: the ICAO standard atmosphere in floating point
-/

namespace Verif.Atmo.Fp

open ISA
open Verif.Float (Nearest Rel Small)

variable {fl : ℝ → ℝ} {u e : ℝ} {lib : Lib}

/-- The library functions are within the relative error `e`. -/
structure Good (lib : Lib) (e : ℝ) : Prop where
  exp : ∀ x, |lib.exp x - Real.exp x| ≤ e * Real.exp x
  powf : ∀ x y, 0 < x → |lib.powf x y - x ^ y| ≤ e * x ^ y

/-- A product of two approximations. -/
theorem dev_mul {a b a' b' δ δ' : ℝ} (h : |b - a| ≤ δ * |a|) (h' : |b' - a'| ≤ δ' * |a'|) (hd : 0 ≤ δ) :
    |b * b' - a * a'| ≤ (δ + δ' + δ * δ') * |a * a'| := by
  have e1 : b * b' - a * a' = (b - a) * a' + a * (b' - a') + (b - a) * (b' - a') := by ring
  rw [e1, abs_mul a a']
  have t1 : |(b - a) * a'| ≤ δ * |a| * |a'| := by rw [abs_mul]; exact mul_le_mul_of_nonneg_right h (abs_nonneg _)
  have t2 : |a * (b' - a')| ≤ |a| * (δ' * |a'|) := by rw [abs_mul]; exact mul_le_mul_of_nonneg_left h' (abs_nonneg _)
  have t3 : |(b - a) * (b' - a')| ≤ δ * |a| * (δ' * |a'|) := by
    rw [abs_mul]; exact mul_le_mul h h' (abs_nonneg _) (mul_nonneg hd (abs_nonneg _))
  have := abs_add_le ((b - a) * a' + a * (b' - a')) ((b - a) * (b' - a'))
  have := abs_add_le ((b - a) * a') (a * (b' - a'))
  nlinarith

/-- A rounded approximation. -/
theorem dev_round (hs : Small fl u) {a b δ : ℝ} (h : |b - a| ≤ δ * |a|) : |fl b - a| ≤ (δ + u + u * δ) * |a| := by
  have h1 := hs.acc b
  have h2 : |b| ≤ (1 + δ) * |a| := by
    have := abs_sub_abs_le_abs_sub b a
    linarith
  have h3 := mul_le_mul_of_nonneg_left h2 hs.pos.le
  have := abs_sub_le (fl b) b a
  nlinarith

/-- Exponentials of close numbers. -/
theorem exp_close {a b d : ℝ} (h : |b - a| ≤ d) (hd : d ≤ 1 / 1000) : |Real.exp b - Real.exp a| ≤ 1001 / 1000 * d * Real.exp a := by
  have h0 : 0 ≤ d := (abs_nonneg _).trans h
  have e1 : Real.exp b - Real.exp a = (Real.exp (b - a) - 1) * Real.exp a := by
    rw [sub_mul, one_mul, ← Real.exp_add]; ring_nf
  rw [e1, abs_mul, abs_of_pos (Real.exp_pos a)]
  refine mul_le_mul_of_nonneg_right ?_ (Real.exp_pos a).le
  have h1 := Real.abs_exp_sub_one_sub_id_le (x := b - a) (by linarith)
  have h2 : (b - a) ^ 2 ≤ d * (1 / 1000) := by
    rw [← sq_abs, sq]
    exact mul_le_mul h (h.trans hd) (abs_nonneg _) h0
  have h3 := abs_add_le (Real.exp (b - a) - 1 - (b - a)) (b - a)
  rw [sub_add_cancel] at h3
  linarith

/-- The factor by which the pressure of a layer with a gradient differs from its reference. -/
theorem power_close (hs : Small fl u) {x y x' y' : ℝ} (h1 : 84 / 100 ≤ x) (h2 : x ≤ 134 / 100) (hx : Rel u 4 x' x)
    (hy : |y| ≤ 342 / 10) (hy' : Rel u (51 / 10) y' y) : 0 < x' ∧ |x' ^ y' - x ^ y| ≤ 202 * u * x ^ y := by
  have hu := hs.pos
  have hl := hs.le
  unfold Float.Rel at hx hy'
  have x0 : 0 < x := by linarith
  rw [abs_of_pos x0] at hx
  have x1 : 0 < x' := by
    have := (abs_le.1 hx).1
    nlinarith
  refine ⟨x1, ?_⟩
  rw [Real.rpow_def_of_pos x1, Real.rpow_def_of_pos x0]
  have l1 : |Real.log x' - Real.log x| ≤ 41 / 10 * u := by
    rw [← Real.log_div x1.ne' x0.ne']
    have hr : |x' / x - 1| ≤ 4 * u := by
      rw [show x' / x - 1 = (x' - x) / x by field_simp, abs_div, abs_of_pos x0, div_le_iff₀ x0]
      exact hx
    obtain ⟨r1, r2⟩ := abs_le.1 hr
    have rp : 0 < x' / x := div_pos x1 x0
    rw [abs_le]
    constructor
    · have := Real.one_sub_inv_le_log_of_pos rp
      have hi : (x' / x)⁻¹ ≤ 1 + 41 / 10 * u := by
        rw [inv_le_comm₀ rp (by positivity), inv_eq_one_div, div_le_iff₀ (by positivity)]
        nlinarith
      linarith
    · have := Real.log_le_sub_one_of_pos rp
      linarith
  have l2 : |Real.log x| ≤ 34 / 100 := by
    rw [abs_le]
    constructor
    · have := Real.one_sub_inv_le_log_of_pos x0
      have hi : x⁻¹ ≤ 1 + 34 / 100 := by
        rw [inv_le_comm₀ x0 (by norm_num)]
        norm_num
        linarith
      linarith
    · have := Real.log_le_sub_one_of_pos x0
      linarith
  have hy'' : |y'| ≤ 343 / 10 := by
    have := abs_sub_abs_le_abs_sub y' y
    have : 51 / 10 * u * |y| ≤ 51 / 10 * u * (342 / 10) := mul_le_mul_of_nonneg_left hy (by positivity)
    linarith
  have e1 : Real.log x' * y' - Real.log x * y = (Real.log x' - Real.log x) * y' + Real.log x * (y' - y) := by ring
  have d : |Real.log x' * y' - Real.log x * y| ≤ 201 * u := by
    rw [e1]
    refine (abs_add_le _ _).trans ?_
    rw [abs_mul, abs_mul]
    have m1 := mul_le_mul l1 hy'' (abs_nonneg _) (by positivity)
    have m2 : |y' - y| ≤ 51 / 10 * u * (342 / 10) := hy'.trans (mul_le_mul_of_nonneg_left hy (by positivity))
    have m3 := mul_le_mul l2 m2 (abs_nonneg _) (by norm_num)
    linarith
  refine (exp_close d (by linarith)).trans ?_
  refine mul_le_mul_of_nonneg_right ?_ (Real.exp_pos _).le
  linarith

/-- The numbers of one layer at an altitude from -5 km up. -/
theorem layer_facts {k : Fin 9} {h : ℝ} (hk : inLayer k h) (h0 : -5000 ≤ h) :
    196 ≤ (layer k).temp ∧ 0 < (layer k).dens ∧ -16 / 100 ≤ (layer k).grad / (layer k).temp * (h - (layer k).base) ∧
      (layer k).grad / (layer k).temp * (h - (layer k).base) ≤ 34 / 100 ∧
      ((layer k).grad ≠ 0 → |-g0 / (gasR * (layer k).grad)| ≤ 342 / 10) ∧
      ((layer k).grad = 0 → |-g0 / (gasR * (layer k).temp) * (h - (layer k).base)| ≤ 3 / 2) := by
  fin_cases k <;> simp only [layer, inLayer] at hk ⊢ <;>
    refine ⟨by norm_num, by norm_num, by (norm_num <;> linarith), by (norm_num <;> linarith), fun hg => ?_, fun hg => ?_⟩ <;>
    first
      | (norm_num at hg; done)
      | (norm_num [g0, gasR, abs_div, abs_mul, abs_neg]; done)
      | (rw [abs_le]; norm_num [g0, gasR]; constructor <;> linarith)

theorem altitudes_fix (hn : ∀ m : ℤ, |m| < 2 ^ 24 → fl m = m) : altitudes.map fl = altitudes := by
  have f : ∀ (m : ℤ) (x : ℝ), |m| < 2 ^ 24 → x = m → fl x = x := fun m x hm hx => by rw [hx]; exact hn m hm
  unfold altitudes
  simp only [List.map_cons, List.map_nil]
  rw [f (-5000) _ (by norm_num) (by norm_num), f 0 _ (by norm_num) (by norm_num), f 11000 _ (by norm_num) (by norm_num),
    f 20000 _ (by norm_num) (by norm_num), f 32000 _ (by norm_num) (by norm_num), f 47000 _ (by norm_num) (by norm_num),
    f 51000 _ (by norm_num) (by norm_num), f 71000 _ (by norm_num) (by norm_num), f 80000 _ (by norm_num) (by norm_num)]

/-- The rounded temperature of a layer. -/
noncomputable def layerT (fl : ℝ → ℝ) (k : Fin 9) (h : ℝ) : ℝ :=
  fl (fl (layer k).temp + fl (fl (layer k).grad * fl (h - (layer k).base)))

/-- The rounded reference pressure of a layer. -/
noncomputable def layerB (fl : ℝ → ℝ) (k : Fin 9) : ℝ :=
  fl (fl (fl (layer k).dens * fl (fl rStar / fl molarMass)) * fl (layer k).temp)

section Layers

variable (hf : altitudes.map fl = altitudes) {k : Fin 9} {h : ℝ} (hk : inLayer k h)
include hf hk

theorem baseIndex_fp : baseIndex fl h = .ok k := by
  unfold baseIndex
  rw [hf]
  exact baseIndex_layer hk

theorem temperature_fp : temperature fl h = .ok (layerT fl k h) := by
  unfold temperature
  rw [baseIndex_fp hf hk, hf]
  fin_cases k <;> rfl

theorem basePressure_fp : basePressure fl h = .ok (layerB fl k) := by
  unfold basePressure baseDensity baseTemperature
  rw [baseIndex_fp hf hk]
  fin_cases k <;> rfl

theorem pressure_fp : pressure fl lib h = .ok (
    if fl (layer k).grad ≠ 0 then
      fl (layerB fl k * lib.powf (fl (1 + fl (fl (fl (layer k).grad / fl (layer k).temp) * fl (h - (layer k).base))))
        (fl (-fl g0 / fl (fl gasR * fl (layer k).grad))))
    else fl (layerB fl k * lib.exp (fl (fl (-fl g0 / fl (fl gasR * layerT fl k h)) * fl (h - (layer k).base))))) := by
  have hgi : gradientIndex k = .ok (k - 1) := by
    fin_cases k <;> rfl
  have h1 : get (temperatures.map fl) k = .ok (fl (layer k).temp) := by fin_cases k <;> rfl
  have h2 : get (gradients.map fl) (k - 1) = .ok (fl (layer k).grad) := by fin_cases k <;> rfl
  have h3 : get altitudes k = .ok (layer k).base := by fin_cases k <;> rfl
  unfold pressure
  rw [baseIndex_fp hf hk, basePressure_fp hf hk, temperature_fp hf hk, hf]
  simp only [bind, Except.bind, hgi, h1, h2, h3]
  by_cases hg : fl (layer k).grad ≠ 0
  · rw [if_pos hg, if_pos hg]; rfl
  · rw [if_neg hg, if_neg hg]; rfl

end Layers

section Errors

variable (hs : Small fl u)
include hs

/-- The reference pressure. -/
theorem layerB_near (k : Fin 9) : Rel u (71 / 10) (layerB fl k) ((layer k).dens * (rStar / molarMass) * (layer k).temp) := by
  have hM : molarMass ≠ 0 := by norm_num [molarMass]
  have r1 := ((hs.rel rStar).div hs (by norm_num) (by norm_num) (by norm_num) (by norm_num) (hs.rel molarMass) hM).round hs
    (by norm_num) (by norm_num)
  have r2 := ((hs.rel (layer k).dens).mul hs (by norm_num) (by norm_num) (by norm_num) (by norm_num) r1).round hs
    (by norm_num) (by norm_num)
  exact ((r2.mul hs (by norm_num) (by norm_num) (by norm_num) (by norm_num) (hs.rel (layer k).temp)).round hs
    (by norm_num) (by norm_num)).mono hs (by norm_num)

/-- The base of the power. -/
theorem base_near {T g d : ℝ} (hT : 0 < T) (h1 : -16 / 100 ≤ g / T * d) (h2 : g / T * d ≤ 34 / 100) :
    Rel u 4 (fl (1 + fl (fl (fl g / fl T) * fl d))) (1 + g / T * d) := by
  have hu := hs.pos
  have hl := hs.le
  have r1 := ((hs.rel g).div hs (by norm_num) (by norm_num) (by norm_num) (by norm_num) (hs.rel T) hT.ne').round hs
    (by norm_num) (by norm_num)
  have r2 := ((r1.mul hs (by norm_num) (by norm_num) (by norm_num) (by norm_num) (hs.rel d)).round hs
    (by norm_num) (by norm_num)).mono hs (m := 51 / 10) (by norm_num)
  generalize fl (fl (fl g / fl T) * fl d) = x' at r2 ⊢
  generalize g / T * d = x at h1 h2 r2 ⊢
  unfold Float.Rel at r2 ⊢
  have hx : |x| ≤ 34 / 100 := abs_le.2 ⟨by linarith, h2⟩
  have a1 := hs.acc (1 + x')
  have a2 : |x' - x| ≤ 51 / 10 * u * (34 / 100) := r2.trans (mul_le_mul_of_nonneg_left hx (by positivity))
  have a3 : |1 + x'| ≤ 1 + x + 51 / 10 * u * (34 / 100) := by
    have e1 : 1 + x' = (1 + x) + (x' - x) := by ring
    rw [e1]
    refine (abs_add_le _ _).trans ?_
    rw [abs_of_pos (by linarith)]
    linarith
  rw [abs_of_pos (show 0 < 1 + x by linarith)]
  have e2 : fl (1 + x') - (1 + x) = (fl (1 + x') - (1 + x')) + (x' - x) := by ring
  rw [e2]
  refine (abs_add_le _ _).trans ?_
  have a4 := mul_le_mul_of_nonneg_left a3 hu.le
  have a5 : u * (84 / 100) ≤ u * (1 + x) := mul_le_mul_of_nonneg_left (by linarith) hu.le
  have a6 : u * u ≤ u * (1 / 1000000) := mul_le_mul_of_nonneg_left hl hu.le
  linarith

/-- The temperature. -/
theorem temp_near {T g d : ℝ} (hT : 0 < T) (h1 : -16 / 100 ≤ g / T * d) (h2 : g / T * d ≤ 34 / 100) :
    Rel u 4 (fl (fl T + fl (fl g * fl d))) (T + g * d) := by
  have hu := hs.pos
  have hl := hs.le
  have r2 := (((hs.rel g).mul hs (by norm_num) (by norm_num) (by norm_num) (by norm_num) (hs.rel d)).round hs
    (by norm_num) (by norm_num)).mono hs (m := 31 / 10) (by norm_num)
  generalize fl (fl g * fl d) = y' at r2 ⊢
  have e0 : g / T * d = g * d / T := by ring
  rw [e0] at h1 h2
  rw [le_div_iff₀ hT] at h1
  rw [div_le_iff₀ hT] at h2
  generalize g * d = y at h1 h2 r2 ⊢
  unfold Float.Rel at r2 ⊢
  have hy : |y| ≤ 34 / 100 * T := abs_le.2 ⟨by linarith, h2⟩
  have a0 := hs.acc T
  rw [abs_of_pos hT] at a0
  rw [abs_of_pos (show 0 < T + y by linarith)]
  have a1 : u * T + 31 / 10 * u * |y| ≤ 29 / 10 * (u * (T + y)) := by
    have : T + 31 / 10 * |y| ≤ 29 / 10 * (T + y) := by
      rcases abs_cases y with ⟨e1, -⟩ | ⟨e1, -⟩ <;> rw [e1] <;> linarith
    nlinarith
  have a2 : |(fl T + y') - (T + y)| ≤ 29 / 10 * (u * (T + y)) := by
    have e1 : (fl T + y') - (T + y) = (fl T - T) + (y' - y) := by ring
    rw [e1]
    exact (abs_add_le _ _).trans (by linarith)
  have hp : 0 < T + y := by linarith
  have a3 := dev_round hs (b := fl T + y') (a := T + y) (δ := 29 / 10 * u) (by rw [abs_of_pos hp]; linarith)
  rw [abs_of_pos hp] at a3
  refine a3.trans (mul_le_mul_of_nonneg_right ?_ hp.le)
  nlinarith

/-- The exponent of the power. -/
theorem exponent_near {g : ℝ} (hg : g ≠ 0) : Rel u (51 / 10) (fl (-fl g0 / fl (fl gasR * fl g))) (-g0 / (gasR * g)) := by
  have hR : gasR ≠ 0 := by norm_num [gasR]
  have r0 : Rel u 1 (-fl g0) (-g0) := by
    have := hs.rel g0
    unfold Float.Rel at this ⊢
    rw [abs_neg, ← abs_neg]
    convert this using 2
    ring
  have r1 := ((hs.rel gasR).mul hs (by norm_num) (by norm_num) (by norm_num) (by norm_num) (hs.rel g)).round hs
    (by norm_num) (by norm_num)
  exact ((r0.div hs (by norm_num) (by norm_num) (by norm_num) (by norm_num) r1 (mul_ne_zero hR hg)).round hs
    (by norm_num) (by norm_num)).mono hs (by norm_num)

/-- The argument of the exponential. -/
theorem argument_near {T T' d : ℝ} (hT : 0 < T) (hr : Rel u 4 T' T) (hd : |-g0 / (gasR * T) * d| ≤ 3 / 2) :
    |fl (fl (-fl g0 / fl (fl gasR * T')) * fl d) - -g0 / (gasR * T) * d| ≤ 16 * u := by
  have hR : gasR ≠ 0 := by norm_num [gasR]
  have r0 : Rel u 1 (-fl g0) (-g0) := by
    have := hs.rel g0
    unfold Float.Rel at this ⊢
    rw [abs_neg, ← abs_neg]
    convert this using 2
    ring
  have r1 := ((hs.rel gasR).mul hs (by norm_num) (by norm_num) (by norm_num) (by norm_num) hr).round hs
    (by norm_num) (by norm_num)
  have r2 := (r0.div hs (by norm_num) (by norm_num) (by norm_num) (by norm_num) r1 (mul_ne_zero hR hT.ne')).round hs
    (by norm_num) (by norm_num)
  have r3 := ((r2.mul hs (by norm_num) (by norm_num) (by norm_num) (by norm_num) (hs.rel d)).round hs
    (by norm_num) (by norm_num)).mono hs (m := 102 / 10) (by norm_num)
  unfold Float.Rel at r3
  have hu := hs.pos
  have := mul_le_mul_of_nonneg_left hd (show 0 ≤ 102 / 10 * u by linarith)
  linarith

/-- A library value at a rounded argument, multiplied with the reference pressure and rounded. -/
theorem product_near (he : e ≤ 1 / 1000000) {B B' W L X : ℝ} (hB : Rel u (71 / 10) B' B) (hW : 0 < W)
    (hX : |X - W| ≤ 202 * u * W) (hL : |L - X| ≤ e * X) (h0 : 0 ≤ e) : |fl (B' * L) - B * W| ≤ (215 * u + e) * |B * W| := by
  have hu := hs.pos
  have hl := hs.le
  have x1 : X ≤ W + 202 * u * W := by linarith [(abs_le.1 hX).2]
  have d1 : |L - W| ≤ (202 * u + e + 202 * u * e) * |W| := by
    rw [abs_of_pos hW]
    have := abs_sub_le L X W
    have := mul_le_mul_of_nonneg_left x1 h0
    linarith
  unfold Float.Rel at hB
  have d2 := dev_round hs (dev_mul hB d1 (by linarith))
  refine d2.trans (mul_le_mul_of_nonneg_right ?_ (abs_nonneg _))
  have ue : u * e ≤ u * (1 / 1000000) := mul_le_mul_of_nonneg_left he hu.le
  have uu : u * u ≤ u * (1 / 1000000) := mul_le_mul_of_nonneg_left hl hu.le
  have ue0 : 0 ≤ u * e := mul_nonneg hu.le h0
  have uue : u * (u * e) ≤ u * (1 / 1000000) := mul_le_mul_of_nonneg_left (by nlinarith) hu.le
  have uuu : u * (u * u) ≤ u * (1 / 1000000) := mul_le_mul_of_nonneg_left (by nlinarith) hu.le
  have u4 : u * (u * (u * e)) ≤ u * (1 / 1000000) := mul_le_mul_of_nonneg_left (by nlinarith) hu.le
  nlinarith

end Errors

/-- **C198**: the ICAO standard atmosphere in floating point, from -5 km to 80 km. The temperature is off by at most
four roundings, the pressure by 215 and the density by 225 roundings plus the relative error of the library's power and
exponential. Exactly above 80 km the functions report an error. -/
theorem C198_isa {p : ℕ} (hp : 24 ≤ p) (hn : Nearest p fl) (hl : Good lib e) (he : e ≤ 1 / 1000000) (h : ℝ) :
    (-5000 ≤ h → h ≤ 80000 → ∃ T P ρ T' P' ρ' : ℝ,
      ISA.temperature h = .ok T ∧ ISA.pressure h = .ok P ∧ ISA.density h = .ok ρ ∧
      temperature fl h = .ok T' ∧ pressure fl lib h = .ok P' ∧ density fl lib h = .ok ρ' ∧
      |T' - T| ≤ 4 * 2 ^ (-p : ℤ) * T ∧ |P' - P| ≤ (215 * 2 ^ (-p : ℤ) + e) * P ∧
      |ρ' - ρ| ≤ (225 * 2 ^ (-p : ℤ) + e) * ρ) ∧
    (80000 < h → temperature fl h = .error .yikes ∧ pressure fl lib h = .error .yikes ∧
      density fl lib h = .error .yikes) := by
  have hs : Small fl (2 ^ (-p : ℤ)) := by
    refine ⟨hn.accurate (by omega), by positivity, ?_⟩
    calc (2 : ℝ) ^ (-p : ℤ) ≤ 2 ^ (-24 : ℤ) := zpow_le_zpow_right₀ (by norm_num) (by omega)
      _ ≤ _ := by norm_num
  have hf : altitudes.map fl = altitudes := altitudes_fix fun m hm =>
    hn.fix ⟨m, 0, hm.trans_le (pow_le_pow_right₀ (by norm_num) hp), by simp⟩
  have h0 : 0 ≤ e := by
    have := (abs_nonneg _).trans (hl.exp 0)
    rwa [Real.exp_zero, mul_one] at this
  generalize (2 : ℝ) ^ (-p : ℤ) = u at hs
  refine ⟨fun ha hb => ?_, fun hb => ?_⟩
  · obtain ⟨k, hk⟩ := inLayer_exists hb
    obtain ⟨f1, f2, f3, f4, f5, f6⟩ := layer_facts hk ha
    have hu := hs.pos
    have hle := hs.le
    have hT0 : 0 < (layer k).temp := by linarith
    have hT : 0 < (layer k).temp + (layer k).grad * (h - (layer k).base) := by
      have := layer_temp_pos hk
      norm_num at this ⊢
      linarith
    have tn : Rel u 4 (layerT fl k h) ((layer k).temp + (layer k).grad * (h - (layer k).base)) := temp_near hs hT0 f3 f4
    have hPpos := layerPressure_pos k h hT
    have key : ∃ P', pressure fl lib h = .ok P' ∧ |P' - layerPressure k h| ≤ (215 * u + e) * layerPressure k h := by
      refine ⟨_, pressure_fp hf hk, ?_⟩
      by_cases hg : (layer k).grad = 0
      · have z : fl 0 = 0 := by have := hs.acc 0; simpa using this
        rw [hg, z, if_neg (by simp)]
        have hP : layerPressure k h = (layer k).dens * (rStar / molarMass) * (layer k).temp *
            Real.exp (-g0 / (gasR * (layer k).temp) * (h - (layer k).base)) := by
          unfold layerPressure
          rw [if_neg (by simp [hg]), hg, zero_mul, add_zero]
        rw [hg, zero_mul, add_zero] at tn
        have an := argument_near hs hT0 tn (f6 hg)
        have ex := exp_close an (by linarith)
        have := product_near hs he (layerB_near hs k) (Real.exp_pos _)
          (ex.trans (mul_le_mul_of_nonneg_right (by linarith) (Real.exp_pos _).le)) (hl.exp _) h0
        rw [← hP, abs_of_pos hPpos] at this
        exact this
      · have hg' : fl (layer k).grad ≠ 0 := by
          intro h1
          have := hs.acc (layer k).grad
          rw [h1, zero_sub, abs_neg] at this
          have hgp := abs_pos.2 hg
          nlinarith
        rw [if_pos hg']
        have hP : layerPressure k h = (layer k).dens * (rStar / molarMass) * (layer k).temp *
            (1 + (layer k).grad / (layer k).temp * (h - (layer k).base)) ^ (-g0 / (gasR * (layer k).grad)) := by
          unfold layerPressure
          rw [if_pos hg]
        obtain ⟨x0, pc⟩ := power_close hs (by linarith) (by linarith) (base_near hs hT0 f3 f4) (f5 hg) (exponent_near hs hg)
        have := product_near hs he (layerB_near hs k) (Real.rpow_pos_of_pos (by linarith) _) pc (hl.powf _ _ x0) h0
        rw [← hP, abs_of_pos hPpos] at this
        exact this
    obtain ⟨P', eP, nP⟩ := key
    refine ⟨_, _, layerPressure k h / (rStar / molarMass * ((layer k).temp + (layer k).grad * (h - (layer k).base))), _, P',
      fl (P' / fl (fl (fl rStar / fl molarMass) * layerT fl k h)), temperature_layer hk, pressure_layer hk, ?_,
      temperature_fp hf hk, eP, ?_, ?_, nP, ?_⟩
    · unfold ISA.density
      rw [temperature_layer hk, pressure_layer hk]
      rfl
    · unfold density
      rw [temperature_fp hf hk, eP]
      rfl
    · unfold Float.Rel at tn
      rwa [abs_of_pos hT] at tn
    · have hM : molarMass ≠ 0 := by norm_num [molarMass]
      have hR : 0 < rStar / molarMass := by norm_num [rStar, molarMass]
      have r1 := ((hs.rel rStar).div hs (by norm_num) (by norm_num) (by norm_num) (by norm_num) (hs.rel molarMass) hM).round hs
        (by norm_num) (by norm_num)
      have r2 := ((r1.mul hs (by norm_num) (by norm_num) (by norm_num) (by norm_num) tn).round hs
        (by norm_num) (by norm_num))
      have r3 := ((Rel.refl u 1).div hs le_rfl (by norm_num) (by norm_num) (by norm_num) r2 (mul_pos hR hT).ne').mono hs
        (m := 81 / 10) (by norm_num)
      unfold Float.Rel at r3
      have d1 := dev_round hs (dev_mul (a := layerPressure k h) (by rw [abs_of_pos hPpos]; exact nP) r3 (by positivity))
      rw [mul_one_div, mul_one_div] at d1
      rw [abs_of_pos (div_pos hPpos (mul_pos hR hT))] at d1
      refine d1.trans (mul_le_mul_of_nonneg_right ?_ (div_pos hPpos (mul_pos hR hT)).le)
      have ue : u * e ≤ u * (1 / 1000000) := mul_le_mul_of_nonneg_left he hu.le
      have uu : u * u ≤ u * (1 / 1000000) := mul_le_mul_of_nonneg_left hle hu.le
      have ue0 : 0 ≤ u * e := mul_nonneg hu.le h0
      have uue : u * (u * e) ≤ u * (1 / 1000000) := mul_le_mul_of_nonneg_left (by nlinarith) hu.le
      have uuu : u * (u * u) ≤ u * (1 / 1000000) := mul_le_mul_of_nonneg_left (by nlinarith) hu.le
      nlinarith
  · have hb : baseIndex fl h = .error .yikes := by
      unfold baseIndex
      rw [hf]
      exact baseIndex_above hb
    have ht : temperature fl h = .error .yikes := by unfold temperature; rw [hb]; rfl
    refine ⟨ht, ?_, ?_⟩
    · unfold pressure; rw [hb]; rfl
    · unfold density; rw [ht]; rfl

/-- The library with exact functions. -/
noncomputable def exactLib : Lib := ⟨Real.exp, fun x y => x ^ y⟩

theorem exactLib_good : Good exactLib 0 := ⟨fun x => by simp [exactLib], fun x y _ => by simp [exactLib]⟩

/-- The hypotheses of `C198_isa`. -/
example : Nearest 53 (Verif.Float.rnd 53) ∧ Good exactLib 0 ∧ (-5000 : ℝ) ≤ 35000 ∧ (35000 : ℝ) ≤ 80000 :=
  ⟨Verif.Float.rnd_nearest (by norm_num), exactLib_good, by norm_num, by norm_num⟩

/-- **C198**: geometric and geopotential altitude in floating point, and the way there and back, for all altitudes
above the centre of the Earth and up to one Earth radius; and gravity. -/
theorem C198_altitudes {p : ℕ} (hp : 24 ≤ p) (hn : Nearest p fl) (hl : Good lib e) (he : e ≤ 1 / 1000000) (z : ℝ)
    (h1 : -6356766 < z) (h2 : z ≤ 6356766) :
    |geopotential fl z - ISA.geopotential z| ≤ 4 * 2 ^ (-p : ℤ) * |ISA.geopotential z| ∧
    (z < 6356766 → |geometric fl z - ISA.geometric z| ≤ 4 * 2 ^ (-p : ℤ) * |ISA.geometric z|) ∧
    |geometric fl (geopotential fl z) - z| ≤ 12 * 2 ^ (-p : ℤ) * |z| ∧
    |gravity fl lib z - ISA.gravity z| ≤ (8 * 2 ^ (-p : ℤ) + e) * ISA.gravity z := by
  have hs : Small fl (2 ^ (-p : ℤ)) := by
    refine ⟨hn.accurate (by omega), by positivity, ?_⟩
    calc (2 : ℝ) ^ (-p : ℤ) ≤ 2 ^ (-24 : ℤ) := zpow_le_zpow_right₀ (by norm_num) (by omega)
      _ ≤ _ := by norm_num
  have h0 : 0 ≤ e := by
    have := (abs_nonneg _).trans (hl.exp 0)
    rwa [Real.exp_zero, mul_one] at this
  have hR : fl earthRadius = earthRadius :=
    hn.fix ⟨6356766, 0, lt_of_lt_of_le (by norm_num) (pow_le_pow_right₀ (by norm_num) hp), by norm_num [earthRadius]⟩
  generalize (2 : ℝ) ^ (-p : ℤ) = u at hs
  have hu := hs.pos
  have hle := hs.le
  have R0 : earthRadius = 6356766 := rfl
  unfold geopotential geometric gravity
  rw [hR]
  have quot : ∀ a b : ℝ, b ≠ 0 → Rel u (31 / 10) (fl (fl a / fl b)) (a / b) := fun a b hb =>
    (((hs.rel a).div hs (by norm_num) (by norm_num) (by norm_num) (by norm_num) (hs.rel b) hb).round hs
      (by norm_num) (by norm_num)).mono hs (by norm_num)
  have q1 := quot (earthRadius * z) (earthRadius + z) (by rw [R0]; linarith)
  refine ⟨q1.mono hs (by norm_num), fun h3 => (quot _ _ (by rw [R0]; linarith)).mono hs (by norm_num), ?_, ?_⟩
  · obtain ⟨δ, d1, d2⟩ := q1.factor hs (by norm_num)
    generalize fl (fl (earthRadius * z) / fl (earthRadius + z)) = h' at d2 ⊢
    have hd := abs_le.1 d1
    have hz : |z / earthRadius| ≤ 1 := by
      rw [R0, abs_le]
      constructor
      · rw [le_div_iff₀ (by norm_num)]; linarith
      · rw [div_le_iff₀ (by norm_num)]; linarith
    have hw : |δ * (z / earthRadius)| ≤ 31 / 10 * u := by
      rw [abs_mul]
      calc |δ| * |z / earthRadius| ≤ 31 / 10 * u * 1 := mul_le_mul d1 hz (abs_nonneg _) (by positivity)
        _ = _ := by ring
    have hw' := abs_le.1 hw
    have p1 : 0 < 1 - δ * (z / earthRadius) := by linarith
    have p2 : (0 : ℝ) < earthRadius + z := by rw [R0]; linarith
    have p3 : (0 : ℝ) < earthRadius := by rw [R0]; norm_num
    have e1 : earthRadius - h' = earthRadius * earthRadius / (earthRadius + z) * (1 - δ * (z / earthRadius)) := by
      rw [d2]; field_simp; ring
    have hne : earthRadius - h' ≠ 0 := by rw [e1]; positivity
    have e2 : earthRadius * h' / (earthRadius - h') = z * ((1 + δ) / (1 - δ * (z / earthRadius))) := by
      rw [e1, d2]; field_simp
    have q2 := quot (earthRadius * h') (earthRadius - h') hne
    unfold Float.Rel at q2
    rw [e2] at q2
    have e3 : (1 + δ) / (1 - δ * (z / earthRadius)) - 1 = (δ + δ * (z / earthRadius)) / (1 - δ * (z / earthRadius)) := by
      rw [div_sub_one p1.ne']; congr 1; ring
    have hr : |(1 + δ) / (1 - δ * (z / earthRadius)) - 1| ≤ 64 / 10 * u := by
      rw [e3, abs_div, abs_of_pos p1, div_le_iff₀ p1]
      have := abs_add_le δ (δ * (z / earthRadius))
      nlinarith
    generalize (1 + δ) / (1 - δ * (z / earthRadius)) = ρ at hr q2
    have a1 : |z * ρ - z| ≤ 64 / 10 * u * |z| := by
      rw [show z * ρ - z = (ρ - 1) * z by ring, abs_mul]
      exact mul_le_mul_of_nonneg_right hr (abs_nonneg _)
    have a2 : |z * ρ| ≤ (1 + 64 / 10 * u) * |z| := by
      have := abs_sub_abs_le_abs_sub (z * ρ) z
      linarith
    have a3 := mul_le_mul_of_nonneg_left a2 (show 0 ≤ 31 / 10 * u by positivity)
    have := abs_sub_le (fl (fl (earthRadius * h') / fl (earthRadius - h'))) (z * ρ) z
    have a4 : u * u * |z| ≤ u * (1 / 1000000) * |z| :=
      mul_le_mul_of_nonneg_right (mul_le_mul_of_nonneg_left hle hu.le) (abs_nonneg _)
    nlinarith [abs_nonneg z, mul_nonneg hu.le (abs_nonneg z)]
  · have p2 : (0 : ℝ) < earthRadius + z := by rw [R0]; linarith
    have p3 : (0 : ℝ) < earthRadius := by rw [R0]; norm_num
    have r1 := (((Rel.refl u earthRadius).div hs le_rfl (by norm_num) (by norm_num) (by norm_num) (hs.rel (earthRadius + z))
      p2.ne').round hs (by norm_num) (by norm_num)).mono hs (m := 21 / 10) (by norm_num)
    have pos := r1.pos hs (by norm_num) (by norm_num) (div_pos p3 p2)
    have r2 := (r1.mul hs (by norm_num) (by norm_num) (by norm_num) (by norm_num) r1).mono hs (m := 43 / 10) (by norm_num)
    have pw := hl.powf _ 2 pos
    generalize fl (earthRadius / fl (earthRadius + z)) = q' at r2 pw pos ⊢
    unfold ISA.gravity
    have s2 : ∀ x : ℝ, x ^ (2 : ℝ) = x * x := fun x => by rw [Real.rpow_two, sq]
    rw [s2] at pw ⊢
    have g0p : 0 < g0 := by norm_num [g0]
    generalize earthRadius / (earthRadius + z) = q at r1 r2 ⊢
    have qp : 0 < q * q := by
      unfold Float.Rel at r2
      by_contra hc
      have z0 : q * q = 0 := le_antisymm (not_lt.1 hc) (mul_self_nonneg q)
      rw [z0, abs_zero, mul_zero, sub_zero] at r2
      have := mul_pos pos pos
      rw [abs_of_pos this] at r2
      linarith
    unfold Float.Rel at r2
    rw [abs_of_pos qp] at r2
    have d1 : |lib.powf q' 2 - q * q| ≤ (43 / 10 * u + e + 43 / 10 * u * e) * |q * q| := by
      rw [abs_of_pos qp]
      have := abs_sub_le (lib.powf q' 2) (q' * q') (q * q)
      have x1 : q' * q' ≤ q * q + 43 / 10 * u * (q * q) := by linarith [(abs_le.1 r2).2]
      have := mul_le_mul_of_nonneg_left x1 h0
      linarith
    have d2 := dev_round hs (dev_mul (hs.acc g0) d1 hu.le)
    rw [abs_of_pos (mul_pos g0p qp)] at d2
    refine d2.trans (mul_le_mul_of_nonneg_right ?_ (mul_pos g0p qp).le)
    have ue : u * e ≤ u * (1 / 1000000) := mul_le_mul_of_nonneg_left he hu.le
    have uu : u * u ≤ u * (1 / 1000000) := mul_le_mul_of_nonneg_left hle hu.le
    have ue0 : 0 ≤ u * e := mul_nonneg hu.le h0
    have uue : u * (u * e) ≤ u * (1 / 1000000) := mul_le_mul_of_nonneg_left (by nlinarith) hu.le
    have uuu : u * (u * u) ≤ u * (1 / 1000000) := mul_le_mul_of_nonneg_left (by nlinarith) hu.le
    have u4 : u * (u * (u * e)) ≤ u * (1 / 1000000) := mul_le_mul_of_nonneg_left (by nlinarith) hu.le
    nlinarith

end Verif.Atmo.Fp
