import Verif.Wmm.PropsFp
import Verif.Frames.PropsFrames
import Verif.Float.PropsCoord

/-!
# C195: intensities, declination, inclination and rates of the magnetic field in floating point
-/

namespace Verif.Wmm.Fp

open Real Verif.Stats Verif.Round
open Verif.Simd (Accurate)
open Verif.Float (Libm Small)

variable {fl : ℝ → ℝ} {lib : Libm} {powi : ℝ → ℕ → ℝ} {u e : ℝ}

/-! ## Lengths and directions in the plane -/

theorem length_close (x y x' y' : ℝ) : |√(x' * x' + y' * y') - √(x * x + y * y)| ≤ |x' - x| + |y' - y| := by
  have n : ∀ a b : ℝ, √(a * a + b * b) = ‖(⟨a, b⟩ : ℂ)‖ := by
    intro a b
    rw [Complex.norm_def, Complex.normSq_mk]
  rw [n, n]
  refine (abs_norm_sub_norm_le _ _).trans ?_
  refine (Complex.norm_le_abs_re_add_abs_im _).trans (le_of_eq ?_)
  simp

theorem component_le (x y : ℝ) : |x| ≤ √(x * x + y * y) :=
  Real.abs_le_sqrt (by nlinarith [mul_self_nonneg y])

theorem component_le' (x y : ℝ) : |y| ≤ √(x * x + y * y) :=
  Real.abs_le_sqrt (by nlinarith [mul_self_nonneg x])

theorem ratio_close {a a' ρ ρ' : ℝ} (hρ : 0 < ρ) (hρ' : 0 < ρ') (h : |a'| ≤ ρ') : |a' / ρ' - a / ρ| ≤ (|a' - a| + |ρ' - ρ|) / ρ := by
  have e1 : a' / ρ' - a / ρ = ((a' - a) + a' / ρ' * (ρ - ρ')) / ρ := by field_simp; ring
  rw [e1, abs_div, abs_of_pos hρ]
  refine div_le_div_of_nonneg_right ((abs_add_le _ _).trans (add_le_add_right ?_ _)) hρ.le
  rw [abs_mul, abs_div, abs_of_pos hρ', abs_sub_comm ρ ρ']
  exact mul_le_of_le_one_left (abs_nonneg _) ((div_le_one hρ').2 h)

theorem cos_atan2 {x y : ℝ} (h : 0 < √(x * x + y * y)) : cos (Att.atan2 y x) = x / √(x * x + y * y) :=
  (eq_div_iff h.ne').2 (by rw [mul_comm]; exact Frames.polar_x x y)

theorem sin_atan2 {x y : ℝ} (h : 0 < √(x * x + y * y)) : sin (Att.atan2 y x) = y / √(x * x + y * y) :=
  (eq_div_iff h.ne').2 (by rw [mul_comm]; exact Frames.polar_y x y)

/-- Directions of two close vectors, the second computed by a library. -/
theorem direction_close (hat : ∀ y x, |lib.atan2 y x - Att.atan2 y x| ≤ e) {x y x' y' B D : ℝ} (h : 0 < √(x * x + y * y))
    (h' : 0 < √(x' * x' + y' * y')) (hx : |x' - x| ≤ B) (hy : |y' - y| ≤ B) (hD : |x' - x| + |y' - y| ≤ D) :
    |cos (lib.atan2 y' x') - cos (Att.atan2 y x)| ≤ (B + D) / √(x * x + y * y) + e ∧
      |sin (lib.atan2 y' x') - sin (Att.atan2 y x)| ≤ (B + D) / √(x * x + y * y) + e := by
  have hl := (length_close x y x' y').trans hD
  have a := hat y' x'
  constructor
  · have a1 := (Real.abs_cos_sub_cos_le (lib.atan2 y' x') (Att.atan2 y' x')).trans a
    have a2 := (ratio_close h h' (component_le x' y') (a := x)).trans (div_le_div_of_nonneg_right (add_le_add hx hl) h.le)
    rw [← cos_atan2 h, ← cos_atan2 h'] at a2
    have := abs_sub_le (cos (lib.atan2 y' x')) (cos (Att.atan2 y' x')) (cos (Att.atan2 y x))
    linarith
  · have a1 := (Real.abs_sin_sub_sin_le (lib.atan2 y' x') (Att.atan2 y' x')).trans a
    have a2 := (ratio_close h h' (component_le' x' y') (a := y)).trans (div_le_div_of_nonneg_right (add_le_add hy hl) h.le)
    rw [← sin_atan2 h, ← sin_atan2 h'] at a2
    have := abs_sub_le (sin (lib.atan2 y' x')) (sin (Att.atan2 y' x')) (sin (Att.atan2 y x))
    linarith

/-- A length in floating point. -/
theorem length_round (hs : Small fl u) (x y : ℝ) : |fl √(fl (fl (x * x) + fl (y * y))) - √(x * x + y * y)| ≤ 6 * u * √(x * x + y * y) := by
  have hu := hs.pos
  have hle := hs.le
  have hu1 : u < 1 := by linarith
  have sq : ∀ a : ℝ, Err u 1 (fl (a * a)) (a * a) (a * a) := by
    intro a
    have := near_err hs.acc hu1 (near_round hs.acc hu1 (near_self (ε := u) (a * a)))
    rwa [abs_of_nonneg (mul_self_nonneg a)] at this
  have h1 := (eadd hs.acc hu1 (sq x) (sq y)).1
  have hS : 0 ≤ x * x + y * y := add_nonneg (mul_self_nonneg x) (mul_self_nonneg y)
  generalize x * x + y * y = S at *
  generalize fl (fl (x * x) + fl (y * y)) = S' at *
  have h2 := mul_le_mul_of_nonneg_right (growth_le (d := 1 + 1) hu.le hu1 (by push_cast; linarith)) hS
  have h3 := h1.trans h2
  push_cast at h3
  have h4 := abs_le.1 h3
  have hr := Real.sqrt_nonneg S
  have hq := Real.sq_sqrt hS
  have h5 : √S' ≤ (1 + 4 * u) * √S := by
    refine Real.sqrt_le_iff.2 ⟨by positivity, ?_⟩
    rw [mul_pow, hq]
    nlinarith [mul_nonneg hu.le hS, mul_nonneg (mul_nonneg hu.le hu.le) hS]
  have h6 : (1 - 4 * u) * √S ≤ √S' := by
    refine Real.le_sqrt_of_sq_le ?_
    rw [mul_pow, hq]
    nlinarith [mul_nonneg hu.le hS, mul_nonneg (mul_nonneg hu.le (by linarith : 0 ≤ 1 - 4 * u)) hS]
  have h7 := hs.acc √S'
  rw [abs_of_nonneg (Real.sqrt_nonneg S')] at h7
  have h8 : |√S' - √S| ≤ 4 * u * √S := abs_le.2 ⟨by linarith, by linarith⟩
  have h9 := abs_sub_le (fl √S') √S' √S
  have h10 : u * √S' ≤ u * ((1 + 4 * u) * √S) := mul_le_mul_of_nonneg_left h5 hu.le
  have h11 : u * ((1 + 4 * u) * √S) ≤ 2 * u * √S := by
    have : u * (4 * u) ≤ u * 1 := mul_le_mul_of_nonneg_left (by linarith) hu.le
    nlinarith
  linarith

/-! ## The elements of close vectors -/

/-- What the elements are in exact arithmetic (`elements_ok`). -/
structure Exact (E : Elements) : Prop where
  horizontal : E.horizontal = √(E.x * E.x + E.y * E.y)
  total : E.total = √(E.horizontal * E.horizontal + E.z * E.z)
  declination : E.declination = Att.atan2 E.y E.x
  inclination : E.inclination = Att.atan2 E.z E.horizontal
  horizontalRate : E.horizontalRate = (E.x * E.xDot + E.y * E.yDot) / E.horizontal
  totalRate : E.totalRate = (E.x * E.xDot + E.y * E.yDot + E.z * E.zDot) / E.total
  declinationRate : E.declinationRate = (E.x * E.yDot - E.y * E.xDot) / (E.horizontal * E.horizontal)
  inclinationRate : E.inclinationRate = (E.horizontal * E.zDot - E.z * E.horizontalRate) / (E.total * E.total)

/-- Two reports of the magnetic elements agree: `B` is the error of the components, `e` that of the library's arctangent.
Angles are compared by their cosines and sines, since the declination may be reported as `π` or `-π`. -/
structure Close (B e : ℝ) (E' E : Elements) : Prop where
  x : |E'.x - E.x| ≤ B
  y : |E'.y - E.y| ≤ B
  z : |E'.z - E.z| ≤ B
  xDot : |E'.xDot - E.xDot| ≤ B
  yDot : |E'.yDot - E.yDot| ≤ B
  zDot : |E'.zDot - E.zDot| ≤ B
  horizontal : |E'.horizontal - E.horizontal| ≤ 2 * B
  total : |E'.total - E.total| ≤ 4 * B
  cos_declination : |cos E'.declination - cos E.declination| ≤ 3 * B / E.horizontal + e
  sin_declination : |sin E'.declination - sin E.declination| ≤ 3 * B / E.horizontal + e
  cos_inclination : |cos E'.inclination - cos E.inclination| ≤ 5 * B / E.total + e
  sin_inclination : |sin E'.inclination - sin E.inclination| ≤ 5 * B / E.total + e
  gridVariation : E'.gridVariation = E'.declination
  horizontalRate : |E'.horizontalRate - E.horizontalRate| ≤
    96 * B * (1 + (|E.xDot| + |E.yDot| + |E.zDot|) / E.horizontal)
  totalRate : |E'.totalRate - E.totalRate| ≤ 168 * B * (1 + (|E.xDot| + |E.yDot| + |E.zDot|) / E.horizontal)
  declinationRate : |E'.declinationRate - E.declinationRate| ≤
    128 * B * (1 + (|E.xDot| + |E.yDot| + |E.zDot|) / E.horizontal) / E.horizontal
  inclinationRate : |E'.inclinationRate - E.inclinationRate| ≤
    312 * B * (1 + (|E.xDot| + |E.yDot| + |E.zDot|) / E.horizontal) / E.total

/-- The rates of intensities and angles, from close components, intensities and rates. -/
theorem rates_close (hs : Small fl u) {E : Elements} (hE : Exact E) {B : ℝ}
    (hB : 0 < B) (hBH : 104 * B ≤ E.horizontal) (hHF : E.horizontal ≤ E.total) (huH : 1000 * (u * E.horizontal) ≤ B) {x y z dx dy dz h' f' : ℝ}
    (hx : |x - E.x| ≤ B) (hy : |y - E.y| ≤ B / 8) (hz : |z - E.z| ≤ B)
    (kx : |dx - E.xDot| ≤ B) (ky : |dy - E.yDot| ≤ B) (kz : |dz - E.zDot| ≤ B)
    (hh2 : |h' - E.horizontal| ≤ 2 * B) (hf3 : |f' - E.total| ≤ 4 * B) :
    |fl (fl (fl (x * dx) + fl (y * dy)) / h') - E.horizontalRate| ≤
      96 * B * (1 + (|E.xDot| + |E.yDot| + |E.zDot|) / E.horizontal) ∧
    |fl (fl (fl (fl (x * dx) + fl (y * dy)) + fl (z * dz)) / f') - E.totalRate| ≤
      168 * B * (1 + (|E.xDot| + |E.yDot| + |E.zDot|) / E.horizontal) ∧
    |fl (fl (fl (x * dy) - fl (y * dx)) / fl (h' * h')) - E.declinationRate| ≤
      128 * B * (1 + (|E.xDot| + |E.yDot| + |E.zDot|) / E.horizontal) / E.horizontal ∧
    |fl (fl (fl (h' * dz) - fl (z * fl (fl (fl (x * dx) + fl (y * dy)) / h'))) / fl (f' * f')) - E.inclinationRate| ≤
      312 * B * (1 + (|E.xDot| + |E.yDot| + |E.zDot|) / E.horizontal) / E.total := by
  have hu := hs.pos
  have hH : 0 < E.horizontal := by linarith
  have hF : 0 < E.total := by linarith
  set M := |E.xDot| + |E.yDot| + |E.zDot| + E.horizontal with hM
  have ax := abs_nonneg E.xDot
  have ay := abs_nonneg E.yDot
  have az := abs_nonneg E.zDot
  have hM0 : 0 < M := by linarith
  set η := 4 * B / E.horizontal with hη
  have hηH : η * E.horizontal = 4 * B := div_mul_cancel₀ _ hH.ne'
  have hη0 : 0 < η := by positivity
  have hη1 : η ≤ 1 / 26 := by
    rw [hη, div_le_iff₀ hH]
    linarith
  have hη2 : η < 1 := by linarith
  have acc : Accurate fl η := by
    intro v
    refine (hs.acc v).trans (mul_le_mul_of_nonneg_right ?_ (abs_nonneg v))
    rw [hη, le_div_iff₀ hH]
    linarith
  have hηF : 4 * B ≤ η * E.total := by rw [← hηH]; exact mul_le_mul_of_nonneg_left hHF hη0.le
  have hηM : 4 * B ≤ η * M := by rw [← hηH]; exact mul_le_mul_of_nonneg_left (by linarith) hη0.le
  have cx := component_le E.x E.y
  have cy := component_le' E.x E.y
  have cz := component_le' E.horizontal E.z
  rw [← hE.horizontal] at cx cy
  rw [← hE.total] at cz
  have ex : Err η 1 x E.x E.horizontal := err_of_abs hη0.le hη2 (by linarith) cx
  have ey : Err η 1 y E.y E.horizontal := err_of_abs hη0.le hη2 (by linarith) cy
  have ez : Err η 1 z E.z E.total := err_of_abs hη0.le hη2 (by linarith) cz
  have edx : Err η 1 dx E.xDot M := err_of_abs hη0.le hη2 (by linarith) (by linarith)
  have edy : Err η 1 dy E.yDot M := err_of_abs hη0.le hη2 (by linarith) (by linarith)
  have edz : Err η 1 dz E.zDot M := err_of_abs hη0.le hη2 (by linarith) (by linarith)
  have nh : Near η 1 h' E.horizontal := near_of_abs hη0.le hη2 hH.ne' (by rw [abs_of_pos hH]; linarith)
  have nf : Near η 1 f' E.total := near_of_abs hη0.le hη2 hF.ne' (by rw [abs_of_pos hF]; linarith)
  have eh : Err η 1 h' E.horizontal E.horizontal := by
    have := near_err acc hη2 nh
    rwa [abs_of_pos hH] at this
  have s2 := eadd acc hη2 (emul acc hη2 ex edx) (emul acc hη2 ey edy)
  have r1 := ediv acc hη2 s2 nh hH.ne'
  rw [← hE.horizontalRate, abs_of_pos hH] at r1
  have r2 := ediv acc hη2 (eadd acc hη2 s2 (weaken acc hη2 (emul acc hη2 ez edz) (by omega : _ ≤ 1 + 1 + 1 + 1) le_rfl)) nf hF.ne'
  rw [← hE.totalRate, abs_of_pos hF] at r2
  have r3 := ediv acc hη2 (esub acc hη2 (emul acc hη2 ex edy) (emul acc hη2 ey edx)) (near_round acc hη2 (near_mul hη2 nh nh)) (mul_pos hH hH).ne'
  rw [← hE.declinationRate, abs_of_pos (mul_pos hH hH)] at r3
  have r4 := ediv acc hη2 (esub acc hη2 (weaken acc hη2 (emul acc hη2 eh edz) (by omega : _ ≤ 1 + (1 + 1 + 1 + 1 + 1 + 1) + 1) le_rfl) (emul acc hη2 ez r1))
    (near_round acc hη2 (near_mul hη2 nf nf)) (mul_pos hF hF).ne'
  rw [← hE.inclinationRate, abs_of_pos (mul_pos hF hF)] at r4
  have hMH : M / E.horizontal = 1 + (|E.xDot| + |E.yDot| + |E.zDot|) / E.horizontal := by
    rw [hM]
    field_simp
    ring
  have bound : ∀ (k : ℕ) (A : ℝ), k ≤ 13 → 0 ≤ A → growth η k * A ≤ 2 * k * η * A := by
    intro k A hk hA
    refine mul_le_mul_of_nonneg_right (growth_le hη0.le hη2 ?_) hA
    have : (k : ℝ) ≤ 13 := by exact_mod_cast hk
    have := mul_le_mul this hη1 hη0.le (by norm_num)
    linarith
  refine ⟨?_, ?_, ?_, ?_⟩
  · rw [← hMH]
    refine r1.1.trans ((bound _ _ (by norm_num) (by positivity)).trans (le_of_eq ?_))
    rw [hη]
    push_cast
    field_simp
    ring
  · rw [← hMH]
    refine r2.1.trans ((bound _ _ (by norm_num) (by positivity)).trans ?_)
    have : (E.horizontal * M + E.horizontal * M + E.total * M) / E.total ≤ 3 * M := by
      rw [div_le_iff₀ hF]
      have := mul_le_mul_of_nonneg_right hHF hM0.le
      nlinarith
    refine (mul_le_mul_of_nonneg_left this (by positivity)).trans (le_of_eq ?_)
    rw [hη]
    push_cast
    field_simp
    ring
  · rw [← hMH]
    refine r3.1.trans ((bound _ _ (by norm_num) (by positivity)).trans (le_of_eq ?_))
    rw [hη]
    push_cast
    field_simp
    ring
  · rw [← hMH]
    refine r4.1.trans ((bound _ _ (by norm_num) (by positivity)).trans ?_)
    have : (E.horizontal * M + E.total * ((E.horizontal * M + E.horizontal * M) / E.horizontal)) / (E.total * E.total) ≤ 3 * M / E.total := by
      rw [div_le_div_iff₀ (mul_pos hF hF) hF]
      have e1 : (E.horizontal * M + E.horizontal * M) / E.horizontal = 2 * M := by field_simp; ring
      rw [e1]
      have := mul_le_mul_of_nonneg_right (mul_le_mul_of_nonneg_right hHF hM0.le) hF.le
      nlinarith
    refine (mul_le_mul_of_nonneg_left this (by positivity)).trans (le_of_eq ?_)
    rw [hη]
    push_cast
    field_simp
    ring

theorem elements_close (hs : Small fl u) (hat : ∀ y x, |lib.atan2 y x - Att.atan2 y x| ≤ e) {E : Elements} (hE : Exact E) {B : ℝ}
    (hB : 0 < B) (hBH : 104 * B ≤ E.horizontal) (huF : 1000 * (u * E.total) ≤ B) {x y z dx dy dz : ℝ}
    (hx : |x - E.x| ≤ B) (hy : |y - E.y| ≤ B / 8) (hz : |z - E.z| ≤ B)
    (kx : |dx - E.xDot| ≤ B) (ky : |dy - E.yDot| ≤ B) (kz : |dz - E.zDot| ≤ B) (year : ℝ) (p : Geodetic) (q : Geocentric) :
    ∃ E', elements fl lib year p q (x, y, z) (dx, dy, dz) = .ok E' ∧ E'.geodetic = p ∧ E'.geocentric = q ∧ E'.decimalYear = year ∧ Close B e E' E := by
  have hu := hs.pos
  have hule := hs.le
  have hH : 0 < E.horizontal := by linarith
  have hHF : E.horizontal ≤ E.total := by
    rw [hE.total]
    exact (le_abs_self _).trans (component_le _ _)
  have hF : 0 < E.total := by linarith
  have huH : 1000 * (u * E.horizontal) ≤ B := by
    have := mul_le_mul_of_nonneg_left hHF hu.le
    linarith
  -- the horizontal intensity
  have l1 := length_round hs x y
  have l2 := length_close E.x E.y x y
  rw [← hE.horizontal] at l2
  have hh2 : |fl √(fl (fl (x * x) + fl (y * y))) - E.horizontal| ≤ 2 * B := by
    have a1 := abs_sub_le (fl √(fl (fl (x * x) + fl (y * y)))) √(x * x + y * y) E.horizontal
    have a2 := (abs_le.1 (l2.trans (add_le_add hx hy))).2
    have a3 : u * √(x * x + y * y) ≤ u * (E.horizontal + 2 * B) := mul_le_mul_of_nonneg_left (by linarith) hu.le
    have a4 : u * (2 * B) ≤ 1 / 1000000 * (2 * B) := mul_le_mul_of_nonneg_right hule (by linarith)
    linarith
  have hρ : 0 < √(x * x + y * y) := by
    have a2 := (abs_le.1 (l2.trans (add_le_add hx hy))).1
    linarith
  set h' := fl √(fl (fl (x * x) + fl (y * y))) with hh'
  have hpos : 0 < h' := by
    have := (abs_le.1 hh2).1
    linarith
  -- the total intensity
  have m1 := length_round hs h' z
  have m2 := length_close E.horizontal E.z h' z
  rw [← hE.total] at m2
  have mF := (abs_le.1 (m2.trans (add_le_add hh2 hz)))
  have hf3 : |fl √(fl (fl (h' * h') + fl (z * z))) - E.total| ≤ 4 * B := by
    have a1 := abs_sub_le (fl √(fl (fl (h' * h') + fl (z * z)))) √(h' * h' + z * z) E.total
    have a2 := m2.trans (add_le_add hh2 hz)
    have a3 : u * √(h' * h' + z * z) ≤ u * (E.total + 3 * B) := mul_le_mul_of_nonneg_left (by linarith) hu.le
    have a4 : u * (3 * B) ≤ 1 / 1000000 * (3 * B) := mul_le_mul_of_nonneg_right hule (by linarith)
    linarith
  have hτ : 0 < √(h' * h' + z * z) := by linarith
  set f' := fl √(fl (fl (h' * h') + fl (z * z))) with hf'
  obtain ⟨r1, r2, r3, r4⟩ := rates_close hs hE hB hBH hHF huH hx hy hz kx ky kz hh2 hf3
  obtain ⟨d1, d2⟩ := direction_close hat (x := E.x) (y := E.y) (x' := x) (y' := y) (B := B) (D := 2 * B) (by rw [← hE.horizontal]; exact hH) hρ hx (by linarith) (by linarith)
  obtain ⟨i1, i2⟩ := direction_close hat (x := E.horizontal) (y := E.z) (x' := h') (y' := z) (B := 2 * B) (D := 3 * B) (by rw [← hE.total]; exact hF) hτ hh2 (by linarith) (by linarith)
  rw [← hE.declination, ← hE.horizontal] at d1 d2
  rw [← hE.inclination, ← hE.total] at i1 i2
  refine ⟨_, if_neg hpos.ne', rfl, rfl, rfl, ?_⟩
  exact {
    x := hx
    y := by dsimp only; linarith
    z := hz
    xDot := kx
    yDot := ky
    zDot := kz
    horizontal := hh2
    total := hf3
    cos_declination := d1.trans (le_of_eq (by ring))
    sin_declination := d2.trans (le_of_eq (by ring))
    cos_inclination := i1.trans (le_of_eq (by ring))
    sin_inclination := i2.trans (le_of_eq (by ring))
    gridVariation := rfl
    horizontalRate := r1
    totalRate := r2
    declinationRate := r3
    inclinationRate := r4 }

/-! ## C195 -/

theorem rates_eq {lat alt lon : ℝ} : rates fl lib powi lat lon alt =
      let A := accumulate fl powi 12 (fun n m => fl ((tableOf rawGDot).get n m)) (fun n m => fl ((tableOf rawHDot).get n m))
        (Fp.harmonics fl 12 (lib.cos lon) (lib.sin lon)).1 (Fp.harmonics fl 12 (lib.cos lon) (lib.sin lon)).2
        (Fp.legendre fl 12 (lib.sin (geocentric fl lib lat alt).2) (lib.cos (geocentric fl lib lat alt).2)).1
        (Fp.legendre fl 12 (lib.sin (geocentric fl lib lat alt).2) (lib.cos (geocentric fl lib lat alt).2)).2
        (lib.cos (geocentric fl lib lat alt).2) (geocentric fl lib lat alt).1
      (fl (fl (A.1 * lib.cos (fl ((geocentric fl lib lat alt).2 - lat))) - fl (A.2.2 * lib.sin (fl ((geocentric fl lib lat alt).2 - lat)))),
        A.2.1, fl (fl (A.1 * lib.sin (fl ((geocentric fl lib lat alt).2 - lat))) + fl (A.2.2 * lib.cos (fl ((geocentric fl lib lat alt).2 - lat))))) := by
  unfold rates
  rw [show maxDegree = 12 from rfl]

theorem rate_err {ε : ℝ} (h : Accurate fl ε) (hu : ε < 1) (raw rawDot : List ℤ) (n m : ℕ) (hm : m ≤ n) (hn : n ≤ 12) :
    Err ε 4 (fl ((tableOf rawDot).get n m)) ((tableOf rawDot).get n m) ((reach raw rawDot n m : ℝ) / 10) := by
  refine weaken h hu (near_err h hu (near_round h hu (near_self (ε := ε) ((tableOf rawDot).get n m)))) (by omega) ?_
  rw [get_abs rawDot n m hm hn]
  unfold reach
  push_cast
  have h1 : (0 : ℝ) ≤ ((raw.getD (Table.index n m) 0).natAbs : ℝ) := Nat.cast_nonneg _
  have h2 : (0 : ℝ) ≤ ((rawDot.getD (Table.index n m) 0).natAbs : ℝ) := Nat.cast_nonneg _
  linarith

/-- **C195**: under the conditions of C194, with an arctangent also within `e`, and with `B = 8·10¹¹ (u + e) / c³` the bound on
the components: where the exact horizontal intensity is at least `104 B`, the evaluation in floating point succeeds, its
components and their rates of change are within `B`, the horizontal and the total intensity within `2 B` and `4 B`, and the
angles and the rates of intensities and angles are within the bounds of `Close`. -/
theorem C195_elements (hs : Small fl u) (hl : Library lib powi u e) (hat : ∀ y x, |lib.atan2 y x - Att.atan2 y x| ≤ e) {year : ℝ} {p : Geodetic}
    {E : Elements} (h : wmm2025.evaluate year p = .ok E) (hy : |year - 2025| ≤ 5) (hlat : |p.latitude| ≤ π / 2) (hh : -10000 ≤ p.height)
    (hp : 4e-12 ≤ cos E.geocentric.latitude) (hf : 70000 * (u + e) ≤ cos E.geocentric.latitude ^ 2)
    {B : ℝ} (hB : B = 8 * 10 ^ 11 * (u + e) / cos E.geocentric.latitude ^ 3) (hH : 104 * B ≤ E.horizontal) :
    ∃ E', evaluate fl lib powi year p = .ok E' ∧ E'.geodetic = p ∧ E'.decimalYear = year ∧ Close B e E' E := by
  obtain ⟨C, h1, -, hN, -, hpole, hel⟩ := evaluate_ok h
  obtain ⟨-, eg, -, ex, ey, ez, edx, edy, edz, k1, -, k2, k3, k4, -, k5, k6, k7, k8⟩ := elements_ok hel
  have hE : Exact E := ⟨k1, k2, k3, k4, k5, k6, k7, k8⟩
  have egl : E.geocentric.latitude = geocentricLatitude p.latitude p.height := by rw [eg, toGeocentric_eq]
  have eql : (toGeocentric p).latitude = geocentricLatitude p.latitude p.height := by rw [toGeocentric_eq]
  rw [egl] at hp hf hB
  rw [eql] at ex ez edx edz
  have S : Setting fl lib powi u e p.latitude p.height (cos (geocentricLatitude p.latitude p.height)) :=
    ⟨hs, hl, hlat, hh, rfl, hp, hf⟩
  obtain ⟨hc, hc1, he0, hK, hK1, e1, e2, e3, e4, acc⟩ := S.basics
  have hu1 : unit u e (cos (geocentricLatitude p.latitude p.height)) < 1 := by linarith
  have h0 := accurate_nonneg acc
  obtain ⟨ax, ay, az, bx, bY, bz⟩ := acc_model h1 hN (p := p)
  obtain ⟨fx, fy, fz⟩ := S.components p.longitude (fun n m hm hn => coefficient_err acc hu1 rawG rawGDot hy n m hm hn)
    (fun n m hm hn => coefficient_err acc hu1 rawH rawHDot hy n m hm hn)
  rw [← ax, ← az, ← ex] at fx
  rw [← ax, ← az, ← ez] at fz
  rw [← ay, ← ey] at fy
  obtain ⟨gx, gy, gz⟩ := S.components p.longitude (fun n m hm hn => rate_err acc hu1 rawG rawGDot n m hm hn)
    (fun n m hm hn => rate_err acc hu1 rawH rawHDot n m hm hn)
  rw [← bx, ← bz, ← edx] at gx
  rw [← bx, ← bz, ← edz] at gz
  rw [← bY, ← edy] at gy
  have hfield := field_some (fl := fl) (lib := lib) (powi := powi) year (lon := p.longitude) S.pole_passed
  have hrates := rates_eq (fl := fl) (lib := lib) (powi := powi) (lat := p.latitude) (alt := p.height) (lon := p.longitude)
  dsimp only at hfield hrates fx fy fz gx gy gz
  generalize accumulate fl powi 12 (coefficient fl rawG rawGDot (fl (year - 2025))) _ _ _ _ _ _ _ = A at fx fy fz hfield
  generalize accumulate fl powi 12 _ _ _ _ _ _ _ _ = A' at gx gy gz hrates
  have b1 := final_bound hK hc hc1 h0 hu1 e4
  have b2 := final_bound_y hK hc h0 hu1 e4
  rw [← hB] at b1
  set c := cos (geocentricLatitude p.latitude p.height) with hcd
  have hB0 : 0 < B := by rw [hB]; positivity
  have b3 : growth (unit u e c) 299 * 1400000 ≤ B / 8 := by
    refine b2.trans ?_
    rw [hB, div_div, div_le_div_iff₀ (by positivity) (by positivity)]
    have : c ^ 3 ≤ c ^ 2 := pow_le_pow_of_le_one hc.le hc1 (by norm_num)
    have := mul_le_mul_of_nonneg_left this (show 0 ≤ 8 * 10 ^ 11 * (u + e) by positivity)
    linarith
  have hX : |E.x| ≤ 11100000 / c := by
    refine fx.2.trans ?_
    rw [le_div_iff₀ hc, add_mul, mul_one, div_mul_cancel₀ _ hc.ne']
    linarith
  have hZ : |E.z| ≤ 11100000 / c := by
    refine fz.2.trans ?_
    rw [le_div_iff₀ hc, add_mul, mul_one, div_mul_cancel₀ _ hc.ne']
    linarith
  have hY : |E.y| ≤ 1400000 / c := by
    refine fy.2.trans ?_
    rw [le_div_iff₀ hc]
    linarith
  have hHb : E.horizontal ≤ 12500000 / c := by
    have := length_close 0 0 E.x E.y
    rw [← hE.horizontal] at this
    simp only [mul_zero, add_zero, Real.sqrt_zero, sub_zero] at this
    have h2 := (le_abs_self _).trans this
    have : (11100000 : ℝ) / c + 1400000 / c = 12500000 / c := by ring
    linarith
  have hFb : E.total ≤ 23600000 / c := by
    have := length_close 0 0 E.horizontal E.z
    rw [← hE.total] at this
    simp only [mul_zero, add_zero, Real.sqrt_zero, sub_zero] at this
    have h2 := (le_abs_self _).trans this
    rw [abs_of_nonneg (show 0 ≤ E.horizontal by linarith)] at h2
    have : (12500000 : ℝ) / c + 11100000 / c = 23600000 / c := by ring
    linarith
  have huF : 1000 * (u * E.total) ≤ B := by
    have h2 := mul_le_mul_of_nonneg_left hFb hs.pos.le
    have h3 : 1000 * (u * (23600000 / c)) ≤ B := by
      rw [hB, ← mul_div_assoc, ← mul_div_assoc, div_le_div_iff₀ hc (by positivity)]
      have h4 : c ^ 3 ≤ c := by
        have : c ^ 3 ≤ c ^ 1 := pow_le_pow_of_le_one hc.le hc1 (by norm_num)
        rwa [pow_one] at this
      have h5 := mul_le_mul_of_nonneg_left h4 (show 0 ≤ 1000 * (u * 23600000) by have := hs.pos; positivity)
      have h6 := mul_nonneg (show 0 ≤ u by exact hs.pos.le) hc.le
      have h7 := mul_nonneg he0 hc.le
      linarith
    linarith
  have key := elements_close hs hat hE hB0 hH huF (fx.1.trans b1) (fy.1.trans b3) (fz.1.trans b1) (gx.1.trans b1)
    ((gy.1.trans b3).trans (by linarith)) (gz.1.trans b1) year p
    { latitude := (geocentric fl lib p.latitude p.height).2, longitude := p.longitude, radius := (geocentric fl lib p.latitude p.height).1 }
  obtain ⟨E', hok, hg, -, hyr, hcl⟩ := key
  refine ⟨E', ?_, hg, hyr, hcl⟩
  unfold evaluate
  rw [hfield]
  dsimp only
  rw [hrates]
  exact hok

/-- The hypotheses can be met: above the equator, with exact library functions and enough significant bits. -/
example : ∃ alt E p, wmm2025.evaluate 2025 ⟨0, 0, alt⟩ = .ok E ∧
    ∃ E', evaluate (Verif.Float.rnd p) Verif.Float.exactLib (fun x k => x ^ k) 2025 ⟨0, 0, alt⟩ = .ok E' ∧
      |E'.horizontal - E.horizontal| ≤ E.horizontal / 50 := by
  obtain ⟨alt, ha, E, hE⟩ := far_field
  obtain ⟨C, -, -, -, -, -, hel⟩ := evaluate_ok hE
  have hgeo : cos E.geocentric.latitude = 1 := by
    rw [(elements_ok hel).2.1, toGeocentric_eq]
    simp [geocentricLatitude, planeHeight]
  obtain ⟨-, -, -, -, -, -, -, -, -, k1, k2, -⟩ := elements_ok hel
  have hH : 0 < E.horizontal := lt_of_le_of_ne (by rw [k1]; exact Real.sqrt_nonneg _) (Ne.symm k2)
  obtain ⟨n, hn⟩ := exists_pow_lt_of_lt_one (show 0 < E.horizontal / (104 * (8 * 10 ^ 11)) by positivity) (show (1 / 2 : ℝ) < 1 by norm_num)
  have hpow : (2 : ℝ) ^ (-((n + 53 : ℕ) : ℤ)) = (1 / 2) ^ n * (1 / 2) ^ 53 := by
    rw [zpow_neg, zpow_natCast, pow_add, mul_inv, one_div, inv_pow, inv_pow]
  have h1 : (1 / 2 : ℝ) ^ n ≤ 1 := pow_le_one₀ (by norm_num) (by norm_num)
  have h0 : (0 : ℝ) < (1 / 2) ^ n := by positivity
  have hsmall : (2 : ℝ) ^ (-((n + 53 : ℕ) : ℤ)) ≤ 1 / 10 ^ 15 := by
    rw [hpow]
    have : ((1 : ℝ) / 2) ^ 53 ≤ 1 / 10 ^ 15 := by norm_num
    calc (1 / 2 : ℝ) ^ n * (1 / 2) ^ 53 ≤ 1 * (1 / 10 ^ 15) := mul_le_mul h1 this (by positivity) zero_le_one
      _ = _ := one_mul _
  have hsm : Small (Verif.Float.rnd (n + 53)) (2 ^ (-((n + 53 : ℕ) : ℤ))) :=
    ⟨Verif.Float.Nearest.accurate (Verif.Float.rnd_nearest (by omega)) (by omega), by positivity, hsmall.trans (by norm_num)⟩
  have hlib : Library Verif.Float.exactLib (fun x k => x ^ k) (2 ^ (-((n + 53 : ℕ) : ℤ))) 0 := by
    refine ⟨fun x => ?_, fun x => ?_, fun x hx => ?_, fun x k hx hk => ?_⟩
    · simp [Verif.Float.exactLib]
    · simp [Verif.Float.exactLib]
    · simp [Verif.Float.exactLib]
    · exact near_mono hsm.acc (by linarith [show (1 : ℝ) / 10 ^ 15 < 1 by norm_num]) (Nat.zero_le k) (near_self _)
  have hB : 104 * (8 * 10 ^ 11 * ((2 : ℝ) ^ (-((n + 53 : ℕ) : ℤ)) + 0) / cos E.geocentric.latitude ^ 3) ≤ E.horizontal := by
    rw [hgeo, add_zero, one_pow, div_one, hpow]
    rw [lt_div_iff₀ (by positivity)] at hn
    have : (1 / 2 : ℝ) ^ n * (1 / 2) ^ 53 ≤ (1 / 2) ^ n * 1 := mul_le_mul_of_nonneg_left (by norm_num) h0.le
    linarith
  obtain ⟨E', h2, -, -, h3⟩ := C195_elements hsm hlib (fun y x => by simp [Verif.Float.exactLib]) hE (by norm_num) (by simp; positivity)
    (by simpa using by linarith) (by rw [hgeo]; norm_num) (by rw [hgeo, add_zero]; linarith [show (70000 : ℝ) * (1 / 10 ^ 15) ≤ 1 ^ 2 by norm_num]) rfl hB
  refine ⟨alt, E, n + 53, hE, E', h2, h3.horizontal.trans ?_⟩
  linarith

end Verif.Wmm.Fp
