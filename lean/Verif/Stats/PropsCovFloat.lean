import Verif.Stats.PropsCov
import Verif.Round.Lemmas
import Verif.Float.Lemmas
import Mathlib.Algebra.Order.Chebyshev

/-!
# Sample statistics in rounded arithmetic (C154, C155)

`Fl fl` is the reals with every operation rounded by `fl`; `Accurate fl u`: one rounding moves a number by at most the fraction `u` of it;
`growth u d = (1 - u)⁻ᵈ - 1` is the accumulated effect of `d` roundings.
-/

namespace Verif.Stats

open Verif.Mat Verif.Simd Verif.Round

variable {n m : ℕ} {fl : ℝ → ℝ} {u : ℝ}

/-- `T::from_usize`: a count is rounded. -/
noncomputable instance : NatCast (Fl fl) := ⟨fun k => ⟨fl k⟩⟩

/-- The samples as vectors of reals. -/
def vals (xs : List (Fin n → Fl fl)) : List (Fin n → ℝ) := xs.map valV

/-- The mean of the absolute values of component `i`. -/
noncomputable def avgAbs (xs : List (Fin n → Fl fl)) (i : Fin n) : ℝ := (xs.map fun x => |(x i).val|).sum / xs.length

/-! ## Roundings as factors -/

/-- `t` is the product of at most `d` factors `1 + δ` and `1 / (1 + δ)` with `|δ| ≤ u`. -/
def Fac (u : ℝ) (d : ℕ) (t : ℝ) : Prop := (1 - u) ^ d ≤ t ∧ t ≤ ((1 - u) ^ d)⁻¹

theorem Fac.pos (hu : u < 1) {d : ℕ} {t : ℝ} (h : Fac u d t) : 0 < t := lt_of_lt_of_le (pow_pos (by linarith) d) h.1

theorem Fac.mul (hu : u < 1) {d e : ℕ} {s t : ℝ} (hs : Fac u d s) (ht : Fac u e t) : Fac u (d + e) (s * t) := by
  have h1 : 0 < 1 - u := by linarith
  refine ⟨?_, ?_⟩
  · rw [pow_add]; exact mul_le_mul hs.1 ht.1 (by positivity) (hs.pos hu).le
  · rw [pow_add, mul_inv]; exact mul_le_mul hs.2 ht.2 (ht.pos hu).le (by positivity)

theorem Fac.inv (hu : u < 1) {d : ℕ} {t : ℝ} (h : Fac u d t) : Fac u d t⁻¹ := by
  have h1 : 0 < (1 - u) ^ d := pow_pos (by linarith) d
  refine ⟨?_, inv_anti₀ h1 h.1⟩
  rw [← inv_inv ((1 - u) ^ d)]
  exact inv_anti₀ (h.pos hu) h.2

theorem accurate_nonneg (h : Accurate fl u) : 0 ≤ u := by
  have := (abs_nonneg _).trans (h 1)
  simpa using this

theorem accurate_fac (h : Accurate fl u) (hu : u < 1) (x : ℝ) : ∃ t, Fac u 1 t ∧ fl x = x * t := by
  have hu0 := accurate_nonneg h
  have h1 : 0 < 1 - u := by linarith
  have h3 : 1 + u ≤ (1 - u)⁻¹ := by rw [le_inv_comm₀ (by positivity) h1, inv_eq_one_div, le_div_iff₀ (by positivity)]; nlinarith
  by_cases hx : x = 0
  · refine ⟨1, ⟨by rw [pow_one]; linarith, by rw [pow_one]; linarith⟩, ?_⟩
    have := h 0
    subst hx
    simpa using this
  · refine ⟨fl x / x, ?_, by field_simp⟩
    have h4 := h x
    have h5 : |fl x / x - 1| ≤ u := by
      rw [div_sub_one hx, abs_div, div_le_iff₀ (abs_pos.2 hx)]; exact h4
    have := abs_le.1 h5
    refine ⟨by rw [pow_one]; linarith, by rw [pow_one]; linarith⟩

theorem Fac.dist (h0 : 0 ≤ u) (hu : u < 1) {d : ℕ} {t : ℝ} (h : Fac u d t) : |t - 1| ≤ growth u d := by
  have h1 : 0 < (1 - u) ^ d := pow_pos (by linarith) d
  have h2 : (1 - u) ^ d ≤ 1 := pow_le_one₀ (by linarith) (by linarith)
  unfold growth
  obtain ⟨ha, hb⟩ := h
  have h3 : 2 ≤ (1 - u) ^ d + ((1 - u) ^ d)⁻¹ := by
    generalize (1 - u) ^ d = a at *
    have : a + a⁻¹ - 2 = (a - 1) ^ 2 / a := by field_simp; ring
    have h4 : 0 ≤ (a - 1) ^ 2 / a := by positivity
    linarith
  rw [abs_le]
  constructor <;> linarith

/-- `a` is `s` up to `d` roundings of terms of total size `A`. -/
def Err (u : ℝ) (d : ℕ) (a s A : ℝ) : Prop := |a - s| ≤ growth u d * A ∧ |s| ≤ A

theorem growth_pos (h0 : 0 ≤ u) (hu : u < 1) (d : ℕ) : 0 ≤ growth u d := by
  unfold growth
  have : 1 ≤ ((1 - u) ^ d)⁻¹ := (one_le_inv₀ (pow_pos (by linarith) d)).2 (pow_le_one₀ (by linarith) (by linarith))
  linarith

theorem Err.fac (h0 : 0 ≤ u) (hu : u < 1) {d e : ℕ} {a s A t : ℝ} (h : Err u d a s A) (ht : Fac u e t) : Err u (d + e) (a * t) s A := by
  refine ⟨?_, h.2⟩
  have hA : 0 ≤ A := (abs_nonneg _).trans h.2
  have h1 := ht.dist h0 hu
  have h2 : |a * t - s| ≤ t * |a - s| + |t - 1| * |s| := by
    have e1 : a * t - s = t * (a - s) + (t - 1) * s := by ring
    rw [e1]
    refine (abs_add_le _ _).trans ?_
    rw [abs_mul, abs_mul, abs_of_pos (ht.pos hu)]
  have h3 : t * |a - s| ≤ ((1 - u) ^ e)⁻¹ * (growth u d * A) :=
    mul_le_mul ht.2 h.1 (abs_nonneg _) (inv_nonneg.2 (pow_nonneg (by linarith) e))
  have h4 : |t - 1| * |s| ≤ growth u e * A := mul_le_mul h1 h.2 (abs_nonneg _) (growth_pos h0 hu e)
  refine h2.trans ((add_le_add h3 h4).trans ?_)
  unfold growth
  rw [pow_add, mul_inv]
  apply le_of_eq
  ring

theorem Err.scale {d : ℕ} {a s A c : ℝ} (hc : 0 ≤ c) (h : Err u d a s A) : Err u d (a * c) (s * c) (A * c) := by
  refine ⟨?_, ?_⟩
  · rw [← sub_mul, abs_mul, abs_of_nonneg hc, ← mul_assoc]
    exact mul_le_mul_of_nonneg_right h.1 hc
  · rw [abs_mul, abs_of_nonneg hc]
    exact mul_le_mul_of_nonneg_right h.2 hc

theorem Err.add (h : Accurate fl u) (hu : u < 1) {d : ℕ} {a s A z t : ℝ} (ha : Err u d a s A) (ht : Fac u d t) :
    Err u (d + 1) (fl (a + z * t)) (s + z) (A + |z|) := by
  have h0 := accurate_nonneg h
  obtain ⟨r, hr, e⟩ := accurate_fac h hu (a + z * t)
  rw [e]
  refine Err.fac h0 hu ⟨?_, (abs_add_le _ _).trans (by linarith [ha.2])⟩ hr
  have e1 : a + z * t - (s + z) = (a - s) + (t - 1) * z := by ring
  rw [e1, mul_add]
  refine (abs_add_le _ _).trans (add_le_add ha.1 ?_)
  rw [abs_mul]
  exact mul_le_mul_of_nonneg_right (ht.dist h0 hu) (abs_nonneg _)

theorem Fac.mono (h0 : 0 ≤ u) (hu : u < 1) {d e : ℕ} (hde : d ≤ e) {t : ℝ} (h : Fac u d t) : Fac u e t := by
  have h1 : 0 < (1 - u) ^ e := pow_pos (by linarith) e
  have h2 : (1 - u) ^ e ≤ (1 - u) ^ d := pow_le_pow_of_le_one (by linarith) (by linarith) hde
  exact ⟨h2.trans h.1, h.2.trans (inv_anti₀ h1 h2)⟩

/-- A rounded sum of terms `z k` each of which is off by at most `e` roundings. -/
theorem sum_err (h : Accurate fl u) (hu : u < 1) {P : Type*} (y : P → ℝ) (z : P → ℝ) {e : ℕ} (hy : ∀ p, ∃ t, Fac u e t ∧ y p = z p * t) :
    ∀ (ps : List P) {d : ℕ} {a s A : ℝ}, e ≤ d → Err u d a s A →
      Err u (d + ps.length) (ps.foldl (fun acc p => fl (acc + y p)) a) (s + (ps.map z).sum) (A + (ps.map fun p => |z p|).sum)
  | [], d, a, s, A, _, ha => by simpa using ha
  | p :: ps, d, a, s, A, hd, ha => by
    obtain ⟨t, ht, ht'⟩ := hy p
    have h1 := Err.add h hu (z := z p) ha (ht.mono (accurate_nonneg h) hu hd)
    have h2 := sum_err h hu y z hy ps (show e ≤ d + 1 by omega) h1
    rw [List.foldl_cons, ht']
    simp only [List.map_cons, List.sum_cons, List.length_cons]
    rw [show d + (ps.length + 1) = d + 1 + ps.length by omega, ← add_assoc, ← add_assoc]
    exact h2

theorem err_zero (d : ℕ) : Err u d 0 0 0 := by simp [Err]

/-! ## The mean -/

theorem fl_foldl_sum (xs : List (Fin n → Fl fl)) (i : Fin n) : ∀ v : Fin n → Fl fl,
    (xs.foldl (fun mean sample => mean + sample) v i).val = xs.foldl (fun acc x => fl (acc + (x i).val)) (v i).val := by
  induction xs with
  | nil => intro v; rfl
  | cons x xs ih => intro v; rw [List.foldl_cons, ih]; rfl

theorem avg_vals (xs : List (Fin n → Fl fl)) (i : Fin n) : avg (vals xs) i = (xs.map fun x => (x i).val).sum / xs.length := by
  unfold avg vals
  rw [List.map_map, List.length_map]
  rfl

/-- C154: the computed mean of any number of samples is within `N + 2` roundings of the mean, relative to the mean of the absolute values. -/
theorem C154_mean (h : Accurate fl u) (hu : u < 1) (xs : List (Fin n → Fl fl)) (hne : xs ≠ []) :
    ∃ mu, mean xs = .ok mu ∧ ∀ i, |(mu i).val - avg (vals xs) i| ≤ growth u (xs.length + 2) * avgAbs xs i := by
  have h0 := accurate_nonneg h
  refine ⟨_, by unfold mean; rw [if_neg (by simpa using hne)], fun i => ?_⟩
  have hN : (0 : ℝ) < xs.length := by exact_mod_cast List.length_pos_iff.2 hne
  have h1 := sum_err h hu (fun x : Fin n → Fl fl => (x i).val) (fun x => (x i).val) (e := 0)
    (fun x => ⟨1, ⟨by simp, by simp⟩, by simp⟩) xs le_rfl (err_zero 0)
  obtain ⟨t, ht, et⟩ := accurate_fac h hu (xs.length : ℝ)
  obtain ⟨r, hr, er⟩ := accurate_fac h hu
    ((xs.foldl (fun mean sample => mean + sample) (fun _ => (0 : Fl fl)) i).val / fl (xs.length : ℝ))
  have e1 : ((xs.foldl (fun mean sample => mean + sample) (fun _ => (0 : Fl fl)) i) / ((xs.length : ℕ) : Fl fl)).val =
      fl ((xs.foldl (fun mean sample => mean + sample) (fun _ => (0 : Fl fl)) i).val / fl (xs.length : ℝ)) := rfl
  rw [e1, er, fl_foldl_sum, et]
  have h2 := ((h1.scale (c := (xs.length : ℝ)⁻¹) (by positivity)).fac h0 hu (ht.inv hu)).fac h0 hu hr
  rw [avg_vals]
  unfold avgAbs
  have h3 := h2.1
  simp only [zero_add] at h3
  convert h3 using 2
  · rw [div_eq_mul_inv, mul_inv]
    simp only [div_eq_mul_inv, mul_assoc]
    rfl
  · rw [div_eq_mul_inv]

/-- Rounding to nearest in `f64` is accurate to `2⁻⁵³`, and there are samples. -/
example : Accurate (Verif.Float.rnd 53) (2 ^ (-(53 : ℕ) : ℤ)) ∧ ((2 : ℝ) ^ (-(53 : ℕ) : ℤ) < 1) ∧
    ([fun _ => ⟨1⟩, fun _ => ⟨2⟩] : List (Fin 3 → Fl (Verif.Float.rnd 53))) ≠ [] :=
  ⟨(Verif.Float.rnd_nearest (by norm_num)).accurate (by norm_num), by norm_num, by simp⟩

/-! ## The covariance -/

/-- The textbook sample variance of component `i`. -/
noncomputable def variance (xs : List (Fin n → Fl fl)) (i : Fin n) : ℝ :=
  (xs.map fun x => ((x i).val - avg (vals xs) i) ^ 2).sum / ((xs.length : ℝ) - 1)

/-- The bound of `C154_mean` on the error of the mean. -/
noncomputable def meanErr (u : ℝ) (xs : List (Fin n → Fl fl)) (i : Fin n) : ℝ := growth u (xs.length + 2) * avgAbs xs i

theorem fl_foldl_addOuter {P : Type*} (f : P → Fin n → Fl fl) (g : P → Fin m → Fl fl) (i : Fin n) (j : Fin m) :
    ∀ (ps : List P) (cov : Mat (Fl fl) n m),
      (ps.foldl (fun cov p => addOuter cov (f p) (g p)) cov i j).val =
        ps.foldl (fun acc p => fl (acc + fl ((f p i).val * (g p j).val))) (cov i j).val
  | [], cov => rfl
  | p :: ps, cov => by
    rw [List.foldl_cons, fl_foldl_addOuter f g i j ps, addOuter_apply]
    rfl

/-- The computed entry, in terms of the computed means. -/
theorem cross_val (xs : List (Fin n → Fl fl)) (ys : List (Fin m → Fl fl)) (hl : xs.length = ys.length) (h2 : 2 ≤ xs.length)
    {mx : Fin n → Fl fl} {my : Fin m → Fl fl} (hx : mean xs = .ok mx) (hy : mean ys = .ok my) :
    ∃ S, crossCovariance xs ys = .ok S ∧ ∀ i j, (S i j).val =
      fl ((xs.zip ys).foldl (fun acc p => fl (acc + fl (fl ((p.1 i).val - (mx i).val) * fl ((p.2 j).val - (my j).val)))) 0 *
        fl (1 / fl ((xs.length - 1 : ℕ) : ℝ))) := by
  unfold crossCovariance
  rw [if_neg (by simp [hl]), if_neg (by rw [List.isEmpty_iff]; rintro rfl; simp at h2), if_neg (by omega), hx, hy]
  refine ⟨_, rfl, fun i j => ?_⟩
  unfold mulS
  rw [fillLoop_apply]
  show fl (_ * _) = _
  rw [fl_foldl_addOuter]
  rfl

theorem list_cauchy {P : Type*} (f g : P → ℝ) : ∀ ps : List P,
    (ps.map fun p => |f p * g p|).sum ≤ √(ps.map fun p => f p ^ 2).sum * √(ps.map fun p => g p ^ 2).sum
  | [] => by simp
  | p :: ps => by
    have ih := list_cauchy f g ps
    have hA : 0 ≤ (ps.map fun p => f p ^ 2).sum := List.sum_nonneg (by simp only [List.mem_map]; rintro _ ⟨q, _, rfl⟩; positivity)
    have hB : 0 ≤ (ps.map fun p => g p ^ 2).sum := List.sum_nonneg (by simp only [List.mem_map]; rintro _ ⟨q, _, rfl⟩; positivity)
    simp only [List.map_cons, List.sum_cons]
    generalize (ps.map fun p => f p ^ 2).sum = A at *
    generalize (ps.map fun p => g p ^ 2).sum = B at *
    refine (add_le_add le_rfl ih).trans ?_
    rw [← Real.sqrt_mul (show 0 ≤ f p ^ 2 + A by positivity)]
    apply Real.le_sqrt_of_sq_le
    have ha := Real.sq_sqrt hA
    have hb := Real.sq_sqrt hB
    have ha' := Real.sqrt_nonneg A
    have hb' := Real.sqrt_nonneg B
    generalize √A = a at *
    generalize √B = b at *
    rw [abs_mul, ← ha, ← hb, ← sq_abs (f p), ← sq_abs (g p)]
    nlinarith [sq_nonneg (|f p| * b - |g p| * a)]

/-- Products of deviations from shifted centres. -/
theorem shift_sum {P : Type*} (f g : P → ℝ) (e d : ℝ) : ∀ ps : List P,
    (ps.map fun p => (f p - e) * (g p - d)).sum =
      (ps.map fun p => f p * g p).sum - e * (ps.map g).sum - d * (ps.map f).sum + ps.length * (e * d)
  | [] => by simp
  | p :: ps => by
    simp only [List.map_cons, List.sum_cons, List.length_cons, Nat.cast_add, Nat.cast_one]
    rw [shift_sum f g e d ps]
    ring

theorem dev_sum {P : Type*} (f : P → ℝ) (c : ℝ) : ∀ ps : List P, (ps.map fun p => f p - c).sum = (ps.map f).sum - ps.length * c
  | [] => by simp
  | p :: ps => by
    simp only [List.map_cons, List.sum_cons, List.length_cons, Nat.cast_add, Nat.cast_one]
    rw [dev_sum f c ps]
    ring

/-- The rounded sum of products of deviations from any centres. -/
theorem entry_err (h : Accurate fl u) (hu : u < 1) {P : Type*} (f g : P → ℝ) (c d : ℝ) (ps : List P) (N : ℕ) :
    Err u (ps.length + 6)
      (fl (ps.foldl (fun acc p => fl (acc + fl (fl (f p - c) * fl (g p - d)))) 0 * fl (1 / fl (N : ℝ))))
      ((ps.map fun p => (f p - c) * (g p - d)).sum / N) ((ps.map fun p => |(f p - c) * (g p - d)|).sum / N) := by
  have h0 := accurate_nonneg h
  have h1 := sum_err h hu (fun p => fl (fl (f p - c) * fl (g p - d))) (fun p => (f p - c) * (g p - d)) (e := 3) (fun p => by
    obtain ⟨t1, f1, e1⟩ := accurate_fac h hu (f p - c)
    obtain ⟨t2, f2, e2⟩ := accurate_fac h hu (g p - d)
    obtain ⟨t3, f3, e3⟩ := accurate_fac h hu (fl (f p - c) * fl (g p - d))
    refine ⟨t1 * t2 * t3, (f1.mul hu f2).mul hu f3, ?_⟩
    rw [e3, e1, e2]
    ring) ps le_rfl (err_zero 3)
  obtain ⟨t1, f1, e1⟩ := accurate_fac h hu (N : ℝ)
  obtain ⟨t2, f2, e2⟩ := accurate_fac h hu (1 / fl (N : ℝ))
  obtain ⟨t3, f3, e3⟩ := accurate_fac h hu
    (ps.foldl (fun acc p => fl (acc + fl (fl (f p - c) * fl (g p - d)))) 0 * fl (1 / fl (N : ℝ)))
  have h2 := (((h1.scale (c := (N : ℝ)⁻¹) (by positivity)).fac h0 hu (f1.inv hu)).fac h0 hu f2).fac h0 hu f3
  rw [e3, e2, e1]
  simp only [zero_add] at h2
  convert h2 using 1
  · omega
  · rw [one_div, mul_inv]; ring
  · rw [div_eq_mul_inv]
  · rw [div_eq_mul_inv]

theorem meanErr_nonneg (h0 : 0 ≤ u) (hu : u < 1) (xs : List (Fin n → Fl fl)) (i : Fin n) : 0 ≤ meanErr u xs i := by
  unfold meanErr avgAbs
  refine mul_nonneg (growth_pos h0 hu _) (div_nonneg (List.sum_nonneg ?_) (by positivity))
  simp only [List.mem_map]
  rintro _ ⟨q, _, rfl⟩
  positivity

/-- **C154** for cross-covariances. With `N ≥ 2` paired samples, the computed entry is within `N + 6` roundings of the textbook value, relative
to the product of the standard deviations, plus what the errors of the two computed means contribute. -/
theorem C154_cross (h : Accurate fl u) (hu : u < 1) (xs : List (Fin n → Fl fl)) (ys : List (Fin m → Fl fl))
    (hl : xs.length = ys.length) (h2 : 2 ≤ xs.length) :
    ∃ S, crossCovariance xs ys = .ok S ∧ ∀ i j,
      |(S i j).val - textbookCov ((vals xs).zip (vals ys)) i j| ≤
        growth u (xs.length + 6) *
            (√(variance xs i + xs.length / (xs.length - 1) * meanErr u xs i ^ 2) *
              √(variance ys j + xs.length / (xs.length - 1) * meanErr u ys j ^ 2)) +
          xs.length / (xs.length - 1) * (meanErr u xs i * meanErr u ys j) := by
  have h0 := accurate_nonneg h
  have hxn : xs ≠ [] := by rintro rfl; simp at h2
  have hyn : ys ≠ [] := by rintro rfl; simp [hl] at h2
  obtain ⟨mx, hmx, hex⟩ := C154_mean h hu xs hxn
  obtain ⟨my, hmy, hey⟩ := C154_mean h hu ys hyn
  obtain ⟨S, hS, hv⟩ := cross_val xs ys hl h2 hmx hmy
  refine ⟨S, hS, fun i j => ?_⟩
  rw [hv]
  have hex := hex i
  have hey := hey j
  have hN : ((xs.length - 1 : ℕ) : ℝ) = xs.length - 1 := by rw [Nat.cast_sub (by omega)]; simp
  have hN1 : (0 : ℝ) < xs.length - 1 := by
    have : (2 : ℝ) ≤ xs.length := by exact_mod_cast h2
    linarith
  have key := (entry_err h hu (fun p : (Fin n → Fl fl) × (Fin m → Fl fl) => (p.1 i).val) (fun p => (p.2 j).val)
    (mx i).val (my j).val (xs.zip ys) (xs.length - 1)).1
  have hzl : (xs.zip ys).length = xs.length := by rw [List.length_zip, ← hl, min_self]
  rw [hzl] at key
  have fst : (xs.zip ys).map Prod.fst = xs := List.map_fst_zip hl.le
  have snd : (xs.zip ys).map Prod.snd = ys := List.map_snd_zip hl.ge
  -- sums over the pairs
  have sx : ∀ F : (Fin n → Fl fl) → ℝ, ((xs.zip ys).map fun p => F p.1).sum = (xs.map F).sum := fun F => by
    conv_rhs => rw [← fst, List.map_map]
    rfl
  have sy : ∀ F : (Fin m → Fl fl) → ℝ, ((xs.zip ys).map fun p => F p.2).sum = (ys.map F).sum := fun F => by
    conv_rhs => rw [← snd, List.map_map]
    rfl
  have hcov : textbookCov ((vals xs).zip (vals ys)) i j =
      ((xs.zip ys).map fun p => ((p.1 i).val - avg (vals xs) i) * ((p.2 j).val - avg (vals ys) j)).sum / ((xs.length : ℝ) - 1) := by
    unfold textbookCov
    rw [List.map_fst_zip (by simp [vals, hl]), List.map_snd_zip (by simp [vals, hl])]
    unfold vals
    rw [List.zip_map, List.map_map, List.length_map, hzl]
    rfl
  have zx : ((xs.zip ys).map fun p => (p.1 i).val - avg (vals xs) i).sum = 0 := by
    rw [dev_sum, sx fun x => (x i).val, avg_vals, hzl]
    have : (xs.length : ℝ) ≠ 0 := by linarith
    field_simp
    ring
  have zy : ((xs.zip ys).map fun p => (p.2 j).val - avg (vals ys) j).sum = 0 := by
    rw [dev_sum, sy fun x => (x j).val, avg_vals, hzl, hl]
    have : (ys.length : ℝ) ≠ 0 := by rw [← hl]; linarith
    field_simp
    ring
  set ax := avg (vals xs) i with hax
  set ay := avg (vals ys) j with hay
  set ex := (mx i).val - ax with hexd
  set ey := (my j).val - ay with heyd
  have shift := shift_sum (fun p : (Fin n → Fl fl) × (Fin m → Fl fl) => (p.1 i).val - ax) (fun p => (p.2 j).val - ay) ex ey (xs.zip ys)
  rw [zx, zy, hzl, mul_zero, mul_zero, sub_zero, sub_zero] at shift
  have r1 : ∀ p : (Fin n → Fl fl) × (Fin m → Fl fl), ((p.1 i).val - ax - ex) = (p.1 i).val - (mx i).val := fun p => by rw [hexd]; ring
  have r2 : ∀ p : (Fin n → Fl fl) × (Fin m → Fl fl), ((p.2 j).val - ay - ey) = (p.2 j).val - (my j).val := fun p => by rw [heyd]; ring
  simp only [r1, r2] at shift
  have cs := list_cauchy (fun p : (Fin n → Fl fl) × (Fin m → Fl fl) => (p.1 i).val - (mx i).val) (fun p => (p.2 j).val - (my j).val) (xs.zip ys)
  have vx : ((xs.zip ys).map fun p => ((p.1 i).val - (mx i).val) ^ 2).sum = ((xs.length : ℝ) - 1) * variance xs i + xs.length * ex ^ 2 := by
    have q := shift_sum (fun p : (Fin n → Fl fl) × (Fin m → Fl fl) => (p.1 i).val - ax) (fun p => (p.1 i).val - ax) ex ex (xs.zip ys)
    rw [zx, hzl] at q
    simp only [r1, ← pow_two] at q
    rw [q, sx fun x => ((x i).val - ax) ^ 2]
    unfold variance
    rw [mul_div_cancel₀ _ hN1.ne']
    ring
  have vy : ((xs.zip ys).map fun p => ((p.2 j).val - (my j).val) ^ 2).sum = ((xs.length : ℝ) - 1) * variance ys j + xs.length * ey ^ 2 := by
    have q := shift_sum (fun p : (Fin n → Fl fl) × (Fin m → Fl fl) => (p.2 j).val - ay) (fun p => (p.2 j).val - ay) ey ey (xs.zip ys)
    rw [zy, hzl] at q
    simp only [r2, ← pow_two] at q
    rw [q, sy fun x => ((x j).val - ay) ^ 2]
    unfold variance
    rw [← hl, mul_div_cancel₀ _ hN1.ne']
    ring
  rw [vx, vy] at cs
  have e1 := meanErr_nonneg h0 hu xs i
  have e2 := meanErr_nonneg h0 hu ys j
  have hexE : |ex| ≤ meanErr u xs i := hex
  have heyE : |ey| ≤ meanErr u ys j := hey
  have hg := growth_pos h0 hu (xs.length + 6)
  have hNp : (0 : ℝ) ≤ xs.length := by positivity
  have root : ∀ V e E : ℝ, |e| ≤ E → √((xs.length - 1) * V + xs.length * e ^ 2) ≤
      √(xs.length - 1) * √(V + xs.length / (xs.length - 1) * E ^ 2) := by
    intro V e E he
    rw [← Real.sqrt_mul hN1.le]
    apply Real.sqrt_le_sqrt
    have : e ^ 2 ≤ E ^ 2 := by rw [← sq_abs e]; exact pow_le_pow_left₀ (abs_nonneg _) he 2
    have h3 : ((xs.length : ℝ) - 1) * (V + xs.length / (xs.length - 1) * E ^ 2) = (xs.length - 1) * V + xs.length * E ^ 2 := by
      field_simp
    rw [h3]
    exact add_le_add le_rfl (mul_le_mul_of_nonneg_left this hNp)
  have hB : ((xs.zip ys).map fun p => |((p.1 i).val - (mx i).val) * ((p.2 j).val - (my j).val)|).sum / ((xs.length : ℝ) - 1) ≤
      √(variance xs i + xs.length / (xs.length - 1) * meanErr u xs i ^ 2) *
        √(variance ys j + xs.length / (xs.length - 1) * meanErr u ys j ^ 2) := by
    rw [div_le_iff₀ hN1]
    refine cs.trans ((mul_le_mul (root _ _ _ hexE) (root _ _ _ heyE) (Real.sqrt_nonneg _) (by positivity)).trans (le_of_eq ?_))
    have := Real.mul_self_sqrt hN1.le
    generalize √((xs.length : ℝ) - 1) = q at *
    rw [← this]
    ring
  rw [hcov]
  rw [shift, hN, add_div] at key
  set T := ((xs.zip ys).map fun p => ((p.1 i).val - ax) * ((p.2 j).val - ay)).sum / ((xs.length : ℝ) - 1)
  have k2 := key.trans (mul_le_mul_of_nonneg_left hB hg)
  have k3 : |(xs.length : ℝ) * (ex * ey) / (xs.length - 1)| ≤ xs.length / (xs.length - 1) * (meanErr u xs i * meanErr u ys j) := by
    rw [mul_div_right_comm, abs_mul, abs_of_nonneg (div_nonneg hNp hN1.le), abs_mul]
    exact mul_le_mul_of_nonneg_left (mul_le_mul hexE heyE (abs_nonneg _) e1) (div_nonneg hNp hN1.le)
  have tri : ∀ c t w B W : ℝ, |c - (t + w)| ≤ B → |w| ≤ W → |c - t| ≤ B + W := by
    intro c t w B W h1 h2
    have := abs_add_le (c - (t + w)) w
    rw [show c - (t + w) + w = c - t by ring] at this
    linarith
  exact tri _ _ _ _ _ (by rw [hN]; exact k2) k3

/-- **C154** for covariances, as `C154_cross` with the samples paired with themselves; the computed matrix is exactly symmetric and no
computed variance is negative. -/
theorem C154_covariance (h : Accurate fl u) (hu : u < 1) (xs : List (Fin n → Fl fl)) (h2 : 2 ≤ xs.length) :
    ∃ S, sampleCovariance xs = .ok S ∧
      (∀ i j, |(S i j).val - textbookCov ((vals xs).zip (vals xs)) i j| ≤
        growth u (xs.length + 6) *
            (√(variance xs i + xs.length / (xs.length - 1) * meanErr u xs i ^ 2) *
              √(variance xs j + xs.length / (xs.length - 1) * meanErr u xs j ^ 2)) +
          xs.length / (xs.length - 1) * (meanErr u xs i * meanErr u xs j)) ∧
      (∀ i j, S i j = S j i) ∧ ∀ i, 0 ≤ (S i i).val := by
  obtain ⟨S, hS, hb⟩ := C154_cross h hu xs xs rfl h2
  have hxn : xs ≠ [] := by rintro rfl; simp at h2
  obtain ⟨mx, hmx, -⟩ := C154_mean h hu xs hxn
  obtain ⟨S', hS', hv⟩ := cross_val xs xs rfl h2 hmx hmx
  rw [hS] at hS'
  injection hS' with e
  subst e
  have nn : ∀ x, 0 ≤ x → 0 ≤ fl x := fun x hx => by
    obtain ⟨t, ht, e⟩ := accurate_fac h hu x
    rw [e]
    exact mul_nonneg hx (ht.pos hu).le
  refine ⟨S, by rw [self_gen]; exact hS, hb, fun i j => ?_, fun i => ?_⟩
  · have : (S i j).val = (S j i).val := by
      rw [hv, hv, zip_self, List.foldl_map, List.foldl_map]
      congr 3
      funext acc p
      rw [mul_comm]
    cases hij : S i j
    cases hji : S j i
    rw [hij, hji] at this
    exact congrArg _ this
  · rw [hv]
    refine nn _ (mul_nonneg ?_ (nn _ (div_nonneg zero_le_one (nn _ (by positivity)))))
    rw [zip_self, List.foldl_map]
    have : ∀ (l : List (Fin n → Fl fl)) (a : ℝ), 0 ≤ a →
        0 ≤ l.foldl (fun acc x => fl (acc + fl (fl ((x i).val - (mx i).val) * fl ((x i).val - (mx i).val)))) a := by
      intro l
      induction l with
      | nil => intro a ha; exact ha
      | cons x l ih => intro a ha; exact ih _ (nn _ (add_nonneg ha (nn _ (mul_self_nonneg _))))
    exact this xs 0 le_rfl

/-- Two samples suffice. -/
example : 2 ≤ ([fun _ => ⟨1⟩, fun _ => ⟨2⟩] : List (Fin 3 → Fl (Verif.Float.rnd 53))).length := le_rfl

/-! ## The correlation matrix -/

/-- The square root of a `f64`, correctly rounded. -/
noncomputable def flSqrt (a : Fl fl) : Fl fl := ⟨fl √a.val⟩

theorem corr_val (eps : Fl fl) (cov R : Mat (Fl fl) n n) (h : correlation flSqrt eps cov = .ok R) :
    (∀ i, eps.val < (cov i i).val) ∧ standardDeviations flSqrt eps cov = .ok (fun i => flSqrt (cov i i)) ∧
      ∀ i j, R i j = cov i j / (flSqrt (cov i i) * flSqrt (cov j j)) := by
  unfold correlation at h
  rcases sd_gen flSqrt eps cov with ⟨h1, h2⟩ | ⟨h1, h2⟩
  · rw [h2] at h; cases h
  rw [h2] at h
  injection h with h
  exact ⟨fun i => not_le.1 (h1 i), h2, fun i j => by rw [← h, fillLoop_apply]⟩

/-- The correlation of two components for a matrix of covariances. -/
noncomputable def exactCorr (cov : Mat (Fl fl) n n) (i j : Fin n) : ℝ := (cov i j).val / (√(cov i i).val * √(cov j j).val)

theorem corr_fac (h : Accurate fl u) (hu : u < 1) (eps : Fl fl) (he : 0 ≤ eps.val) (cov R : Mat (Fl fl) n n)
    (hR : correlation flSqrt eps cov = .ok R) (i j : Fin n) : ∃ t, Fac u 4 t ∧ (R i j).val = exactCorr cov i j * t := by
  obtain ⟨hpos, -, hv⟩ := corr_val eps cov R hR
  obtain ⟨t1, f1, e1⟩ := accurate_fac h hu (√(cov i i).val)
  obtain ⟨t2, f2, e2⟩ := accurate_fac h hu (√(cov j j).val)
  obtain ⟨t3, f3, e3⟩ := accurate_fac h hu (fl √(cov i i).val * fl √(cov j j).val)
  obtain ⟨t4, f4, e4⟩ := accurate_fac h hu ((cov i j).val / fl (fl √(cov i i).val * fl √(cov j j).val))
  refine ⟨((t1 * t2) * t3)⁻¹ * t4, (((f1.mul hu f2).mul hu f3).inv hu).mul hu f4, ?_⟩
  rw [hv]
  show fl ((cov i j).val / fl (fl √(cov i i).val * fl √(cov j j).val)) = _
  rw [e4, e3, e1, e2]
  unfold exactCorr
  have := (f1.pos hu).ne'
  have := (f2.pos hu).ne'
  have := (f3.pos hu).ne'
  have p1 := (Real.sqrt_pos.2 (he.trans_lt (hpos i))).ne'
  have p2 := (Real.sqrt_pos.2 (he.trans_lt (hpos j))).ne'
  field_simp

/-- **C155**, up to four roundings: every computed correlation is within that of the correlation of the given covariances, the diagonal is within
that of one, and for a symmetric positive semi-definite covariance no entry exceeds one by more. A symmetric covariance gives a symmetric matrix.
Missing: the diagonal is not always one, and entries can exceed one, see `C155_fails`. -/
theorem C155_partial (h : Accurate fl u) (hu : u < 1) (eps : Fl fl) (he : 0 ≤ eps.val) (cov R : Mat (Fl fl) n n)
    (hR : correlation flSqrt eps cov = .ok R) :
    (∀ i j, |(R i j).val - exactCorr cov i j| ≤ growth u 4 * |exactCorr cov i j|) ∧
    (∀ i, |(R i i).val - 1| ≤ growth u 4) ∧
    ((∀ i j, cov i j = cov j i) → ∀ i j, R i j = R j i) ∧
    ((∀ i j, cov i j = cov j i) → (∀ v : Fin n → ℝ, 0 ≤ ∑ i, ∑ j, v i * (cov i j).val * v j) → ∀ i j, |(R i j).val| ≤ 1 + growth u 4) := by
  have h0 := accurate_nonneg h
  obtain ⟨hpos, -, hv⟩ := corr_val eps cov R hR
  have hp : ∀ i, 0 < (cov i i).val := fun i => he.trans_lt (hpos i)
  have rel : ∀ i j, |(R i j).val - exactCorr cov i j| ≤ growth u 4 * |exactCorr cov i j| := fun i j => by
    obtain ⟨t, ft, e⟩ := corr_fac h hu eps he cov R hR i j
    rw [e, show exactCorr cov i j * t - exactCorr cov i j = (t - 1) * exactCorr cov i j by ring, abs_mul]
    exact mul_le_mul_of_nonneg_right (ft.dist h0 hu) (abs_nonneg _)
  refine ⟨rel, fun i => ?_, fun hs i j => ?_, fun hs hpsd i j => ?_⟩
  · have := rel i i
    have e : exactCorr cov i i = 1 := by
      unfold exactCorr
      rw [Real.mul_self_sqrt (hp i).le, div_self (hp i).ne']
    rwa [e, abs_one, mul_one] at this
  · rw [hv, hv, hs i j]
    show (⟨fl (_ / fl (_ * _))⟩ : Fl fl) = ⟨fl (_ / fl (_ * _))⟩
    rw [mul_comm]
  · have hok : ∃ R', correlation Real.sqrt 0 (fun i j => (cov i j).val) = .ok R' := (C50_defined 0 _).2.1 hp
    obtain ⟨R', hR'⟩ := hok
    have h3 := (C50_round_trip 0 le_rfl _ R' hR').2.2 (fun i j => by rw [hs i j]) hpsd i j
    have e : R' i j = exactCorr cov i j := by
      unfold correlation at hR'
      rcases sd_eq 0 (fun i j => (cov i j).val) with ⟨-, h2⟩ | ⟨-, h2⟩
      · rw [h2] at hR'; cases hR'
      rw [h2] at hR'
      injection hR' with hR'
      rw [← hR', fillLoop_apply]
      rfl
    rw [e] at h3
    have h4 := rel i j
    have h5 : growth u 4 * |exactCorr cov i j| ≤ growth u 4 * 1 := mul_le_mul_of_nonneg_left h3 (growth_pos h0 hu 4)
    have h6 := abs_sub_abs_le_abs_sub (R i j).val (exactCorr cov i j)
    linarith

/-- **C155**, the way back: scaling the computed correlations with the computed standard deviations restores every covariance to within four
roundings of it. -/
theorem C155_round_trip (h : Accurate fl u) (hu : u < 1) (eps : Fl fl) (he : 0 ≤ eps.val) (cov R : Mat (Fl fl) n n)
    (hR : correlation flSqrt eps cov = .ok R) :
    ∃ sd, standardDeviations flSqrt eps cov = .ok sd ∧
      ∀ i j, |(covarianceOf R sd i j).val - (cov i j).val| ≤ growth u 4 * |(cov i j).val| := by
  have h0 := accurate_nonneg h
  obtain ⟨hpos, hsd, hv⟩ := corr_val eps cov R hR
  refine ⟨_, hsd, fun i j => ?_⟩
  unfold covarianceOf
  rw [fillLoop_apply, hv]
  show |fl (fl (fl ((cov i j).val / fl (fl √(cov i i).val * fl √(cov j j).val)) * fl √(cov i i).val) * fl √(cov j j).val) - _| ≤ _
  have ps : ∀ i, fl √(cov i i).val ≠ 0 := fun i => by
    obtain ⟨t, ft, e⟩ := accurate_fac h hu (√(cov i i).val)
    rw [e]
    exact (mul_pos (Real.sqrt_pos.2 (he.trans_lt (hpos i))) (ft.pos hu)).ne'
  have p1 := ps i
  have p2 := ps j
  generalize fl √(cov i i).val = a at *
  generalize fl √(cov j j).val = b at *
  obtain ⟨t1, f1, e1⟩ := accurate_fac h hu (a * b)
  obtain ⟨t2, f2, e2⟩ := accurate_fac h hu ((cov i j).val / fl (a * b))
  obtain ⟨t3, f3, e3⟩ := accurate_fac h hu (fl ((cov i j).val / fl (a * b)) * a)
  obtain ⟨t4, f4, e4⟩ := accurate_fac h hu (fl (fl ((cov i j).val / fl (a * b)) * a) * b)
  have ft := ((((f1.inv hu).mul hu f2).mul hu f3).mul hu f4)
  have := (f1.pos hu).ne'
  have e : fl (fl (fl ((cov i j).val / fl (a * b)) * a) * b) = (cov i j).val * (t1⁻¹ * t2 * t3 * t4) := by
    rw [e4, e3, e2, e1]
    field_simp
  rw [e, show (cov i j).val * (t1⁻¹ * t2 * t3 * t4) - (cov i j).val = (t1⁻¹ * t2 * t3 * t4 - 1) * (cov i j).val by ring, abs_mul]
  exact mul_le_mul_of_nonneg_right (ft.dist h0 hu) (abs_nonneg _)

/-- The `f64` nearest to the square root of three. -/
noncomputable def rootThree : ℝ := (7800463371553962 : ℤ) * 2 ^ (-52 : ℤ)

open Verif.Float in
theorem rootThree_eq (h : Nearest 53 fl) : fl √3 = rootThree := by
  have e : (-52 : ℤ) = 0 + 1 - ((53 : ℕ) : ℤ) := by norm_num
  unfold rootThree
  rw [e]
  apply h.eq_grid (by norm_num)
  · rw [zpow_zero]
    exact Real.le_sqrt_of_sq_le (by norm_num)
  · norm_num
  · rw [← e]
    have h1 : √(3 : ℝ) < (7800463371553962 : ℤ) * 2 ^ (-52 : ℤ) + 2 ^ (-52 : ℤ) / 2 :=
      (Real.sqrt_lt' (by norm_num)).2 (by norm_num)
    have h2 : (7800463371553962 : ℤ) * 2 ^ (-52 : ℤ) - 2 ^ (-52 : ℤ) / 2 < √(3 : ℝ) :=
      Real.lt_sqrt_of_sq_lt (by norm_num)
    rw [abs_lt]
    constructor <;> linarith

open Verif.Float in
/-- **C155** fails: the correlation of a component of variance three with itself comes out above one in `f64`, for every way to break ties. -/
theorem C155_fails (h : Nearest 53 fl) :
    ∃ R, correlation flSqrt (⟨2 ^ (-52 : ℤ)⟩ : Fl fl) (fun _ _ : Fin 1 => ⟨3⟩) = .ok R ∧ (R 0 0).val = 1 + 2 ^ (-52 : ℤ) := by
  have e1 : fl (rootThree * rootThree) = (6755399441055743 : ℤ) * 2 ^ (-51 : ℤ) := by
    have e : (-51 : ℤ) = 1 + 1 - ((53 : ℕ) : ℤ) := by norm_num
    rw [e]
    apply h.eq_grid (by norm_num)
    · unfold rootThree; norm_num
    · norm_num
    · rw [← e, abs_lt]
      unfold rootThree
      constructor <;> norm_num
  have e2 : fl (3 / ((6755399441055743 : ℤ) * 2 ^ (-51 : ℤ))) = (4503599627370497 : ℤ) * 2 ^ (-52 : ℤ) := by
    have e : (-52 : ℤ) = 0 + 1 - ((53 : ℕ) : ℤ) := by norm_num
    rw [e]
    apply h.eq_grid (by norm_num)
    · norm_num
    · norm_num
    · rw [← e, abs_lt]
      constructor <;> norm_num
  have hok : standardDeviations flSqrt (⟨2 ^ (-52 : ℤ)⟩ : Fl fl) (fun _ _ : Fin 1 => (⟨3⟩ : Fl fl)) = .ok fun _ => flSqrt ⟨3⟩ := by
    rcases sd_gen flSqrt (⟨2 ^ (-52 : ℤ)⟩ : Fl fl) (fun _ _ : Fin 1 => (⟨3⟩ : Fl fl)) with ⟨⟨_, h1⟩, -⟩ | ⟨-, h2⟩
    · have : (3 : ℝ) ≤ 2 ^ (-52 : ℤ) := h1
      norm_num at this
    · exact h2
  unfold correlation
  rw [hok]
  refine ⟨_, rfl, ?_⟩
  rw [fillLoop_apply]
  show fl (3 / fl (fl √3 * fl √3)) = _
  rw [rootThree_eq h, e1, e2]
  norm_num

/-- Rounding to nearest exists, and the covariance of `C155_fails` meets the hypotheses of `C155_partial`. -/
example : Verif.Float.Nearest 53 (Verif.Float.rnd 53) ∧ (0 : ℝ) ≤ 2 ^ (-52 : ℤ) ∧
    ∀ v : Fin 1 → ℝ, 0 ≤ ∑ i, ∑ j, v i * 3 * v j :=
  ⟨Verif.Float.rnd_nearest (by norm_num), by positivity, fun v => by
    simp only [Finset.univ_unique, Finset.sum_singleton]; nlinarith [mul_self_nonneg (v default)]⟩

end Verif.Stats
