import Verif.Ieee.PropsDot
import Verif.Geom.Model
import Verif.Geom.Spec
import Mathlib.Tactic.FieldSimp

/-!
# C141: lengths and unit vectors in IEEE arithmetic

The models are those of `Verif/Mat/Model.lean` (`norm`) and `Verif/Geom/Model.lean` (`normalize`, `normalized`) with IEEE numbers for entries.
`Verif.Geom.len v` is the Euclidean length of a real vector.
-/

namespace Verif.Ieee

open Verif.Mat Verif.Att Verif.Geom

variable {F : Format} {fl : ℝ → ℝ} {n : ℕ}

/-- A number below half the least positive one is rounded to zero. -/
theorem Rounds.flush (h : Rounds F fl) {x : ℝ} (hx : |x| < tiny F) : fl x = 0 := by
  obtain ⟨k, hk⟩ := (h x).1.multiple
  have h0 := (h x).2 0 onGrid_zero
  rw [zero_sub, abs_neg] at h0
  by_contra hne
  have hk0 : k ≠ 0 := fun e => hne (by rw [hk, e]; simp)
  have hpos : (0 : ℝ) < 2 ^ F.emin := zpow_pos (by norm_num) _
  have h1 : (2 : ℝ) ^ F.emin ≤ |fl x| := by
    rw [hk, abs_mul, abs_of_pos hpos]
    have : (1 : ℝ) ≤ |(k : ℝ)| := by exact_mod_cast Int.one_le_abs hk0
    nlinarith
  have h2 := abs_sub_abs_le_abs_sub (fl x) x
  have e : (2 : ℝ) ^ F.emin = 2 * tiny F := by
    unfold tiny; rw [zpow_sub₀ (by norm_num), zpow_one]; ring
  linarith

theorem sqrt_near {s N g : ℝ} (hN : 0 ≤ N) (hg : |s - N| ≤ g * N) : |√s - √N| ≤ g * √N := by
  by_cases h0 : N = 0
  · subst h0
    have : s = 0 := by
      have : |s - 0| ≤ 0 := by simpa using hg
      simpa using abs_nonpos_iff.1 this
    simp [this]
  have hN0 : 0 < N := lt_of_le_of_ne hN (Ne.symm h0)
  have hr := Real.sqrt_pos.2 hN0
  have hsq := Real.sq_sqrt hN
  by_cases hs : 0 ≤ s
  · have hs2 := Real.sq_sqrt hs
    have hs0 := Real.sqrt_nonneg s
    have e : |√s - √N| * (√s + √N) = |s - N| := by
      rw [← abs_of_nonneg (show 0 ≤ √s + √N by positivity), ← abs_mul]
      congr 1
      nlinarith
    have h1 : |√s - √N| * √N ≤ |√s - √N| * (√s + √N) := mul_le_mul_of_nonneg_left (by linarith) (abs_nonneg _)
    have h2 : |√s - √N| * √N ≤ g * √N * √N := by
      rw [e] at h1
      have : g * √N * √N = g * N := by rw [mul_assoc, ← pow_two, hsq]
      rw [this]
      exact h1.trans hg
    exact le_of_mul_le_mul_right h2 hr
  · have hs := not_le.1 hs
    rw [Real.sqrt_eq_zero_of_nonpos hs.le, zero_sub, abs_neg, abs_of_pos hr]
    have : N ≤ g * N := by
      rw [abs_of_neg (by linarith)] at hg
      linarith
    have : 1 ≤ g := by nlinarith
    nlinarith

/-- The square root of an accumulated sum of squares. -/
theorem ie_norm (hp : 1 ≤ F.p) (h : Rounds F fl) (v : Fin n → ℝ)
    (hlo : n * tiny F * (1 + unit F) ^ n ≤ unit F * ∑ i, v i ^ 2) (hsub : (2 : ℝ) ^ (2 * (F.emin + F.p)) ≤ ∑ i, v i ^ 2)
    (hhi : (1 + unit F) ^ n * (∑ i, v i ^ 2 + n * tiny F) < 2 ^ F.emax) (hg : (1 + unit F) ^ (n + 1) - 1 ≤ 1 / 2) (he : 1 ≤ F.emax)
    (x : IE F fl) (hx : x = IE.sqrt (dot (fun i => (IE.num (v i) : IE F fl)) (fun i => IE.num (v i)))) :
    ∃ r, x = IE.num r ∧ Finite F r ∧ |r - len v| ≤ ((1 + unit F) ^ (n + 2) - 1) * len v := by
  have e1 : ∀ i, |v i * v i| = v i ^ 2 := fun i => by rw [abs_of_nonneg (mul_self_nonneg _)]; ring
  have e2 : ∀ i, v i * v i = v i ^ 2 := fun i => by ring
  obtain ⟨s, h1, h2, h3⟩ := C140_dot hp h v v (by simp only [e1]; exact hhi)
  simp only [e2, fun i => abs_of_nonneg (sq_nonneg (v i))] at h3
  subst hx
  rw [h1]
  have hN0 : 0 ≤ ∑ i, v i ^ 2 := Finset.sum_nonneg fun i _ => sq_nonneg _
  have hlen : len v = √(∑ i, v i ^ 2) := rfl
  rw [hlen]
  generalize (∑ i, v i ^ 2) = N at *
  have hu := unit_pos (F := F)
  set g := (1 + unit F) ^ (n + 1) - 1 with hgdef
  have hP1 : 1 ≤ (1 + unit F) ^ n := one_le_pow₀ (by linarith)
  have hgN : |s - N| ≤ g * N := by
    refine h3.trans ?_
    have : ((1 + unit F) ^ n - 1) * N + unit F * N ≤ g * N := by
      rw [← add_mul]
      apply mul_le_mul_of_nonneg_right _ hN0
      rw [hgdef, pow_succ]
      nlinarith
    linarith
  have hpow : (0 : ℝ) < 2 ^ (2 * (F.emin + F.p)) := zpow_pos (by norm_num) _
  have hNpos : 0 < N := hpow.trans_le hsub
  have hsN : N / 4 ≤ s := by
    have := (abs_le.1 hgN).1
    nlinarith
  have hs0 : 0 ≤ s := by linarith
  have hroot : (2 : ℝ) ^ (F.emin + F.p - 1) ≤ |√s| := by
    rw [abs_of_nonneg (Real.sqrt_nonneg _)]
    apply Real.le_sqrt_of_sq_le
    have : ((2 : ℝ) ^ (F.emin + F.p - 1)) ^ 2 = 2 ^ (2 * (F.emin + F.p)) / 4 := by
      rw [← zpow_natCast, ← zpow_mul, show (F.emin + F.p - 1) * ((2 : ℕ) : ℤ) = 2 * (F.emin + F.p) - 2 by push_cast; ring,
        zpow_sub₀ (by norm_num)]
      norm_num
    rw [this]
    linarith
  have hfl := h.normal hp hroot
  rw [abs_of_nonneg (Real.sqrt_nonneg s)] at hfl
  have hnear := sqrt_near hN0 hgN
  have hrN := Real.sqrt_nonneg N
  have hres : |fl √s - √N| ≤ ((1 + unit F) ^ (n + 2) - 1) * √N := by
    have t1 : |fl √s - √N| ≤ |fl √s - √s| + |√s - √N| := abs_sub_le _ _ _
    have t2 : √s ≤ (1 + g) * √N := by
      have := (abs_le.1 hnear).2
      linarith
    have t3 : unit F * √s ≤ unit F * ((1 + g) * √N) := mul_le_mul_of_nonneg_left t2 hu.le
    have t4 : (1 + unit F) ^ (n + 2) = (1 + g) * (1 + unit F) := by
      rw [hgdef, show n + 2 = (n + 1) + 1 by rfl, pow_succ (1 + unit F) (n + 1)]; ring
    rw [t4]
    nlinarith
  have hfin : |fl √s| < 2 ^ F.emax := by
    -- the square root of a finite number is finite
    have hone : OnGrid F (fl 1) := (h 1).1
    by_cases hs1 : s ≤ 1
    · have hm : fl √s ≤ fl 1 := h.mono (Real.sqrt_le_one.2 hs1)
      have hm0 : 0 ≤ fl √s := by have := h.mono (Real.sqrt_nonneg s); rwa [h.zero] at this
      have h11 : fl 1 ≤ 3 / 2 := by
        by_cases hn1 : (2 : ℝ) ^ (F.emin + F.p - 1) ≤ |(1 : ℝ)|
        · have := h.normal hp hn1
          rw [abs_one, mul_one] at this
          have hu2 : unit F ≤ 1 / 2 := by
            unfold unit
            rw [zpow_neg, zpow_natCast]
            have : (2 : ℝ) ^ 1 ≤ 2 ^ F.p := pow_le_pow_right₀ (by norm_num) hp
            rw [one_div]
            exact inv_anti₀ (by norm_num) (by linarith)
          linarith [(abs_le.1 this).2]
        · -- every normal number would exceed one; then so would the square root
          exfalso
          apply hn1
          refine hroot.trans ?_
          rw [abs_one, abs_of_nonneg (Real.sqrt_nonneg s)]
          exact Real.sqrt_le_one.2 hs1
      rw [abs_of_nonneg hm0]
      have : (2 : ℝ) ^ (1 : ℤ) ≤ 2 ^ F.emax := zpow_le_zpow_right₀ (by norm_num) he
      rw [zpow_one] at this
      linarith
    · have hs1 := (not_le.1 hs1).le
      have hle : √s ≤ s := by
        rw [Real.sqrt_le_left (by linarith)]
        nlinarith
      have hm := h.mono hle
      rw [h.fix h2.1] at hm
      have hm0 : 0 ≤ fl √s := by have := h.mono (Real.sqrt_nonneg s); rwa [h.zero] at this
      rw [abs_of_nonneg hm0]
      exact lt_of_le_of_lt (hm.trans (le_abs_self s)) h2.2
  exact ⟨fl √s, by rw [sqrt_num hs0, ofReal_num hfin], ⟨(h _).1, hfin⟩, hres⟩

/-- The functions of the attitude code in IEEE arithmetic: square root rounded, sine and cosine those of some library. -/
noncomputable def fns (sin cos : IE F fl → IE F fl) : Fns (IE F fl) := ⟨IE.sqrt, sin, cos, IE.num (1 / 2)⟩

/-- C141. The length of a vector, in any format: correct up to `n + 2` roundings when its square neither underflows nor overflows. -/
theorem C141_norm (hp : 1 ≤ F.p) (he : 1 ≤ F.emax) (h : Rounds F fl) (v : Fin n → ℝ)
    (hlo : n * tiny F * (1 + unit F) ^ n ≤ unit F * len v ^ 2) (hsub : (2 : ℝ) ^ (F.emin + F.p) ≤ len v)
    (hhi : (1 + unit F) ^ n * (len v ^ 2 + n * tiny F) < 2 ^ F.emax) (hg : (1 + unit F) ^ (n + 1) ≤ 3 / 2) :
    ∃ r, norm IE.sqrt (fun i => (IE.num (v i) : IE F fl)) = IE.num r ∧ Finite F r ∧
      |r - len v| ≤ ((1 + unit F) ^ (n + 2) - 1) * len v := by
  have hsq : len v ^ 2 = ∑ i, v i ^ 2 := Real.sq_sqrt (Finset.sum_nonneg fun i _ => sq_nonneg _)
  rw [hsq] at hlo hhi
  refine ie_norm hp h v hlo ?_ hhi (by linarith) he _ rfl
  rw [← hsq, mul_comm, zpow_mul]
  exact pow_le_pow_left₀ (zpow_pos (by norm_num) _).le hsub 2

/-- C141. In `f64`, the length of a vector of up to `2 ^ 20` components is right to `(n + 2) 2⁻⁵²` of it whenever it is between `2⁻⁵⁰⁰` and `2⁵⁰⁰`,
whatever the sizes of the single components. -/
theorem C141_norm_f64 (h : Rounds binary64 fl) (hn : n ≤ 2 ^ 20) (v : Fin n → ℝ) (hlo : (2 : ℝ) ^ (-500 : ℤ) ≤ len v) (hhi : len v ≤ 2 ^ (500 : ℤ)) :
    ∃ r, norm IE.sqrt (fun i => (IE.num (v i) : IE binary64 fl)) = IE.num r ∧ Finite binary64 r ∧
      |r - len v| ≤ (n + 2) * 2 ^ (-52 : ℤ) * len v := by
  have hpn := pow_f64 n (hn.trans (by norm_num))
  have hpn1 := pow_f64 (n + 1) (by omega)
  have hpn2 := pow_f64 (n + 2) (by omega)
  push_cast at hpn1 hpn2
  have hn' : (n : ℝ) ≤ 2 ^ 20 := by exact_mod_cast hn
  have hn2 : (n : ℝ) ≤ 1048576 := by norm_num at hn; exact_mod_cast hn
  have hn0 : (0 : ℝ) ≤ n := Nat.cast_nonneg _
  have h52 : (2 : ℝ) ^ (-52 : ℤ) = 1 / 2 ^ 52 := by norm_num
  have hP2 : (1 + unit binary64) ^ n ≤ 2 := by
    rw [h52] at hpn
    norm_num at hpn ⊢
    linarith
  have hP3 : (1 + unit binary64) ^ (n + 1) ≤ 3 / 2 := by
    rw [h52] at hpn1
    norm_num at hpn1 ⊢
    linarith
  have hl0 : 0 ≤ len v := Real.sqrt_nonneg _
  have z500 : (0 : ℝ) < 2 ^ (-500 : ℤ) := zpow_pos (by norm_num) _
  have hsqlo : (2 : ℝ) ^ (-1000 : ℤ) ≤ len v ^ 2 := by
    have := pow_le_pow_left₀ z500.le hlo 2
    rwa [← zpow_natCast, ← zpow_mul] at this
  have hsqhi : len v ^ 2 ≤ (2 : ℝ) ^ (1000 : ℤ) := by
    have := pow_le_pow_left₀ hl0 hhi 2
    rwa [← zpow_natCast ((2 : ℝ) ^ (500 : ℤ)), ← zpow_mul] at this
  have ht : tiny binary64 = 2 ^ (-1075 : ℤ) := rfl
  have hu : unit binary64 = 2 ^ (-53 : ℤ) := rfl
  have hnt : n * tiny binary64 ≤ 2 ^ (-1055 : ℤ) := by
    rw [ht]
    calc (n : ℝ) * 2 ^ (-1075 : ℤ) ≤ 2 ^ 20 * 2 ^ (-1075 : ℤ) := mul_le_mul_of_nonneg_right hn' (zpow_pos (by norm_num) _).le
      _ = 2 ^ (-1055 : ℤ) := by
        rw [show (-1055 : ℤ) = ((20 : ℕ) : ℤ) + -1075 by norm_num, zpow_add₀ (by norm_num), zpow_natCast]
  have hnt0 : 0 ≤ n * tiny binary64 := mul_nonneg hn0 tiny_pos.le
  have c1 : n * tiny binary64 * (1 + unit binary64) ^ n ≤ unit binary64 * len v ^ 2 := by
    calc n * tiny binary64 * (1 + unit binary64) ^ n ≤ 2 ^ (-1055 : ℤ) * 2 :=
          mul_le_mul hnt hP2 (by have := unit_pos (F := binary64); positivity) (zpow_pos (by norm_num) _).le
      _ = 2 ^ (-1054 : ℤ) := by
        rw [show (-1054 : ℤ) = -1055 + 1 by norm_num, zpow_add₀ (by norm_num), zpow_one]
      _ ≤ 2 ^ (-1053 : ℤ) := zpow_le_zpow_right₀ (by norm_num) (by norm_num)
      _ = 2 ^ (-53 : ℤ) * 2 ^ (-1000 : ℤ) := by
        rw [show (-1053 : ℤ) = -53 + -1000 by norm_num, zpow_add₀ (by norm_num)]
      _ ≤ unit binary64 * len v ^ 2 := by
        rw [hu]
        exact mul_le_mul_of_nonneg_left hsqlo (zpow_pos (by norm_num) _).le
  have c2 : (2 : ℝ) ^ (binary64.emin + binary64.p) ≤ len v := by
    refine le_trans (zpow_le_zpow_right₀ (by norm_num) ?_) hlo
    norm_num [binary64]
  have c3 : (1 + unit binary64) ^ n * (len v ^ 2 + n * tiny binary64) < 2 ^ binary64.emax := by
    have hz : (2 : ℝ) ^ (-1055 : ℤ) ≤ 2 ^ (1000 : ℤ) := zpow_le_zpow_right₀ (by norm_num) (by norm_num)
    calc (1 + unit binary64) ^ n * (len v ^ 2 + n * tiny binary64) ≤ 2 * (2 ^ (1000 : ℤ) + 2 ^ (1000 : ℤ)) :=
          mul_le_mul hP2 (add_le_add hsqhi (hnt.trans hz)) (add_nonneg (sq_nonneg _) hnt0) (by norm_num)
      _ = 2 ^ (1002 : ℤ) := by
        rw [show (1002 : ℤ) = 1000 + 2 by norm_num, zpow_add₀ (by norm_num)]
        generalize (2 : ℝ) ^ (1000 : ℤ) = t
        norm_num
        ring
      _ < 2 ^ (1024 : ℤ) := zpow_lt_zpow_right₀ (by norm_num) (by norm_num)
  obtain ⟨r, h1, h2, h3⟩ := C141_norm (F := binary64) (by norm_num [binary64]) (by norm_num [binary64]) h v c1 c2 c3 hP3
  refine ⟨r, h1, h2, h3.trans ?_⟩
  exact mul_le_mul_of_nonneg_right (by linarith) hl0

theorem abs_le_len (v : Fin n → ℝ) (i : Fin n) : |v i| ≤ len v := by
  unfold len
  rw [← Real.sqrt_sq_eq_abs]
  exact Real.sqrt_le_sqrt (Finset.single_le_sum (f := fun i => v i ^ 2) (fun i _ => sq_nonneg _) (Finset.mem_univ i))

/-- One component of a unit vector: the quotient of a component by a computed length. -/
theorem ie_quot (h : Rounds binary64 fl) (hn : n ≤ 2 ^ 20) {x r L : ℝ} (hL : 0 < L) (hx : |x| ≤ L)
    (hr : |r - L| ≤ (n + 2) * 2 ^ (-52 : ℤ) * L) :
    ∃ w, (IE.num x / IE.num r : IE binary64 fl) = IE.num w ∧ Finite binary64 w ∧ |w - x / L| ≤ (n + 4) * 2 ^ (-52 : ℤ) := by
  have hn' : (n : ℝ) ≤ 2 ^ 20 := by exact_mod_cast hn
  have hn2 : (n : ℝ) ≤ 1048576 := by norm_num at hn; exact_mod_cast hn
  have hn0 : (0 : ℝ) ≤ n := Nat.cast_nonneg _
  obtain ⟨d, hd⟩ : ∃ d : ℝ, d = (n + 2) * 2 ^ (-52 : ℤ) := ⟨_, rfl⟩
  have hd0 : 0 ≤ d := by rw [hd]; positivity
  have hd1 : d ≤ 2 ^ (-31 : ℤ) := by
    rw [hd]
    norm_num
    linarith
  have hdd : 4 * d * d ≤ 2 ^ (-55 : ℤ) := by
    norm_num at hd1 ⊢
    nlinarith
  rw [← hd] at hr
  have hrpos : (1 - d) * L ≤ r := by linarith [(abs_le.1 hr).1]
  have h12 : (1 : ℝ) / 2 ≤ 1 - d := by norm_num at hd1 ⊢; linarith
  have hr0 : 0 < r := lt_of_lt_of_le (by nlinarith) hrpos
  have hq1 : |x / r| * (1 - d) ≤ 1 := by
    rw [abs_div, abs_of_pos hr0, div_mul_eq_mul_div, div_le_one hr0]
    have : |x| * (1 - d) ≤ L * (1 - d) := mul_le_mul_of_nonneg_right hx (by linarith)
    linarith
  have hq2 : |x / r| ≤ 1 + 2 * d := by
    have : (1 + 2 * d) * (1 - d) ≥ 1 := by nlinarith
    by_contra hc
    have hc := not_le.1 hc
    have := mul_lt_mul_of_pos_right hc (show 0 < 1 - d by linarith)
    linarith
  have hdiff : |x / r - x / L| ≤ d * (1 + 2 * d) := by
    have e : x / r - x / L = (x / r) * ((L - r) / L) := by field_simp
    rw [e, abs_mul, abs_div (L - r), abs_of_pos hL, abs_sub_comm L r]
    have : |r - L| / L ≤ d := by rw [div_le_iff₀ hL]; exact hr
    calc |x / r| * (|r - L| / L) ≤ (1 + 2 * d) * d := mul_le_mul hq2 this (by positivity) (by linarith)
      _ = _ := by ring
  have herr := h.err (by norm_num [binary64]) (x / r)
  have ht : tiny binary64 ≤ 2 ^ (-60 : ℤ) := zpow_le_zpow_right₀ (by norm_num) (by norm_num [binary64])
  have hu : unit binary64 = 2 ^ (-53 : ℤ) := rfl
  rw [hu] at herr
  have hflb : |fl (x / r) - x / r| ≤ 2 ^ (-53 : ℤ) * (1 + 2 * d) + 2 ^ (-60 : ℤ) := by
    have : (2 : ℝ) ^ (-53 : ℤ) * |x / r| ≤ 2 ^ (-53 : ℤ) * (1 + 2 * d) := mul_le_mul_of_nonneg_left hq2 (by positivity)
    exact herr.trans (add_le_add this ht)
  have hlt : |fl (x / r)| < 2 ^ binary64.emax := by
    have h1 := abs_sub_abs_le_abs_sub (fl (x / r)) (x / r)
    have h2 : (2 : ℝ) ^ (2 : ℤ) ≤ 2 ^ binary64.emax := zpow_le_zpow_right₀ (by norm_num) (by norm_num [binary64])
    norm_num at hflb hd1 h2
    linarith
  refine ⟨fl (x / r), by rw [div_num _ hr0.ne', ofReal_num hlt], ⟨(h _).1, hlt⟩, ?_⟩
  have h3 : |fl (x / r) - x / L| ≤ |fl (x / r) - x / r| + |x / r - x / L| := abs_sub_le _ _ _
  have e4 : ((n : ℝ) + 4) * 2 ^ (-52 : ℤ) = d + 2 * 2 ^ (-52 : ℤ) := by rw [hd]; ring
  rw [e4]
  norm_num at hflb hd1 hdd ⊢
  nlinarith

/-- C141. In `f64`, every component of the unit vector of a vector whose length is between `2⁻⁵⁰⁰` and `2⁵⁰⁰` is right to `(n + 4) 2⁻⁵²`. -/
theorem C141_normalize_f64 (h : Rounds binary64 fl) (hn : n ≤ 2 ^ 20) (sin cos : IE binary64 fl → IE binary64 fl) (v : Fin n → ℝ)
    (hlo : (2 : ℝ) ^ (-500 : ℤ) ≤ len v) (hhi : len v ≤ 2 ^ (500 : ℤ)) :
    ∃ w : Fin n → ℝ, normalize (fns sin cos) (fun i => (IE.num (v i) : IE binary64 fl)) = (fun i => IE.num (w i)) ∧
      ∀ i, Finite binary64 (w i) ∧ |w i - v i / len v| ≤ (n + 4) * 2 ^ (-52 : ℤ) := by
  obtain ⟨r, h1, _, h3⟩ := C141_norm_f64 h hn v hlo hhi
  have hL : 0 < len v := lt_of_lt_of_le (zpow_pos (by norm_num) _) hlo
  choose w hw using fun i => ie_quot h hn hL (abs_le_len v i) h3
  refine ⟨w, ?_, fun i => ⟨(hw i).2.1, (hw i).2.2⟩⟩
  funext i
  change IE.num (v i) / norm IE.sqrt _ = _
  rw [h1]
  exact (hw i).1

/-- C141. Likewise for the four components of a normalised quaternion: each is right to `2⁻⁴⁹`. -/
theorem C141_normalized_f64 (h : Rounds binary64 fl) (sin cos : IE binary64 fl → IE binary64 fl) (q : Quat ℝ)
    (hlo : (2 : ℝ) ^ (-500 : ℤ) ≤ qlen q) (hhi : qlen q ≤ 2 ^ (500 : ℤ)) :
    ∃ w i j k : ℝ, normalized (fns sin cos) (⟨IE.num q.w, IE.num q.i, IE.num q.j, IE.num q.k⟩ : Quat (IE binary64 fl)) =
        ⟨IE.num w, IE.num i, IE.num j, IE.num k⟩ ∧
      |w - q.w / qlen q| ≤ 2 ^ (-49 : ℤ) ∧ |i - q.i / qlen q| ≤ 2 ^ (-49 : ℤ) ∧
      |j - q.j / qlen q| ≤ 2 ^ (-49 : ℤ) ∧ |k - q.k / qlen q| ≤ 2 ^ (-49 : ℤ) := by
  have hlen : len ![q.w, q.i, q.j, q.k] = qlen q := by
    unfold len qlen
    rw [Fin.sum_univ_four]
    rfl
  rw [← hlen] at hlo hhi ⊢
  obtain ⟨r, h1, _, h3⟩ := C141_norm_f64 h (n := 4) (by norm_num) ![q.w, q.i, q.j, q.k] hlo hhi
  have hL : 0 < len ![q.w, q.i, q.j, q.k] := lt_of_lt_of_le (zpow_pos (by norm_num) _) hlo
  choose w hw using fun i => ie_quot h (n := 4) (by norm_num) hL (abs_le_len ![q.w, q.i, q.j, q.k] i) h3
  have hb : (((4 : ℕ) : ℝ) + 4) * 2 ^ (-52 : ℤ) = 2 ^ (-49 : ℤ) := by norm_num
  rw [hb] at hw
  have hn : IE.sqrt (Quat.norm2 (⟨IE.num q.w, IE.num q.i, IE.num q.j, IE.num q.k⟩ : Quat (IE binary64 fl))) = IE.num r := by
    rw [← h1]
    unfold Quat.norm2 Verif.Mat.norm dot
    congr 2
    funext acc i
    fin_cases i <;> rfl
  refine ⟨w 0, w 1, w 2, w 3, ?_, (hw 0).2.2, (hw 1).2.2, (hw 2).2.2, (hw 3).2.2⟩
  simp only [normalized, fns]
  rw [hn]
  exact congrArg₂ (fun (a : IE binary64 fl × IE binary64 fl) (b : IE binary64 fl × IE binary64 fl) => (⟨a.1, a.2, b.1, b.2⟩ : Quat _))
    (congrArg₂ Prod.mk (hw 0).1 (hw 1).1) (congrArg₂ Prod.mk (hw 2).1 (hw 3).1)

-- A vector with one component whose square underflows meets the hypotheses.
example : ∃ r, norm IE.sqrt (fun i => (IE.num (![1, 2 ^ (-600 : ℤ)] i) : IE binary64 (rnd binary64))) = IE.num r ∧
    |r - len ![1, 2 ^ (-600 : ℤ)]| ≤ 4 * 2 ^ (-52 : ℤ) * len ![1, 2 ^ (-600 : ℤ)] := by
  have h1 : 1 ≤ len ![1, (2 : ℝ) ^ (-600 : ℤ)] := by simpa using abs_le_len ![1, (2 : ℝ) ^ (-600 : ℤ)] 0
  have h2 : len ![1, (2 : ℝ) ^ (-600 : ℤ)] ≤ 2 := by
    unfold len
    rw [Fin.sum_univ_two, Real.sqrt_le_left (by norm_num)]
    change (1 : ℝ) ^ 2 + (2 ^ (-600 : ℤ)) ^ 2 ≤ 2 ^ 2
    have hs : (2 : ℝ) ^ (-600 : ℤ) ≤ 1 := zpow_le_one_of_nonpos₀ (by norm_num) (by norm_num)
    have hs0 : (0 : ℝ) < 2 ^ (-600 : ℤ) := zpow_pos (by norm_num) _
    generalize (2 : ℝ) ^ (-600 : ℤ) = t at hs hs0
    nlinarith
  obtain ⟨r, e, _, hr⟩ := C141_norm_f64 (rnd_rounds (F := binary64) (by norm_num [binary64])) (n := 2) (by norm_num)
    ![1, 2 ^ (-600 : ℤ)] ((zpow_le_one_of_nonpos₀ (by norm_num) (by norm_num)).trans h1)
    (h2.trans (by
      have : (2 : ℝ) ^ (1 : ℤ) ≤ 2 ^ (500 : ℤ) := zpow_le_zpow_right₀ (by norm_num) (by norm_num)
      rwa [zpow_one] at this))
  refine ⟨r, e, ?_⟩
  have : (((2 : ℕ) : ℝ) + 2) = 4 := by norm_num
  rwa [this] at hr

-- So does a quaternion, here of length five.
example : ∃ w i j k : ℝ, normalized (fns id id) (⟨IE.num 3, IE.num 4, IE.num 0, IE.num 0⟩ : Quat (IE binary64 (rnd binary64))) =
    ⟨IE.num w, IE.num i, IE.num j, IE.num k⟩ ∧ |w - 3 / 5| ≤ 2 ^ (-49 : ℤ) ∧ |i - 4 / 5| ≤ 2 ^ (-49 : ℤ) := by
  have hq : qlen ⟨3, 4, 0, 0⟩ = 5 := by
    unfold qlen
    rw [show ((3 : ℝ) ^ 2 + 4 ^ 2 + 0 ^ 2 + 0 ^ 2) = 5 ^ 2 by norm_num]
    exact Real.sqrt_sq (by norm_num)
  obtain ⟨w, i, j, k, e, hw, hi, _⟩ := C141_normalized_f64 (rnd_rounds (F := binary64) (by norm_num [binary64])) id id ⟨3, 4, 0, 0⟩
    (by rw [hq]; exact (zpow_le_one_of_nonpos₀ (by norm_num) (by norm_num)).trans (by norm_num))
    (by
      rw [hq]
      have : (2 : ℝ) ^ (3 : ℤ) ≤ 2 ^ (500 : ℤ) := zpow_le_zpow_right₀ (by norm_num) (by norm_num)
      exact le_trans (by norm_num) this)
  rw [hq] at hw hi
  exact ⟨w, i, j, k, e, hw, hi⟩

theorem onGrid_pow (hp : 1 ≤ F.p) {e : ℤ} (he : F.emin ≤ e) : OnGrid F (2 ^ e) := by
  have := onGrid_of_le hp (m := 1) (by rw [abs_one]; exact one_le_pow₀ (by norm_num)) he
  simpa using this

/-- The square of a number that is too large is infinite. -/
theorem square_big (h : Rounds binary64 fl) : (IE.num (2 ^ (600 : ℤ)) * IE.num (2 ^ (600 : ℤ)) : IE binary64 fl) = IE.inf false := by
  have e : (2 : ℝ) ^ (600 : ℤ) * 2 ^ (600 : ℤ) = 2 ^ (1200 : ℤ) := by rw [← zpow_add₀ (by norm_num)]; norm_num
  have hpos : (0 : ℝ) < 2 ^ (1200 : ℤ) := zpow_pos (by norm_num) _
  have hf : fl (2 ^ (1200 : ℤ)) = 2 ^ (1200 : ℤ) := h.fix (onGrid_pow (by norm_num [binary64]) (by norm_num [binary64]))
  rw [mul_num, e]
  unfold IE.ofReal
  rw [hf, abs_of_pos hpos, if_neg (not_lt.2 (zpow_le_zpow_right₀ (by norm_num) (by norm_num [binary64]))), decide_eq_false (not_lt.2 hpos.le)]

/-- The square of a number that is too small is zero. -/
theorem square_small (h : Rounds binary64 fl) : (IE.num (2 ^ (-600 : ℤ)) * IE.num (2 ^ (-600 : ℤ)) : IE binary64 fl) = IE.num 0 := by
  have e : (2 : ℝ) ^ (-600 : ℤ) * 2 ^ (-600 : ℤ) = 2 ^ (-1200 : ℤ) := by rw [← zpow_add₀ (by norm_num)]; norm_num
  have hf : fl (2 ^ (-1200 : ℤ)) = 0 := h.flush (by
    rw [abs_of_pos (zpow_pos (by norm_num) _)]
    exact zpow_lt_zpow_right₀ (by norm_num) (by norm_num [binary64]))
  rw [mul_num, e, ofReal_num (by rw [hf, abs_zero]; exact zpow_pos (by norm_num) _), hf]

theorem zero_mul_zero (h : Rounds F fl) : (IE.num 0 * IE.num 0 : IE F fl) = IE.num 0 := by
  rw [mul_num, mul_zero, ofReal_num (by rw [h.zero, abs_zero]; exact zpow_pos (by norm_num) _), h.zero]

theorem zero_add_zero (h : Rounds F fl) : (IE.num 0 + IE.num 0 : IE F fl) = IE.num 0 := by
  rw [add_num, add_zero, ofReal_num (by rw [h.zero, abs_zero]; exact zpow_pos (by norm_num) _), h.zero]

theorem sqrt_zero_num (h : Rounds F fl) : IE.sqrt (IE.num 0 : IE F fl) = IE.num 0 := by
  rw [sqrt_num le_rfl, Real.sqrt_zero, ofReal_num (by rw [h.zero, abs_zero]; exact zpow_pos (by norm_num) _), h.zero]

/-- C142, the part that holds: between `2⁻⁵⁰⁰` and `2⁵⁰⁰` the computed length is a positive finite number. Missing: the rest of the range of `f64`, where it fails. -/
theorem C142_positive_partial (h : Rounds binary64 fl) (hn : n ≤ 2 ^ 20) (v : Fin n → ℝ) (hlo : (2 : ℝ) ^ (-500 : ℤ) ≤ len v)
    (hhi : len v ≤ 2 ^ (500 : ℤ)) :
    ∃ r, norm IE.sqrt (fun i => (IE.num (v i) : IE binary64 fl)) = IE.num r ∧ Finite binary64 r ∧ 0 < r := by
  obtain ⟨r, h1, h2, h3⟩ := C141_norm_f64 h hn v hlo hhi
  refine ⟨r, h1, h2, ?_⟩
  have hn2 : (n : ℝ) ≤ 1048576 := by norm_num at hn; exact_mod_cast hn
  have hL : 0 < len v := lt_of_lt_of_le (zpow_pos (by norm_num) _) hlo
  have : (n + 2) * 2 ^ (-52 : ℤ) * len v ≤ 1 / 2 * len v := by
    apply mul_le_mul_of_nonneg_right _ hL.le
    norm_num
    linarith
  linarith [(abs_le.1 (h3.trans this)).1]

/-- C142 fails for large vectors: the `f64` vector with the single component `2 ^ 600` has an infinite computed length, and its computed unit vector is zero. -/
theorem C142_large_fails (h : Rounds binary64 fl) (sin cos : IE binary64 fl → IE binary64 fl) :
    Finite binary64 (2 ^ (600 : ℤ)) ∧ norm IE.sqrt (fun _ : Fin 1 => (IE.num (2 ^ (600 : ℤ)) : IE binary64 fl)) = IE.inf false ∧
      normalize (fns sin cos) (fun _ : Fin 1 => (IE.num (2 ^ (600 : ℤ)) : IE binary64 fl)) = fun _ => IE.num 0 := by
  have hn : norm IE.sqrt (fun _ : Fin 1 => (IE.num (2 ^ (600 : ℤ)) : IE binary64 fl)) = IE.inf false := by
    rw [C22_norm]
    change IE.sqrt (0 + IE.num (2 ^ (600 : ℤ)) * IE.num (2 ^ (600 : ℤ))) = _
    rw [square_big h]
    rfl
  refine ⟨⟨onGrid_pow (by norm_num [binary64]) (by norm_num [binary64]), ?_⟩, hn, ?_⟩
  · rw [abs_of_pos (zpow_pos (by norm_num) _)]
    exact zpow_lt_zpow_right₀ (by norm_num) (by norm_num [binary64])
  · funext i
    change IE.num (2 ^ (600 : ℤ)) / norm IE.sqrt _ = _
    rw [hn]
    rfl

/-- C142 fails for small vectors: the `f64` vector with the single component `2 ^ -600` has computed length zero, and its computed unit vector is infinite. -/
theorem C142_small_fails (h : Rounds binary64 fl) (sin cos : IE binary64 fl → IE binary64 fl) :
    Finite binary64 (2 ^ (-600 : ℤ)) ∧ norm IE.sqrt (fun _ : Fin 1 => (IE.num (2 ^ (-600 : ℤ)) : IE binary64 fl)) = IE.num 0 ∧
      normalize (fns sin cos) (fun _ : Fin 1 => (IE.num (2 ^ (-600 : ℤ)) : IE binary64 fl)) = fun _ => IE.inf false := by
  have hpos : (0 : ℝ) < 2 ^ (-600 : ℤ) := zpow_pos (by norm_num) _
  have hn : norm IE.sqrt (fun _ : Fin 1 => (IE.num (2 ^ (-600 : ℤ)) : IE binary64 fl)) = IE.num 0 := by
    rw [C22_norm]
    change IE.sqrt (0 + IE.num (2 ^ (-600 : ℤ)) * IE.num (2 ^ (-600 : ℤ))) = _
    rw [square_small h, ie_zero, zero_add_zero h, sqrt_zero_num h]
  refine ⟨⟨onGrid_pow (by norm_num [binary64]) (by norm_num [binary64]), ?_⟩, hn, ?_⟩
  · rw [abs_of_pos hpos]
    exact zpow_lt_zpow_right₀ (by norm_num) (by norm_num [binary64])
  · funext i
    change IE.num (2 ^ (-600 : ℤ)) / norm IE.sqrt _ = _
    rw [hn]
    change (if (0 : ℝ) = 0 then (if (2 : ℝ) ^ (-600 : ℤ) = 0 then IE.nan else IE.inf (IE.isNeg (2 ^ (-600 : ℤ)))) else _) = _
    rw [if_pos rfl, if_neg hpos.ne']
    unfold IE.isNeg
    rw [decide_eq_false (not_lt.2 hpos.le)]

/-- C142 fails for quaternions: `2 ^ -600 + 0 i + 0 j + 0 k`, a multiple of the identity rotation, is normalised to an infinity and three NaNs. -/
theorem C142_quaternion_fails (h : Rounds binary64 fl) (sin cos : IE binary64 fl → IE binary64 fl) :
    normalized (fns sin cos) (⟨IE.num (2 ^ (-600 : ℤ)), IE.num 0, IE.num 0, IE.num 0⟩ : Quat (IE binary64 fl)) =
      ⟨IE.inf false, IE.nan, IE.nan, IE.nan⟩ := by
  have hpos : (0 : ℝ) < 2 ^ (-600 : ℤ) := zpow_pos (by norm_num) _
  have hn : IE.sqrt (Quat.norm2 (⟨IE.num (2 ^ (-600 : ℤ)), IE.num 0, IE.num 0, IE.num 0⟩ : Quat (IE binary64 fl))) = IE.num 0 := by
    unfold Quat.norm2
    rw [C22_dot]
    change IE.sqrt (0 + IE.num (2 ^ (-600 : ℤ)) * IE.num (2 ^ (-600 : ℤ)) + IE.num 0 * IE.num 0 + IE.num 0 * IE.num 0 + IE.num 0 * IE.num 0) = _
    rw [square_small h, zero_mul_zero h, ie_zero, zero_add_zero h, zero_add_zero h, zero_add_zero h, zero_add_zero h, sqrt_zero_num h]
  have h1 : (IE.num (2 ^ (-600 : ℤ)) / IE.num 0 : IE binary64 fl) = IE.inf false := by
    change (if (0 : ℝ) = 0 then (if (2 : ℝ) ^ (-600 : ℤ) = 0 then IE.nan else IE.inf (IE.isNeg (2 ^ (-600 : ℤ)))) else _) = _
    rw [if_pos rfl, if_neg hpos.ne']
    unfold IE.isNeg
    rw [decide_eq_false (not_lt.2 hpos.le)]
  have h2 : (IE.num 0 / IE.num 0 : IE binary64 fl) = IE.nan := by
    change (if (0 : ℝ) = 0 then (if (0 : ℝ) = 0 then IE.nan else IE.inf (IE.isNeg 0)) else _) = _
    rw [if_pos rfl, if_pos rfl]
  simp only [normalized, fns]
  rw [hn, h1, h2]

end Verif.Ieee
