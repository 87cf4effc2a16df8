import Verif.Stats.Model
import Verif.Rand.Props
import Mathlib.Analysis.MeanInequalities
import Mathlib.Probability.Distributions.Gaussian.Real

/-!
# Properties of the fitted distributions (C51, C81, C82)
-/

namespace Verif.Stats

/-! ## C51 -/

/-- Relative frequencies maximise the likelihood (Gibbs' inequality). -/
theorem gibbs {ι : Type*} [Fintype ι] (c : ι → ℕ) (N : ℕ) (hN : ∑ i, c i = N) (hpos : 0 < N) (q : ι → ℝ)
    (hq : ∀ i, 0 ≤ q i) (hq1 : ∑ i, q i ≤ 1) : ∏ i, q i ^ c i ≤ ∏ i, ((c i : ℝ) / N) ^ c i := by
  have hNr : (0 : ℝ) < N := by exact_mod_cast hpos
  set w : ι → ℝ := fun i => (c i : ℝ) / N with hw
  have hw0 : ∀ i, 0 ≤ w i := fun i => by positivity
  have hw1 : ∑ i, w i = 1 := by
    rw [hw, ← Finset.sum_div, div_eq_one_iff_eq hNr.ne']
    exact_mod_cast hN
  have hz0 : ∀ i, 0 ≤ q i / w i := fun i => div_nonneg (hq i) (hw0 i)
  have h1 := Real.geom_mean_le_arith_mean_weighted Finset.univ w (fun i => q i / w i) (fun i _ => hw0 i) hw1 (fun i _ => hz0 i)
  have h2 : ∑ i, w i * (q i / w i) ≤ 1 := by
    refine le_trans (Finset.sum_le_sum fun i _ => ?_) hq1
    by_cases h : w i = 0
    · rw [h, zero_mul]; exact hq i
    · rw [mul_div_cancel₀ _ h]
  have h3 : ∏ i, (q i / w i) ^ c i ≤ 1 := by
    have h4 : (∏ i, (q i / w i) ^ w i) ^ N ≤ 1 :=
      pow_le_one₀ (Finset.prod_nonneg fun i _ => Real.rpow_nonneg (hz0 i) _) (h1.trans h2)
    rw [← Finset.prod_pow] at h4
    refine le_trans (le_of_eq (Finset.prod_congr rfl fun i _ => ?_)) h4
    rw [← Real.rpow_natCast (_ ^ w i), ← Real.rpow_mul (hz0 i), show w i * (N : ℝ) = c i from div_mul_cancel₀ _ hNr.ne',
      Real.rpow_natCast]
  calc ∏ i, q i ^ c i = ∏ i, w i ^ c i * (q i / w i) ^ c i := by
        refine Finset.prod_congr rfl fun i _ => ?_
        rcases Nat.eq_zero_or_pos (c i) with h | h
        · simp [h]
        · have : w i ≠ 0 := by
            have : (0 : ℝ) < c i := by exact_mod_cast h
            exact (div_pos this hNr).ne'
          rw [← mul_pow, mul_div_cancel₀ _ this]
    _ = (∏ i, w i ^ c i) * ∏ i, (q i / w i) ^ c i := Finset.prod_mul_distrib
    _ ≤ (∏ i, w i ^ c i) * 1 := mul_le_mul_of_nonneg_left h3 (Finset.prod_nonneg fun i _ => pow_nonneg (hw0 i) _)
    _ = ∏ i, w i ^ c i := mul_one _

theorem byteSum (l : List UInt8) (h : ∀ x ∈ l, x = 0 ∨ x = 1) : ∀ s, l.foldl (fun sum s => sum + s.toNat) s = s + l.count 1 := by
  induction l with
  | nil => intro s; simp
  | cons a l ih =>
    intro s
    rw [List.foldl_cons, ih (fun x hx => h x (by simp [hx]))]
    rcases h a (by simp) with rfl | rfl
    · rw [List.count_cons_of_ne (by decide)]; simp
    · rw [List.count_cons_self, show (1 : UInt8).toNat = 1 from rfl]; omega

theorem bernoulliProd (b : Bernoulli) (l : List UInt8) (h : ∀ x ∈ l, x = 0 ∨ x = 1) :
    (l.map b.pmf).prod = b.p ^ l.count 1 * (1 - b.p) ^ (l.length - l.count 1) := by
  induction l with
  | nil => simp
  | cons a l ih =>
    have hle : l.count 1 ≤ l.length := List.count_le_length
    rw [List.map_cons, List.prod_cons, ih (fun x hx => h x (by simp [hx]))]
    rcases h a (by simp) with rfl | rfl
    · rw [List.count_cons_of_ne (by decide), List.length_cons, show l.length + 1 - l.count 1 = l.length - l.count 1 + 1 by omega,
        pow_succ, show b.pmf 0 = 1 - b.p by simp [Bernoulli.pmf]]
      ring
    · rw [List.count_cons_self, List.length_cons, show l.length + 1 - (l.count 1 + 1) = l.length - l.count 1 by omega,
        pow_succ, show b.pmf 1 = b.p by simp [Bernoulli.pmf]]
      ring

/-- C51, Bernoulli. For 0/1 data (the documented assumption) the fitted parameter is the frequency of ones, a number in
`[0, 1]`; the masses of all 256 byte values are non-negative, sum to one, and vanish outside `{0, 1}`. -/
theorem C51_bernoulli (xs : List UInt8) (h : ∀ x ∈ xs, x = 0 ∨ x = 1) :
    (xs ≠ [] → (Bernoulli.fit xs).p = (xs.count 1 : ℝ) / xs.length) ∧
    0 ≤ (Bernoulli.fit xs).p ∧ (Bernoulli.fit xs).p ≤ 1 ∧ (∀ x, 0 ≤ (Bernoulli.fit xs).pmf x) ∧
    ∑ k ∈ Finset.range 256, (Bernoulli.fit xs).pmf (UInt8.ofNat k) = 1 ∧
    ∀ x, x ≠ 0 → x ≠ 1 → (Bernoulli.fit xs).pmf x = 0 := by
  have hp : (Bernoulli.fit xs).p = (xs.count 1 : ℝ) / (max xs.length 1 : ℕ) := by
    unfold Bernoulli.fit
    simp only [byteSum xs h, zero_add]
  have hle : xs.count 1 ≤ max xs.length 1 := le_trans List.count_le_length (le_max_left _ _)
  have hm : (0 : ℝ) < (max xs.length 1 : ℕ) := by exact_mod_cast (by omega : 0 < max xs.length 1)
  have h0 : 0 ≤ (Bernoulli.fit xs).p := by rw [hp]; positivity
  have h1 : (Bernoulli.fit xs).p ≤ 1 := by
    rw [hp, div_le_one hm]; exact_mod_cast hle
  refine ⟨fun hne => ?_, h0, h1, fun x => ?_, ?_, fun x hx0 hx1 => by simp [Bernoulli.pmf, hx0, hx1]⟩
  · have := List.length_pos_iff.2 hne
    rw [hp, show max xs.length 1 = xs.length by omega]
  · unfold Bernoulli.pmf
    split_ifs <;> linarith
  · generalize Bernoulli.fit xs = b
    rw [← Finset.sum_subset (s₁ := {0, 1}) (by decide)]
    · rw [Finset.sum_pair (by decide)]
      simp [Bernoulli.pmf]
    · intro k hk hk2
      simp only [Finset.mem_range] at hk
      simp only [Finset.mem_insert, Finset.mem_singleton, not_or] at hk2
      unfold Bernoulli.pmf
      have e : (UInt8.ofNat k).toNat = k := by rw [UInt8.toNat_ofNat']; omega
      rw [if_neg (fun hc => hk2.1 (by rw [← e, hc]; rfl)), if_neg (fun hc => hk2.2 (by rw [← e, hc]; rfl))]

/-- C51, Bernoulli. The fit is the maximum-likelihood fit: no parameter in `[0, 1]` gives the data a larger probability. -/
theorem C51_bernoulli_mle (xs : List UInt8) (h : ∀ x ∈ xs, x = 0 ∨ x = 1) (q : ℝ) (h0 : 0 ≤ q) (h1 : q ≤ 1) :
    (xs.map (Bernoulli.mk q).pmf).prod ≤ (xs.map (Bernoulli.fit xs).pmf).prod := by
  rcases xs.eq_nil_or_concat with rfl | ⟨_, _, hne⟩
  · simp
  have hpos : 0 < xs.length := by rw [hne]; simp
  have hne : xs ≠ [] := List.length_pos_iff.1 hpos
  have hle : xs.count 1 ≤ xs.length := List.count_le_length
  rw [bernoulliProd _ _ h, bernoulliProd _ _ h, (C51_bernoulli xs h).1 hne]
  have hg := gibbs ![xs.count 1, xs.length - xs.count 1] xs.length (by simp; omega) hpos ![q, 1 - q]
    (by intro i; fin_cases i <;> simp [h0, h1]) (by simp)
  simp only [Fin.prod_univ_two, Matrix.cons_val_zero, Matrix.cons_val_one] at hg
  refine hg.trans (le_of_eq ?_)
  congr 2
  rw [Nat.cast_sub hle, sub_div, div_self]
  exact_mod_cast hpos.ne'

example : ∀ x ∈ ([1, 0, 1, 1, 0] : List UInt8), x = 0 ∨ x = 1 := by decide

theorem checkedSum (l : List ℕ) : ∀ s, (s + l.sum < 2 ^ 64 →
    l.foldlM (fun s c => if s + c < 2 ^ 64 then some (s + c) else none) s = some (s + l.sum)) := by
  induction l with
  | nil => intro s _; simp
  | cons a l ih =>
    intro s hs
    rw [List.sum_cons] at hs ⊢
    rw [List.foldlM_cons, if_pos (by omega)]
    show l.foldlM _ (s + a) = _
    rw [ih (s + a) (by omega)]
    congr 1; omega

theorem catFit_eq (counts : List ℕ) (hov : counts.sum < 2 ^ 64) :
    catFit counts = some (counts.map fun (c : ℕ) => (c : ℝ) / ((max counts.sum 1 : ℕ) : ℝ)) := by
  unfold catFit
  rw [checkedSum counts 0 (by omega), zero_add]
  rfl

/-- C51, categorical, for data with at least one observation (and a count that fits `usize`): the fit has the frequencies
as probabilities; they are in `[0, 1]` and sum to one; the mass outside the categories is zero. The case without
observations is `C51_no_data_fails`. -/
theorem C51_categorical_partial (counts : List ℕ) (hov : counts.sum < 2 ^ 64) (hne : 0 < counts.sum) :
    ∃ probs, catFit counts = some probs ∧ probs.length = counts.length ∧
      (∀ (k : ℕ) (hk : k < counts.length), catPmf probs k = (counts[k] : ℝ) / counts.sum) ∧
      (∀ k, 0 ≤ catPmf probs k ∧ catPmf probs k ≤ 1) ∧ probs.sum = 1 ∧ (∀ k, counts.length ≤ k → catPmf probs k = 0) := by
  have hS : (0 : ℝ) < counts.sum := by exact_mod_cast hne
  refine ⟨_, catFit_eq counts hov, by simp, fun k hk => ?_, fun k => ?_, ?_, fun k hk => ?_⟩
  · simp [catPmf, hk, show max counts.sum 1 = counts.sum by omega]
  · unfold catPmf
    rw [show max counts.sum 1 = counts.sum by omega]
    split_ifs with h
    · simp only [List.length_map] at h
      rw [List.getElem_map]
      refine ⟨by positivity, ?_⟩
      rw [div_le_one hS]
      exact_mod_cast List.single_le_sum (by simp) _ (List.getElem_mem h)
    · exact ⟨le_rfl, zero_le_one⟩
  · rw [show max counts.sum 1 = counts.sum by omega]
    have key : ∀ l : List ℕ, (l.map fun (c : ℕ) => (c : ℝ) / (counts.sum : ℝ)).sum = (l.sum : ℝ) / counts.sum := by
      intro l
      induction l with
      | nil => simp
      | cons a l ih => simp only [List.map_cons, List.sum_cons, ih]; push_cast; ring
    rw [key, div_self hS.ne']
  · simp [catPmf, not_lt.2 hk]

example : ([2, 3, 5] : List ℕ).sum < 2 ^ 64 ∧ 0 < ([2, 3, 5] : List ℕ).sum := by decide

/-- C51, categorical. The fit is the maximum-likelihood fit: no other probabilities over the categories give the counts a
larger likelihood. -/
theorem C51_categorical_mle (counts : List ℕ) (hov : counts.sum < 2 ^ 64) (hne : 0 < counts.sum)
    (q : Fin counts.length → ℝ) (hq : ∀ i, 0 ≤ q i) (hq1 : ∑ i, q i ≤ 1) :
    ∃ probs, catFit counts = some probs ∧
      ∏ i : Fin counts.length, q i ^ counts[i] ≤ ∏ i : Fin counts.length, catPmf probs i ^ counts[i] := by
  obtain ⟨probs, h1, -, h2, -⟩ := C51_categorical_partial counts hov hne
  refine ⟨probs, h1, ?_⟩
  have hg := gibbs (fun i : Fin counts.length => counts[i]) counts.sum (by simp [Fin.sum_univ_getElem]) hne q hq hq1
  refine hg.trans (le_of_eq (Finset.prod_congr rfl fun i _ => ?_))
  rw [h2 i.1 i.2]; rfl

/-- C51. Without any observation the "fitted" categorical distribution has total mass zero. -/
theorem C51_no_data_fails (k : ℕ) : ∃ probs, catFit (List.replicate k 0) = some probs ∧ probs.sum = 0 := by
  refine ⟨_, catFit_eq _ (by simp), ?_⟩
  simp

/-! ## C81 -/

theorem pdf_eq (g : Gauss) (x : ℝ) :
    g.pdf x = (Real.sqrt (2 * Real.pi * g.sigma ^ 2))⁻¹ * Real.exp (-(x - g.mu) ^ 2 / (2 * g.sigma ^ 2)) := by
  unfold Gauss.pdf
  dsimp only
  rw [max_eq_left (mul_self_nonneg _), one_div, ← pow_two, one_add_one_eq_two]
  congr 2
  rw [← neg_div]
  rw [neg_div, neg_div]
  congr 1
  rw [mul_assoc, ← pow_two, one_div, inv_mul_eq_div, div_div]

/-- C81. For `sigma ≠ 0` the density is that of the normal distribution with mean `mu` and variance `sigma²`: it is
positive and integrates to one. -/
theorem C81_density (g : Gauss) (hs : g.sigma ≠ 0) :
    g.pdf = ProbabilityTheory.gaussianPDFReal g.mu ⟨g.sigma ^ 2, sq_nonneg _⟩ ∧ (∀ x, 0 < g.pdf x) ∧ ∫ x, g.pdf x = 1 := by
  have hv : (⟨g.sigma ^ 2, sq_nonneg _⟩ : NNReal) ≠ 0 := by
    intro h
    have : g.sigma ^ 2 = 0 := congrArg NNReal.toReal h
    exact hs (pow_eq_zero_iff two_ne_zero |>.1 this)
  have e : g.pdf = ProbabilityTheory.gaussianPDFReal g.mu ⟨g.sigma ^ 2, sq_nonneg _⟩ := by
    funext x
    rw [pdf_eq]
    rfl
  refine ⟨e, fun x => ?_, ?_⟩
  · rw [e]; exact ProbabilityTheory.gaussianPDFReal_pos _ _ _ hv
  · rw [e]; exact ProbabilityTheory.integral_gaussianPDFReal_eq_one _ hv

theorem foldl_add_sum (f : ℝ → ℝ) (l : List ℝ) : ∀ s, l.foldl (fun s x => s + f x) s = s + (l.map f).sum := by
  induction l with
  | nil => intro s; simp
  | cons a l ih => intro s; rw [List.foldl_cons, ih]; simp only [List.map_cons, List.sum_cons]; ring

/-- C81. The fitted mean is the arithmetic mean, the fitted deviation the root of the mean squared deviation, but not less
than the machine epsilon; without samples the fit is the standard normal distribution. -/
theorem C81_fit (eps : ℝ) (xs : List ℝ) :
    (xs = [] → Gauss.fit eps xs = ⟨0, 1⟩) ∧
    (xs ≠ [] → (Gauss.fit eps xs).mu = xs.sum / xs.length ∧
      (Gauss.fit eps xs).sigma = max (Real.sqrt ((xs.map fun x => (x - xs.sum / xs.length) ^ 2).sum / xs.length)) eps) := by
  refine ⟨by rintro rfl; rfl, fun h => ?_⟩
  have hmu : xs.foldl (fun sum s => sum + s) 0 = xs.sum := by
    have := foldl_add_sum id xs 0
    simpa using this
  unfold Gauss.fit
  rw [if_neg (by simpa using h)]
  dsimp only
  rw [hmu]
  refine ⟨rfl, ?_⟩
  have := foldl_add_sum (fun s => (s - xs.sum / xs.length) * (s - xs.sum / xs.length)) xs 0
  rw [this, zero_add]
  simp only [pow_two]

theorem pdfProd (g : Gauss) (l : List ℝ) : (l.map g.pdf).prod =
    (Real.sqrt (2 * Real.pi * g.sigma ^ 2))⁻¹ ^ l.length * Real.exp (-(l.map fun x => (x - g.mu) ^ 2).sum / (2 * g.sigma ^ 2)) := by
  induction l with
  | nil => simp
  | cons a l ih =>
    rw [List.map_cons, List.prod_cons, ih, pdf_eq, List.length_cons, pow_succ, List.map_cons, List.sum_cons, neg_add,
      add_div, Real.exp_add]
    ring

/-- C81. The fit is the maximum-likelihood fit: if the data vary (their deviation is at least the floor), no normal
distribution gives them a larger likelihood. -/
theorem C81_mle (eps : ℝ) (he : 0 < eps) (xs : List ℝ) (hne : xs ≠ [])
    (hvar : eps ≤ Real.sqrt ((xs.map fun x => (x - xs.sum / xs.length) ^ 2).sum / xs.length)) (g : Gauss) (hg : 0 < g.sigma) :
    (xs.map g.pdf).prod ≤ (xs.map (Gauss.fit eps xs).pdf).prod := by
  obtain ⟨hmu, hsig⟩ := (C81_fit eps xs).2 hne
  rw [max_eq_left hvar] at hsig
  have hn : (0 : ℝ) < xs.length := by exact_mod_cast List.length_pos_iff.2 hne
  have hs0 : 0 < (Gauss.fit eps xs).sigma := by rw [hsig]; linarith
  set f := Gauss.fit eps xs with hf
  -- sums of squares
  have hss : ∀ (a b : ℝ) (l : List ℝ), (l.map fun x => (x - a) ^ 2).sum
      = (l.map fun x => (x - b) ^ 2).sum + 2 * (b - a) * (l.sum - l.length * b) + l.length * (b - a) ^ 2 := by
    intro a b l
    induction l with
    | nil => simp
    | cons x l ih =>
      simp only [List.map_cons, List.sum_cons, List.length_cons, Nat.cast_succ]
      rw [ih]; ring
  have hvar2 : (xs.map fun x => (x - f.mu) ^ 2).sum = xs.length * f.sigma ^ 2 := by
    have h0 : (0 : ℝ) ≤ (xs.map fun x => (x - xs.sum / (xs.length : ℝ)) ^ 2).sum / (xs.length : ℝ) := by
      by_contra hc
      rw [Real.sqrt_eq_zero_of_nonpos (not_le.1 hc).le] at hvar
      linarith
    rw [hsig, Real.sq_sqrt h0, hmu, mul_div_cancel₀ _ hn.ne']
  have hge : xs.length * f.sigma ^ 2 ≤ (xs.map fun x => (x - g.mu) ^ 2).sum := by
    rw [hss g.mu f.mu xs, hvar2, hmu, mul_div_cancel₀ _ hn.ne']
    have : 0 ≤ (xs.length : ℝ) * (xs.sum / xs.length - g.mu) ^ 2 := by positivity
    linarith
  rw [pdfProd, pdfProd, hvar2]
  have hfs : 0 < f.sigma ^ 2 := by positivity
  have hgs : 0 < g.sigma ^ 2 := by positivity
  have e1 : -(xs.length * f.sigma ^ 2) / (2 * f.sigma ^ 2) = -(xs.length / 2 : ℝ) := by field_simp
  rw [e1]
  have hroot : ∀ s : ℝ, 0 < s → (Real.sqrt (2 * Real.pi * s ^ 2))⁻¹ = (Real.sqrt (2 * Real.pi))⁻¹ * s⁻¹ := by
    intro s hs
    rw [Real.sqrt_mul (by positivity), Real.sqrt_sq hs.le, mul_inv]
  rw [hroot _ hg, hroot _ hs0, mul_pow, mul_pow, mul_assoc, mul_assoc]
  refine mul_le_mul_of_nonneg_left ?_ (by positivity)
  -- with t the ratio of the deviations, `t ≤ exp ((t² - 1)/2)`
  set t := f.sigma / g.sigma with ht
  have htpos : 0 < t := div_pos hs0 hg
  have h1 : t ≤ Real.exp ((t ^ 2 - 1) / 2) := by
    have h2 : t ^ 2 ≤ Real.exp (t ^ 2 - 1) := by
      have := Real.add_one_le_exp (t ^ 2 - 1)
      linarith
    have h3 : Real.exp (t ^ 2 - 1) = Real.exp ((t ^ 2 - 1) / 2) ^ 2 := by
      rw [← Real.exp_nat_mul]; congr 1; push_cast; ring
    rw [h3] at h2
    exact (pow_le_pow_iff_left₀ htpos.le (Real.exp_pos _).le two_ne_zero).1 h2
  have h4 : t ^ xs.length ≤ Real.exp (xs.length * ((t ^ 2 - 1) / 2)) := by
    rw [Real.exp_nat_mul]
    exact pow_le_pow_left₀ htpos.le h1 _
  have h5 : Real.exp (-(xs.map fun x => (x - g.mu) ^ 2).sum / (2 * g.sigma ^ 2)) ≤ Real.exp (-(xs.length * t ^ 2 / 2)) := by
    apply Real.exp_le_exp.2
    rw [neg_div, neg_le_neg_iff, ht, div_pow, le_div_iff₀ (by positivity)]
    refine le_trans (le_of_eq ?_) hge
    field_simp
  calc g.sigma⁻¹ ^ xs.length * Real.exp (-(xs.map fun x => (x - g.mu) ^ 2).sum / (2 * g.sigma ^ 2))
      ≤ g.sigma⁻¹ ^ xs.length * Real.exp (-(xs.length * t ^ 2 / 2)) :=
        mul_le_mul_of_nonneg_left h5 (by positivity)
    _ = f.sigma⁻¹ ^ xs.length * (t ^ xs.length * Real.exp (-(xs.length * t ^ 2 / 2))) := by
        rw [← mul_assoc, ← mul_pow, show f.sigma⁻¹ * t = g.sigma⁻¹ by rw [ht]; field_simp]
    _ ≤ f.sigma⁻¹ ^ xs.length * (Real.exp (xs.length * ((t ^ 2 - 1) / 2)) * Real.exp (-(xs.length * t ^ 2 / 2))) :=
        mul_le_mul_of_nonneg_left (mul_le_mul_of_nonneg_right h4 (Real.exp_pos _).le) (by positivity)
    _ = f.sigma⁻¹ ^ xs.length * Real.exp (-(xs.length / 2 : ℝ)) := by
        rw [← Real.exp_add]; congr 2; ring

example : (2⁻¹ ^ 52 : ℝ) ≤ Real.sqrt ((([0, 2] : List ℝ).map fun x => (x - ([0, 2] : List ℝ).sum / ([0, 2] : List ℝ).length) ^ 2).sum
    / ([0, 2] : List ℝ).length) := by
  norm_num

/-! ## C82 -/

/-- C82. A normal draw is always a number (neither logarithm nor root leaves its domain), within `√(106 ln 2) < 8.6`
standard deviations of the mean, and uses two draws of the generator. -/
theorem C82_sample (d : Gauss) (g : Rand.Gen) :
    ∃ z : ℝ, d.sample g = (some z, (g.draws 2).2) ∧ |z - d.mu| ≤ |d.sigma| * Real.sqrt (106 * Real.log 2) := by
  obtain ⟨⟨k, hk, hu⟩, h0, h1⟩ := Rand.C20_f64_range g
  have hlog2 : 0 < Real.log 2 := Real.log_pos (by norm_num)
  set u : ℝ := if ((g.nextUnit.1 : ℚ) : ℝ) ≤ 0 then 2⁻¹ ^ 52 else ((g.nextUnit.1 : ℚ) : ℝ) with hu'
  have hlow : (2 : ℝ)⁻¹ ^ 53 ≤ u := by
    rw [hu']
    split_ifs with h
    · exact pow_le_pow_of_le_one (by norm_num) (by norm_num) (by norm_num)
    · rw [hu] at h ⊢
      push Not at h
      have hk0 : 0 < k := by
        rcases Nat.eq_zero_or_pos k with rfl | h'
        · norm_num at h
        · exact h'
      have : (1 : ℝ) ≤ k := by exact_mod_cast hk0
      push_cast
      rw [inv_pow, ← one_div]
      exact div_le_div_of_nonneg_right this (by positivity)
  have hhigh : u ≤ 1 := by
    rw [hu']
    split_ifs with h
    · exact pow_le_one₀ (by norm_num) (by norm_num)
    · exact_mod_cast h1.le
  have hupos : 0 < u := lt_of_lt_of_le (by positivity) hlow
  have hlogu : -(53 * Real.log 2) ≤ Real.log u := by
    have := Real.log_le_log (by positivity) hlow
    rw [Real.log_pow, Real.log_inv] at this
    push_cast at this
    linarith
  have hneg : Real.log u ≤ 0 := Real.log_nonpos hupos.le hhigh
  have hbm : boxMuller (2⁻¹ ^ 52) ((g.nextUnit.1 : ℚ) : ℝ) ((g.nextUnit.2.nextUnit.1 : ℚ) : ℝ)
      = some (Real.sqrt (-(2 * Real.log u)) * Real.cos (2 * Real.pi * ((g.nextUnit.2.nextUnit.1 : ℚ) : ℝ))) := by
    unfold boxMuller
    dsimp only
    rw [← hu', if_neg (not_le.2 hupos), if_neg (by linarith)]
  generalize hw : Real.cos (2 * Real.pi * ((g.nextUnit.2.nextUnit.1 : ℚ) : ℝ)) = w at hbm
  refine ⟨d.sigma * (Real.sqrt (-(2 * Real.log u)) * w) + d.mu, ?_, ?_⟩
  · show ((boxMuller (2⁻¹ ^ 52) ((g.nextUnit.1 : ℚ) : ℝ) ((g.nextUnit.2.nextUnit.1 : ℚ) : ℝ)).map _, _) = _
    rw [hbm]
    rfl
  · have hcos : |w| ≤ 1 := by rw [← hw]; exact Real.abs_cos_le_one _
    rw [add_sub_cancel_right, abs_mul, abs_mul, abs_of_nonneg (Real.sqrt_nonneg _)]
    refine mul_le_mul_of_nonneg_left ?_ (abs_nonneg _)
    calc Real.sqrt (-(2 * Real.log u)) * |w| ≤ Real.sqrt (-(2 * Real.log u)) * 1 :=
          mul_le_mul_of_nonneg_left hcos (Real.sqrt_nonneg _)
      _ ≤ Real.sqrt (106 * Real.log 2) := by
          rw [mul_one]; exact Real.sqrt_le_sqrt (by linarith)

end Verif.Stats
