import Verif.Wmm.FpModel
import Verif.Wmm.PropsField
import Verif.Shapes.PropsMassFloat

/-!
# Lemmas: rounding errors of the loops of the magnetic model
-/

namespace Verif.Wmm.Fp

open Real Verif.Stats Verif.Simd Verif.Round

variable {fl : ℝ → ℝ} {ε : ℝ}

/-! ## Roundings of plain numbers -/

/-- `y` is `t` up to `d` roundings. -/
def Near (ε : ℝ) (d : ℕ) (y t : ℝ) : Prop := ∃ f, Fac ε d f ∧ y = t * f

theorem eadd (h : Accurate fl ε) (hu : ε < 1) {d : ℕ} {x y s t A B : ℝ} (ha : Err ε d x s A) (hb : Err ε d y t B) :
    Err ε (d + 1) (fl (x + y)) (s + t) (A + B) := Shapes.err_add h hu (x := (⟨x⟩ : Fl fl)) (y := ⟨y⟩) ha hb

theorem esub (h : Accurate fl ε) (hu : ε < 1) {d : ℕ} {x y s t A B : ℝ} (ha : Err ε d x s A) (hb : Err ε d y t B) :
    Err ε (d + 1) (fl (x - y)) (s - t) (A + B) := Shapes.err_sub h hu (x := (⟨x⟩ : Fl fl)) (y := ⟨y⟩) ha hb

theorem emul (h : Accurate fl ε) (hu : ε < 1) {d e : ℕ} {x y s t A B : ℝ} (ha : Err ε d x s A) (hb : Err ε e y t B) :
    Err ε (d + e + 1) (fl (x * y)) (s * t) (A * B) := Shapes.err_mul h hu (x := (⟨x⟩ : Fl fl)) (y := ⟨y⟩) ha hb

theorem weaken (h : Accurate fl ε) (hu : ε < 1) {d e : ℕ} {x s A B : ℝ} (ha : Err ε d x s A) (hde : d ≤ e) (hAB : A ≤ B) :
    Err ε e x s B := by
  have h0 := accurate_nonneg h
  have h1 := Shapes.Err.mono h0 hu hde ha
  exact ⟨h1.1.trans (mul_le_mul_of_nonneg_left hAB (growth_pos h0 hu e)), h1.2.trans hAB⟩

theorem econst {x : ℝ} (hx : 0 ≤ x) : Err ε 0 x x x := by
  have := Shapes.err_self (u := ε) x
  rwa [abs_of_nonneg hx] at this

theorem near_err (h : Accurate fl ε) (hu : ε < 1) {d : ℕ} {y t : ℝ} (hy : Near ε d y t) : Err ε d y t |t| :=
  Shapes.rel_err (accurate_nonneg h) hu (x := (⟨y⟩ : Fl fl)) hy

theorem ediv (h : Accurate fl ε) (hu : ε < 1) {d e : ℕ} {x y s t A : ℝ} (ha : Err ε d x s A) (hb : Near ε e y t) (ht : t ≠ 0) :
    Err ε (d + e + 1) (fl (x / y)) (s / t) (A / |t|) := by
  rcases lt_or_gt_of_ne ht with ht | ht
  · obtain ⟨f, hf, rfl⟩ := hb
    have hn : Err ε d (-x) (-s) A := by
      refine ⟨?_, by rw [abs_neg]; exact ha.2⟩
      rw [show -x - -s = -(x - s) by ring, abs_neg]
      exact ha.1
    have h1 := Shapes.err_div h hu (x := (⟨-x⟩ : Fl fl)) (y := ⟨-t * f⟩) (t := -t) hn ⟨f, hf, rfl⟩ (by linarith)
    have e1 : -x / (-t * f) = x / (t * f) := by rw [neg_mul, neg_div_neg_eq]
    have e2 : -s / -t = s / t := neg_div_neg_eq s t
    rw [e2] at h1
    rw [abs_of_neg ht, ← e1]
    exact h1
  · have h1 := Shapes.err_div h hu (x := (⟨x⟩ : Fl fl)) (y := ⟨y⟩) ha hb ht
    rw [abs_of_pos ht]
    exact h1

theorem near_round (h : Accurate fl ε) (hu : ε < 1) {d : ℕ} {y t : ℝ} (hy : Near ε d y t) : Near ε (d + 1) (fl y) t := by
  obtain ⟨f, hf, rfl⟩ := hy
  obtain ⟨g, hg, e⟩ := accurate_fac h hu (t * f)
  exact ⟨f * g, hf.mul hu hg, by rw [e, mul_assoc]⟩

theorem near_self (x : ℝ) : Near ε 0 x x := ⟨1, ⟨by simp, by simp⟩, by simp⟩

theorem near_mul (hu : ε < 1) {d e : ℕ} {x y s t : ℝ} (hx : Near ε d x s) (hy : Near ε e y t) : Near ε (d + e) (x * y) (s * t) := by
  obtain ⟨f, hf, rfl⟩ := hx
  obtain ⟨g, hg, rfl⟩ := hy
  exact ⟨f * g, hf.mul hu hg, by ring⟩

theorem near_div (hu : ε < 1) {d e : ℕ} {x y s t : ℝ} (hx : Near ε d x s) (hy : Near ε e y t) : Near ε (d + e) (x / y) (s / t) := by
  obtain ⟨f, hf, rfl⟩ := hx
  obtain ⟨g, hg, rfl⟩ := hy
  exact ⟨f * g⁻¹, hf.mul hu (hg.inv hu), by rw [mul_div_mul_comm]; rfl⟩

theorem near_mono (h : Accurate fl ε) (hu : ε < 1) {d e : ℕ} (hde : d ≤ e) {x s : ℝ} (hx : Near ε d x s) : Near ε e x s := by
  obtain ⟨f, hf, rfl⟩ := hx
  exact ⟨f, hf.mono (accurate_nonneg h) hu hde, rfl⟩

theorem near_pow (hu : ε < 1) {d : ℕ} {x s : ℝ} (hx : Near ε d x s) (k : ℕ) : Near ε (d * k) (x ^ k) (s ^ k) := by
  induction k with
  | zero => simpa using near_self (ε := ε) 1
  | succ k ih => rw [pow_succ, pow_succ, Nat.mul_succ]; exact near_mul hu ih hx

/-- A number within the fraction `ε` of another one is one rounding away from it. -/
theorem near_of_abs (h0 : 0 ≤ ε) (hu : ε < 1) {y t : ℝ} (ht : t ≠ 0) (hy : |y - t| ≤ ε * |t|) : Near ε 1 y t := by
  have h1 : |y / t - 1| ≤ ε := by rw [div_sub_one ht, abs_div, div_le_iff₀ (abs_pos.2 ht)]; exact hy
  have h2 := abs_le.1 h1
  have h3 : 0 < 1 - ε := by linarith
  have h4 : 1 + ε ≤ (1 - ε)⁻¹ := by rw [le_inv_comm₀ (by positivity) h3, inv_eq_one_div, le_div_iff₀ (by positivity)]; nlinarith
  exact ⟨y / t, ⟨by rw [pow_one]; linarith, by rw [pow_one]; linarith⟩, by field_simp⟩

/-! ## The table of Legendre functions -/

section table

variable {s c : ℝ} {Q : ℕ → ℕ → ℝ → Prop}

theorem diag_ind (N : ℕ) (p : ℕ → ℕ → ℝ) (h : Q 0 0 (p 0 0))
    (hd : ∀ m v, Q m m v → Q (m + 1) (m + 1) (fl (fl (((2 * (m + 1) - 1 : ℕ) : ℝ) * c) * v))) :
    ∀ m ≤ N, Q m m (diag fl N c p m m) := by
  induction N with
  | zero =>
    intro m hm
    obtain rfl : m = 0 := by omega
    unfold diag
    rw [upto_empty (by omega)]
    exact h
  | succ N ih =>
    intro m hm
    have e : diag fl (N + 1) c p = set2 (diag fl N c p) (N + 1) (N + 1)
        (fl (fl (((2 * (N + 1) - 1 : ℕ) : ℝ) * c) * diag fl N c p N N)) := by
      unfold diag
      rw [upto_succ (by omega), List.foldl_append]
      rfl
    rw [e]
    unfold set2
    by_cases hm' : m = N + 1
    · subst hm'
      rw [if_pos ⟨rfl, rfl⟩]
      exact hd N _ (ih N le_rfl)
    · rw [if_neg (by omega)]
      exact ih m (by omega)

theorem off_ind (N : ℕ) (p : ℕ → ℕ → ℝ) (k : ℕ) (hk : k ≤ N) (h : ∀ m ≤ N, Q m m (p m m))
    (ho : ∀ m v, Q m m v → Q (m + 1) m (fl (fl (((2 * m + 1 : ℕ) : ℝ) * s) * v))) :
    (∀ m ≤ N, Q m m (off fl k s p m m)) ∧ (∀ m < k, Q (m + 1) m (off fl k s p (m + 1) m)) := by
  induction k with
  | zero => exact ⟨fun m hm => h m hm, fun m hm => absurd hm (by omega)⟩
  | succ k ih =>
    obtain ⟨h1, h2⟩ := ih (by omega)
    have e : off fl (k + 1) s p = set2 (off fl k s p) (k + 1) k (fl (fl (((2 * k + 1 : ℕ) : ℝ) * s) * off fl k s p k k)) := by
      unfold off
      rw [List.range_succ, List.foldl_append]
      rfl
    rw [e]
    unfold set2
    refine ⟨fun m hm => ?_, fun m hm => ?_⟩
    · rw [if_neg (by omega)]
      exact h1 m hm
    · by_cases hm' : m = k
      · subst hm'
        rw [if_pos ⟨rfl, rfl⟩]
        exact ho m _ (h1 m (by omega))
      · rw [if_neg (by omega)]
        exact h2 m (by omega)

theorem col_ind (p : ℕ → ℕ → ℝ) (m K : ℕ) (h1 : Q m m (p m m)) (h2 : m + 1 ≤ K → Q (m + 1) m (p (m + 1) m))
    (hc : ∀ j v w, m ≤ j → Q (j + 1) m v → Q j m w → Q (j + 2) m
      (fl (fl (fl (fl (((2 * (j + 2) - 1 : ℕ) : ℝ) * s) * v) - fl (((j + 2 + m - 1 : ℕ) : ℝ) * w)) / ((j + 2 - m : ℕ) : ℝ)))) :
    (∀ n, m ≤ n → n ≤ K → Q n m (col fl K s p m n m)) ∧
    (∀ n l, (l ≠ m ∨ n < m + 2) → col fl K s p m n l = p n l) := by
  induction K with
  | zero =>
    unfold col
    rw [upto_empty (by omega)]
    refine ⟨fun n hn hn' => ?_, fun n l _ => rfl⟩
    obtain rfl : n = m := by omega
    exact h1
  | succ K ih =>
    obtain ⟨i1, i2⟩ := ih (fun h => h2 (by omega))
    by_cases hK : m + 2 ≤ K + 1
    · have e : col fl (K + 1) s p m = set2 (col fl K s p m) (K + 1) m
          (fl (fl (fl (fl (((2 * (K + 1) - 1 : ℕ) : ℝ) * s) * col fl K s p m K m) - fl (((K + 1 + m - 1 : ℕ) : ℝ) * col fl K s p m (K - 1) m)) /
            ((K + 1 - m : ℕ) : ℝ))) := by
        unfold col
        rw [upto_succ (by omega), List.foldl_append]
        rfl
      rw [e]
      unfold set2
      refine ⟨fun n hn hn' => ?_, fun n l hl => ?_⟩
      · by_cases hn2 : n = K + 1
        · subst hn2
          obtain ⟨j, rfl⟩ : ∃ j, K = j + 1 := ⟨K - 1, by omega⟩
          rw [if_pos ⟨rfl, rfl⟩, show j + 1 - 1 = j by omega]
          exact hc j _ _ (by omega) (i1 (j + 1) (by omega) le_rfl) (i1 j (by omega) (by omega))
        · rw [if_neg (by omega)]
          exact i1 n hn (by omega)
      · rw [if_neg (by omega)]
        exact i2 n l hl
    · unfold col
      rw [upto_empty (by omega)]
      refine ⟨fun n hn hn' => ?_, fun n l _ => rfl⟩
      rcases (show n = m ∨ n = m + 1 by omega) with rfl | rfl
      · exact h1
      · exact h2 hn'

/-- What holds of the first entry and is kept by every assignment of the three loops holds of every entry of the table. -/
theorem table_ind (N : ℕ) (h0 : Q 0 0 1)
    (hd : ∀ m v, Q m m v → Q (m + 1) (m + 1) (fl (fl (((2 * (m + 1) - 1 : ℕ) : ℝ) * c) * v)))
    (ho : ∀ m v, Q m m v → Q (m + 1) m (fl (fl (((2 * m + 1 : ℕ) : ℝ) * s) * v)))
    (hc : ∀ m j v w, m ≤ j → Q (j + 1) m v → Q j m w → Q (j + 2) m
      (fl (fl (fl (fl (((2 * (j + 2) - 1 : ℕ) : ℝ) * s) * v) - fl (((j + 2 + m - 1 : ℕ) : ℝ) * w)) / ((j + 2 - m : ℕ) : ℝ))))
    (n m : ℕ) (hm : m ≤ n) (hn : n ≤ N) : Q n m (table fl N s c n m) := by
  have d := diag_ind (fl := fl) (c := c) (Q := Q) N (set2 (fun _ _ => 0) 0 0 1) (by simpa [set2] using h0) hd
  obtain ⟨o1, o2⟩ := off_ind (fl := fl) (s := s) (Q := Q) N _ N le_rfl d ho
  unfold table
  set p := off fl N s (diag fl N c (set2 (fun _ _ => 0) 0 0 1)) with hp
  have key : ∀ k, k ≤ N → (∀ m ≤ k, ∀ n, m ≤ n → n ≤ N → Q n m ((upto 0 k).foldl (col fl N s) p n m)) ∧
      (∀ m, k < m → ∀ n, (upto 0 k).foldl (col fl N s) p n m = p n m) := by
    intro k
    induction k with
    | zero =>
      intro hk
      rw [upto_zero]
      obtain ⟨c1, c2⟩ := col_ind (fl := fl) (s := s) (Q := Q) p 0 N (o1 0 (by omega)) (fun h => o2 0 (by omega)) (hc 0)
      refine ⟨fun m hm n hn hn' => ?_, fun m hm n => c2 n m (Or.inl (by omega))⟩
      obtain rfl : m = 0 := by omega
      exact c1 n hn hn'
    | succ k ih =>
      intro hk
      obtain ⟨i1, i2⟩ := ih (by omega)
      rw [upto_succ (by omega), List.foldl_append]
      change (∀ m ≤ k + 1, ∀ n, m ≤ n → n ≤ N → Q n m (col fl N s ((upto 0 k).foldl (col fl N s) p) (k + 1) n m)) ∧
        ∀ m, k + 1 < m → ∀ n, col fl N s ((upto 0 k).foldl (col fl N s) p) (k + 1) n m = p n m
      obtain ⟨c1, c2⟩ := col_ind (fl := fl) (s := s) (Q := Q) ((upto 0 k).foldl (col fl N s) p) (k + 1) N
        (by rw [i2 (k + 1) (by omega)]; exact o1 (k + 1) hk)
        (fun h => by rw [i2 (k + 1) (by omega)]; exact o2 (k + 1) (by omega)) (hc (k + 1))
      refine ⟨fun m hm n hn hn' => ?_, fun m hm n => ?_⟩
      · by_cases h : m = k + 1
        · subst h
          exact c1 n hn hn'
        · rw [c2 n m (Or.inl h)]
          exact i1 m (by omega) n hn hn'
      · rw [c2 n m (Or.inl (by omega))]
        exact i2 m (by omega) n
  exact (key N le_rfl).1 m (by omega) n hm hn

end table

/-- `1 · 3 · … · (2m - 1)`. -/
def odds : ℕ → ℚ
  | 0 => 1
  | m + 1 => (2 * m + 1) * odds m

/-- Sizes of the terms of an entry of the table, without the power of the cosine: `size m k` is for degree `m + k`, order `m`. -/
def size (m : ℕ) : ℕ → ℚ
  | 0 => odds m
  | 1 => (2 * m + 1) * odds m
  | k + 2 => ((2 * (m + k) + 3) * size m (k + 1) + (2 * m + k + 1) * size m k) / (k + 2)

theorem size_diag (m : ℕ) : size (m + 1) 0 = (2 * m + 1) * size m 0 := rfl

/-- The entries of the table, from a sine and a cosine that are one rounding off. -/
theorem table_err (h : Accurate fl ε) (hu : ε < 1) {s c s' c' : ℝ} (hs : Err ε 1 s' s 1) (hc : Err ε 1 c' c c) (N n m : ℕ) (hm : m ≤ n)
    (hn : n ≤ N) : Err ε (5 * n) (table fl N s' c' n m) (assoc s c n m) (c ^ m * size m (n - m)) := by
  have hc0 : 0 ≤ c := (abs_nonneg _).trans hc.2
  refine table_ind (Q := fun n m v => Err ε (5 * n) v (assoc s c n m) (c ^ m * size m (n - m))) N ?_ ?_ ?_ ?_ n m hm hn
  · rw [assoc_zero]
    simpa [size, odds] using econst (ε := ε) (x := 1) (by norm_num)
  · intro m v hv
    have h1 := emul h hu (emul h hu (econst (ε := ε) (x := ((2 * (m + 1) - 1 : ℕ) : ℝ)) (Nat.cast_nonneg _)) hc) hv
    have e1 : ((2 * (m + 1) - 1 : ℕ) : ℝ) = 2 * m + 1 := by
      rw [show 2 * (m + 1) - 1 = 2 * m + 1 by omega]; push_cast; ring
    rw [e1] at h1 ⊢
    rw [assoc_diag]
    refine weaken h hu h1 (by omega) (le_of_eq ?_)
    rw [Nat.sub_self, Nat.sub_self, size_diag, pow_succ]
    push_cast
    ring
  · intro m v hv
    have h1 := emul h hu (emul h hu (econst (ε := ε) (x := ((2 * m + 1 : ℕ) : ℝ)) (Nat.cast_nonneg _)) hs) hv
    have e1 : ((2 * m + 1 : ℕ) : ℝ) = 2 * m + 1 := by push_cast; ring
    rw [e1] at h1 ⊢
    rw [assoc_off]
    refine weaken h hu h1 (by omega) (le_of_eq ?_)
    rw [Nat.sub_self, show m + 1 - m = 1 by omega]
    simp only [size]
    push_cast
    ring
  · intro m j v w hmj hv hw
    have h1 := emul h hu (emul h hu (econst (ε := ε) (x := ((2 * (j + 2) - 1 : ℕ) : ℝ)) (Nat.cast_nonneg _)) hs) hv
    have h2 := emul h hu (econst (ε := ε) (x := ((j + 2 + m - 1 : ℕ) : ℝ)) (Nat.cast_nonneg _)) hw
    obtain ⟨k, rfl⟩ : ∃ k, j = m + k := ⟨j - m, by omega⟩
    have hne : ((m + k + 2 - m : ℕ) : ℝ) ≠ 0 := by exact_mod_cast (by omega : m + k + 2 - m ≠ 0)
    have h3 := ediv h hu (esub h hu (weaken h hu h1 (by omega : _ ≤ 5 * (m + k) + 8) le_rfl) (weaken h hu h2 (by omega) le_rfl)) (near_self _) hne
    have e1 : ((2 * (m + k + 2) - 1 : ℕ) : ℝ) = 2 * (m + k) + 3 := by
      rw [show 2 * (m + k + 2) - 1 = 2 * (m + k) + 3 by omega]; push_cast; ring
    have e2 : ((m + k + 2 + m - 1 : ℕ) : ℝ) = 2 * m + k + 1 := by
      rw [show m + k + 2 + m - 1 = 2 * m + k + 1 by omega]; push_cast; ring
    have e3 : ((m + k + 2 - m : ℕ) : ℝ) = k + 2 := by
      rw [show m + k + 2 - m = k + 2 by omega]; push_cast; ring
    rw [e1, e2, e3] at h3 ⊢
    have hk : (0 : ℝ) < k + 2 := by positivity
    have e4 : assoc s c (m + k + 2) m = ((2 * (m + k) + 3) * s * assoc s c (m + k + 1) m - (2 * m + k + 1) * assoc s c (m + k) m) / (k + 2) := by
      have := assoc_rec s c (m + k) m
      rw [eq_div_iff hk.ne']
      push_cast at this
      linear_combination this
    rw [e4]
    refine weaken h hu h3 (by omega) (le_of_eq ?_)
    rw [abs_of_pos hk, show m + k + 2 - m = k + 2 by omega, show m + k + 1 - m = k + 1 by omega, show m + k - m = k by omega]
    simp only [size]
    push_cast
    field_simp

/-! ## The Schmidt factor -/

theorem near_sqrt (hu : ε < 1) (h0 : 0 ≤ ε) {d : ℕ} {x s : ℝ} (hs : 0 ≤ s) (hx : Near ε d x s) : Near ε d (√x) (√s) := by
  obtain ⟨f, hf, rfl⟩ := hx
  have hp := hf.pos hu
  refine ⟨√f, ⟨?_, ?_⟩, Real.sqrt_mul hs f⟩
  · have h1 : 0 ≤ (1 - ε) ^ d := pow_nonneg (by linarith) d
    have h2 : (1 - ε) ^ d ≤ 1 := pow_le_one₀ (by linarith) (by linarith)
    refine Real.le_sqrt_of_sq_le ?_
    nlinarith [hf.1]
  · have h1 : 0 < (1 - ε) ^ d := pow_pos (by linarith) d
    have h2 : 1 ≤ ((1 - ε) ^ d)⁻¹ := (one_le_inv₀ h1).2 (pow_le_one₀ (by linarith) (by linarith))
    refine Real.sqrt_le_iff.2 ⟨by linarith, ?_⟩
    nlinarith [hf.2]

theorem near_fold (h : Accurate fl ε) (hu : ε < 1) : ∀ (l : List ℕ) {d : ℕ} {x s : ℝ}, Near ε d x s →
    Near ε (d + l.length) (l.foldl (fun ratio value => fl (ratio / ((value : ℕ) : ℝ))) x)
      (l.foldl (fun ratio value => ratio / ((value : ℕ) : ℝ)) s)
  | [], d, x, s, hx => hx
  | v :: l, d, x, s, hx => by
    have h1 := near_fold h hu l (near_round h hu (near_div hu hx (near_self (v : ℝ))))
    simp only [List.foldl_cons, List.length_cons]
    rw [show d + (l.length + 1) = d + 0 + 1 + l.length by omega]
    exact h1

theorem factor_near (h : Accurate fl ε) (hu : ε < 1) (n m : ℕ) (hm : m ≤ n) : Near ε (2 * n + 1) (factor fl n m) (schmidt n m) := by
  rw [← schmidt_factor_eq n m hm]
  unfold factor schmidtFactor
  by_cases h0 : m = 0
  · rw [if_pos h0, if_pos h0]
    exact near_mono h hu (by omega) (near_self _)
  · rw [if_neg h0, if_neg h0]
    have h1 := near_fold h hu (upto (n - m + 1) (n + m)) (near_self (ε := ε) 2)
    have hl : (upto (n - m + 1) (n + m)).length = 2 * m := by unfold upto; rw [List.length_range']; omega
    rw [hl] at h1
    refine near_mono h hu (show 0 + 2 * m + 1 ≤ _ by omega) (near_round h hu (near_sqrt hu (accurate_nonneg h) ?_ h1))
    rw [schmidt_fold _ _ (by omega)]
    positivity

theorem schmidt_nonneg (n m : ℕ) : 0 ≤ schmidt n m := by
  unfold schmidt
  split_ifs
  · norm_num
  · exact Real.sqrt_nonneg _

/-! ## Numerical bounds on the sizes -/

/-- Upper bounds of the Schmidt factor times `size`. -/
def tops : List ℕ := [1, 1, 1, 2, 2, 1, 4, 4, 2, 1, 9, 8, 5, 3, 1, 19, 18, 11, 6, 3, 1, 41, 39, 24, 13, 6, 3, 1, 92, 88, 55, 31, 16, 7, 3, 1, 209, 
   201, 126, 73, 38, 18, 8, 3, 1, 476, 459, 292, 172, 93, 46, 21, 8, 3, 1, 1091, 1056, 677, 406, 226, 117, 55, 24, 9, 3, 1, 
   2515, 2441, 1578, 959, 546, 290, 143, 65, 27, 10, 3, 1, 5820, 5662, 3686, 2267, 1314, 716, 364, 172, 75, 29, 10, 3, 1]
/-- Upper bounds of the Schmidt factor times the size of the terms of the numerator of the derivative. -/
def slopes : List ℕ := [0, 2, 1, 6, 6, 2, 18, 16, 8, 3, 50, 46, 25, 11, 3, 135, 126, 72, 35, 14, 4, 357, 337, 200, 104, 46, 17, 5, 931, 886, 538, 293, 
   141, 58, 20, 5, 2403, 2301, 1425, 803, 409, 184, 72, 23, 6, 6154, 5920, 3721, 2154, 1141, 547, 234, 86, 26, 6, 15662, 15123, 
   9620, 5687, 3109, 1561, 712, 290, 102, 30, 6, 39658, 38416, 24674, 14833, 8317, 4327, 2073, 903, 352, 119, 33, 7, 100006, 
   97128, 62890, 38336, 21943, 11747, 5848, 2685, 1123, 420, 137, 37, 7]

def top (n m : ℕ) : ℕ := tops.getD (Table.index n m) 0
def slope (n m : ℕ) : ℕ := slopes.getD (Table.index n m) 0

/-- Size of the entry of the previous degree. -/
def prevSize (n m : ℕ) : ℚ := if m < n then size m (n - 1 - m) else 0

/-- The square of the Schmidt factor. -/
def schmidtSq (n m : ℕ) : ℚ := if m = 0 then 1 else 2 * (n - m).factorial / (n + m).factorial

theorem schmidt_sq (n m : ℕ) : schmidt n m ^ 2 = schmidtSq n m := by
  unfold schmidt schmidtSq
  split_ifs
  · norm_num
  · rw [Real.sq_sqrt (by positivity)]
    push_cast
    rfl

theorem odds_nonneg : ∀ m, 0 ≤ odds m
  | 0 => by norm_num [odds]
  | m + 1 => by
    have := odds_nonneg m
    simp only [odds]
    positivity

theorem size_nonneg (m : ℕ) : ∀ k, 0 ≤ size m k
  | 0 => odds_nonneg m
  | 1 => by have := odds_nonneg m; simp only [size]; positivity
  | k + 2 => by
    have h1 := size_nonneg m k
    have h2 := size_nonneg m (k + 1)
    simp only [size]
    positivity

theorem prevSize_nonneg (n m : ℕ) : 0 ≤ prevSize n m := by
  unfold prevSize
  split_ifs
  · exact size_nonneg _ _
  · exact le_rfl

theorem top_check : ∀ n ∈ List.range 13, ∀ m ∈ List.range (n + 1), schmidtSq n m * size m (n - m) ^ 2 ≤ (top n m : ℚ) ^ 2 := by
  decide +kernel

theorem slope_check : ∀ n ∈ List.range 13, ∀ m ∈ List.range (n + 1),
    schmidtSq n m * (n * size m (n - m) + (n + m) * prevSize n m) ^ 2 ≤ (slope n m : ℚ) ^ 2 := by
  decide +kernel

theorem top_bound (n m : ℕ) (hm : m ≤ n) (hn : n ≤ 12) : schmidt n m * ((size m (n - m) : ℚ) : ℝ) ≤ top n m := by
  have h1 := top_check n (by simp; omega) m (by simp; omega)
  refine le_of_sq_le_sq ?_ (Nat.cast_nonneg _)
  rw [mul_pow, schmidt_sq]
  exact_mod_cast h1

theorem slope_bound (n m : ℕ) (hm : m ≤ n) (hn : n ≤ 12) :
    schmidt n m * (n * ((size m (n - m) : ℚ) : ℝ) + (n + m) * ((prevSize n m : ℚ) : ℝ)) ≤ slope n m := by
  have h1 := slope_check n (by simp; omega) m (by simp; omega)
  refine le_of_sq_le_sq ?_ (Nat.cast_nonneg _)
  rw [mul_pow, schmidt_sq]
  exact_mod_cast h1

/-! ## The entries -/

theorem legendre_entry (N : ℕ) (s c : ℝ) (n m : ℕ) (hm : m ≤ n) (hn : n ≤ N) :
    (legendre fl N s c).1 n m = (entry fl (table fl N s c) s c n m).1 ∧
    (legendre fl N s c).2 n m = (entry fl (table fl N s c) s c n m).2 := by
  unfold legendre
  dsimp only
  rw [outer_fill]
  dsimp only
  rw [if_pos ⟨hn, hm⟩, if_pos ⟨hn, hm⟩]
  exact ⟨rfl, rfl⟩

theorem entry_value (h : Accurate fl ε) (hu : ε < 1) {s c s' c' : ℝ} (hs : Err ε 1 s' s 1) (hc : Err ε 1 c' c c) (n m : ℕ)
    (hm : m ≤ n) (hn : n ≤ 12) :
    Err ε (7 * n + 2) ((legendre fl 12 s' c').1 n m) (schmidt n m * assoc s c n m) (c ^ m * top n m) := by
  have hc0 : 0 ≤ c := (abs_nonneg _).trans hc.2
  rw [(legendre_entry 12 s' c' n m hm hn).1]
  have h1 := emul h hu (near_err h hu (factor_near h hu n m hm)) (table_err h hu hs hc 12 n m hm hn)
  refine weaken h hu h1 (by omega) ?_
  rw [abs_of_nonneg (schmidt_nonneg n m)]
  have := mul_le_mul_of_nonneg_left (top_bound n m hm hn) (pow_nonneg hc0 m)
  linarith

theorem entry_slope (h : Accurate fl ε) (hu : ε < 1) {s c s' c' : ℝ} (hs : Err ε 1 s' s 1) (hc : Near ε 1 c' c) (hc0 : 0 < c)
    (hc1 : c ≤ 1) (hsc : s * s - 1 = -(c * c)) (hp : poleEps < |c|) (hp' : poleEps < |c'|) (hd : Near ε 2 (fl (fl (s' * s') - 1)) (s * s - 1))
    (n m : ℕ) (hm : m ≤ n) (hn : n ≤ 12) :
    Err ε (7 * n + 11) ((legendre fl 12 s' c').2 n m) ((schmidtLegendre 12 s c).2 n m) (slope n m / c) := by
  have hcE : Err ε 1 c' c c := by have := near_err h hu hc; rwa [abs_of_pos hc0] at this
  have hT := table_err h hu hs hcE 12
  have e0 : (schmidtLegendre 12 s c).2 n m = (schmidtEntry (legendreTable 12 s c) s c n m).2 := by
    unfold schmidtLegendre
    dsimp only
    rw [outer_fill]
    dsimp only
    rw [if_pos ⟨hn, hm⟩]
  rw [(legendre_entry 12 s' c' n m hm hn).2, e0]
  unfold entry schmidtEntry
  dsimp only
  rw [if_neg (not_le.2 hp), if_neg (not_le.2 hp'), schmidt_factor_eq n m hm, legendre_table 12 s c n m hm hn]
  have hprev : Err ε (5 * n) (if n > 0 ∧ m < n then table fl 12 s' c' (n - 1) m else 0)
      (if n > 0 ∧ m < n then legendreTable 12 s c (n - 1) m else 0) (c ^ m * prevSize n m) := by
    unfold prevSize
    by_cases hmn : m < n
    · rw [if_pos ⟨by omega, hmn⟩, if_pos ⟨by omega, hmn⟩, if_pos hmn, legendre_table 12 s c (n - 1) m (by omega) (by omega)]
      exact weaken h hu (hT (n - 1) m (by omega) (by omega)) (by omega) le_rfl
    · rw [if_neg (by omega), if_neg (by omega), if_neg hmn]
      simpa using err_zero (u := ε) (5 * n)
  have h1 := emul h hu (emul h hu (econst (ε := ε) (x := (n : ℝ)) (Nat.cast_nonneg _)) hs) (hT n m hm hn)
  have h2 := emul h hu (econst (ε := ε) (x := ((n + m : ℕ) : ℝ)) (Nat.cast_nonneg _)) hprev
  have hne : s * s - 1 ≠ 0 := by rw [hsc]; exact neg_ne_zero.2 (mul_pos hc0 hc0).ne'
  have h3 := ediv h hu (esub h hu (weaken h hu h1 (by omega : _ ≤ 5 * n + 3) le_rfl) (weaken h hu h2 (by omega) le_rfl)) hd hne
  have h4 := emul h hu (emul h hu (near_err h hu (factor_near h hu n m hm)) hcE) h3
  refine weaken h hu h4 (by omega) ?_
  rw [abs_of_nonneg (schmidt_nonneg n m), hsc, abs_neg, abs_of_pos (mul_pos hc0 hc0)]
  have hb := slope_bound n m hm hn
  have hS := schmidt_nonneg n m
  have hcm : c ^ m ≤ 1 := pow_le_one₀ hc0.le hc1
  have hA : 0 ≤ schmidt n m * (n * ((size m (n - m) : ℚ) : ℝ) + (n + m) * ((prevSize n m : ℚ) : ℝ)) := by
    have q1 : (0 : ℝ) ≤ ((size m (n - m) : ℚ) : ℝ) := by exact_mod_cast size_nonneg _ _
    have q2 : (0 : ℝ) ≤ ((prevSize n m : ℚ) : ℝ) := by exact_mod_cast prevSize_nonneg _ _
    positivity
  rw [le_div_iff₀ hc0]
  have e1 : schmidt n m * c * ((↑n * 1 * (c ^ m * ((size m (n - m) : ℚ) : ℝ)) + ((n + m : ℕ) : ℝ) * (c ^ m * ((prevSize n m : ℚ) : ℝ))) / (c * c)) * c =
      c ^ m * (schmidt n m * (n * ((size m (n - m) : ℚ) : ℝ) + (n + m) * ((prevSize n m : ℚ) : ℝ))) := by
    push_cast
    field_simp
  rw [e1]
  exact (mul_le_of_le_one_left hA hcm).trans hb

/-! ## The longitude -/

theorem harmonics_err (h : Accurate fl ε) (hu : ε < 1) {lon cl sl A B : ℝ} (hcl : Err ε 1 cl (cos lon) A) (hsl : Err ε 1 sl (sin lon) B)
    (hAB : A + B ≤ 3 / 2) (N : ℕ) : ∀ m ≤ N, Err ε (3 * m) ((Fp.harmonics fl N cl sl).1 m) (cos (m * lon)) ((3 / 2) ^ m) ∧
      Err ε (3 * m) ((Fp.harmonics fl N cl sl).2 m) (sin (m * lon)) ((3 / 2) ^ m) := by
  induction N with
  | zero =>
    intro m hm
    obtain rfl : m = 0 := by omega
    unfold Fp.harmonics
    rw [upto_empty (by omega)]
    simp only [List.foldl_nil, set1, if_true, Nat.cast_zero, zero_mul, cos_zero, sin_zero, mul_zero, pow_zero]
    exact ⟨econst (by norm_num), weaken h hu (err_zero 0) le_rfl (by norm_num)⟩
  | succ N ih =>
    intro m hm
    have e : Fp.harmonics fl (N + 1) cl sl =
        (set1 (Fp.harmonics fl N cl sl).1 (N + 1) (fl (fl ((Fp.harmonics fl N cl sl).1 N * cl) - fl ((Fp.harmonics fl N cl sl).2 N * sl))),
         set1 (Fp.harmonics fl N cl sl).2 (N + 1) (fl (fl ((Fp.harmonics fl N cl sl).2 N * cl) +
          fl ((set1 (Fp.harmonics fl N cl sl).1 (N + 1) (fl (fl ((Fp.harmonics fl N cl sl).1 N * cl) - fl ((Fp.harmonics fl N cl sl).2 N * sl)))) N * sl)))) := by
      conv_lhs => unfold Fp.harmonics
      rw [upto_succ (by omega), List.foldl_append]
      rfl
    rw [e]
    by_cases hm' : m = N + 1
    · subst hm'
      obtain ⟨h1, h2⟩ := ih N le_rfl
      have hle : (3 / 2 : ℝ) ^ N * A + (3 / 2) ^ N * B ≤ (3 / 2) ^ (N + 1) := by
        rw [← mul_add, pow_succ]
        exact mul_le_mul_of_nonneg_left hAB (by positivity)
      unfold set1
      dsimp only
      rw [if_pos rfl, if_pos rfl, if_neg (by omega)]
      push_cast
      rw [add_mul, one_mul, cos_add, sin_add]
      exact ⟨weaken h hu (esub h hu (emul h hu h1 hcl) (emul h hu h2 hsl)) (by omega) hle,
        weaken h hu (eadd h hu (emul h hu h2 hcl) (emul h hu h1 hsl)) (by omega) hle⟩
    · unfold set1
      dsimp only
      rw [if_neg hm', if_neg hm']
      exact ih m (by omega)

end Verif.Wmm.Fp
