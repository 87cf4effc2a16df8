import Verif.Round.Solve
import Mathlib.Analysis.SpecialFunctions.Pow.Real
import Mathlib.Algebra.Order.BigOperators.Ring.Finset
import Mathlib.Tactic.LinearCombination

/-! # Lemmas: backward error of Cholesky factorisation -/

namespace Verif.Round

open Verif.Simd (Fl Accurate)
open Verif.Mat
open Matrix

variable {fl : ℝ → ℝ} {u : ℝ} {n : Nat}

theorem sum_le_split {R : Type*} [AddCommMonoid R] (f : Fin n → R) (c : Fin n) :
    (∑ k with k ≤ c, f k) = (∑ k with k < c, f k) + f c := by
  have : (Finset.univ.filter fun k : Fin n => k ≤ c) = insert c (Finset.univ.filter fun k => k < c) := by
    ext k; simp [le_iff_eq_or_lt]
  rw [this, Finset.sum_insert (by simp), add_comm]

/-- The square root is accurate: what it is applied to, in terms of its result. -/
theorem sqrt_back (hu0 : 0 ≤ u) (hu : u < 1) {s r : ℝ} (hs : 0 < s) (hr : |r - √s| ≤ u * √s) :
    0 < r ∧ |s - r * r| ≤ growth u 2 * |r * r| := by
  have hq : 0 < √s := Real.sqrt_pos.2 hs
  have hss : √s * √s = s := Real.mul_self_sqrt hs.le
  have hr0 : (1 - u) * √s ≤ r := by
    have := (abs_le.1 hr).1; linarith
  have hrp : 0 < r := lt_of_lt_of_le (mul_pos (by linarith) hq) hr0
  refine ⟨hrp, ?_⟩
  have h1 : |√s - r| ≤ growth u 1 * r := by
    rw [abs_sub_comm]
    refine hr.trans ?_
    rw [growth_one hu, mul_assoc]
    apply mul_le_mul_of_nonneg_left _ hu0
    rw [← div_eq_inv_mul, le_div_iff₀ (by linarith)]; linarith
  have h2 : |√s + r| ≤ (growth u 1 + 2) * r := by
    calc |√s + r| = |(√s - r) + (r + r)| := by ring_nf
      _ ≤ |√s - r| + |r + r| := abs_add_le _ _
      _ ≤ _ := by rw [abs_of_pos (by linarith : 0 < r + r)]; linarith
  have e : s - r * r = (√s - r) * (√s + r) := by linear_combination -hss
  have hg0 : 0 ≤ growth u 1 * r := (abs_nonneg _).trans h1
  rw [e, abs_mul, show 2 = 1 + 1 from rfl, growth_add, abs_of_pos (mul_pos hrp hrp)]
  calc _ ≤ (growth u 1 * r) * ((growth u 1 + 2) * r) := mul_le_mul h1 h2 (abs_nonneg _) hg0
    _ = _ := by ring

/-- Row `r` of the factor reproduces row `r` of the matrix up to `n + 1` roundings. -/
def CholOk (u : ℝ) (a l : Mat (Fl fl) n n) (r c : Fin n) : Prop :=
  |(a r c).val - ∑ k with k ≤ c, (l r k).val * (l c k).val|
    ≤ growth u (n + 1) * ∑ k with k ≤ c, |(l r k).val * (l c k).val|

/-- Loop invariant of `cholesky_lower` in rounded arithmetic. -/
def CholR (u : ℝ) (a : Mat (Fl fl) n n) (k : Nat) (l : Mat (Fl fl) n n) : Prop :=
  ∀ r : Fin n, r.1 < k → 0 < (l r r).val ∧ (∀ c, r < c → (l r c).val = 0) ∧ ∀ c, c ≤ r → CholOk u a l r c

/-- Invariant of the `j` loop in row `i`. -/
def CholRowR (u : ℝ) (a : Mat (Fl fl) n n) (i : Fin n) (j : Nat) (l : Mat (Fl fl) n n) : Prop :=
  CholR u a i.1 l ∧ (i.1 < j → 0 < (l i i).val) ∧ ∀ c : Fin n, c ≤ i → c.1 < j → CholOk u a l i c

theorem cholOk_congr {a l l' : Mat (Fl fl) n n} {r c : Fin n}
    (h : ∀ k, k ≤ c → l r k = l' r k ∧ l c k = l' c k) (ho : CholOk u a l r c) : CholOk u a l' r c := by
  unfold CholOk at *
  have e : ∀ g : ℝ → ℝ, (∑ k with k ≤ c, g ((l' r k).val * (l' c k).val))
      = ∑ k with k ≤ c, g ((l r k).val * (l c k).val) := by
    intro g
    apply Finset.sum_congr rfl
    intro k hk
    obtain ⟨h1, h2⟩ := h k (Finset.mem_filter.1 hk).2
    rw [h1, h2]
  rw [e (fun z => z), e (fun z => |z|)]
  exact ho

theorem cholR_set {a : Mat (Fl fl) n n} {i j : Fin n} {l : Mat (Fl fl) n n} {v : Fl fl}
    (h : CholR u a i.1 l) : CholR u a i.1 (setE l i j v) := by
  intro r hr
  have hrow : ∀ q : Fin n, q.1 < i.1 → setE l i j v q = l q := fun q hq =>
    setE_row_ne _ _ _ (by intro e; subst e; omega)
  obtain ⟨h1, h2, h3⟩ := h r hr
  rw [hrow r hr]
  refine ⟨h1, h2, ?_⟩
  intro c hc
  refine cholOk_congr ?_ (h3 c hc)
  intro k _
  rw [hrow r hr, hrow c (by have := Fin.le_def.1 hc; omega)]
  exact ⟨rfl, rfl⟩

theorem cholEntry_back (h : Accurate fl u) (hu : u < 1) {sq : Fl fl → Fl fl}
    (hsq : ∀ s, 0 < s.val → |(sq s).val - √s.val| ≤ u * √s.val)
    {a : Mat (Fl fl) n n} {i : Fin n} {j : Nat} (hj : j < n) (hji : j < i.1 + 1) {l l' : Mat (Fl fl) n n}
    (hi : CholRowR u a i j l) (he : cholEntry sq a i l ⟨j, hj⟩ = some l') : CholRowR u a i (j + 1) l' := by
  obtain ⟨h1, h2, h3⟩ := hi
  unfold cholEntry at he
  dsimp only at he
  -- what the inner loop leaves
  have hb := Back.list h hu (l i) (l ⟨j, hj⟩) (rng n 0 j) (a i ⟨j, hj⟩) 0 (a i ⟨j, hj⟩).val 0 0 le_rfl
    (by unfold Back; simp [growth_zero])
  rw [sum_rng, sum_rng, length_rng (by omega), zero_add, zero_add, zero_add, Nat.sub_zero] at hb
  have hset : (Finset.univ.filter fun k : Fin n => 0 ≤ k.1 ∧ k.1 < j)
      = Finset.univ.filter fun k : Fin n => k < (⟨j, hj⟩ : Fin n) := by
    ext k; simp [Fin.lt_def]
  rw [hset] at hb
  have hS0 : 0 ≤ ∑ k with k < (⟨j, hj⟩ : Fin n), |(l i k).val * (l ⟨j, hj⟩ k).val| :=
    Finset.sum_nonneg fun _ _ => abs_nonneg _
  generalize (rng n 0 j).foldl (fun s k => s - l i k * l ⟨j, hj⟩ k) (a i ⟨j, hj⟩) = S at hb he
  -- a write at `(i, j)` keeps the finished part of the row
  have keep : ∀ v : Fl fl, ∀ c : Fin n, c ≤ i → c.1 < j → CholOk u a (setE l i ⟨j, hj⟩ v) i c := by
    intro v c hc hcj
    refine cholOk_congr ?_ (h3 c hc hcj)
    intro k hk
    have hk' := Fin.le_def.1 hk
    have hkj : k ≠ ⟨j, hj⟩ := by intro e; subst e; dsimp only at hk'; omega
    rw [setE_apply, setE_apply]
    simp [hkj]
  have below : ∀ (v : Fl fl) (g : ℝ → ℝ),
      ∑ k with k < (⟨j, hj⟩ : Fin n), g ((setE l i ⟨j, hj⟩ v i k).val * (setE l i ⟨j, hj⟩ v ⟨j, hj⟩ k).val)
      = ∑ k with k < (⟨j, hj⟩ : Fin n), g ((l i k).val * (l ⟨j, hj⟩ k).val) := by
    intro v g
    apply Finset.sum_congr rfl
    intro k hk
    have hkj : k ≠ ⟨j, hj⟩ := ne_of_lt (Finset.mem_filter.1 hk).2
    rw [setE_apply, setE_apply]
    simp [hkj]
  -- the new entry
  have new : ∀ (v w : Fl fl), setE l i ⟨j, hj⟩ v ⟨j, hj⟩ ⟨j, hj⟩ = w →
      (∃ d, d ≤ 2 ∧ |S.val - v.val * w.val| ≤ growth u d * |v.val * w.val|) →
      CholOk u a (setE l i ⟨j, hj⟩ v) i ⟨j, hj⟩ := by
    intro v w hw ⟨d, hd, hvw⟩
    unfold CholOk
    have hvi : setE l i ⟨j, hj⟩ v i ⟨j, hj⟩ = v := by rw [setE_apply, if_pos ⟨rfl, rfl⟩]
    rw [sum_le_split, sum_le_split, below v (fun z => z), below v (fun z => |z|), hvi, hw]
    unfold Back at hb
    have g0 := growth_nonneg h hu j
    have gd := growth_nonneg h hu d
    have hgm := growth_mono h hu (show j + d ≤ n + 1 by omega)
    rw [growth_add] at hgm
    generalize (∑ k with k < (⟨j, hj⟩ : Fin n), (l i k).val * (l ⟨j, hj⟩ k).val) = E at hb ⊢
    generalize (∑ k with k < (⟨j, hj⟩ : Fin n), |(l i k).val * (l ⟨j, hj⟩ k).val|) = T at hb hS0 ⊢
    generalize v.val * w.val = y at hvw ⊢
    have a1 : |S.val| ≤ (1 + growth u d) * |y| := by
      calc |S.val| = |(S.val - y) + y| := by ring_nf
        _ ≤ _ := abs_add_le _ _
        _ ≤ _ := by linarith
    have a2 : |(a i ⟨j, hj⟩).val - (E + y)| ≤ |(a i ⟨j, hj⟩).val - E - S.val| + |S.val - y| := by
      calc |(a i ⟨j, hj⟩).val - (E + y)| = |((a i ⟨j, hj⟩).val - E - S.val) + (S.val - y)| := by ring_nf
        _ ≤ _ := abs_add_le _ _
    have a3 : growth u j * (|S.val| + T) ≤ growth u j * ((1 + growth u d) * |y| + T) :=
      mul_le_mul_of_nonneg_left (by linarith) g0
    have hy := abs_nonneg y
    have b1 : (growth u j * growth u d + growth u j + growth u d) * (T + |y|) ≤ growth u (n + 1) * (T + |y|) :=
      mul_le_mul_of_nonneg_right hgm (by linarith)
    have b2 : 0 ≤ growth u j * growth u d * T := by positivity
    have b3 : 0 ≤ growth u d * T := by positivity
    nlinarith
  by_cases hij : i = ⟨j, hj⟩
  · rw [if_pos hij] at he
    by_cases hS : S ≤ 0
    · rw [if_pos hS] at he; cases he
    · rw [if_neg hS] at he
      injection he with he
      subst he
      have hpos : 0 < S.val := not_le.1 hS
      obtain ⟨q1, q2⟩ := sqrt_back h.nonneg hu hpos (hsq S hpos)
      have hnew : setE l i ⟨j, hj⟩ (sq S) ⟨j, hj⟩ ⟨j, hj⟩ = sq S := by
        rw [setE_apply, if_pos ⟨hij.symm, rfl⟩]
      refine ⟨cholR_set h1, ?_, ?_⟩
      · intro _
        rw [hij] at hnew ⊢
        rw [hnew]; exact q1
      · intro c hc hcj
        rcases Nat.lt_succ_iff_lt_or_eq.1 hcj with hlt | heq
        · exact keep _ c hc hlt
        · have : c = ⟨j, hj⟩ := Fin.ext heq
          subst this
          exact new (sq S) (sq S) hnew ⟨2, le_rfl, q2⟩
  · have hlt : j < i.1 := by
      rcases Nat.lt_succ_iff_lt_or_eq.1 hji with h | h
      · exact h
      · exact absurd (Fin.ext h.symm) hij
    rw [if_neg hij] at he
    injection he with he
    subst he
    obtain ⟨d1, d2, d3⟩ := h1 ⟨j, hj⟩ hlt
    refine ⟨cholR_set h1, ?_, ?_⟩
    · intro hi; omega
    · intro c hc hcj
      rcases Nat.lt_succ_iff_lt_or_eq.1 hcj with hlt' | heq
      · exact keep _ c hc hlt'
      · have : c = ⟨j, hj⟩ := Fin.ext heq
        subst this
        refine new _ (l ⟨j, hj⟩ ⟨j, hj⟩) (by rw [setE_apply, if_neg (fun h => hij h.1.symm)])
          ⟨1, by omega, ?_⟩
        have := div_back h hu S (l ⟨j, hj⟩ ⟨j, hj⟩) (ne_of_gt d1)
        rw [mul_comm (l ⟨j, hj⟩ ⟨j, hj⟩).val] at this
        exact this

theorem cholRow_finish_back {a : Mat (Fl fl) n n} {i : Fin n} {l : Mat (Fl fl) n n}
    (h : CholRowR u a i (i.1 + 1) l) :
    CholR u a (i.1 + 1) ((rng n (i.1 + 1) n).foldl (fun l j => setE l i j 0) l) := by
  obtain ⟨h1, h2, h3⟩ := h
  rw [rowLoop (fun _ _ => (0 : Fl fl)) i (fun _ _ _ _ _ => rfl) _ (nodup_rng _ _ _)]
  have hmem : ∀ c : Fin n, c ∈ rng n (i.1 + 1) n ↔ i < c := by
    intro c; rw [mem_rng, Fin.lt_def]; omega
  simp only [hmem]
  intro r hr
  rcases Nat.lt_succ_iff_lt_or_eq.1 hr with hlt | heq
  · have hne : ∀ q : Fin n, q.1 < i.1 → q ≠ i := fun q hq e => by subst e; omega
    obtain ⟨d1, d2, d3⟩ := h1 r hlt
    rw [Function.update_of_ne (hne r hlt)]
    refine ⟨d1, d2, ?_⟩
    intro c hc
    refine cholOk_congr ?_ (d3 c hc)
    intro k _
    rw [Function.update_of_ne (hne r hlt), Function.update_of_ne (hne c (by have := Fin.le_def.1 hc; omega))]
    exact ⟨rfl, rfl⟩
  · have : r = i := Fin.ext heq
    subst this
    refine ⟨?_, ?_, ?_⟩
    · rw [Function.update_self, if_neg (lt_irrefl _)]; exact h2 (Nat.lt_succ_self _)
    · intro c hc; rw [Function.update_self, if_pos hc]; rfl
    · intro c hc
      refine cholOk_congr ?_ (h3 c hc (by have := Fin.le_def.1 hc; omega))
      intro k hk
      have hk' : ¬ r < k := not_lt.2 (le_trans hk hc)
      rw [Function.update_self, if_neg hk']
      refine ⟨rfl, ?_⟩
      by_cases hcr : c = r
      · subst hcr; rw [Function.update_self, if_neg hk']
      · rw [Function.update_of_ne hcr]

theorem cholesky_back (h : Accurate fl u) (hu : u < 1) {sq : Fl fl → Fl fl}
    (hsq : ∀ s, 0 < s.val → |(sq s).val - √s.val| ≤ u * √s.val)
    {a l : Mat (Fl fl) n n} (hc : cholesky sq a = some l) : CholR u a n l := by
  unfold cholesky at hc
  refine foldlM_rng (cholRow sq a) (CholR u a) (Nat.le_refl _) (Nat.zero_le _) ?_ ?_ hc
  · intro k hk s s' _ _ hinv hstep
    unfold cholRow at hstep
    rw [Option.map_eq_some_iff] at hstep
    obtain ⟨l₁, e1, rfl⟩ := hstep
    refine cholRow_finish_back (i := ⟨k, hk⟩) ?_
    refine foldlM_rng (cholEntry sq a ⟨k, hk⟩) (CholRowR u a ⟨k, hk⟩) (by dsimp only; omega) (Nat.zero_le _) ?_ ?_ e1
    · intro k' hk' t t' _ hki hi hs
      exact cholEntry_back h hu hsq hk' hki hi hs
    · exact ⟨hinv, by intro hi; omega, by intro c _ hc; omega⟩
  · intro r hr; omega

/-- The product `L Lᵀ`, entry by entry, for `c ≤ r`. -/
theorem chol_prod {a l : Mat (Fl fl) n n} (hl : CholR u a n l) (g : ℝ → ℝ) (hg : g 0 = 0) {r c : Fin n} :
    (∑ k, g ((l r k).val * (l c k).val)) = ∑ k with k ≤ c, g ((l r k).val * (l c k).val) := by
  rw [Finset.sum_filter]
  apply Finset.sum_congr rfl
  intro k _
  by_cases hk : k ≤ c
  · rw [if_pos hk]
  · rw [if_neg hk, (hl c c.2).2.1 k (not_le.1 hk), mul_zero, hg]

theorem chol_factor {a l : Mat (Fl fl) n n} (hl : CholR u a n l) (hsym : ∀ i j, a i j = a j i)
    (i j : Fin n) :
    |val a i j - (val l * (val l)ᵀ) i j| ≤ growth u (n + 1) * (absM (val l) * absM (val l)ᵀ) i j := by
  have main : ∀ r c : Fin n, c ≤ r →
      |val a r c - (val l * (val l)ᵀ) r c| ≤ growth u (n + 1) * (absM (val l) * absM (val l)ᵀ) r c := by
    intro r c hc
    have := (hl r r.2).2.2 c hc
    unfold CholOk at this
    rw [← chol_prod hl (fun z => z) rfl, ← chol_prod hl (fun z => |z|) abs_zero] at this
    rw [Matrix.mul_apply, Matrix.mul_apply]
    simp only [absM, val, Matrix.of_apply, Matrix.transpose_apply]
    rw [sum_abs_mul]
    exact this
  rcases le_total j i with h | h
  · exact main i j h
  · have := main j i h
    have e1 : val a j i = val a i j := by simp only [val, Matrix.of_apply]; rw [hsym]
    have e2 : (val l * (val l)ᵀ) j i = (val l * (val l)ᵀ) i j := by
      rw [Matrix.mul_apply, Matrix.mul_apply]
      exact Finset.sum_congr rfl fun k _ => mul_comm _ _
    have e3 : (absM (val l) * absM (val l)ᵀ) j i = (absM (val l) * absM (val l)ᵀ) i j := by
      rw [Matrix.mul_apply, Matrix.mul_apply]
      exact Finset.sum_congr rfl fun k _ => mul_comm _ _
    rw [e1, e2, e3] at this
    exact this

theorem cholSolve_residual (h : Accurate fl u) (hu : u < 1) {a l : Mat (Fl fl) n n} (hl : CholR u a n l)
    (hsym : ∀ i j, a i j = a j i) (b : Fin n → Fl fl) (i : Fin n) :
    |valV b i - (val a *ᵥ valV (cholSolveWith l b)) i|
      ≤ growth u (3 * n + 1) * ∑ j, (absM (val l) * absM (val l)ᵀ) i j * |valV (cholSolveWith l b) j| := by
  have hne : ∀ i, (l i i).val ≠ 0 := fun i => ne_of_gt (hl i i.2).1
  have hz : ∀ r c, r < c → (l r c).val = 0 := fun r c => (hl r r.2).2.1 c
  have hF := forward_back h hu (fin1_div h hu (fun i => l i i) hne) l b
  have hB := backward_back h hu (fin1_div h hu (fun i => l i i) hne) (fun i k => l k i)
    ((rng n 0 n).foldl (fun y i =>
      Function.update y i ((rng n 0 i.1).foldl (fun s k => s - l i k * y k) (y i) / l i i)) b)
  have hx : valV (cholSolveWith l b) = fun j => ((rng n 0 n).reverse.foldl (fun x i =>
      Function.update x i ((rng n (i.1 + 1) n).foldl (fun s k => s - l k i * x k) (x i) / l i i))
      ((rng n 0 n).foldl (fun y i =>
      Function.update y i ((rng n 0 i.1).foldl (fun s k => s - l i k * y k) (y i) / l i i)) b) j).val := rfl
  rw [hx]
  dsimp only at hF hB ⊢
  generalize (rng n 0 n).foldl (fun y i =>
      Function.update y i ((rng n 0 i.1).foldl (fun s k => s - l i k * y k) (y i) / l i i)) b = y at hF hB ⊢
  generalize (rng n 0 n).reverse.foldl _ _ = x at hB ⊢
  have rowL : ∀ (g : ℝ → ℝ), g 0 = 0 → ∀ i, (∑ k, g (val l i k * (y k).val))
      = (∑ k with k < i, g ((l i k).val * (y k).val)) + g ((l i i).val * (y i).val) := by
    intro g hg i
    rw [← lower_sum (fun k => (l i k).val) (fun k => (y k).val) i (l i i).val g hg]
    apply Finset.sum_congr rfl
    intro k _
    congr 2
    simp only [val, Matrix.of_apply]
    rcases lt_trichotomy k i with hk | hk | hk
    · rw [if_pos hk]
    · subst hk; simp
    · rw [if_neg (not_lt_of_gt hk), if_neg (ne_of_lt hk), hz i k hk]
  have rowU : ∀ (g : ℝ → ℝ), g 0 = 0 → ∀ i, (∑ k, g ((val l)ᵀ i k * (x k).val))
      = (∑ k with i < k, g ((l k i).val * (x k).val)) + g ((l i i).val * (x i).val) := by
    intro g hg i
    rw [← upper_sum (fun k => (l k i).val) (fun k => (x k).val) i g hg]
    apply Finset.sum_congr rfl
    intro k _
    congr 2
    simp only [val, Matrix.transpose_apply, Matrix.of_apply]
    by_cases hk : i ≤ k
    · rw [if_pos hk]
    · rw [if_neg hk, hz k i (not_le.1 hk)]
  have g0 := growth_nonneg h hu n
  have := compose (P := val a) (L := val l) (U := (val l)ᵀ) (b := valV b) (y := fun k => (y k).val)
    (x := fun k => (x k).val) g0 g0 (growth_nonneg h hu (n + 1))
    (by
      intro i
      have := hF i
      rw [sum_abs_mul, rowL (fun z => z) rfl i, rowL (fun z => |z|) abs_zero i, ← sub_sub,
        add_comm (∑ j with j < i, abs _)]
      exact this)
    (by
      intro i
      have := hB i
      rw [sum_abs_mul, rowU (fun z => z) rfl i, rowU (fun z => |z|) abs_zero i, ← sub_sub,
        add_comm (∑ j with i < j, abs _)]
      exact this)
    (chol_factor hl hsym) i
  rw [growth_three, show n + n + (n + 1) = 3 * n + 1 by ring] at this
  exact this

/-- The size of the factors in terms of the diagonal of the matrix. -/
theorem chol_size {a l : Mat (Fl fl) n n} (hl : CholR u a n l) (hsym : ∀ i j, a i j = a j i)
    (hg : growth u (n + 1) < 1) (i j : Fin n) :
    (absM (val l) * absM (val l)ᵀ) i j
      ≤ (1 - growth u (n + 1))⁻¹ * √((a i i).val * (a j j).val) := by
  have hg' : 0 < 1 - growth u (n + 1) := by linarith
  have diag : ∀ r : Fin n, (∑ k, (val l r k) ^ 2) ≤ (1 - growth u (n + 1))⁻¹ * (a r r).val := by
    intro r
    have := chol_factor hl hsym r r
    rw [Matrix.mul_apply, Matrix.mul_apply] at this
    have e1 : (∑ k, val l r k * (val l)ᵀ k r) = ∑ k, (val l r k) ^ 2 :=
      Finset.sum_congr rfl fun k _ => by rw [Matrix.transpose_apply]; ring
    have e2 : (∑ k, absM (val l) r k * absM (val l)ᵀ k r) = ∑ k, (val l r k) ^ 2 :=
      Finset.sum_congr rfl fun k _ => by
        simp only [absM, Matrix.of_apply, Matrix.transpose_apply]
        rw [abs_mul_abs_self]; ring
    rw [e1, e2] at this
    have h1 := (abs_le.1 this).1
    have e3 : val a r r = (a r r).val := rfl
    rw [e3] at h1
    rw [← div_eq_inv_mul, le_div_iff₀ hg']
    linarith
  have e : (absM (val l) * absM (val l)ᵀ) i j = ∑ k, |val l i k| * |val l j k| := by
    rw [Matrix.mul_apply]; rfl
  have hcs := Finset.sum_mul_sq_le_sq_mul_sq Finset.univ (fun k => |val l i k|) (fun k => |val l j k|)
  simp only [sq_abs] at hcs
  rw [e]
  have hi0 : 0 ≤ ∑ k, (val l i k) ^ 2 := Finset.sum_nonneg fun _ _ => sq_nonneg _
  have hj0 : 0 ≤ ∑ k, (val l j k) ^ 2 := Finset.sum_nonneg fun _ _ => sq_nonneg _
  have hinv : 0 < (1 - growth u (n + 1))⁻¹ := inv_pos.2 hg'
  have h1 : (∑ k, |val l i k| * |val l j k|) ^ 2
      ≤ ((1 - growth u (n + 1))⁻¹) ^ 2 * ((a i i).val * (a j j).val) := by
    refine hcs.trans ?_
    calc _ ≤ ((1 - growth u (n + 1))⁻¹ * (a i i).val) * ((1 - growth u (n + 1))⁻¹ * (a j j).val) :=
          mul_le_mul (diag i) (diag j) hj0 (hi0.trans (diag i))
      _ = _ := by ring
  have h2 := Real.sqrt_le_sqrt h1
  rw [Real.sqrt_sq (Finset.sum_nonneg fun k _ => by positivity), Real.sqrt_mul (by positivity),
    Real.sqrt_sq hinv.le] at h2
  exact h2

end Verif.Round
