import Verif.Round.Spec
import Verif.Simd.Lemmas
import Verif.Mat.Elim
import Mathlib.Tactic.Linarith
import Mathlib.Tactic.Positivity
import Mathlib.Tactic.Ring
import Mathlib.Tactic.FieldSimp
import Mathlib.Tactic.GCongr

/-! # Lemmas: backward error of elimination and substitution -/

namespace Verif.Round

open Verif.Simd (Fl Accurate)
open Verif.Mat (Mat AbsVal Lu)

variable {fl : ℝ → ℝ} {u : ℝ} {n : Nat}

section Step

/-- `1 ≤ (1-u)⁻¹`. -/
theorem one_le_rho (h : Accurate fl u) (hu : u < 1) : 1 ≤ (1 - u)⁻¹ := by
  have := h.nonneg
  exact one_le_inv_iff₀.2 ⟨by linarith, by linarith⟩

theorem growth_eq (u : ℝ) (n : Nat) : growth u n = (1 - u)⁻¹ ^ n - 1 := by
  unfold growth; rw [inv_pow]

theorem growth_nonneg (h : Accurate fl u) (hu : u < 1) (n : Nat) : 0 ≤ growth u n := by
  rw [growth_eq]
  have := one_le_pow₀ (n := n) (one_le_rho h hu)
  linarith

theorem growth_mono (h : Accurate fl u) (hu : u < 1) {m n : Nat} (hmn : m ≤ n) :
    growth u m ≤ growth u n := by
  rw [growth_eq, growth_eq]
  have := pow_le_pow_right₀ (one_le_rho h hu) hmn
  linarith

theorem growth_add (u : ℝ) (m n : Nat) :
    growth u (m + n) = growth u m * growth u n + growth u m + growth u n := by
  rw [growth_eq, growth_eq, growth_eq, pow_add]; ring

theorem growth_one (hu : u < 1) : growth u 1 = u * (1 - u)⁻¹ := by
  rw [growth_eq, pow_one]
  have : 1 - u ≠ 0 := by linarith
  field_simp
  ring

theorem u_le_growth (h : Accurate fl u) (hu : u < 1) : u ≤ growth u 1 := by
  rw [growth_one hu]
  nlinarith [h.nonneg, one_le_rho h hu]

theorem growth_zero (u : ℝ) : growth u 0 = 0 := by simp [growth]

/-- A number in terms of its rounded value. -/
theorem round_back (h : Accurate fl u) (hu : u < 1) (x : ℝ) : |x - fl x| ≤ growth u 1 * |fl x| := by
  have h1 := h x
  rw [abs_sub_comm] at h1
  have h2 : |x| ≤ |fl x| + |x - fl x| := by
    calc |x| = |fl x + (x - fl x)| := by ring_nf
      _ ≤ _ := abs_add_le _ _
  have h3 : (1 - u) * |x| ≤ |fl x| := by linarith
  have h4 : |x| ≤ (1 - u)⁻¹ * |fl x| := by
    rw [← div_eq_inv_mul, le_div_iff₀ (by linarith)]; linarith
  rw [growth_one hu, mul_assoc]
  exact h1.trans (mul_le_mul_of_nonneg_left h4 h.nonneg)

/-- `s` is what is left of `a` after `e` has been taken away, up to `d` roundings on terms of total size
`S`. -/
def Back (u : ℝ) (d : Nat) (a e S s : ℝ) : Prop := |a - e - s| ≤ growth u d * (|s| + S)

theorem Back.mono (h : Accurate fl u) (hu : u < 1) {d d' : Nat} (hd : d ≤ d') {a e S s : ℝ} (hS : 0 ≤ S)
    (hb : Back u d a e S s) : Back u d' a e S s :=
  hb.trans (mul_le_mul_of_nonneg_right (growth_mono h hu hd) (by positivity))

/-- Replace what is left, `s`, by `x + y`, where both are known up to one rounding. -/
theorem Back.step (h : Accurate fl u) (hu : u < 1) {d : Nat} {a e S s x y : ℝ} (hS : 0 ≤ S)
    (hb : Back u d a e S s) (hs : |s - x - y| ≤ growth u 1 * (|x| + |y|)) :
    Back u (d + 1) a (e + x) (S + |x|) y := by
  unfold Back at *
  have h1 : |s| ≤ (1 + growth u 1) * (|x| + |y|) := by
    calc |s| = |(s - x - y) + (x + y)| := by ring_nf
      _ ≤ |s - x - y| + |x + y| := abs_add_le _ _
      _ ≤ _ := by linarith [abs_add_le x y]
  have h2 : |a - (e + x) - y| ≤ |a - e - s| + |s - x - y| := by
    calc |a - (e + x) - y| = |(a - e - s) + (s - x - y)| := by ring_nf
      _ ≤ _ := abs_add_le _ _
  have g0 := growth_nonneg h hu d
  have g1 := growth_nonneg h hu 1
  have h3 : growth u d * (|s| + S) ≤ growth u d * ((1 + growth u 1) * (|x| + |y|) + S) :=
    mul_le_mul_of_nonneg_left (by linarith) g0
  rw [growth_add]
  have : 0 ≤ growth u d * growth u 1 * S := by positivity
  have : 0 ≤ growth u 1 * S := by positivity
  nlinarith

/-- `s - l * v` in rounded arithmetic. -/
theorem sub_mul_back (h : Accurate fl u) (hu : u < 1) (s l v : Fl fl) :
    |s.val - l.val * v.val - (s - l * v).val| ≤ growth u 1 * (|l.val * v.val| + |(s - l * v).val|) := by
  have e : (s - l * v).val = fl (s.val - fl (l.val * v.val)) := rfl
  have h1 := round_back h hu (s.val - fl (l.val * v.val))
  rw [← e] at h1
  have h2 := h (l.val * v.val)
  have h3 : u * |l.val * v.val| ≤ growth u 1 * |l.val * v.val| :=
    mul_le_mul_of_nonneg_right (u_le_growth h hu) (abs_nonneg _)
  calc |s.val - l.val * v.val - (s - l * v).val|
      = |(s.val - fl (l.val * v.val) - (s - l * v).val) + (fl (l.val * v.val) - l.val * v.val)| := by ring_nf
    _ ≤ _ := abs_add_le _ _
    _ ≤ _ := by linarith

theorem Back.list (h : Accurate fl u) (hu : u < 1) {κ : Type*} (c x : κ → Fl fl) (l : List κ) :
    ∀ (s : Fl fl) (d : Nat) (a e S : ℝ), 0 ≤ S → Back u d a e S s.val →
      Back u (d + l.length) a (e + (l.map fun k => (c k).val * (x k).val).sum)
        (S + (l.map fun k => |(c k).val * (x k).val|).sum)
        (l.foldl (fun s k => s - c k * x k) s).val := by
  induction l with
  | nil => intro s d a e S _ hb; simpa using hb
  | cons k l ih =>
    intro s d a e S hS hb
    have := ih (s - c k * x k) (d + 1) a _ _ (by positivity)
      (hb.step h hu hS (sub_mul_back h hu s (c k) (x k)))
    simpa [add_assoc, add_comm, add_left_comm] using this

/-- Division in rounded arithmetic: `s` in terms of `s / p`. -/
theorem div_back (h : Accurate fl u) (hu : u < 1) (s p : Fl fl) (hp : p.val ≠ 0) :
    |s.val - p.val * (s / p).val| ≤ growth u 1 * |p.val * (s / p).val| := by
  have h1 := round_back h hu (s.val / p.val)
  have e : (s / p).val = fl (s.val / p.val) := rfl
  rw [← e] at h1
  have : s.val - p.val * (s / p).val = p.val * (s.val / p.val - (s / p).val) := by field_simp
  rw [this, abs_mul, abs_mul]
  nlinarith [abs_nonneg p.val]

end Step

theorem length_rng {n a b : Nat} (hb : b ≤ n) : (rng n a b).length = b - a := by
  unfold rng
  simp only [List.length_drop, List.length_take, List.length_finRange]; omega

/-! ## Substitution -/

section Tri

/-- The last operation on a row: nothing, or a division by the diagonal. -/
def Fin1 (u : ℝ) (dg : Fin n → ℝ) (f : Fin n → Fl fl → Fl fl) : Prop :=
  ∀ i s, |s.val - dg i * (f i s).val| ≤ growth u 1 * |dg i * (f i s).val|

theorem fin1_id (h : Accurate fl u) (hu : u < 1) : Fin1 (fl := fl) (n := n) u (fun _ => 1) (fun _ s => s) := by
  intro i s
  simp only [one_mul, sub_self, abs_zero]
  have := growth_nonneg h hu 1
  positivity

theorem fin1_div (h : Accurate fl u) (hu : u < 1) (p : Fin n → Fl fl) (hp : ∀ i, (p i).val ≠ 0) :
    Fin1 (fl := fl) u (fun i => (p i).val) (fun i s => s / p i) :=
  fun i s => div_back h hu s (p i) (hp i)

/-- One row of a substitution. -/
theorem row_back (h : Accurate fl u) (hu : u < 1) {dg : Fin n → ℝ} {f : Fin n → Fl fl → Fl fl}
    (hf : Fin1 u dg f) (c x : Fin n → Fl fl) (i : Fin n) (b : Fl fl) (a a' : Nat) (ha : a' ≤ n)
    (hl : a' - a < n) :
    |b.val - (∑ j with a ≤ j.1 ∧ j.1 < a', (c j).val * (x j).val)
        - dg i * (f i ((rng n a a').foldl (fun s j => s - c j * x j) b)).val|
      ≤ growth u n * (|dg i * (f i ((rng n a a').foldl (fun s j => s - c j * x j) b)).val|
        + ∑ j with a ≤ j.1 ∧ j.1 < a', |(c j).val * (x j).val|) := by
  have h1 := Back.list h hu c x (rng n a a') b 0 b.val 0 0 le_rfl
    (by unfold Back; simp [growth_zero])
  rw [sum_rng, sum_rng, length_rng ha, zero_add, zero_add, zero_add] at h1
  have hS : 0 ≤ ∑ j with a ≤ j.1 ∧ j.1 < a', |(c j).val * (x j).val| :=
    Finset.sum_nonneg fun _ _ => abs_nonneg _
  generalize (rng n a a').foldl (fun s j => s - c j * x j) b = s at h1 ⊢
  have h2 := Back.step (x := 0) h hu hS h1 (y := dg i * (f i s).val) (by simpa using hf i s)
  simp only [add_zero, abs_zero] at h2
  have h3 := h2.mono h hu (d' := n) (by omega) hS
  unfold Back at h3
  exact h3

theorem forward_back (h : Accurate fl u) (hu : u < 1) {dg : Fin n → ℝ} {f : Fin n → Fl fl → Fl fl}
    (hf : Fin1 u dg f) (l : Mat (Fl fl) n n) (b : Fin n → Fl fl) (i : Fin n) :
    let y := (rng n 0 n).foldl (fun x i =>
      Function.update x i (f i ((rng n 0 i.1).foldl (fun s j => s - l i j * x j) (x i)))) b
    |(b i).val - (∑ j with j < i, (l i j).val * (y j).val) - dg i * (y i).val|
      ≤ growth u n * (|dg i * (y i).val| + ∑ j with j < i, |(l i j).val * (y j).val|) := by
  have := foldl_rng (fun x i =>
      Function.update x i (f i ((rng n 0 i.1).foldl (fun s j => s - l i j * x j) (x i))))
    (fun t (y : Fin n → Fl fl) => (∀ i : Fin n, i.1 < t →
        |(b i).val - (∑ j with j < i, (l i j).val * (y j).val) - dg i * (y i).val|
          ≤ growth u n * (|dg i * (y i).val| + ∑ j with j < i, |(l i j).val * (y j).val|)) ∧
      ∀ i : Fin n, t ≤ i.1 → y i = b i) (a := 0) (b := n) (Nat.le_refl _) (Nat.zero_le _)
    (by
      intro t ht y _ _ ⟨h1, h2⟩
      have hr := row_back h hu hf (l ⟨t, ht⟩) y ⟨t, ht⟩ (y ⟨t, ht⟩) 0 t (by omega) (by omega)
      dsimp only
      generalize f ⟨t, ht⟩ ((rng n 0 t).foldl (fun s j => s - l ⟨t, ht⟩ j * y j) (y ⟨t, ht⟩)) = v at hr ⊢
      have hsame : ∀ j : Fin n, j.1 ≠ t → Function.update y ⟨t, ht⟩ v j = y j := by
        intro j hj
        exact Function.update_of_ne (fun e => hj (by rw [e])) _ _
      have hsum : ∀ (g : ℝ → ℝ) (i : Fin n), i.1 ≤ t →
          (∑ j with j < i, g ((l i j).val * (Function.update y ⟨t, ht⟩ v j).val))
            = ∑ j with j < i, g ((l i j).val * (y j).val) := by
        intro g i hi
        apply Finset.sum_congr rfl
        intro j hj
        have := Fin.lt_def.1 (Finset.mem_filter.1 hj).2
        rw [hsame j (by omega)]
      refine ⟨?_, ?_⟩
      · intro i hi
        rw [hsum (fun z => z) i (by omega), hsum (fun z => |z|) i (by omega)]
        rcases Nat.lt_succ_iff_lt_or_eq.1 hi with h | h
        · rw [hsame i (by omega)]
          exact h1 i h
        · have e : i = ⟨t, ht⟩ := Fin.ext h
          subst e
          rw [Function.update_self, ← h2 _ (Nat.le_refl _)]
          have hset : (Finset.univ.filter fun j : Fin n => j < (⟨t, ht⟩ : Fin n))
              = Finset.univ.filter fun j : Fin n => 0 ≤ j.1 ∧ j.1 < t := by
            ext j; simp [Fin.lt_def]
          rw [hset]
          exact hr
      · intro i hi
        rw [hsame i (by omega), h2 i (by omega)])
    (s := b) ⟨by intro i hi; omega, fun _ _ => rfl⟩
  exact this.1 i i.2

theorem backward_back (h : Accurate fl u) (hu : u < 1) {dg : Fin n → ℝ} {f : Fin n → Fl fl → Fl fl}
    (hf : Fin1 u dg f) (l : Mat (Fl fl) n n) (b : Fin n → Fl fl) (i : Fin n) :
    let y := (rng n 0 n).reverse.foldl (fun x i =>
      Function.update x i (f i ((rng n (i.1 + 1) n).foldl (fun s j => s - l i j * x j) (x i)))) b
    |(b i).val - (∑ j with i < j, (l i j).val * (y j).val) - dg i * (y i).val|
      ≤ growth u n * (|dg i * (y i).val| + ∑ j with i < j, |(l i j).val * (y j).val|) := by
  have := foldl_rev (fun x i =>
      Function.update x i (f i ((rng n (i.1 + 1) n).foldl (fun s j => s - l i j * x j) (x i))))
    (fun t (y : Fin n → Fl fl) => (∀ i : Fin n, t ≤ i.1 →
        |(b i).val - (∑ j with i < j, (l i j).val * (y j).val) - dg i * (y i).val|
          ≤ growth u n * (|dg i * (y i).val| + ∑ j with i < j, |(l i j).val * (y j).val|)) ∧
      ∀ i : Fin n, i.1 < t → y i = b i)
    (by
      intro t ht y ⟨h1, h2⟩
      have hr := row_back h hu hf (l ⟨t, ht⟩) y ⟨t, ht⟩ (y ⟨t, ht⟩) (t + 1) n (by omega) (by omega)
      dsimp only
      generalize f ⟨t, ht⟩ ((rng n (t + 1) n).foldl (fun s j => s - l ⟨t, ht⟩ j * y j) (y ⟨t, ht⟩)) = v at hr ⊢
      have hsame : ∀ j : Fin n, j.1 ≠ t → Function.update y ⟨t, ht⟩ v j = y j := by
        intro j hj
        exact Function.update_of_ne (fun e => hj (by rw [e])) _ _
      have hsum : ∀ (g : ℝ → ℝ) (i : Fin n), t ≤ i.1 →
          (∑ j with i < j, g ((l i j).val * (Function.update y ⟨t, ht⟩ v j).val))
            = ∑ j with i < j, g ((l i j).val * (y j).val) := by
        intro g i hi
        apply Finset.sum_congr rfl
        intro j hj
        have := Fin.lt_def.1 (Finset.mem_filter.1 hj).2
        rw [hsame j (by omega)]
      refine ⟨?_, ?_⟩
      · intro i hi
        rw [hsum (fun z => z) i hi, hsum (fun z => |z|) i hi]
        rcases Nat.lt_or_eq_of_le hi with h | h
        · rw [hsame i (by omega)]
          exact h1 i h
        · have e : i = ⟨t, ht⟩ := Fin.ext h.symm
          subst e
          rw [Function.update_self, ← h2 _ (Nat.lt_succ_self _)]
          have hset : (Finset.univ.filter fun j : Fin n => (⟨t, ht⟩ : Fin n) < j)
              = Finset.univ.filter fun j : Fin n => t + 1 ≤ j.1 ∧ j.1 < n := by
            ext j; simp [Fin.lt_def]
          rw [hset]
          exact hr
      · intro i hi
        rw [hsame i (by omega), h2 i (by omega)])
    (s := b) ⟨by intro i hi; have := i.2; omega, fun _ _ => rfl⟩
  exact this.1 i (Nat.zero_le _)

end Tri

end Verif.Round
