import Verif.ML.MarginIeee
import Verif.ML.PropsMargin
import Verif.Ieee.PropsCast
import Verif.Ieee.PropsLu

/-!
# The perceptron in machine arithmetic (C166)
-/

namespace Verif.ML.Ie

open Verif.Mat Verif.Ieee

variable {F : Format} {fl : ℝ → ℝ} {n : ℕ}

/-! ## Integers are computed exactly -/

/-- The format holds the integers up to `2 ^ p`. -/
structure Ints (F : Format) : Prop where
  bits : 1 ≤ F.p
  low : F.emin ≤ 0
  high : (F.p : ℤ) < F.emax

theorem int_finite (hF : Ints F) {z : ℤ} (hz : |z| ≤ 2 ^ F.p) : Finite F (z : ℝ) := by
  refine ⟨by simpa using onGrid_of_le hF.bits hz hF.low, ?_⟩
  have h1 : |(z : ℝ)| ≤ 2 ^ (F.p : ℤ) := by rw [← Int.cast_abs, zpow_natCast]; exact_mod_cast hz
  exact h1.trans_lt (zpow_lt_zpow_right₀ (by norm_num) hF.high)

theorem int_ofReal (hF : Ints F) (h : Rounds F fl) {z : ℤ} (hz : |z| ≤ 2 ^ F.p) : (IE.ofReal (z : ℝ) : IE F fl) = IE.num z :=
  finite_ofReal h (int_finite hF hz)

theorem int_add (hF : Ints F) (h : Rounds F fl) {a b : ℤ} (hz : |a + b| ≤ 2 ^ F.p) : (IE.num a + IE.num b : IE F fl) = IE.num ((a + b : ℤ) : ℝ) := by
  rw [add_num, ← int_ofReal hF h hz]; push_cast; rfl

theorem int_mul (hF : Ints F) (h : Rounds F fl) {a b : ℤ} (hz : |a * b| ≤ 2 ^ F.p) : (IE.num a * IE.num b : IE F fl) = IE.num ((a * b : ℤ) : ℝ) := by
  rw [mul_num, ← int_ofReal hF h hz]; push_cast; rfl

/-- The machine numbers of real parameters. -/
noncomputable def emb (F : Format) (fl : ℝ → ℝ) (o : ML.Perceptron n) : Perceptron F fl n :=
  ⟨fun i => IE.num (o.weights i), IE.num o.bias, IE.num o.lr⟩

/-- The machine numbers of a real vector. -/
def nums (F : Format) (fl : ℝ → ℝ) (x : Fin n → ℝ) : Fin n → IE F fl := fun i => IE.num (x i)

/-- Multiples of `2 ^ e` up to `2 ^ p` times it are numbers of the format. -/
theorem fix_finite (hF : Ints F) {e : ℤ} (he : F.emin ≤ e) (he0 : e ≤ 0) {z : ℤ} (hz : |z| ≤ 2 ^ F.p) : Finite F (z * 2 ^ e) := by
  refine ⟨onGrid_of_le hF.bits hz he, ?_⟩
  rw [abs_mul, abs_of_pos (zpow_pos (by norm_num : (0 : ℝ) < 2) e)]
  have h1 : |(z : ℝ)| < 2 ^ F.emax := (int_finite hF hz).2
  have h2 : (2 : ℝ) ^ e ≤ 1 := zpow_le_one_of_nonpos₀ (by norm_num) he0
  have h3 : (0 : ℝ) < 2 ^ e := by positivity
  nlinarith [abs_nonneg (z : ℝ)]

theorem fix_add (hF : Ints F) (h : Rounds F fl) {e : ℤ} (he : F.emin ≤ e) (he0 : e ≤ 0) {a b : ℤ} (hz : |a + b| ≤ 2 ^ F.p) :
    (IE.num (a * 2 ^ e) + IE.num (b * 2 ^ e) : IE F fl) = IE.num ((a + b : ℤ) * 2 ^ e) := by
  rw [add_num, ← finite_ofReal h (fix_finite hF he he0 hz)]; push_cast; rw [add_mul]

theorem fix_mul (hF : Ints F) (h : Rounds F fl) {e f : ℤ} (he : F.emin ≤ e + f) (he0 : e + f ≤ 0) {a b : ℤ} (hz : |a * b| ≤ 2 ^ F.p) :
    (IE.num (a * 2 ^ e) * IE.num (b * 2 ^ f) : IE F fl) = IE.num ((a * b : ℤ) * 2 ^ (e + f)) := by
  rw [mul_num, ← finite_ofReal h (fix_finite hF he he0 hz), zpow_add₀ (by norm_num)]; push_cast; congr 1; ring

/-- Parameters as they are after at most `k` updates with features that are multiples of `2 ^ -s` of size at most `X 2 ^ -s`. -/
def FixParams (s X k : ℕ) (o : ML.Perceptron n) : Prop :=
  o.lr = 1 ∧ (∃ b : ℤ, o.bias = b ∧ |b| ≤ k) ∧ ∀ i, ∃ w : ℤ, o.weights i = w * 2 ^ (-s : ℤ) ∧ |w| ≤ k * X

/-- Features that are multiples of `2 ^ -s` of size at most `X 2 ^ -s`. -/
def FixFeatures (s X : ℕ) (x : Fin n → ℝ) : Prop := ∀ i, ∃ m : ℤ, x i = m * 2 ^ (-s : ℤ) ∧ |m| ≤ X

theorem lscore_exact (hF : Ints F) (h : Rounds F fl) {s X k : ℕ} (hlow : F.emin ≤ -(2 * s : ℤ)) {o : ML.Perceptron n} {x : Fin n → ℝ}
    (ho : FixParams s X k o) (hx : FixFeatures s X x) (hk : k * (4 ^ s + n * X ^ 2) ≤ 2 ^ F.p) :
    lscore (emb F fl o).weights (emb F fl o).bias (nums F fl x) = IE.num (score o.weights o.bias x) ∧
      ∃ z : ℤ, score o.weights o.bias x = z * 2 ^ (-s + -s : ℤ) ∧ |z| ≤ 2 ^ F.p := by
  obtain ⟨-, ⟨b, eb, hb⟩, hw⟩ := ho
  have hlow' : F.emin ≤ (-s + -s : ℤ) := by omega
  have h0 : (-s + -s : ℤ) ≤ 0 := by omega
  suffices H : ∀ (l : List (Fin n)) (c : ℤ) (j : ℕ), |c| ≤ k * (4 ^ s + j * X ^ 2) → j + l.length ≤ n →
      ∃ z : ℤ, l.foldl (fun s i => s + IE.num (o.weights i) * IE.num (x i)) (IE.num (c * 2 ^ (-s + -s : ℤ)) : IE F fl) =
          IE.num (z * 2 ^ (-s + -s : ℤ)) ∧
        l.foldl (fun s i => s + o.weights i * x i) ((c : ℝ) * 2 ^ (-s + -s : ℤ)) = z * 2 ^ (-s + -s : ℤ) ∧ |z| ≤ 2 ^ F.p by
    have eb' : (b : ℝ) = ((b * 4 ^ s : ℤ) : ℝ) * 2 ^ (-s + -s : ℤ) := by
      push_cast
      rw [mul_assoc, show (4 : ℝ) ^ s = 2 ^ (s + s : ℤ) by
        rw [zpow_add₀ (by norm_num), zpow_natCast, ← mul_pow]; norm_num, ← zpow_add₀ (by norm_num),
        show ((s + s : ℤ) + (-s + -s)) = 0 by ring, zpow_zero, mul_one]
    obtain ⟨z, h1, h2, h3⟩ := H (rng n 0 n) (b * 4 ^ s) 0 (by
      rw [abs_mul, abs_of_pos (show (0 : ℤ) < 4 ^ s by positivity)]
      simpa using mul_le_mul_of_nonneg_right hb (show (0 : ℤ) ≤ 4 ^ s by positivity)) (by simp [rng])
    refine ⟨?_, z, by unfold score; rw [eb, eb']; exact h2, h3⟩
    unfold lscore score emb nums
    rw [eb, eb', h2]
    exact h1
  intro l
  induction l with
  | nil =>
    intro c j hs hj
    refine ⟨c, rfl, rfl, hs.trans ?_⟩
    have : k * (4 ^ s + j * X ^ 2) ≤ k * (4 ^ s + n * X ^ 2) := Nat.mul_le_mul_left _ (by simp at hj; gcongr)
    exact_mod_cast this.trans hk
  | cons i l ih =>
    intro c j hs hj
    obtain ⟨w, ew, hw'⟩ := hw i
    obtain ⟨m, em, hm⟩ := hx i
    rw [List.length_cons] at hj
    have hwm : |w * m| ≤ (k * X ^ 2 : ℕ) := by
      rw [abs_mul]
      calc |w| * |m| ≤ (k * X) * X := mul_le_mul hw' hm (abs_nonneg _) (by positivity)
        _ = (k * X ^ 2 : ℕ) := by push_cast; ring
    have hsum : |c + w * m| ≤ k * (4 ^ s + (j + 1 : ℕ) * X ^ 2) := by
      refine (abs_add_le _ _).trans ?_
      push_cast at hwm ⊢
      nlinarith
    have hbig : k * (4 ^ s + (j + 1) * X ^ 2) ≤ 2 ^ F.p :=
      (Nat.mul_le_mul_left _ (by gcongr; omega)).trans hk
    have hbig' : (k : ℤ) * (4 ^ s + (j + 1 : ℕ) * X ^ 2) ≤ 2 ^ F.p := by exact_mod_cast hbig
    have hprod : (k * X ^ 2 : ℕ) ≤ 2 ^ F.p :=
      le_trans (by nlinarith [Nat.zero_le (k * j * X ^ 2), Nat.zero_le (k * 4 ^ s)]) hbig
    have hprod' : ((k * X ^ 2 : ℕ) : ℤ) ≤ 2 ^ F.p := by exact_mod_cast hprod
    obtain ⟨z, h1, h2, h3⟩ := ih (c + w * m) (j + 1) hsum (by omega)
    refine ⟨z, ?_, ?_, h3⟩
    · rw [List.foldl_cons, ew, em, fix_mul hF h hlow' h0 (hwm.trans hprod'), fix_add hF h hlow' h0 (hsum.trans hbig')]
      exact h1
    · rw [List.foldl_cons, ew, em, ← h2]
      congr 1
      push_cast
      rw [zpow_add₀ (by norm_num)]
      ring

open Classical in
theorem step_exact (hF : Ints F) (h : Rounds F fl) {s X k : ℕ} (hlow : F.emin ≤ -(2 * s : ℤ)) {o : ML.Perceptron n} {d : (Fin n → ℝ) × ℤ}
    (ho : FixParams s X k o) (hx : FixFeatures s X d.1) (hk : k * (4 ^ s + n * X ^ 2) ≤ 2 ^ F.p)
    (hk1 : o.step d ≠ o → (k + 1) * (4 ^ s + n * X ^ 2) ≤ 2 ^ F.p) :
    (emb F fl o).step (nums F fl d.1, d.2) = emb F fl (o.step d) ∧ FixParams s X (if o.step d = o then k else k + 1) (o.step d) := by
  obtain ⟨e1, z, ez, hz⟩ := lscore_exact (fl := fl) hF h hlow ho hx hk
  have hlow' : F.emin ≤ (-s + -s : ℤ) := by omega
  have hlow1 : F.emin ≤ (-s : ℤ) := by omega
  have h0 : (-s + -s : ℤ) ≤ 0 := by omega
  have h01 : (-s : ℤ) ≤ 0 := by omega
  obtain ⟨t, et, ht⟩ : ∃ t : ℤ, sign d.2 = t ∧ |t| = 1 := by
    unfold sign
    by_cases hy : d.2 ≥ 0
    · exact ⟨1, by rw [if_pos hy]; norm_num, rfl⟩
    · exact ⟨-1, by rw [if_neg hy]; norm_num, rfl⟩
  have elb : (if d.2 ≥ 0 then 1 else -1 : IE F fl) = IE.num (t : ℝ) := by
    rw [← et]
    unfold sign
    split_ifs <;> rfl
  have tmul : ∀ {e : ℤ} {m : ℤ}, F.emin ≤ e → e ≤ 0 → |m| ≤ 2 ^ F.p →
      (IE.num (t : ℝ) * IE.num (m * 2 ^ e) : IE F fl) = IE.num ((t * m : ℤ) * 2 ^ e) := by
    intro e m he he0 hm
    have := fix_mul (fl := fl) hF h (e := 0) (f := e) (a := t) (b := m) (by simpa using he) (by simpa using he0)
      (by rw [abs_mul, ht, one_mul]; exact hm)
    simpa using this
  have hp1 : (1 : ℤ) ≤ 2 ^ F.p := one_le_pow₀ (by norm_num)
  have hcond : ((IE.num (t : ℝ) : IE F fl) * IE.num (score o.weights o.bias d.1) ≤ 0) ↔ sign d.2 * score o.weights o.bias d.1 ≤ 0 := by
    rw [ez, tmul hlow' h0 hz, et]
    push_cast
    rw [mul_assoc]
    exact Iff.rfl
  have hlr : o.lr = 1 := ho.1
  have hne : o.lr ≠ 0 := by rw [hlr]; norm_num
  by_cases hc : sign d.2 * score o.weights o.bias d.1 ≤ 0
  · -- a mistake
    have hstep : o.step d ≠ o := by
      rw [Ne, step_eq_iff o d hne, ← score_eq]
      exact not_lt.2 hc
    have hk1 := hk1 hstep
    rw [if_neg hstep]
    have er : o.step d = { o with
        weights := fun i => o.weights i + o.lr * sign d.2 * d.1 i
        bias := o.bias + o.lr * sign d.2 } := by
      unfold ML.Perceptron.step
      dsimp only
      rw [if_pos hc, mapLoop (fun i w => w + o.lr * sign d.2 * d.1 i)]
    obtain ⟨-, ⟨b, eb, hb⟩, hw⟩ := ho
    have h4 : 1 ≤ 4 ^ s := Nat.one_le_pow _ _ (by norm_num)
    have hb' : |b + t| ≤ ((k + 1 : ℕ) : ℤ) := (abs_add_le _ _).trans (by rw [ht]; push_cast; linarith)
    have hkp : (((k + 1 : ℕ) : ℤ)) ≤ 2 ^ F.p := by
      have : k + 1 ≤ (k + 1) * (4 ^ s + n * X ^ 2) := Nat.le_mul_of_pos_right _ (by positivity)
      exact_mod_cast this.trans hk1
    have hxp : ∀ i : Fin n, (((k + 1 : ℕ) : ℤ)) * X ≤ 2 ^ F.p := by
      intro i
      have hn : 1 ≤ n := Nat.one_le_of_lt i.2
      have h1 : X ≤ 4 ^ s + n * X ^ 2 := by
        have : X ^ 2 ≤ n * X ^ 2 := Nat.le_mul_of_pos_left _ hn
        nlinarith [sq_nonneg ((X : ℤ) - 1), Nat.zero_le X]
      have := (Nat.mul_le_mul_left (k + 1) h1).trans hk1
      exact_mod_cast this
    have e11 : (IE.num 1 * IE.num (t : ℝ) : IE F fl) = IE.num (t : ℝ) := by
      have := int_mul (fl := fl) hF h (a := 1) (b := t) (by rw [one_mul, ht]; exact hp1)
      simpa using this
    have hwx : ∀ i, ∃ w m : ℤ, o.weights i = w * 2 ^ (-s : ℤ) ∧ d.1 i = m * 2 ^ (-s : ℤ) ∧ |w + t * m| ≤ ((k + 1 : ℕ) : ℤ) * X ∧
        (IE.num (o.weights i) + IE.num (t : ℝ) * IE.num (d.1 i) : IE F fl) = IE.num ((w + t * m : ℤ) * 2 ^ (-s : ℤ)) := by
      intro i
      obtain ⟨w, ew, hw'⟩ := hw i
      obtain ⟨m, em, hm⟩ := hx i
      have hXb : (X : ℤ) ≤ ((k + 1 : ℕ) : ℤ) * X := by
        have : X ≤ (k + 1) * X := Nat.le_mul_of_pos_left _ (by omega)
        exact_mod_cast this
      have htm : |t * m| ≤ X := by rw [abs_mul, ht, one_mul]; exact hm
      have hs : |w + t * m| ≤ ((k + 1 : ℕ) : ℤ) * X := (abs_add_le _ _).trans (by push_cast; linarith)
      refine ⟨w, m, ew, em, hs, ?_⟩
      rw [ew, em, tmul hlow1 h01 (hm.trans (hXb.trans (hxp i))), fix_add hF h hlow1 h01 (hs.trans (hxp i))]
    constructor
    · rw [er]
      unfold Perceptron.step
      dsimp only
      rw [e1, elb, if_pos (hcond.2 hc)]
      unfold emb
      dsimp only
      rw [hlr, e11, eb, int_add hF h (hb'.trans hkp), et, one_mul]
      congr 1
      · funext i
        obtain ⟨w, m, ew, em, -, e⟩ := hwx i
        change (IE.num (o.weights i) + IE.num (t : ℝ) * IE.num (d.1 i) : IE F fl) = _
        rw [e, ew, em]
        push_cast
        congr 1
        ring
      · push_cast
        rfl
    · rw [er]
      refine ⟨hlr, ⟨b + t, ?_, by exact_mod_cast hb'⟩, fun i => ?_⟩
      · simp only [hlr, eb, et]; push_cast; ring
      · obtain ⟨w, m, ew, em, hs, -⟩ := hwx i
        refine ⟨w + t * m, ?_, hs⟩
        simp only [hlr, ew, em, et]; push_cast; ring
  · have hstep : o.step d = o := by
      rw [step_eq_iff o d hne, ← score_eq]
      exact not_le.1 hc
    rw [hstep, if_pos rfl]
    refine ⟨?_, ho⟩
    unfold Perceptron.step
    dsimp only
    rw [e1, elb, if_neg (fun h' => hc (hcond.1 h'))]

/-- As long as the numbers stay small, the machine runs through the exact parameters. -/
theorem run_exact (hF : Ints F) (h : Rounds F fl) {s X : ℕ} (hlow : F.emin ≤ -(2 * s : ℤ)) (l : List ((Fin n → ℝ) × ℤ)) :
    ∀ (o : ML.Perceptron n) (k : ℕ), FixParams s X k o →
    (∀ d ∈ l, FixFeatures s X d.1) → (k + updates o l) * (4 ^ s + n * X ^ 2) ≤ 2 ^ F.p →
    (l.map fun d => (nums F fl d.1, d.2)).foldl Perceptron.step (emb F fl o) = emb F fl (l.foldl ML.Perceptron.step o) ∧
      FixParams s X (k + updates o l) (l.foldl ML.Perceptron.step o) := by
  classical
  induction l with
  | nil => intro o k ho _ _; exact ⟨rfl, ho⟩
  | cons d l ih =>
    intro o k ho hx hb
    rw [updates_cons] at hb ⊢
    have hle : k * (4 ^ s + n * X ^ 2) ≤ 2 ^ F.p := le_trans (Nat.mul_le_mul_right _ (by omega)) hb
    obtain ⟨e, ho'⟩ := step_exact (fl := fl) hF h hlow ho (hx d (by simp)) hle fun hne => by
      rw [if_neg hne] at hb
      exact le_trans (Nat.mul_le_mul_right _ (by omega)) hb
    rw [List.map_cons, List.foldl_cons, List.foldl_cons, e]
    have := ih (o.step d) _ ho' (fun d hd => hx d (List.mem_cons_of_mem _ hd)) (by
      refine le_trans (Nat.mul_le_mul_right _ ?_) hb
      split_ifs <;> omega)
    refine ⟨this.1, ?_⟩
    have h2 := this.2
    convert h2 using 1
    split_ifs <;> omega

/-- `K` epochs over the same data. -/
noncomputable def mepochs (o : Perceptron F fl n) (xs : List (Fin n → IE F fl)) (ys : List ℤ) : ℕ → Perceptron F fl n
  | 0 => o
  | k + 1 => (mepochs o xs ys k).trainEpoch xs ys

theorem mepochs_eq (o : Perceptron F fl n) (xs : List (Fin n → IE F fl)) (ys : List ℤ) (k : ℕ) :
    mepochs o xs ys k = (List.replicate k (xs.zip ys)).flatten.foldl Perceptron.step o := by
  induction k with
  | zero => rfl
  | succ k ih => rw [mepochs, ih, List.replicate_succ', List.flatten_append, List.foldl_append]; simp [Perceptron.trainEpoch]

/-- **C166**, features that are multiples of `2 ^ -s` (integers for `s = 0`) of size at most `X 2 ^ -s` such that `(R/γ)² (4 ^ s + N X²) ≤ 2 ^ p`: after more than `(R/γ)²` epochs over a separable data set
the fresh perceptron of the machine classifies every example as labelled, and further epochs change nothing.
Missing: features on a finer grid or too large (`C166_fails`). -/
theorem C166_partial (hF : Ints F) (h : Rounds F fl) (u : Fin (n + 1) → ℝ) (γ R : ℝ) (hγ : 0 < γ) (hR : 0 ≤ R) (xs : List (Fin n → ℝ)) (ys : List ℤ)
    (hs : Separated u γ R (xs.zip ys)) {s X : ℕ} (hlow : F.emin ≤ -(2 * s : ℤ))
    (hX : ∀ x ∈ xs, ∀ i, ∃ m : ℤ, x i = m * 2 ^ (-s : ℤ) ∧ |m| ≤ X) (hsmall : (R / γ) ^ 2 * (4 ^ s + n * X ^ 2) ≤ 2 ^ F.p)
    (K : ℕ) (hK : (R / γ) ^ 2 < K) :
    let trained := mepochs (Perceptron.new F fl n) (xs.map fun x i => IE.num (x i)) ys K
    (∀ d ∈ xs.zip ys, trained.predict (fun i => IE.num (d.1 i)) = if d.2 ≥ 0 then 1 else -1) ∧
      ∀ K' ≥ K, mepochs (Perceptron.new F fl n) (xs.map fun x i => IE.num (x i)) ys K' = trained := by
  intro trained
  have hnew : (Perceptron.new F fl n) = emb F fl (ML.Perceptron.new n) := rfl
  have hint : FixParams s X 0 (ML.Perceptron.new n) :=
    ⟨rfl, ⟨0, by simp [ML.Perceptron.new], by simp⟩, fun i => ⟨0, by simp [ML.Perceptron.new], by simp⟩⟩
  have hmem : ∀ k, ∀ d ∈ (List.replicate k (xs.zip ys)).flatten, d ∈ xs.zip ys := by
    intro k d hd
    obtain ⟨l, hl, hdl⟩ := List.mem_flatten.1 hd
    rw [List.eq_of_mem_replicate hl] at hdl
    exact hdl
  have key : ∀ k, mepochs (Perceptron.new F fl n) (xs.map fun x i => IE.num (x i)) ys k = emb F fl (epochs (ML.Perceptron.new n) xs ys k) ∧
      ∃ q, q * (4 ^ s + n * X ^ 2) ≤ 2 ^ F.p ∧ FixParams s X q (epochs (ML.Perceptron.new n) xs ys k) := by
    intro k
    have hb := C47_bound (ML.Perceptron.new n) (fun _ => rfl) rfl (by simp [ML.Perceptron.new]) u γ R hγ hR (List.replicate k (xs.zip ys)).flatten
      ⟨hs.unit, fun d hd => hs.margin d (hmem k d hd), fun d hd => hs.radius d (hmem k d hd)⟩
    have hb' : (0 + updates (ML.Perceptron.new n) (List.replicate k (xs.zip ys)).flatten) * (4 ^ s + n * X ^ 2) ≤ 2 ^ F.p := by
      have : ((updates (ML.Perceptron.new n) (List.replicate k (xs.zip ys)).flatten : ℕ) : ℝ) * (4 ^ s + n * X ^ 2) ≤ 2 ^ F.p :=
        (mul_le_mul_of_nonneg_right hb (by positivity)).trans hsmall
      rw [Nat.zero_add]
      exact_mod_cast this
    obtain ⟨h1, h2⟩ := run_exact (fl := fl) hF h (X := X) hlow (List.replicate k (xs.zip ys)).flatten (ML.Perceptron.new n) 0 hint
      (fun d hd => hX d.1 (List.of_mem_zip (hmem k d hd)).1) hb'
    rw [epochs_eq, mepochs_eq]
    refine ⟨?_, _, hb', h2⟩
    rw [← h1, hnew, List.map_flatten, List.map_replicate, List.zip_map_left]
    rfl
  obtain ⟨l1, l2⟩ := C47_learns (ML.Perceptron.new n) (fun _ => rfl) rfl (by simp [ML.Perceptron.new]) u γ R hγ hR xs ys hs K hK
  refine ⟨fun d hd => ?_, fun K' hK' => ?_⟩
  · obtain ⟨e, q, hq, hp⟩ := key K
    have hpred := (l1 d hd).2
    change (mepochs _ _ _ K).predict _ = _
    rw [e, ← hpred]
    obtain ⟨e1, -⟩ := lscore_exact (fl := fl) hF h hlow hp (hX d.1 (List.of_mem_zip hd).1) hq
    unfold Perceptron.predict ML.Perceptron.predict
    change (if lscore (emb F fl (epochs (ML.Perceptron.new n) xs ys K)).weights _ (nums F fl d.1) ≥ 0 then (1 : ℤ) else -1) = _
    rw [e1]
    rfl
  · change _ = mepochs _ _ _ K
    rw [(key K').1, (key K).1, l2 K' hK']

/-- The binary formats hold these integers, and a data set of halves on the line meets the hypotheses of `C166_partial`. -/
example : Ints binary64 ∧ Ints binary32 ∧ Separated (![1, 0] : Fin 2 → ℝ) (1 / 2) (Real.sqrt 2) ([![1 / 2], ![-1]].zip [1, -1]) ∧
    binary64.emin ≤ -(2 * (1 : ℕ) : ℤ) ∧
    (∀ x ∈ ([![1 / 2], ![-1]] : List (Fin 1 → ℝ)), ∀ i, ∃ m : ℤ, x i = m * 2 ^ (-(1 : ℕ) : ℤ) ∧ |m| ≤ (2 : ℕ)) ∧
    (Real.sqrt 2 / (1 / 2)) ^ 2 * (4 ^ 1 + (1 : ℕ) * (2 : ℕ) ^ 2) ≤ (2 : ℝ) ^ binary64.p ∧ (Real.sqrt 2 / (1 / 2)) ^ 2 < (9 : ℕ) := by
  refine ⟨⟨by decide, by decide, by decide⟩, ⟨by decide, by decide, by decide⟩, ⟨by simp [Fin.sum_univ_two], ?_, ?_⟩, by decide, ?_, ?_, ?_⟩
  · intro d hd
    simp only [List.zip_cons_cons, List.zip_nil_right, List.mem_cons, List.not_mem_nil, or_false] at hd
    rcases hd with rfl | rfl <;> simp [lin] <;> norm_num
  · intro d hd
    rw [Real.sq_sqrt (by norm_num)]
    simp only [List.zip_cons_cons, List.zip_nil_right, List.mem_cons, List.not_mem_nil, or_false] at hd
    rcases hd with rfl | rfl <;> simp <;> norm_num
  · intro x hx i
    simp only [List.mem_cons, List.not_mem_nil, or_false] at hx
    rcases hx with rfl | rfl
    · exact ⟨1, by simp, by simp⟩
    · exact ⟨-2, by simp, by simp⟩
  · rw [div_pow, Real.sq_sqrt (by norm_num)]; norm_num [binary64]
  · rw [div_pow, Real.sq_sqrt (by norm_num)]; norm_num

/-- Three examples with large features. -/
noncomputable def bigXs : List (Fin 2 → ℝ) := [![2 ^ (600 : ℤ), 0], ![0, 2 ^ (600 : ℤ)], ![2 ^ (600 : ℤ), 2 ^ (599 : ℤ)]]

/-- A product that is too large and negative. -/
theorem neg_mul_big (h : Rounds binary64 fl) {a b : ℤ} (hab : 1024 ≤ a + b) :
    (IE.num (-2 ^ a) * IE.num (2 ^ b) : IE binary64 fl) = IE.inf true := by
  have e : (-2 ^ a * 2 ^ b : ℝ) = -2 ^ (a + b) := by rw [zpow_add₀ (by norm_num)]; ring
  have e2 : fl (-2 ^ (a + b)) = -2 ^ (a + b) :=
    h.fix (onGrid_pow (by decide) (show binary64.emin ≤ a + b from le_trans (show (-1074 : ℤ) ≤ 1024 by norm_num) hab)).neg
  rw [mul_num, e]
  unfold IE.ofReal
  rw [if_neg (by
    rw [e2, abs_neg, abs_of_pos (by positivity)]
    exact not_lt.2 (zpow_le_zpow_right₀ (by norm_num) hab)), decide_eq_true (neg_neg_of_pos (by positivity))]

/-- **C166 fails** for large features: the data are separable and finite, and the machine never classifies the third example as labelled, whatever the
number of epochs.  Its score is not a number, and that is not counted as a mistake. -/
theorem C166_fails (h : Rounds binary64 fl) :
    (∃ u γ R, 0 < γ ∧ Separated u γ R (bigXs.zip [1, -1, 1])) ∧ (∀ x ∈ bigXs, ∀ i, Finite binary64 (x i)) ∧
      ∀ K, 1 ≤ K → (mepochs (Perceptron.new binary64 fl 2) (bigXs.map fun x i => IE.num (x i)) [1, -1, 1] K).predict
        (fun i => IE.num (![2 ^ (600 : ℤ), 2 ^ (599 : ℤ)] i)) = -1 := by
  have eW : (2 : ℝ) ^ (600 : ℤ) = 2 * 2 ^ (599 : ℤ) := by rw [show (600 : ℤ) = 1 + 599 from rfl, zpow_add₀ (by norm_num), zpow_one]
  have hV : (1 : ℝ) ≤ 2 ^ (599 : ℤ) := one_le_zpow₀ (by norm_num) (by norm_num)
  have hz : Finite binary64 0 := ⟨onGrid_zero, by rw [abs_zero]; positivity⟩
  have f1 : Finite binary64 1 := by simpa using pow_finite (e := 0) (by norm_num) (by norm_num)
  have fm1 : Finite binary64 (-1) := ⟨f1.1.neg, by rw [abs_neg]; exact f1.2⟩
  have fW : Finite binary64 (2 ^ (600 : ℤ)) := pow_finite (by norm_num) (by norm_num)
  have fmW : Finite binary64 (-2 ^ (600 : ℤ)) := ⟨fW.1.neg, by rw [abs_neg]; exact fW.2⟩
  have fV : Finite binary64 (2 ^ (599 : ℤ)) := pow_finite (by norm_num) (by norm_num)
  refine ⟨⟨![1 / 2, -1 / 2, 0], 2 ^ (599 : ℤ) / 2, 8 * 2 ^ (599 : ℤ), by positivity, by
    simp [Fin.sum_univ_three]; norm_num, ?_, ?_⟩, ?_, ?_⟩
  · intro d hd
    simp only [bigXs, List.zip_cons_cons, List.zip_nil_right, List.mem_cons, List.not_mem_nil, or_false] at hd
    rw [eW] at hd
    generalize (2 : ℝ) ^ (599 : ℤ) = V at hd hV ⊢
    rcases hd with rfl | rfl | rfl <;> simp [lin, Fin.sum_univ_two, Fin.last] <;> linarith only [hV]
  · intro d hd
    simp only [bigXs, List.zip_cons_cons, List.zip_nil_right, List.mem_cons, List.not_mem_nil, or_false] at hd
    rw [eW] at hd
    generalize (2 : ℝ) ^ (599 : ℤ) = V at hd hV ⊢
    rcases hd with rfl | rfl | rfl <;> simp [Fin.sum_univ_two] <;> nlinarith only [hV]
  · intro x hx i
    simp only [bigXs, List.mem_cons, List.not_mem_nil, or_false] at hx
    generalize (2 : ℝ) ^ (600 : ℤ) = W at *
    generalize (2 : ℝ) ^ (599 : ℤ) = V at *
    rcases hx with rfl | rfl | rfl <;> fin_cases i <;> first | exact fW | exact fV | exact hz
  -- the run
  have sq := square_big (fl := fl) h
  have nb1 := neg_mul_big (fl := fl) h (a := 600) (b := 599) (by norm_num)
  have nb2 := neg_mul_big (fl := fl) h (a := 600) (b := 600) (by norm_num)
  have hmul : ∀ {x y : ℝ} (_ : Finite binary64 (x * y)), (IE.num x * IE.num y : IE binary64 fl) = IE.num (x * y) :=
    fun hxy => by rw [mul_num, ofReal_finite h hxy]
  have hadd : ∀ {x y : ℝ} (_ : Finite binary64 (x + y)), (IE.num x + IE.num y : IE binary64 fl) = IE.num (x + y) :=
    fun hxy => by rw [add_num, ofReal_finite h hxy]
  have er : rng 2 0 2 = [0, 1] := rfl
  have hsc : ∀ (w x : Fin 2 → IE binary64 fl) (b : IE binary64 fl), lscore w b x = b + w 0 * x 0 + w 1 * x 1 := by
    intro w x b
    unfold lscore
    rw [er]
    rfl
  generalize hW : (2 : ℝ) ^ (600 : ℤ) = W at *
  generalize hVe : (2 : ℝ) ^ (599 : ℤ) = V at *
  have hWpos : 0 < W := by linarith only [hV, eW]
  set o2 : Perceptron binary64 fl 2 := ⟨![IE.num W, IE.num (-W)], IE.num 0, IE.num 1⟩ with ho2
  have m00 : (IE.num 0 * IE.num 0 : IE binary64 fl) = IE.num 0 := by rw [hmul (by simpa using hz), mul_zero]
  have m0W : (IE.num 0 * IE.num W : IE binary64 fl) = IE.num 0 := by rw [hmul (by simpa using hz), zero_mul]
  have mW0 : (IE.num W * IE.num 0 : IE binary64 fl) = IE.num 0 := by rw [hmul (by simpa using hz), mul_zero]
  have mmW0 : (IE.num (-W) * IE.num 0 : IE binary64 fl) = IE.num 0 := by rw [hmul (by simpa using hz), mul_zero]
  have m11 : (IE.num 1 * IE.num 1 : IE binary64 fl) = IE.num 1 := by rw [hmul (by simpa using f1), mul_one]
  have m10 : (IE.num 1 * IE.num 0 : IE binary64 fl) = IE.num 0 := by rw [hmul (by simpa using hz), mul_zero]
  have mm0 : (IE.num (-1) * IE.num 0 : IE binary64 fl) = IE.num 0 := by rw [hmul (by simpa using hz), mul_zero]
  have m1m : (IE.num 1 * IE.num (-1) : IE binary64 fl) = IE.num (-1) := by rw [hmul (by simpa using fm1), one_mul]
  have mm1 : (IE.num (-1) * IE.num 1 : IE binary64 fl) = IE.num (-1) := by rw [hmul (by simpa using fm1), mul_one]
  have m1W : (IE.num 1 * IE.num W : IE binary64 fl) = IE.num W := by rw [hmul (by simpa using fW), one_mul]
  have mmW : (IE.num (-1) * IE.num W : IE binary64 fl) = IE.num (-W) := by rw [hmul (by simpa using fmW)]; simp
  have a00 : (IE.num 0 + IE.num 0 : IE binary64 fl) = IE.num 0 := by rw [hadd (by simpa using hz), add_zero]
  have a0W : (IE.num 0 + IE.num W : IE binary64 fl) = IE.num W := by rw [hadd (by simpa using fW), zero_add]
  have aW0 : (IE.num W + IE.num 0 : IE binary64 fl) = IE.num W := by rw [hadd (by simpa using fW), add_zero]
  have a0mW : (IE.num 0 + IE.num (-W) : IE binary64 fl) = IE.num (-W) := by rw [hadd (by simpa using fmW), zero_add]
  have a01 : (IE.num 0 + IE.num 1 : IE binary64 fl) = IE.num 1 := by rw [hadd (by simpa using f1), zero_add]
  have a10 : (IE.num 1 + IE.num 0 : IE binary64 fl) = IE.num 1 := by rw [hadd (by simpa using f1), add_zero]
  have a1m : (IE.num 1 + IE.num (-1) : IE binary64 fl) = IE.num 0 := by rw [hadd (by simpa using hz)]; simp
  have ei : ∀ x : ℝ, (IE.num x + IE.inf false : IE binary64 fl) = IE.inf false := fun _ => rfl
  have eni : ∀ x : ℝ, (IE.num x + IE.inf true : IE binary64 fl) = IE.inf true := fun _ => rfl
  have eii : (IE.inf false + IE.inf true : IE binary64 fl) = IE.nan := rfl
  have ei0 : ∀ x : ℝ, (IE.inf false + IE.num x : IE binary64 fl) = IE.inf false := fun _ => rfl
  -- the first two examples of a fresh classifier
  set o1 : Perceptron binary64 fl 2 := ⟨![IE.num W, IE.num 0], IE.num 1, IE.num 1⟩ with ho1
  have elb1 : (if (1 : ℤ) ≥ 0 then 1 else -1 : IE binary64 fl) = IE.num 1 := rfl
  have elbm : (if (-1 : ℤ) ≥ 0 then 1 else -1 : IE binary64 fl) = IE.num (-1) := rfl
  have s1 : (Perceptron.new binary64 fl 2).step (![IE.num W, IE.num 0], 1) = o1 := by
    unfold Perceptron.step
    dsimp only
    have hs : lscore (Perceptron.new binary64 fl 2).weights (Perceptron.new binary64 fl 2).bias ![IE.num W, IE.num 0] = IE.num 0 := by
      rw [hsc]
      change (IE.num 0 + IE.num 0 * IE.num W + IE.num 0 * IE.num 0 : IE binary64 fl) = _
      rw [m0W, a00, m00, a00]
    rw [hs, elb1, m10, if_pos (show (IE.num 0 : IE binary64 fl) ≤ 0 from (le_num _ _).2 le_rfl)]
    change (⟨_, IE.num 0 + IE.num 1 * IE.num 1, IE.num 1⟩ : Perceptron binary64 fl 2) = _
    rw [m11, a01, ho1]
    congr 1
    funext i
    fin_cases i
    · change (IE.num 0 + IE.num 1 * IE.num 1 * IE.num W : IE binary64 fl) = IE.num W
      rw [m11, m1W, a0W]
    · change (IE.num 0 + IE.num 1 * IE.num 1 * IE.num 0 : IE binary64 fl) = IE.num 0
      rw [m11, m10, a00]
  have s2 : o1.step (![IE.num 0, IE.num W], -1) = o2 := by
    unfold Perceptron.step
    dsimp only
    have hs : lscore o1.weights o1.bias ![IE.num 0, IE.num W] = IE.num 1 := by
      rw [hsc]
      change (IE.num 1 + IE.num W * IE.num 0 + IE.num 0 * IE.num W : IE binary64 fl) = _
      rw [mW0, a10, m0W, a10]
    rw [hs, elbm, mm1, if_pos (show (IE.num (-1) : IE binary64 fl) ≤ 0 from (le_num _ _).2 (by norm_num))]
    change (⟨_, IE.num 1 + IE.num 1 * IE.num (-1), IE.num 1⟩ : Perceptron binary64 fl 2) = _
    rw [m1m, a1m, ho2]
    congr 1
    funext i
    fin_cases i
    · change (IE.num W + IE.num (-1) * IE.num 0 : IE binary64 fl) = IE.num W
      rw [mm0, aW0]
    · change (IE.num 0 + IE.num (-1) * IE.num W : IE binary64 fl) = IE.num (-W)
      rw [mmW, a0mW]
  -- nothing changes any more
  have hs3 : lscore o2.weights o2.bias ![IE.num W, IE.num V] = IE.nan := by
    rw [hsc]
    change (IE.num 0 + IE.num W * IE.num W + IE.num (-W) * IE.num V : IE binary64 fl) = _
    rw [sq, ei, nb1, eii]
  have s3 : o2.step (![IE.num W, IE.num V], 1) = o2 := by
    unfold Perceptron.step
    dsimp only
    rw [hs3, elb1, if_neg]
    exact nan_le _
  have s1' : o2.step (![IE.num W, IE.num 0], 1) = o2 := by
    unfold Perceptron.step
    dsimp only
    have hs : lscore o2.weights o2.bias ![IE.num W, IE.num 0] = IE.inf false := by
      rw [hsc]
      change (IE.num 0 + IE.num W * IE.num W + IE.num (-W) * IE.num 0 : IE binary64 fl) = _
      rw [sq, ei, mmW0, ei0]
    have hm : (IE.num 1 * IE.inf false : IE binary64 fl) = IE.inf false := by
      change (if (1 : ℝ) = 0 then IE.nan else IE.inf (xor (IE.isNeg 1) false)) = _
      rw [if_neg one_ne_zero, IE.isNeg, decide_eq_false (by norm_num)]; rfl
    rw [hs, elb1, hm, if_neg (show ¬ (IE.inf false : IE binary64 fl) ≤ 0 from inf_le_num 0)]
  have s2' : o2.step (![IE.num 0, IE.num W], -1) = o2 := by
    unfold Perceptron.step
    dsimp only
    have hs : lscore o2.weights o2.bias ![IE.num 0, IE.num W] = IE.inf true := by
      rw [hsc]
      change (IE.num 0 + IE.num W * IE.num 0 + IE.num (-W) * IE.num W : IE binary64 fl) = _
      rw [mW0, a00, nb2, eni]
    have hm : (IE.num (-1) * IE.inf true : IE binary64 fl) = IE.inf false := by
      change (if (-1 : ℝ) = 0 then IE.nan else IE.inf (xor (IE.isNeg (-1)) true)) = _
      rw [if_neg (by norm_num), IE.isNeg, decide_eq_true (by norm_num)]; rfl
    rw [hs, elbm, hm, if_neg (show ¬ (IE.inf false : IE binary64 fl) ≤ 0 from inf_le_num 0)]
  have edata : (bigXs.map fun x i => (IE.num (x i) : IE binary64 fl)).zip [1, -1, (1 : ℤ)] =
      [(![IE.num W, IE.num 0], 1), (![IE.num 0, IE.num W], -1), (![IE.num W, IE.num V], 1)] := by
    have hp : ∀ a b : ℝ, (fun i => (IE.num (![a, b] i) : IE binary64 fl)) = ![IE.num a, IE.num b] := by
      intro a b; funext i; fin_cases i <;> rfl
    simp only [bigXs, List.map_cons, List.map_nil, hp, List.zip_cons_cons, List.zip_nil_right, hW, hVe]
  have hrun : ∀ K, 1 ≤ K → mepochs (Perceptron.new binary64 fl 2) (bigXs.map fun x i => IE.num (x i)) [1, -1, 1] K = o2 := by
    intro K hK
    induction K with
    | zero => omega
    | succ K ih =>
      rw [mepochs, Perceptron.trainEpoch, edata]
      rcases Nat.eq_zero_or_pos K with rfl | hpos
      · simp only [mepochs, List.foldl_cons, List.foldl_nil, s1, s2, s3]
      · simp only [ih hpos, List.foldl_cons, List.foldl_nil, s1', s2', s3]
  intro K hK
  rw [hrun K hK]
  unfold Perceptron.predict
  have hp : (fun i => (IE.num (![W, V] i) : IE binary64 fl)) = ![IE.num W, IE.num V] := by
    funext i; fin_cases i <;> rfl
  rw [hp, hs3, if_neg]
  exact le_nan _

end Verif.ML.Ie
