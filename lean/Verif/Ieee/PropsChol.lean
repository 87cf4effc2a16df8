import Verif.Ieee.Special
import Verif.Mat.Lemmas

/-!
# Cholesky decomposition in IEEE arithmetic (C160)
-/

namespace Verif.Ieee

open Verif.Mat

variable {n : ℕ} {F : Format} {fl : ℝ → ℝ}

/-! ## What the loops compute, for any scalars -/

section Generic

variable {K : Type*} [Zero K] [Sub K] [Mul K] [Div K] [LE K] [DecidableLE K]

/-- Entry `(i, j)` less the products of the entries to the left. -/
def cholRest (a l : Mat K n n) (i j : Fin n) : K := (rng n 0 j.1).foldl (fun s k => s - l i k * l j k) (a i j)

/-- Entry `(i, j)` of the factor is as the code computes it. -/
def CholEnt (sqrt : K → K) (a l : Mat K n n) (i j : Fin n) : Prop :=
  (j < i → l i j = cholRest a l i j / l j j) ∧ (j = i → ¬ cholRest a l i j ≤ 0 ∧ l i j = sqrt (cholRest a l i j))

omit [Zero K] [Div K] [LE K] [DecidableLE K] in
theorem cholRest_congr {a l l' : Mat K n n} {i j : Fin n} (h : ∀ k, k < j → l i k = l' i k ∧ l j k = l' j k) :
    cholRest a l i j = cholRest a l' i j := by
  unfold cholRest
  refine List.foldl_ext _ _ _ fun s k hk => ?_
  rw [mem_rng] at hk
  rw [(h k (Fin.lt_def.2 hk.2)).1, (h k (Fin.lt_def.2 hk.2)).2]

omit [DecidableLE K] in
theorem cholEnt_congr {sqrt : K → K} {a l l' : Mat K n n} {i j : Fin n} (h : ∀ k, k ≤ j → l i k = l' i k ∧ l j k = l' j k)
    (he : CholEnt sqrt a l i j) : CholEnt sqrt a l' i j := by
  unfold CholEnt at *
  rw [← cholRest_congr fun k hk => h k hk.le, ← (h j le_rfl).1, ← (h j le_rfl).2]
  exact he

/-- Every entry of a factor returned is as the code computes it. -/
theorem cholesky_rec {sqrt : K → K} {a l : Mat K n n} (h : cholesky sqrt a = some l) (i : Fin n) :
    (∀ j, j ≤ i → CholEnt sqrt a l i j) ∧ ∀ j, i < j → l i j = 0 := by
  suffices H : ∀ r : Fin n, r.1 < n → (∀ j, j ≤ r → CholEnt sqrt a l r j) ∧ ∀ j, r < j → l r j = 0 from H i i.2
  unfold cholesky at h
  refine foldlM_rng (cholRow sqrt a)
    (fun m l => ∀ r : Fin n, r.1 < m → (∀ j, j ≤ r → CholEnt sqrt a l r j) ∧ ∀ j, r < j → l r j = 0) (Nat.le_refl _) (Nat.zero_le _) ?_ ?_ h
  · intro m hm l l' _ _ hinv hstep
    set i : Fin n := ⟨m, hm⟩
    unfold cholRow at hstep
    rw [Option.map_eq_some_iff] at hstep
    obtain ⟨l₁, h1, rfl⟩ := hstep
    have key : (∀ r : Fin n, r.1 < m → (∀ j, j ≤ r → CholEnt sqrt a l₁ r j) ∧ ∀ j, r < j → l₁ r j = 0) ∧
        ∀ c : Fin n, c.1 < i.1 + 1 → CholEnt sqrt a l₁ i c := by
      refine foldlM_rng (cholEntry sqrt a i)
        (fun q l => (∀ r : Fin n, r.1 < m → (∀ j, j ≤ r → CholEnt sqrt a l r j) ∧ ∀ j, r < j → l r j = 0) ∧
          ∀ c : Fin n, c.1 < q → CholEnt sqrt a l i c) (by simp [i]; omega) (Nat.zero_le _) ?_ ?_ h1
      · intro q hq s s' _ hqi ⟨hs1, hs2⟩ hstep
        have hv : ∃ v, s' = setE s i ⟨q, hq⟩ v ∧ ((⟨q, hq⟩ : Fin n) < i → v = cholRest a s i ⟨q, hq⟩ / s ⟨q, hq⟩ ⟨q, hq⟩) ∧
            ((⟨q, hq⟩ : Fin n) = i → ¬ cholRest a s i ⟨q, hq⟩ ≤ 0 ∧ v = sqrt (cholRest a s i ⟨q, hq⟩)) := by
          unfold cholEntry at hstep
          dsimp only at hstep
          by_cases hi : i = ⟨q, hq⟩
          · rw [if_pos hi] at hstep
            by_cases hle : (rng n 0 q).foldl (fun s_1 k => s_1 - s i k * s ⟨q, hq⟩ k) (a i ⟨q, hq⟩) ≤ 0
            · rw [if_pos hle] at hstep; cases hstep
            · rw [if_neg hle] at hstep
              injection hstep with e
              exact ⟨_, e.symm, fun hlt => absurd hi (ne_of_gt hlt), fun _ => ⟨hle, rfl⟩⟩
          · rw [if_neg hi] at hstep
            injection hstep with e
            exact ⟨_, e.symm, fun _ => rfl, fun he => absurd he.symm hi⟩
        obtain ⟨v, rfl, hv1, hv2⟩ := hv
        have row : ∀ r : Fin n, r.1 < m → setE s i ⟨q, hq⟩ v r = s r := fun r hr =>
          setE_row_ne _ _ _ (by intro e; rw [e] at hr; exact absurd hr (lt_irrefl _))
        have col : ∀ c : Fin n, c ≠ ⟨q, hq⟩ → setE s i ⟨q, hq⟩ v i c = s i c := by
          intro c hc; rw [setE_apply, if_neg (fun h => hc h.2)]
        refine ⟨fun r hr => ⟨fun j hj => ?_, fun j hj => ?_⟩, fun c hc => ?_⟩
        · refine cholEnt_congr (fun k hk => ?_) ((hs1 r hr).1 j hj)
          rw [row r hr, row j (lt_of_le_of_lt (Fin.le_def.1 hj) hr)]
          exact ⟨rfl, rfl⟩
        · rw [row r hr]; exact (hs1 r hr).2 j hj
        · rcases Nat.lt_succ_iff_lt_or_eq.1 hc with hc | hc
          · refine cholEnt_congr (fun k hk => ?_) (hs2 c hc)
            have hk' : k ≠ ⟨q, hq⟩ := by
              intro e; subst e; exact absurd (Fin.le_def.1 hk) (by simp; omega)
            refine ⟨(col k hk').symm, ?_⟩
            by_cases hci : c = i
            · subst hci; exact (col k hk').symm
            · rw [row c]
              have : c.1 ≠ m := fun e => hci (Fin.ext e)
              have : i.1 = m := rfl
              omega
          · have hcq : c = ⟨q, hq⟩ := Fin.ext hc
            subst hcq
            have hrest : cholRest a s i ⟨q, hq⟩ = cholRest a (setE s i ⟨q, hq⟩ v) i ⟨q, hq⟩ := by
              refine cholRest_congr fun k hk => ⟨(col k (ne_of_lt hk)).symm, ?_⟩
              by_cases hci : (⟨q, hq⟩ : Fin n) = i
              · rw [hci] at hk ⊢
                rw [setE_apply, if_neg]
                rintro ⟨-, e⟩
                exact absurd e (ne_of_lt hk)
              · rw [row ⟨q, hq⟩]
                have h2 : q ≠ m := fun e => hci (Fin.ext e)
                have h3 : i.1 = m := rfl
                show q < m
                omega
            have hset : setE s i ⟨q, hq⟩ v i ⟨q, hq⟩ = v := by rw [setE_apply, if_pos ⟨rfl, rfl⟩]
            refine ⟨fun hlt => ?_, fun he => ?_⟩
            · rw [hset, ← hrest, row ⟨q, hq⟩ (Fin.lt_def.1 hlt), hv1 hlt]
            · rw [hset, ← hrest]
              exact hv2 he
      · exact ⟨hinv, by intro c hc; omega⟩
    rw [rowLoop (fun _ _ => (0 : K)) i (fun _ _ _ _ _ => rfl) _ (nodup_rng _ _ _)]
    have hmem : ∀ c : Fin n, c ∈ rng n (i.1 + 1) n ↔ i < c := by
      intro c; rw [mem_rng, Fin.lt_def]; omega
    intro r hr
    rcases Nat.lt_succ_iff_lt_or_eq.1 hr with hr | hr
    · have row : ∀ r : Fin n, r.1 < m → Function.update l₁ i (fun j => if j ∈ rng n (i.1 + 1) n then 0 else l₁ i j) r = l₁ r := fun r hr =>
        Function.update_of_ne (by intro e; rw [e] at hr; exact absurd hr (lt_irrefl _)) _ _
      refine ⟨fun j hj => ?_, fun j hj => ?_⟩
      · refine cholEnt_congr (fun k hk => ?_) ((key.1 r hr).1 j hj)
        rw [row r hr, row j (lt_of_le_of_lt (Fin.le_def.1 hj) hr)]
        exact ⟨rfl, rfl⟩
      · rw [row r hr]; exact (key.1 r hr).2 j hj
    · have hri : r = i := Fin.ext hr
      subst hri
      refine ⟨fun j hj => ?_, fun j hj => ?_⟩
      · have hij : j.1 < i.1 + 1 := Nat.lt_succ_of_le (Fin.le_def.1 hj)
        have upd : ∀ k : Fin n, k ≤ i → Function.update l₁ i (fun j => if j ∈ rng n (i.1 + 1) n then 0 else l₁ i j) i k = l₁ i k := by
          intro k hk
          rw [Function.update_self, if_neg]
          rw [hmem]; exact not_lt.2 hk
        refine cholEnt_congr (fun k hk => ?_) (key.2 j hij)
        refine ⟨(upd k (hk.trans hj)).symm, ?_⟩
        by_cases hji : j = i
        · subst hji; exact (upd k hk).symm
        · rw [Function.update_of_ne hji]
      · rw [Function.update_self, if_pos ((hmem j).2 hj)]
  · intro r hr; omega

end Generic

/-! ## C160 -/

/-- A number less squares is a number, minus infinity or NaN, and the number only if all that is squared is numbers. -/
theorem less_squares (h : Rounds F fl) (v : Fin n → IE F fl) : ∀ (ks : List (Fin n)) (s : IE F fl),
    (s = IE.nan ∨ s = IE.inf true ∨ IE.IsNum s) →
      (ks.foldl (fun s k => s - v k * v k) s = IE.nan ∨ ks.foldl (fun s k => s - v k * v k) s = IE.inf true ∨
        IE.IsNum s ∧ IE.IsNum (ks.foldl (fun s k => s - v k * v k) s) ∧ ∀ k ∈ ks, ∃ x, v k = IE.num x)
  | [], s, hs => by
    rcases hs with hs | hs | hs
    · exact Or.inl hs
    · exact Or.inr (Or.inl hs)
    · exact Or.inr (Or.inr ⟨hs, hs, by simp⟩)
  | k :: ks, s, hs => by
    rw [List.foldl_cons]
    have step : (s - v k * v k = IE.nan ∨ s - v k * v k = IE.inf true ∨ IE.IsNum (s - v k * v k)) ∧
        (IE.IsNum (s - v k * v k) → IE.IsNum s ∧ ∃ x, v k = IE.num x) := by
      rcases square_partial h (v k) with e | e | ⟨q, e, gq, hq⟩
      · rw [e, sub_nan]
        exact ⟨Or.inl rfl, fun ⟨x, hx, _⟩ => by cases hx⟩
      · rw [e]
        have : s - IE.inf false = IE.nan ∨ s - IE.inf false = IE.inf true := by
          rcases hs with rfl | rfl | ⟨x, rfl, -⟩
          · exact Or.inl rfl
          · exact Or.inr rfl
          · exact Or.inr rfl
        refine ⟨this.imp_right Or.inl, fun ⟨x, hx, _⟩ => ?_⟩
        rcases this with e | e <;> rw [e] at hx <;> cases hx
      · rw [e]
        rcases hs with rfl | rfl | ⟨x, rfl, gx, hx⟩
        · exact ⟨Or.inl rfl, fun ⟨x, hx, _⟩ => by cases hx⟩
        · exact ⟨Or.inr (Or.inl rfl), fun ⟨x, hx, _⟩ => by cases hx⟩
        · rw [sub_num]
          have hle : fl (x + -q) ≤ x := by
            conv_rhs => rw [← h.fix gx]
            exact h.mono (by linarith)
          refine ⟨?_, fun _ => ⟨⟨x, rfl, gx, hx⟩, ?_⟩⟩
          · by_cases hf : |fl (x + -q)| < 2 ^ F.emax
            · exact Or.inr (Or.inr ⟨_, ofReal_num hf, (h _).1, hf⟩)
            · right; left
              unfold IE.ofReal
              rw [if_neg hf, decide_eq_true]
              by_contra hc
              have h0 : 0 ≤ fl (x + -q) := by rw [← h.zero]; exact h.mono (not_lt.1 hc)
              rw [abs_of_nonneg h0] at hf
              exact hf (hle.trans_lt ((le_abs_self x).trans_lt hx))
          · rcases hv : v k with ⟨_ | s | w⟩
            · rw [hv] at e; cases e
            · rw [hv] at e; cases e
            · exact ⟨w, rfl⟩
    rcases less_squares h v ks _ step.1 with e | e | ⟨e1, e2, e3⟩
    · exact Or.inl e
    · exact Or.inr (Or.inl e)
    · obtain ⟨f1, f2⟩ := step.2 e1
      refine Or.inr (Or.inr ⟨f1, e2, fun j hj => ?_⟩)
      rcases List.mem_cons.1 hj with rfl | hj
      · exact f2
      · exact e3 j hj

/-- **C160**, partial: for every matrix with finite numbers on the diagonal, in a factor returned every row either consists of finite numbers,
with a positive one on the diagonal and zeros beyond, or has NaN on the diagonal. What is missing: the NaN (`C160_fails`). -/
theorem C160_partial (hp : 1 ≤ F.p) (hlo : F.emin ≤ 0) (hhi : 1 ≤ F.emax) (h : Rounds F fl) (A L : Mat (IE F fl) n n) (hA : ∀ i, IE.IsNum (A i i))
    (hL : cholesky IE.sqrt A = some L) (i : Fin n) :
    L i i = IE.nan ∨ (∀ j, IE.IsNum (L i j)) ∧ (∃ x, L i i = IE.num x ∧ 0 < x) ∧ ∀ j, i < j → L i j = IE.num 0 := by
  obtain ⟨h1, h2⟩ := cholesky_rec hL i
  obtain ⟨hpos, hd⟩ := (h1 i le_rfl).2 rfl
  have hz : ∀ j, i < j → L i j = IE.num 0 := fun j hj => h2 j hj
  rcases less_squares h (L i) (rng n 0 i.1) (A i i) (Or.inr (Or.inr (hA i))) with e | e | ⟨-, ⟨s, es, gs, fs⟩, e3⟩
  · left
    rw [hd]; unfold cholRest; rw [e]; rfl
  · exfalso
    unfold cholRest at hpos
    rw [e] at hpos
    exact hpos rfl
  · right
    have es' : cholRest A L i i = IE.num s := es
    rw [es'] at hpos hd
    have hs : 0 < s := not_le.1 hpos
    rw [sqrt_num hs.le] at hd
    have h1g : OnGrid F 1 := by simpa using onGrid_pow hp (e := 0) hlo
    have hpos' : 0 < fl √s := by
      have hm : (2 : ℝ) ^ F.emin ≤ √s := by
        rcases le_total s 1 with hs1 | hs1
        · obtain ⟨k, hk⟩ := gs.multiple
          have hk0 : (1 : ℝ) ≤ k := by
            have : (0 : ℝ) < k := by
              by_contra hc
              have : (k : ℝ) * 2 ^ F.emin ≤ 0 := mul_nonpos_of_nonpos_of_nonneg (not_lt.1 hc) (by positivity)
              linarith
            have : 0 < k := by exact_mod_cast this
            exact_mod_cast this
          have h2 : (2 : ℝ) ^ F.emin ≤ s := by
            rw [hk]; exact le_mul_of_one_le_left (by positivity) hk0
          refine h2.trans (Real.le_sqrt_of_sq_le ?_)
          nlinarith
        · refine le_trans ?_ (Real.one_le_sqrt.2 hs1)
          exact zpow_le_one_of_nonpos₀ (by norm_num) hlo
      have := h.mono hm
      rw [h.fix (onGrid_pow hp le_rfl)] at this
      exact lt_of_lt_of_le (by positivity) this
    have hfin : |fl √s| < 2 ^ F.emax := by
      rw [abs_of_pos hpos']
      rcases le_total s 1 with hs1 | hs1
      · have : fl √s ≤ fl 1 := h.mono (Real.sqrt_le_one.2 hs1)
        rw [h.fix h1g] at this
        exact this.trans_lt (one_lt_zpow₀ (by norm_num) (by omega))
      · have : fl √s ≤ fl s := h.mono (Real.sqrt_le_iff.2 ⟨hs.le, by nlinarith⟩)
        rw [h.fix gs] at this
        exact this.trans_lt ((le_abs_self s).trans_lt fs)
    rw [ofReal_num hfin] at hd
    refine ⟨fun j => ?_, ⟨_, hd, hpos'⟩, hz⟩
    rcases lt_trichotomy j i with hj | hj | hj
    · obtain ⟨x, hx⟩ := e3 j (by rw [mem_rng]; exact ⟨Nat.zero_le _, Fin.lt_def.1 hj⟩)
      have hq := (h1 j hj.le).1 hj
      rw [hx] at hq
      exact ⟨x, hx, div_isNum h hq.symm⟩
    · subst hj
      exact ⟨_, hd, (h _).1, hfin⟩
    · exact ⟨0, hz j hj, onGrid_zero, by rw [abs_zero]; positivity⟩

/-- A matrix that meets the hypotheses, with a factor of finite numbers. -/
example (h : Rounds binary64 fl) : IE.IsNum (IE.num 1 : IE binary64 fl) ∧
    cholesky IE.sqrt (fun _ _ => IE.num 1 : Mat (IE binary64 fl) 1 1) = some fun _ _ => IE.num 1 := by
  have f1 : Finite binary64 1 := ⟨by simpa using onGrid_pow (F := binary64) (e := 0) (by decide) (by decide), by
    rw [abs_one]; exact one_lt_zpow₀ (by norm_num) (by decide)⟩
  refine ⟨⟨1, rfl, f1⟩, ?_⟩
  have hs : IE.sqrt (IE.num 1 : IE binary64 fl) = IE.num 1 := by
    rw [sqrt_num (by norm_num), Real.sqrt_one, ofReal_num (by rw [h.fix f1.1]; exact f1.2), h.fix f1.1]
  have h1 : ¬ (IE.num 1 : IE binary64 fl) ≤ 0 := not_le.2 (show (0 : ℝ) < 1 by norm_num)
  unfold cholesky
  rw [show rng 1 0 1 = [0] by decide, List.foldlM_cons]
  unfold cholRow
  change ((Option.map _ (List.foldlM _ _ (rng 1 0 1)) : Option (Mat (IE binary64 fl) 1 1)) >>= _) = _
  rw [show rng 1 0 1 = [0] by decide, List.foldlM_cons]
  unfold cholEntry
  change ((Option.map _ ((if (IE.num 1 : IE binary64 fl) ≤ 0 then none else some (setE _ 0 0 (IE.sqrt (IE.num 1)))) >>= _) :
    Option (Mat (IE binary64 fl) 1 1)) >>= _) = _
  rw [if_neg h1, hs]
  refine congrArg some ?_
  funext i j
  fin_cases i; fin_cases j
  rfl

/-- The matrix of the failing case: finite, symmetric, and not positive semidefinite. -/
noncomputable def stray : Mat ℝ 3 3 := ![![2 ^ (-1074 : ℤ), 0, 2 ^ (1000 : ℤ)], ![0, 1, 0], ![2 ^ (1000 : ℤ), 0, 1]]

/-- **C160** fails: a finite symmetric matrix that is not positive definite, as a 2 × 2 minor is negative, is accepted, with NaN in the factor: the
product of an infinite entry and zero is NaN, and the test for a pivot that is not positive lets NaN pass. -/
theorem C160_fails (h : Rounds binary64 fl) :
    (∀ i j, Finite binary64 (stray i j)) ∧ (∀ i j, stray i j = stray j i) ∧ stray 0 0 * stray 2 2 - stray 0 2 * stray 2 0 < 0 ∧
      ∃ L, cholesky IE.sqrt (fun i j => (IE.num (stray i j) : IE binary64 fl)) = some L ∧ L 2 1 = IE.nan ∧ L 2 2 = IE.nan := by
  have pw : ∀ e : ℤ, -1074 ≤ e → e < 1024 → Finite binary64 (2 ^ e) := by
    intro e h1 h2
    refine ⟨onGrid_pow (by decide) h1, ?_⟩
    rw [abs_of_pos (by positivity)]
    exact zpow_lt_zpow_right₀ (by norm_num) h2
  have f0 : Finite binary64 0 := ⟨onGrid_zero, by rw [abs_zero]; positivity⟩
  have f1 : Finite binary64 1 := by simpa using pw 0 (by norm_num) (by norm_num)
  have real : ∀ x, Finite binary64 x → (IE.ofReal x : IE binary64 fl) = IE.num x := by
    intro x hx
    rw [ofReal_num (by rw [h.fix hx.1]; exact hx.2), h.fix hx.1]
  refine ⟨?_, ?_, ?_, ?_⟩
  · intro i j
    fin_cases i <;> fin_cases j
    · exact pw (-1074) (by norm_num) (by norm_num)
    · exact f0
    · exact pw 1000 (by norm_num) (by norm_num)
    · exact f0
    · exact f1
    · exact f0
    · exact pw 1000 (by norm_num) (by norm_num)
    · exact f0
    · exact f1
  · intro i j
    fin_cases i <;> fin_cases j <;> rfl
  · show (2 : ℝ) ^ (-1074 : ℤ) * 1 - 2 ^ (1000 : ℤ) * 2 ^ (1000 : ℤ) < 0
    have h1 : (2 : ℝ) ^ (-1074 : ℤ) ≤ 2 ^ (0 : ℤ) := zpow_le_zpow_right₀ (by norm_num) (by norm_num)
    have h2 : (2 : ℝ) ^ (0 : ℤ) < 2 ^ (1000 + 1000 : ℤ) := zpow_lt_zpow_right₀ (by norm_num) (by norm_num)
    rw [← zpow_add₀ (by norm_num), mul_one, sub_neg]
    exact h1.trans_lt h2
  · set A : Mat (IE binary64 fl) 3 3 := fun i j => IE.num (stray i j) with hA
    have entry : ∀ (l : Mat (IE binary64 fl) 3 3) (i j : Fin 3), j ≠ i →
        cholEntry IE.sqrt A i l j = some (setE l i j (cholRest A l i j / l j j)) := by
      intro l i j hij
      unfold cholEntry
      dsimp only
      rw [if_neg hij.symm]; rfl
    have diag : ∀ (l : Mat (IE binary64 fl) 3 3) (i : Fin 3), ¬ cholRest A l i i ≤ 0 →
        cholEntry IE.sqrt A i l i = some (setE l i i (IE.sqrt (cholRest A l i i))) := by
      intro l i hi
      unfold cholEntry
      dsimp only
      rw [if_pos rfl]
      exact if_neg hi
    have r1 : rng 3 0 1 = [0] := by decide
    have r2 : rng 3 0 2 = [0, 1] := by decide
    have r3 : rng 3 0 3 = [0, 1, 2] := by decide
    have s1 : rng 3 1 3 = [1, 2] := by decide
    have s2 : rng 3 2 3 = [2] := by decide
    have s3 : rng 3 3 3 = [] := by decide
    have r0 : rng 3 0 0 = [] := by decide
    have root : IE.sqrt (IE.num (2 ^ (-1074 : ℤ)) : IE binary64 fl) = IE.num (2 ^ (-537 : ℤ)) := by
      rw [sqrt_num (by positivity), show (2 : ℝ) ^ (-1074 : ℤ) = 2 ^ (-537 : ℤ) * 2 ^ (-537 : ℤ) by rw [← zpow_add₀ (by norm_num)]; norm_num,
        Real.sqrt_mul_self (by positivity), real _ (pw _ (by norm_num) (by norm_num))]
    have row0 : ∃ l1, cholRow IE.sqrt A (zeros 3 3) 0 = some l1 ∧ l1 0 0 = IE.num (2 ^ (-537 : ℤ)) := by
      have e : cholRest A (zeros 3 3) 0 0 = IE.num (2 ^ (-1074 : ℤ)) := rfl
      unfold cholRow
      change ∃ l1, Option.map _ (List.foldlM _ _ (rng 3 0 1)) = some l1 ∧ _
      rw [r1, List.foldlM_cons, diag _ _ (by rw [e]; exact not_le.2 (show (0 : ℝ) < 2 ^ (-1074 : ℤ) by positivity))]
      refine ⟨_, rfl, ?_⟩
      change (List.foldl _ _ (rng 3 1 3) : Mat (IE binary64 fl) 3 3) 0 0 = _
      rw [s1, e, root]
      rfl
    have row1 : ∀ l : Mat (IE binary64 fl) 3 3, l 0 0 = IE.num (2 ^ (-537 : ℤ)) →
        ∃ l', cholRow IE.sqrt A l 1 = some l' ∧ l' 0 0 = IE.num (2 ^ (-537 : ℤ)) ∧ l' 1 0 = IE.num 0 ∧ l' 1 1 = IE.num 1 := by
      intro l hl
      have e0 : cholRest A l 1 0 / l 0 0 = IE.num 0 := by
        change IE.num 0 / l 0 0 = _
        rw [hl, div_num _ (by positivity), zero_div, real 0 f0]
      have e1 : cholRest A (setE l 1 0 (IE.num 0)) 1 1 = IE.num 1 := by
        unfold cholRest
        change List.foldl _ _ (rng 3 0 1) = _
        rw [r1]
        change IE.num 1 - IE.num 0 * IE.num 0 = _
        rw [zero_mul_zero h, sub_num, neg_zero, add_zero, real 1 f1]
      unfold cholRow
      change ∃ l1, Option.map _ (List.foldlM _ _ (rng 3 0 2)) = some l1 ∧ _
      rw [r2, List.foldlM_cons, entry _ _ _ (by decide), e0]
      simp only [Option.bind_eq_bind, Option.bind_some]
      rw [List.foldlM_cons, diag _ _ (by rw [e1]; exact not_le.2 (show (0 : ℝ) < 1 by norm_num)), e1]
      refine ⟨_, rfl, ?_⟩
      change (List.foldl _ _ (rng 3 2 3) : Mat (IE binary64 fl) 3 3) 0 0 = _ ∧ (List.foldl _ _ (rng 3 2 3) : Mat (IE binary64 fl) 3 3) 1 0 = _ ∧ (List.foldl _ _ (rng 3 2 3) : Mat (IE binary64 fl) 3 3) 1 1 = _
      rw [s2, sqrt_num (by norm_num), Real.sqrt_one, real 1 f1]
      exact ⟨hl, rfl, rfl⟩
    have row2 : ∀ l : Mat (IE binary64 fl) 3 3, l 0 0 = IE.num (2 ^ (-537 : ℤ)) → l 1 0 = IE.num 0 → l 1 1 = IE.num 1 →
        ∃ l', cholRow IE.sqrt A l 2 = some l' ∧ l' 2 1 = IE.nan ∧ l' 2 2 = IE.nan := by
      intro l h00 h10 h11
      have e0 : cholRest A l 2 0 / l 0 0 = IE.inf false := by
        change IE.num (2 ^ (1000 : ℤ)) / l 0 0 = _
        rw [h00, div_num _ (by positivity), ← zpow_sub₀ (by norm_num)]
        have hb : ¬ |fl (2 ^ (1000 - -537 : ℤ))| < 2 ^ binary64.emax := by
          rw [h.fix (onGrid_pow (by decide) (by decide)), abs_of_pos (by positivity), not_lt]
          exact zpow_le_zpow_right₀ (by norm_num) (by decide)
        unfold IE.ofReal
        rw [if_neg hb, decide_eq_false (not_lt.2 (by positivity))]
      have e1 : cholRest A (setE l 2 0 (IE.inf false)) 2 1 / setE l 2 0 (IE.inf false) 1 1 = IE.nan := by
        unfold cholRest
        change List.foldl _ _ (rng 3 0 1) / _ = _
        rw [r1]
        change (IE.num 0 - IE.inf false * l 1 0) / _ = _
        have : (IE.inf false * IE.num 0 : IE binary64 fl) = IE.nan := if_pos rfl
        rw [h10, this, sub_nan, nan_div]
      have e2 : cholRest A (setE (setE l 2 0 (IE.inf false)) 2 1 IE.nan) 2 2 = IE.nan := by
        unfold cholRest
        change List.foldl _ _ (rng 3 0 2) = _
        rw [r2]
        change IE.num 1 - IE.inf false * IE.inf false - IE.nan * IE.nan = _
        rw [nan_mul, sub_nan]
      unfold cholRow
      change ∃ l1, Option.map _ (List.foldlM _ _ (rng 3 0 3)) = some l1 ∧ _
      rw [r3, List.foldlM_cons, entry _ _ _ (by decide), e0]
      simp only [Option.bind_eq_bind, Option.bind_some]
      rw [List.foldlM_cons, entry _ _ _ (by decide), e1]
      simp only [Option.bind_eq_bind, Option.bind_some]
      rw [List.foldlM_cons, diag _ _ (by rw [e2]; exact nan_le _), e2]
      refine ⟨_, rfl, ?_⟩
      change (List.foldl _ _ (rng 3 3 3) : Mat (IE binary64 fl) 3 3) 2 1 = _ ∧ (List.foldl _ _ (rng 3 3 3) : Mat (IE binary64 fl) 3 3) 2 2 = _
      rw [s3]
      exact ⟨rfl, rfl⟩
    obtain ⟨l1, c1, a1⟩ := row0
    obtain ⟨l2, c2, b1, b2, b3⟩ := row1 l1 a1
    obtain ⟨l3, c3, d1, d2⟩ := row2 l2 b1 b2 b3
    refine ⟨l3, ?_, d1, d2⟩
    unfold cholesky
    rw [r3, List.foldlM_cons, c1]
    simp only [Option.bind_eq_bind, Option.bind_some]
    rw [List.foldlM_cons, c2]
    simp only [Option.bind_eq_bind, Option.bind_some]
    rw [List.foldlM_cons, c3]
    rfl

end Verif.Ieee
