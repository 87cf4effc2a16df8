import Verif.Tools.Grid
import Mathlib.Tactic.Linarith
import Mathlib.Tactic.NormNum
import Mathlib.Tactic.FieldSimp
import Mathlib.Tactic.Ring
import Mathlib.Algebra.Order.Group.Abs
import Mathlib.Data.Rat.Floor

/-!
# C108: the grid covers the range in equal steps
-/

namespace Verif.Tools

variable {K : Type} [Field K] [LinearOrder K] [IsStrictOrderedRing K] [FloorRing K]

theorem roundAway_near (x : K) (n : Int) (h : |x - n| < 1 / 2) : roundAway x = n := by
  obtain ⟨h1, h2⟩ := abs_lt.1 h
  unfold roundAway
  by_cases h0 : 0 ≤ x
  · rw [if_pos h0, Int.floor_eq_iff]
    constructor <;> linarith
  · rw [if_neg h0]
    have : ⌊-x + 1 / 2⌋ = -n := by
      rw [Int.floor_eq_iff]
      push_cast
      constructor <;> linarith
    rw [this, neg_neg]

/-- The values the additions give. -/
def iterAdd (add : K → K → K) (step : K) (v : K) : Nat → K
  | 0 => v
  | k + 1 => add (iterAdd add step v k) step

omit [Field K] [LinearOrder K] [IsStrictOrderedRing K] [FloorRing K] in
theorem iterAdd_succ (add : K → K → K) (step v : K) (k : Nat) : iterAdd add step v (k + 1) = iterAdd add step (add v step) k := by
  induction k with
  | zero => rfl
  | succ k ih => rw [iterAdd, ih]; rfl

omit [FloorRing K] in
theorem iterAdd_error (add : K → K → K) (step v ε : K) (hadd : ∀ v, |add v step - (v + step)| ≤ ε) (k : Nat) :
    |iterAdd add step v k - (v + k * step)| ≤ k * ε := by
  induction k with
  | zero => simp [iterAdd]
  | succ k ih =>
    have e : iterAdd add step v (k + 1) - (v + ((k + 1 : Nat) : K) * step) =
        (add (iterAdd add step v k) step - (iterAdd add step v k + step)) + (iterAdd add step v k - (v + k * step)) := by
      simp only [iterAdd]
      push_cast
      ring
    rw [e]
    refine (abs_add_le _ _).trans ?_
    push_cast
    linarith [hadd (iterAdd add step v k)]

omit [IsStrictOrderedRing K] in
theorem gridLoop_eq (add : K → K → K) (maxValue step : K) (n : Nat) (v : K)
    (hin : ∀ k < n, iterAdd add step v k ≤ maxValue + 1 / 10 ^ 9) (hout : ¬iterAdd add step v n ≤ maxValue + 1 / 10 ^ 9)
    (fuel : Nat) (hf : n < fuel) :
    gridLoop add maxValue step fuel v =
      some ((List.range n).map fun k => (roundAway (iterAdd add step v k * 10 ^ 6) : K) / 10 ^ 6) := by
  induction n generalizing v fuel with
  | zero =>
    obtain ⟨fuel, rfl⟩ : ∃ f, fuel = f + 1 := ⟨fuel - 1, by omega⟩
    rw [gridLoop, if_neg (by simpa [iterAdd] using hout)]
    rfl
  | succ n ih =>
    obtain ⟨fuel, rfl⟩ : ∃ f, fuel = f + 1 := ⟨fuel - 1, by omega⟩
    rw [gridLoop, if_pos (by simpa [iterAdd] using hin 0 (by omega))]
    rw [ih (add v step) (fun k hk => by rw [← iterAdd_succ]; exact hin (k + 1) (by omega)) (by rwa [← iterAdd_succ]) fuel (by omega)]
    rw [List.range_succ_eq_map]
    simp only [Option.map_some, List.map_cons, List.map_map, Option.some.injEq, List.cons.injEq]
    refine ⟨rfl, List.map_congr_left fun k _ => ?_⟩
    simp only [Function.comp_apply, Nat.succ_eq_add_one, iterAdd_succ]

/-- C108. For a range and a step in whole millionths of a degree (`p`, `q` and `s` millionths) and additions whose errors add up to less
than `10^-9`, the grid is: the lower end and the points at multiples of the step above it, as far as they are below the upper end, without
error, and then the upper end. The loop ends. -/
theorem C108_grid_partial (add : K → K → K) (p q s : Int) (hpq : p ≤ q) (hs : 0 < s) (ε : K)
    (hadd : ∀ v, |add v ((s : K) / 10 ^ 6) - (v + (s : K) / 10 ^ 6)| ≤ ε) (hε : ((q - p) / s + 1 : Int) * ε < 1 / 10 ^ 9) :
    ∃ n : Nat, ∀ fuel, n + 2 ≤ fuel →
      gridValues add fuel ((p : K) / 10 ^ 6) ((q : K) / 10 ^ 6) ((s : K) / 10 ^ 6) =
        some ((List.range n).map (fun k : Nat => (p : K) / 10 ^ 6 + k * ((s : K) / 10 ^ 6)) ++ [(q : K) / 10 ^ 6]) ∧
      (∀ k < n, (p : K) / 10 ^ 6 + k * ((s : K) / 10 ^ 6) < (q : K) / 10 ^ 6) ∧
      (q : K) / 10 ^ 6 ≤ (p : K) / 10 ^ 6 + n * ((s : K) / 10 ^ 6) := by
  have hε0 : 0 ≤ ε := (abs_nonneg _).trans (hadd 0)
  -- the number of steps that stay in the range
  obtain ⟨m, hm⟩ : ∃ m : Nat, (m : Int) = (q - p) / s := ⟨((q - p) / s).toNat, Int.toNat_of_nonneg (Int.ediv_nonneg (by omega) hs.le)⟩
  have hle : p + m * s ≤ q := by rw [hm]; have := Int.ediv_mul_le (q - p) hs.ne'; linarith
  have hlt : q < p + (m + 1) * s := by rw [hm]; have := Int.lt_ediv_add_one_mul_self (q - p) hs; linarith
  have hε' : ((m : K) + 1) * ε < 1 / 10 ^ 9 := by
    rw [← hm] at hε
    exact_mod_cast hε
  have herr : ∀ k : Nat, k ≤ m + 1 → |iterAdd add ((s : K) / 10 ^ 6) ((p : K) / 10 ^ 6) k - ((p + k * s : Int) : K) / 10 ^ 6| < 1 / 10 ^ 9 := by
    intro k hk
    have h1 := iterAdd_error add ((s : K) / 10 ^ 6) ((p : K) / 10 ^ 6) ε hadd k
    have e : (p : K) / 10 ^ 6 + k * ((s : K) / 10 ^ 6) = ((p + k * s : Int) : K) / 10 ^ 6 := by
      push_cast
      ring
    rw [e] at h1
    refine h1.trans_lt (lt_of_le_of_lt ?_ hε')
    have : (k : K) ≤ m + 1 := by exact_mod_cast hk
    exact mul_le_mul_of_nonneg_right this hε0
  have hin : ∀ k < m + 1, iterAdd add ((s : K) / 10 ^ 6) ((p : K) / 10 ^ 6) k ≤ (q : K) / 10 ^ 6 + 1 / 10 ^ 9 := by
    intro k hk
    have h1 := (abs_lt.1 (herr k (by omega))).2
    have h2 : ((p + k * s : Int) : K) ≤ q := by
      have : (k : Int) * s ≤ m * s := mul_le_mul_of_nonneg_right (by omega) hs.le
      exact_mod_cast (by omega : p + k * s ≤ q)
    have h3 : ((p + k * s : Int) : K) / 10 ^ 6 ≤ (q : K) / 10 ^ 6 := div_le_div_of_nonneg_right h2 (by positivity)
    linarith
  have hout : ¬iterAdd add ((s : K) / 10 ^ 6) ((p : K) / 10 ^ 6) (m + 1) ≤ (q : K) / 10 ^ 6 + 1 / 10 ^ 9 := by
    have h1 := (abs_lt.1 (herr (m + 1) le_rfl)).1
    have h2 : (q : K) + 1 ≤ ((p + (m + 1 : Nat) * s : Int) : K) := by
      push_cast
      exact_mod_cast (by push_cast; omega : q + 1 ≤ p + ((m + 1 : Nat) : Int) * s)
    have h3 : ((q : K) + 1) / 10 ^ 6 ≤ ((p + (m + 1 : Nat) * s : Int) : K) / 10 ^ 6 := div_le_div_of_nonneg_right h2 (by positivity)
    have h4 : ((q : K) + 1) / 10 ^ 6 = (q : K) / 10 ^ 6 + 1 / 10 ^ 6 := by ring
    have h5 : (1 : K) / 10 ^ 9 + 1 / 10 ^ 9 < 1 / 10 ^ 6 := by norm_num
    rw [h4] at h3
    intro hc
    linarith
  have hval : ∀ k ≤ m, (roundAway (iterAdd add ((s : K) / 10 ^ 6) ((p : K) / 10 ^ 6) k * 10 ^ 6) : K) / 10 ^ 6 =
      (p : K) / 10 ^ 6 + k * ((s : K) / 10 ^ 6) := by
    intro k hk
    rw [roundAway_near _ (p + k * s)]
    · push_cast
      ring
    · have h1 := herr k (by omega)
      have e : iterAdd add ((s : K) / 10 ^ 6) ((p : K) / 10 ^ 6) k * 10 ^ 6 - ((p + k * s : Int) : K) =
          (iterAdd add ((s : K) / 10 ^ 6) ((p : K) / 10 ^ 6) k - ((p + k * s : Int) : K) / 10 ^ 6) * 10 ^ 6 := by
        field_simp
      rw [e, abs_mul, abs_of_pos (by positivity : (0 : K) < 10 ^ 6)]
      calc _ < (1 : K) / 10 ^ 9 * 10 ^ 6 := mul_lt_mul_of_pos_right h1 (by positivity)
        _ < 1 / 2 := by norm_num
  have hloop : ∀ fuel, m + 1 < fuel → gridLoop add ((q : K) / 10 ^ 6) ((s : K) / 10 ^ 6) fuel ((p : K) / 10 ^ 6) =
      some ((List.range (m + 1)).map fun k : Nat => (p : K) / 10 ^ 6 + k * ((s : K) / 10 ^ 6)) := by
    intro fuel hf
    rw [gridLoop_eq add _ _ (m + 1) _ hin hout fuel hf]
    refine congrArg some (List.map_congr_left fun k hk => hval k ?_)
    have := List.mem_range.1 hk
    omega
  have hsK : (0 : K) < (s : K) / 10 ^ 6 := div_pos (by exact_mod_cast hs) (by positivity)
  have hlast : ((p + m * s : Int) : K) / 10 ^ 6 = (p : K) / 10 ^ 6 + m * ((s : K) / 10 ^ 6) := by push_cast; ring
  by_cases heq : p + m * s = q
  · refine ⟨m, fun fuel hf => ⟨?_, ?_, ?_⟩⟩
    · rw [gridValues, hloop fuel (by omega)]
      simp only [Option.map_some, List.range_succ, List.map_append, List.map_cons, List.map_nil, List.getLast?_append,
        List.getLast?_singleton, Option.some_or, List.dropLast_concat, ← hlast, heq, sub_self, abs_zero]
      rw [if_neg (by norm_num)]
    · intro k hk
      rw [← heq, hlast]
      have : (k : K) < m := by exact_mod_cast hk
      linarith [mul_lt_mul_of_pos_right this hsK]
    · rw [← heq, hlast]
  · have hlt' : p + m * s + 1 ≤ q := by omega
    refine ⟨m + 1, fun fuel hf => ⟨?_, ?_, ?_⟩⟩
    · rw [gridValues, hloop fuel (by omega)]
      have hgap : (1 : K) / 10 ^ 9 < |(p : K) / 10 ^ 6 + m * ((s : K) / 10 ^ 6) - (q : K) / 10 ^ 6| := by
        rw [← hlast, abs_sub_comm]
        have h2 : ((p + m * s : Int) : K) + 1 ≤ q := by exact_mod_cast hlt'
        have h3 := div_le_div_of_nonneg_right h2 (by positivity : (0 : K) ≤ 10 ^ 6)
        have h4 : (((p + m * s : Int) : K) + 1) / 10 ^ 6 = ((p + m * s : Int) : K) / 10 ^ 6 + 1 / 10 ^ 6 := by ring
        rw [h4] at h3
        have h5 : (1 : K) / 10 ^ 9 < 1 / 10 ^ 6 := by norm_num
        refine lt_of_lt_of_le h5 (le_trans ?_ (le_abs_self _))
        linarith
      simp only [Option.map_some, List.range_succ, List.map_append, List.map_cons, List.map_nil, List.getLast?_append,
        List.getLast?_singleton, Option.some_or]
      rw [if_pos hgap]
    · intro k hk
      have h1 : (k : K) * ((s : K) / 10 ^ 6) ≤ m * ((s : K) / 10 ^ 6) :=
        mul_le_mul_of_nonneg_right (by exact_mod_cast (by omega : k ≤ m)) hsK.le
      have h2 : ((p + m * s : Int) : K) < q := by exact_mod_cast (by omega : p + m * s < q)
      have h3 := div_lt_div_of_pos_right h2 (by positivity : (0 : K) < 10 ^ 6)
      rw [hlast] at h3
      linarith
    · have h2 : (q : K) ≤ ((p + (m + 1 : Nat) * s : Int) : K) := by
        exact_mod_cast (by push_cast; omega : q ≤ p + ((m + 1 : Nat) : Int) * s)
      have h3 := div_le_div_of_nonneg_right h2 (by positivity : (0 : K) ≤ 10 ^ 6)
      have h4 : ((p + (m + 1 : Nat) * s : Int) : K) / 10 ^ 6 = (p : K) / 10 ^ 6 + (m + 1 : Nat) * ((s : K) / 10 ^ 6) := by push_cast; ring
      rwa [h4] at h3

/-- C108_grid_partial: the default latitudes, −89 to 89 in steps of 5, have 37 points; errors up to `10^-13` per addition are allowed. -/
example : (((89000000 - (-89000000)) / 5000000 + 1 : Int) : ℚ) * (1 / 10 ^ 13) < 1 / 10 ^ 9 ∧
    ((gridValues (fun a b : ℚ => a + b) 50 (-89) 89 5).map fun l => (l.length, l.head?, l.getLast?)) = some (37, some (-89), some 89) ∧
    gridValues (fun a b : ℚ => a + b) 50 (-1) 1 (3 / 4) = some [-1, -1 / 4, 1 / 2, 1] := by
  refine ⟨by norm_num, by decide +kernel, by decide +kernel⟩

/-- C108 in full is not met: when the range is not in whole millionths, a grid point is outside the range. For −89.9999996 to 89.9999996,
which the program accepts because it is less than 90, the first latitude is the pole. -/
theorem C108_fails :
    (gridValues (fun a b : ℚ => a + b) 50 (-899999996 / 10 ^ 7) (899999996 / 10 ^ 7) 5).map (fun l => l.head?) = some (some (-90)) := by
  decide +kernel

/-- C108 in full is not met: nor do the points increase then. -/
theorem C108_order_fails : gridValues (fun a b : ℚ => a + b) 50 0 (7 / 10 ^ 7) (7 / 10 ^ 7) = some [0, 1 / 10 ^ 6, 7 / 10 ^ 7] := by
  decide +kernel

end Verif.Tools
