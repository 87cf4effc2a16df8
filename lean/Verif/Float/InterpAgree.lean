import Verif.Float.Interp
import Verif.Interp.Model

/-! # Over the reals the generic interpolation is that of `Verif/Interp/Model.lean` -/

namespace Verif.Float

open Classical

theorem eps_real : (eps : ℝ) = Interp.eps := rfl

theorem weightLoop_real (xs : ℕ → ℝ) (j : ℕ) : ∀ (l : List ℕ) (w : ℝ), weightLoop xs j l w = Interp.weightLoop xs j l w
  | [], _ => rfl
  | k :: ks, w => by
    unfold weightLoop Interp.weightLoop
    dsimp only
    rw [eps_real]
    by_cases h : j = k
    · rw [if_pos h, if_pos h]
      exact weightLoop_real xs j ks w
    · rw [if_neg h, if_neg h]
      by_cases h2 : |xs j - xs k| ≤ Interp.eps
      · rw [if_pos (show Scalar.le (Scalar.abs (xs j - xs k)) Interp.eps from h2), if_pos h2]
      · rw [if_neg (show ¬ Scalar.le (Scalar.abs (xs j - xs k)) Interp.eps from h2), if_neg h2]
        exact weightLoop_real xs j ks _

theorem weightsLoop_real (xs : ℕ → ℝ) (n : ℕ) : ∀ (l : List ℕ) (w : ℕ → ℝ),
    weightsLoop xs n l w = Interp.weightsLoop xs n l w
  | [], _ => rfl
  | j :: js, w => by
    unfold weightsLoop Interp.weightsLoop
    rw [weightLoop_real]
    congr 1
    funext wj
    exact weightsLoop_real xs n js _

/-- Over the reals. -/
theorem polyNew_real (n : ℕ) (xs ys : ℕ → ℝ) :
    Poly.new n xs ys = (Interp.Poly.new n xs ys).map fun p => ⟨p.xs, p.ys, p.weights⟩ := by
  unfold Poly.new Interp.Poly.new
  by_cases h : n = 0
  · rw [if_pos h, if_pos h, Option.map_none]
  · rw [if_neg h, if_neg h]
    rw [show (weightsLoop xs n (List.range n) fun _ => 1) = _ from weightsLoop_real xs n _ _]
    cases Interp.weightsLoop xs n (List.range n) (fun _ => 1) <;> rfl

theorem nodeLoop_real (p : Interp.Poly) (x : ℝ) : ∀ l : List ℕ,
    nodeLoop ⟨p.xs, p.ys, p.weights⟩ x l = Interp.nodeLoop p x l
  | [] => rfl
  | i :: is => by
    unfold nodeLoop Interp.nodeLoop
    rw [eps_real]
    by_cases h2 : |x - p.xs i| ≤ Interp.eps
    · rw [if_pos (show Scalar.le (Scalar.abs (x - p.xs i)) Interp.eps from h2), if_pos h2]
    · rw [if_neg (show ¬ Scalar.le (Scalar.abs (x - p.xs i)) Interp.eps from h2), if_neg h2]
      exact nodeLoop_real p x is

/-- Over the reals. -/
theorem polyEvaluate_real (n : ℕ) (p : Interp.Poly) (x : ℝ) :
    Poly.evaluate n ⟨p.xs, p.ys, p.weights⟩ x = p.evaluate n x := by
  unfold Poly.evaluate Interp.Poly.evaluate
  rw [nodeLoop_real]
  cases Interp.nodeLoop p x (List.range n) <;> rfl

/-- Over the reals. -/
theorem splineNew_real (n : ℕ) (xs ys : ℕ → ℝ) :
    Spline.new n xs ys = (Interp.Spline.new n xs ys).map fun s => ⟨s.xs, s.ys, s.sd⟩ := by
  unfold Spline.new Interp.Spline.new
  by_cases h : n < 2
  · rw [if_pos h, if_pos h, Option.map_none]
  · rw [if_neg h, if_neg h]
    have e : (List.range (n - 1)).any (fun i => decide (Scalar.le (xs (i + 1)) (xs i))) =
        (List.range (n - 1)).any (fun i => decide (xs (i + 1) ≤ xs i)) := by
      congr 1
    rw [e]
    by_cases h2 : (List.range (n - 1)).any (fun i => decide (xs (i + 1) ≤ xs i)) = true
    · rw [if_pos h2, if_pos h2, Option.map_none]
    · rw [if_neg h2, if_neg h2]
      rfl

theorem searchLoop_real (n : ℕ) (xs : ℕ → ℝ) (x : ℝ) : ∀ d lo hi, hi - lo ≤ d →
    searchLoop n xs x lo hi = Interp.searchLoop n xs x lo hi := by
  intro d
  induction d with
  | zero =>
    intro lo hi h
    rw [searchLoop, Interp.searchLoop, dif_neg (by omega), dif_neg (by omega)]
  | succ d ih =>
    intro lo hi h
    rw [searchLoop, Interp.searchLoop]
    by_cases hl : lo + 1 < hi
    · rw [dif_pos hl, dif_pos hl]
      show (rd n xs ((lo + hi) / 2) >>= _) = (Interp.rd n xs ((lo + hi) / 2) >>= _)
      have : rd n xs ((lo + hi) / 2) = Interp.rd n xs ((lo + hi) / 2) := rfl
      rw [this]
      congr 1
      funext v
      by_cases hv : v ≤ x
      · rw [if_pos (show Scalar.le v x from hv), if_pos hv]
        exact ih _ _ (by omega)
      · rw [if_neg (show ¬ Scalar.le v x from hv), if_neg hv]
        exact ih _ _ (by omega)
    · rw [dif_neg hl, dif_neg hl]

theorem segmentIndex_real (n : ℕ) (xs : ℕ → ℝ) (x : ℝ) : segmentIndex n xs x = Interp.segmentIndex n xs x := by
  unfold segmentIndex Interp.segmentIndex
  have e : ∀ i, rd n xs i = Interp.rd n xs i := fun _ => rfl
  rw [e, e, searchLoop_real n xs x _ _ _ le_rfl]
  congr 1

/-- Over the reals. -/
theorem splineEvaluate_real (n : ℕ) (s : Interp.Spline) (x : ℝ) :
    Spline.evaluate n ⟨s.xs, s.ys, s.sd⟩ x = s.evaluate n x := by
  unfold Spline.evaluate Interp.Spline.evaluate
  rw [segmentIndex_real]
  rfl

end Verif.Float
