import Mathlib.Algebra.Order.Field.Basic
import Mathlib.Algebra.Module.Basic
import Mathlib.Data.Real.Basic
import Mathlib.Data.List.Range

/-!
# Model of `aether_interp`

Scalars are real numbers. An array `[f64; N]` is `N` together with a function `ℕ → ℝ` of which only the entries
below `N` belong to the array; the segment search reads it through `rd`, which is `none` (a panic) past the end.
-/

namespace Verif.Interp

/-- `f64::EPSILON`. -/
noncomputable def eps : ℝ := 2⁻¹ ^ 52

/-- `crates/aether_interp/src/lerp.rs:8-13` `lerp`, for every type with the operators the code asks for
(scalars, vectors). -/
def lerp {E : Type*} [AddCommGroup E] [Module ℝ E] (a b : E) (t : ℝ) : E := a + t • (b - a)

/-- `lerp.rs:17-24` `inverse_lerp`. -/
noncomputable def inverseLerp (a b value : ℝ) : ℝ :=
  let denom := b - a
  if |denom| ≤ eps then 0 else (value - a) / denom

/-- `lerp.rs:28-30` `remap`. -/
noncomputable def remap (value inA inB outA outB : ℝ) : ℝ := lerp outA outB (inverseLerp inA inB value)

/-! ## Polynomial interpolation -/

/-- `polynomial.rs:5-9` `PolynomialInterpolator`. -/
structure Poly where
  xs : ℕ → ℝ
  ys : ℕ → ℝ
  weights : ℕ → ℝ

/-- `polynomial.rs:20-29`: the inner loop over `k`, for one `j`; `none` is the early `Err`. -/
noncomputable def weightLoop (xs : ℕ → ℝ) (j : ℕ) : List ℕ → ℝ → Option ℝ
  | [], w => some w
  | k :: ks, w =>
    if j = k then weightLoop xs j ks w
    else
      let diff := xs j - xs k
      if |diff| ≤ eps then none else weightLoop xs j ks (w / diff)

/-- `polynomial.rs:19-30`: the outer loop over `j`. -/
noncomputable def weightsLoop (xs : ℕ → ℝ) (n : ℕ) : List ℕ → (ℕ → ℝ) → Option (ℕ → ℝ)
  | [], w => some w
  | j :: js, w => do
    let wj ← weightLoop xs j (List.range n) (w j)
    weightsLoop xs n js (Function.update w j wj)

/-- `polynomial.rs:13-33` `new`; `none` is `Err`. -/
noncomputable def Poly.new (n : ℕ) (xs ys : ℕ → ℝ) : Option Poly :=
  if n = 0 then none
  else do
    let w ← weightsLoop xs n (List.range n) (fun _ => 1)
    some ⟨xs, ys, w⟩

/-- `polynomial.rs:37-41`: the first node within the tolerance. -/
noncomputable def nodeLoop (p : Poly) (x : ℝ) : List ℕ → Option ℝ
  | [] => none
  | i :: is => if |x - p.xs i| ≤ eps then some (p.ys i) else nodeLoop p x is

/-- `polynomial.rs:36-51` `evaluate`. -/
noncomputable def Poly.evaluate (n : ℕ) (p : Poly) (x : ℝ) : ℝ :=
  match nodeLoop p x (List.range n) with
  | some y => y
  | none =>
    let s := (List.range n).foldl (fun s i =>
      let term := p.weights i / (x - p.xs i)
      (s.1 + term * p.ys i, s.2 + term)) ((0, 0) : ℝ × ℝ)
    s.1 / s.2

/-! ## Cubic spline -/

/-- `spline.rs:5-9` `CubicSpline`. -/
structure Spline where
  xs : ℕ → ℝ
  ys : ℕ → ℝ
  sd : ℕ → ℝ

/-- `spline.rs:27-36`: one pass of the forward loop on `(second_derivatives, u)`. -/
noncomputable def forwardStep (xs ys : ℕ → ℝ) (s : (ℕ → ℝ) × (ℕ → ℝ)) (i : ℕ) : (ℕ → ℝ) × (ℕ → ℝ) :=
  let sig := (xs i - xs (i - 1)) / (xs (i + 1) - xs (i - 1))
  let p := sig * s.1 (i - 1) + 2
  let sd := Function.update s.1 i ((sig - 1) / p)
  let ddydx := (ys (i + 1) - ys i) / (xs (i + 1) - xs i) - (ys i - ys (i - 1)) / (xs i - xs (i - 1))
  (sd, Function.update s.2 i ((6 * ddydx / (xs (i + 1) - xs (i - 1)) - sig * s.2 (i - 1)) / p))

/-- `spline.rs:38-40`: one pass of the backward loop. -/
noncomputable def backwardStep (u : ℕ → ℝ) (sd : ℕ → ℝ) (k : ℕ) : ℕ → ℝ :=
  Function.update sd k (sd k * sd (k + 1) + u k)

/-- `spline.rs:13-45` `new`; `none` is `Err`. -/
noncomputable def Spline.new (n : ℕ) (xs ys : ℕ → ℝ) : Option Spline :=
  if n < 2 then none
  else if (List.range (n - 1)).any (fun i => decide (xs (i + 1) ≤ xs i)) then none
  else
    let f := (List.range' 1 (n - 2)).foldl (forwardStep xs ys) (fun _ => 0, fun _ => 0)
    let sd := (List.range (n - 1)).reverse.foldl (backwardStep f.2) f.1
    some ⟨xs, ys, sd⟩

/-- Checked read of an array of length `n`. -/
def rd (n : ℕ) (xs : ℕ → ℝ) (i : ℕ) : Option ℝ := if i < n then some (xs i) else none

/-- `spline.rs:80-87`: the search loop. -/
noncomputable def searchLoop (n : ℕ) (xs : ℕ → ℝ) (x : ℝ) (lo hi : ℕ) : Option ℕ :=
  if _h : lo + 1 < hi then do
    let v ← rd n xs ((lo + hi) / 2)
    if v ≤ x then searchLoop n xs x ((lo + hi) / 2) hi else searchLoop n xs x lo ((lo + hi) / 2)
  else some lo
termination_by hi - lo
decreasing_by all_goals omega

/-- `spline.rs:70-89` `segment_index`; `none` is a panic. -/
noncomputable def segmentIndex (n : ℕ) (xs : ℕ → ℝ) (x : ℝ) : Option ℕ := do
  if x ≤ (← rd n xs 0) then return 0
  if x ≥ (← rd n xs (n - 1)) then return (n - 2)
  searchLoop n xs x 0 (n - 1)

/-- `spline.rs:51-64`: the cubic of segment `idx`. -/
noncomputable def Spline.piece (s : Spline) (idx : ℕ) (x : ℝ) : ℝ :=
  let x0 := s.xs idx
  let x1 := s.xs (idx + 1)
  let y0 := s.ys idx
  let y1 := s.ys (idx + 1)
  let m0 := s.sd idx
  let m1 := s.sd (idx + 1)
  let h := x1 - x0
  let a := (x1 - x) / h
  let b := (x - x0) / h
  a * y0 + b * y1 + ((a * a * a - a) * m0 + (b * b * b - b) * m1) * (h * h / 6)

/-- `spline.rs:50-65` `evaluate`; `none` is a panic (the reads at `idx` and `idx + 1` are checked). -/
noncomputable def Spline.evaluate (n : ℕ) (s : Spline) (x : ℝ) : Option ℝ := do
  let idx ← segmentIndex n s.xs x
  let _ ← rd n s.xs idx
  let _ ← rd n s.xs (idx + 1)
  return s.piece idx x

end Verif.Interp
