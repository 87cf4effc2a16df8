import Verif.Float.Model

/-!
# Model of polynomial and spline interpolation over any scalar type

The code computes in `f64`. `Verif/Float/InterpAgree.lean` proves that over the reals these are the definitions of
`Verif/Interp/Model.lean`; over `CF fl lib` every operation is rounded and `none` stands for NaN or infinity.
-/

namespace Verif.Float

/-- Number literals. -/
class Lit (K : Type) where
  lit : ℝ → K

noncomputable instance : Lit ℝ := ⟨id⟩

/-- A literal is rounded. -/
noncomputable instance {fl : ℝ → ℝ} {lib : Libm} : Lit (CF fl lib) := ⟨fun x => CF.num (fl x)⟩

open Lit (lit)

variable {K : Type} [Scalar K] [Lit K]

open Classical

/-! ## Polynomial interpolation -/

/-- `aether_interp/src/polynomial.rs:5-9` `PolynomialInterpolator`. -/
structure Poly (K : Type) where
  xs : ℕ → K
  ys : ℕ → K
  weights : ℕ → K

/-- `f64::EPSILON`. -/
noncomputable def eps : K := lit (2⁻¹ ^ 52)

/-- `polynomial.rs:20-29`: the inner loop over `k`, for one `j`; `none` is the early `Err`. -/
noncomputable def weightLoop (xs : ℕ → K) (j : ℕ) : List ℕ → K → Option K
  | [], w => some w
  | k :: ks, w =>
    if j = k then weightLoop xs j ks w
    else
      let diff := xs j - xs k
      if Scalar.le (Scalar.abs diff) eps then none else weightLoop xs j ks (w / diff)

/-- `polynomial.rs:19-30`: the outer loop over `j`. -/
noncomputable def weightsLoop (xs : ℕ → K) (n : ℕ) : List ℕ → (ℕ → K) → Option (ℕ → K)
  | [], w => some w
  | j :: js, w => do
    let wj ← weightLoop xs j (List.range n) (w j)
    weightsLoop xs n js (Function.update w j wj)

/-- `polynomial.rs:13-33` `new`; `none` is `Err`. -/
noncomputable def Poly.new (n : ℕ) (xs ys : ℕ → K) : Option (Poly K) :=
  if n = 0 then none
  else do
    let w ← weightsLoop xs n (List.range n) (fun _ => 1)
    some ⟨xs, ys, w⟩

/-- `polynomial.rs:37-41`: the first node within the tolerance. -/
noncomputable def nodeLoop (p : Poly K) (x : K) : List ℕ → Option K
  | [] => none
  | i :: is => if Scalar.le (Scalar.abs (x - p.xs i)) eps then some (p.ys i) else nodeLoop p x is

/-- `polynomial.rs:36-51` `evaluate`. -/
noncomputable def Poly.evaluate (n : ℕ) (p : Poly K) (x : K) : K :=
  match nodeLoop p x (List.range n) with
  | some y => y
  | none =>
    let s := (List.range n).foldl (fun s i =>
      let term := p.weights i / (x - p.xs i)
      (s.1 + term * p.ys i, s.2 + term)) ((0, 0) : K × K)
    s.1 / s.2

/-! ## Cubic spline -/

/-- `aether_interp/src/spline.rs:5-9` `CubicSpline`. -/
structure Spline (K : Type) where
  xs : ℕ → K
  ys : ℕ → K
  sd : ℕ → K

/-- `spline.rs:27-36`: one pass of the forward loop on `(second_derivatives, u)`. -/
noncomputable def forwardStep (xs ys : ℕ → K) (s : (ℕ → K) × (ℕ → K)) (i : ℕ) : (ℕ → K) × (ℕ → K) :=
  let sig := (xs i - xs (i - 1)) / (xs (i + 1) - xs (i - 1))
  let p := sig * s.1 (i - 1) + lit 2
  let sd := Function.update s.1 i ((sig - lit 1) / p)
  let ddydx := (ys (i + 1) - ys i) / (xs (i + 1) - xs i) - (ys i - ys (i - 1)) / (xs i - xs (i - 1))
  (sd, Function.update s.2 i ((lit 6 * ddydx / (xs (i + 1) - xs (i - 1)) - sig * s.2 (i - 1)) / p))

/-- `spline.rs:38-40`: one pass of the backward loop. -/
noncomputable def backwardStep (u : ℕ → K) (sd : ℕ → K) (k : ℕ) : ℕ → K :=
  Function.update sd k (sd k * sd (k + 1) + u k)

/-- `spline.rs:13-45` `new`; `none` is `Err`. -/
noncomputable def Spline.new (n : ℕ) (xs ys : ℕ → K) : Option (Spline K) :=
  if n < 2 then none
  else if (List.range (n - 1)).any (fun i => decide (Scalar.le (xs (i + 1)) (xs i))) then none
  else
    let f := (List.range' 1 (n - 2)).foldl (forwardStep xs ys) (fun _ => 0, fun _ => 0)
    let sd := (List.range (n - 1)).reverse.foldl (backwardStep f.2) f.1
    some ⟨xs, ys, sd⟩

/-- Checked read of an array of length `n`. -/
def rd (n : ℕ) (xs : ℕ → K) (i : ℕ) : Option K := if i < n then some (xs i) else none

/-- `spline.rs:80-87`: the search loop. -/
noncomputable def searchLoop (n : ℕ) (xs : ℕ → K) (x : K) (lo hi : ℕ) : Option ℕ :=
  if _h : lo + 1 < hi then do
    let v ← rd n xs ((lo + hi) / 2)
    if Scalar.le v x then searchLoop n xs x ((lo + hi) / 2) hi else searchLoop n xs x lo ((lo + hi) / 2)
  else some lo
termination_by hi - lo
decreasing_by all_goals omega

/-- `spline.rs:70-89` `segment_index`; `none` is a panic. -/
noncomputable def segmentIndex (n : ℕ) (xs : ℕ → K) (x : K) : Option ℕ := do
  if Scalar.le x (← rd n xs 0) then return 0
  if Scalar.le (← rd n xs (n - 1)) x then return (n - 2)
  searchLoop n xs x 0 (n - 1)

/-- `spline.rs:51-64`: the cubic of segment `idx`. -/
noncomputable def Spline.piece (s : Spline K) (idx : ℕ) (x : K) : K :=
  let x0 := s.xs idx
  let x1 := s.xs (idx + 1)
  let y0 := s.ys idx
  let y1 := s.ys (idx + 1)
  let m0 := s.sd idx
  let m1 := s.sd (idx + 1)
  let h := x1 - x0
  let a := (x1 - x) / h
  let b := (x - x0) / h
  a * y0 + b * y1 + ((a * a * a - a) * m0 + (b * b * b - b) * m1) * (h * h / lit 6)

/-- `spline.rs:50-65` `evaluate`; `none` is a panic (the reads at `idx` and `idx + 1` are checked). -/
noncomputable def Spline.evaluate (n : ℕ) (s : Spline K) (x : K) : Option K := do
  let idx ← segmentIndex n s.xs x
  let _ ← rd n s.xs idx
  let _ ← rd n s.xs (idx + 1)
  return s.piece idx x

end Verif.Float
