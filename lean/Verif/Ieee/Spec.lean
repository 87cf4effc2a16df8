import Mathlib.Algebra.Order.Archimedean.Real.Basic
import Mathlib.Algebra.Order.Round
import Mathlib.Data.Int.Log
import Mathlib.Analysis.Real.Sqrt

/-!
# Specification: IEEE binary arithmetic with subnormal numbers, infinities and NaN

A format has `p` significant bits, least exponent `emin` (the least positive number is `2 ^ emin`) and the bound
`2 ^ emax` that every finite number stays below: `⟨53, -1074, 1024⟩` is `f64`, `⟨24, -149, 128⟩` is `f32`.
`Rounds F fl` says that `fl` returns a nearest number of the format, were there no bound above; it may break ties in
any way. A result is infinite when the rounded value reaches the bound, which is the rule of IEEE 754. The two zeros
are one number, taken to be the positive one; the sign of a zero matters only in a quotient by zero.
-/

namespace Verif.Ieee

/-- A binary format. -/
structure Format where
  p : ℕ
  emin : ℤ
  emax : ℤ

/-- `f64`. -/
def binary64 : Format := ⟨53, -1074, 1024⟩

/-- `f32`. -/
def binary32 : Format := ⟨24, -149, 128⟩

/-- `x` is a number of the format or beyond its upper bound. -/
def OnGrid (F : Format) (x : ℝ) : Prop := ∃ m e : ℤ, |m| < 2 ^ F.p ∧ F.emin ≤ e ∧ x = m * 2 ^ e

/-- `x` is a finite number of the format. -/
def Finite (F : Format) (x : ℝ) : Prop := OnGrid F x ∧ |x| < 2 ^ F.emax

/-- `fl` rounds to nearest. -/
def Rounds (F : Format) (fl : ℝ → ℝ) : Prop :=
  ∀ x, OnGrid F (fl x) ∧ ∀ y, OnGrid F y → |fl x - x| ≤ |y - x|

/-- The relative error of one rounding. -/
noncomputable def unit (F : Format) : ℝ := 2 ^ (-F.p : ℤ)

/-- Half the least positive number: the absolute error of one rounding that underflows. -/
noncomputable def tiny (F : Format) : ℝ := 2 ^ (F.emin - 1)

/-- The distance between neighbouring numbers at `x`. -/
noncomputable def step (F : Format) (x : ℝ) : ℝ := 2 ^ max F.emin (Int.log 2 |x| + 1 - F.p)

/-- One way to round: scale, round to the nearest integer, scale back. -/
noncomputable def rnd (F : Format) (x : ℝ) : ℝ := round (x / step F x) * step F x

/-- The value of a variable of the format. -/
inductive Val where
  | nan
  | inf (neg : Bool)
  | num (x : ℝ)

/-- Numbers of the format `F` with arithmetic rounded by `fl`. -/
structure IE (F : Format) (fl : ℝ → ℝ) where
  val : Val

variable {F : Format} {fl : ℝ → ℝ}

namespace IE

/-- A finite number. -/
def num (x : ℝ) : IE F fl := ⟨.num x⟩

/-- Not a number. -/
def nan : IE F fl := ⟨.nan⟩

/-- An infinity. -/
def inf (neg : Bool) : IE F fl := ⟨.inf neg⟩

/-- The result of an operation whose exact result is `x`. -/
noncomputable def ofReal (x : ℝ) : IE F fl :=
  open Classical in if |fl x| < 2 ^ F.emax then num (fl x) else inf (decide (x < 0))

/-- Whether a real number is negative. -/
noncomputable def isNeg (x : ℝ) : Bool := open Classical in decide (x < 0)

noncomputable instance : Zero (IE F fl) := ⟨num 0⟩
noncomputable instance : One (IE F fl) := ⟨num 1⟩

/-- Addition. -/
noncomputable def add (a b : IE F fl) : IE F fl :=
  match a.val, b.val with
  | .num x, .num y => ofReal (x + y)
  | .inf s, .num _ => inf s
  | .num _, .inf t => inf t
  | .inf s, .inf t => if s = t then inf s else nan
  | _, _ => nan

/-- Change of sign. -/
def neg (a : IE F fl) : IE F fl :=
  match a.val with
  | .num x => num (-x)
  | .inf s => inf (!s)
  | .nan => nan

/-- Multiplication. -/
noncomputable def mul (a b : IE F fl) : IE F fl :=
  open Classical in
  match a.val, b.val with
  | .num x, .num y => ofReal (x * y)
  | .inf s, .num y => if y = 0 then nan else inf (xor s (isNeg y))
  | .num x, .inf t => if x = 0 then nan else inf (xor (isNeg x) t)
  | .inf s, .inf t => inf (xor s t)
  | _, _ => nan

/-- Division. -/
noncomputable def div (a b : IE F fl) : IE F fl :=
  open Classical in
  match a.val, b.val with
  | .num x, .num y => if y = 0 then (if x = 0 then nan else inf (isNeg x)) else ofReal (x / y)
  | .inf s, .num y => inf (xor s (isNeg y))
  | .num _, .inf _ => num 0
  | _, _ => nan

/-- Square root. -/
noncomputable def sqrt (a : IE F fl) : IE F fl :=
  open Classical in
  match a.val with
  | .num x => if x < 0 then nan else ofReal √x
  | .inf s => if s then nan else inf false
  | .nan => nan

noncomputable instance : Add (IE F fl) := ⟨add⟩
noncomputable instance : Neg (IE F fl) := ⟨neg⟩
noncomputable instance : Sub (IE F fl) := ⟨fun a b => add a (neg b)⟩
noncomputable instance : Mul (IE F fl) := ⟨mul⟩
noncomputable instance : Div (IE F fl) := ⟨div⟩

/-- The real number held, zero if there is none. -/
def real (a : IE F fl) : ℝ :=
  match a.val with
  | .num x => x
  | _ => 0

/-- The variable holds a finite number of the format. -/
def IsNum (a : IE F fl) : Prop := ∃ x, a = num x ∧ Finite F x

end IE

end Verif.Ieee
