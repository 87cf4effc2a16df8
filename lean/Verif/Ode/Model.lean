import Mathlib.Data.Real.Basic

/-!
# Model of `numerical_methods`: Newton's method and one-step integrators
-/

namespace Verif.Ode

/-- The errors of `solvers/newton.rs`: the strings "Derivative is zero; no solution found." and "Maximum iterations reached; no solution
found.". -/
inductive NewtonErr where
  | zeroDerivative
  | maxIterations
  deriving DecidableEq

/-- `crates/aether_core/src/numerical_methods/solvers/newton.rs:15-35` `NewtonRaphson::solve`. The scalar operations are arbitrary functions
(so this covers floating point). `n` is the number of iterations left. Beside the result the model returns the list of points at which the
user's functions were called (each is called once per iteration). -/
def newton {α : Type*} [Sub α] [Div α] [Zero α] [DecidableEq α] (abs : α → α) (lt : α → α → Bool) (tolerance : α) (f df : α → α) :
    ℕ → α → List α × Except NewtonErr α
  | 0, _ => ([], .error .maxIterations)
  | n + 1, guess =>
    let f_val := f guess
    let df_val := df guess
    if df_val = 0 then ([guess], .error .zeroDerivative)
    else
      let next := guess - f_val / df_val
      if lt (abs (next - guess)) tolerance then ([guess], .ok next)
      else
        let r := newton abs lt tolerance f df n next
        (guess :: r.1, r.2)

section Integrators

/-! The integrators are generic in the scalar type; `K` is any type with the operations used, and no law is assumed. -/

variable {K : Type} [Add K] [Mul K] [Div K]

omit [Add K] [Div K] in
/-- `crates/aether_core/src/math/vector.rs:191-203` `Vector * scalar`. -/
def vscale {n : ℕ} (v : Fin n → K) (s : K) : Fin n → K := fun i => v i * s

/-- `crates/aether_core/src/numerical_methods/integration/rk4.rs:15-26` `integrate_rk4` for `Vector`. -/
def rk4 [OfNat K 2] [OfNat K 6] {n : ℕ} (x : Fin n → K) (f : (Fin n → K) → Fin n → K) (dt : K) : Fin n → K :=
  let k1 := f x
  let k2 := f (x + vscale k1 (dt / 2))
  let k3 := f (x + vscale k2 (dt / 2))
  let k4 := f (x + vscale k3 dt)
  x + vscale (k1 + k2 + k2 + k3 + k3 + k4) (dt / 6)

/-- `rk4.rs:28-49` `integrate_rk4` for `Cartesian`. -/
def rk4Cartesian [OfNat K 2] [OfNat K 6] (x : Fin 3 → K) (f : (Fin 3 → K) → Fin 3 → K) (dt : K) : Fin 3 → K :=
  let half_dt := dt / 2
  let sixth_dt := dt / 6
  let k1 := f x
  let k2 := f (x + vscale k1 half_dt)
  let k3 := f (x + vscale k2 half_dt)
  let k4 := f (x + vscale k3 dt)
  x + vscale (k1 + vscale k2 2 + vscale k3 2 + k4) sixth_dt

/-- `rk4.rs:53-71` `integrate_rk4` for `Euler` angles; `+` and `*` act on the three angles (`attitude/euler.rs:93-205`). -/
def rk4Euler [OfNat K 2] [OfNat K 6] (x : Fin 3 → K) (f : (Fin 3 → K) → Fin 3 → K) (dt : K) : Fin 3 → K :=
  let half_dt := dt / 2
  let sixth_dt := dt / 6
  let k1 := f x
  let k2 := f (x + vscale k1 half_dt)
  let k3 := f (x + vscale k2 half_dt)
  let k4 := f (x + vscale k3 dt)
  let sum := k1 + k2 + k2 + k3 + k3 + k4
  let incr := vscale sum sixth_dt
  x + incr

omit [Add K] [Div K] in
/-- `euler.rs:10-32` `integrate_euler` (`Vector`, `Cartesian` and `Euler`): the receiver is the derivative, the result the increment. -/
def euler {n : ℕ} (v : Fin n → K) (dt : K) : Fin n → K := vscale v dt

/-- `trapezoidal.rs:14-40` `integrate_trapezoidal` (all three types): the increment from two successive values; `T::from_f32(0.5)` is the
quotient of the literals. -/
def trapezoidal [OfNat K 1] [OfNat K 2] {n : ℕ} (v last : Fin n → K) (dt : K) : Fin n → K := vscale (vscale (v + last) (1 / 2)) dt

end Integrators

end Verif.Ode
