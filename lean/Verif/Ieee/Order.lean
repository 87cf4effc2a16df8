import Verif.Ieee.Spec

/-!
# Specification: comparison of IEEE numbers

Comparisons with NaN are false.
-/

namespace Verif.Ieee

variable {F : Format} {fl : ℝ → ℝ}

namespace IE

/-- `a ≤ b`. -/
def le (a b : IE F fl) : Prop :=
  match a.val, b.val with
  | .num x, .num y => x ≤ y
  | .inf s, .num _ => s = true
  | .num _, .inf t => t = false
  | .inf s, .inf t => s = true ∨ t = false
  | _, _ => False

/-- `a < b`. -/
def lt (a b : IE F fl) : Prop :=
  match a.val, b.val with
  | .num x, .num y => x < y
  | .inf s, .num _ => s = true
  | .num _, .inf t => t = false
  | .inf s, .inf t => s = true ∧ t = false
  | _, _ => False

instance : LE (IE F fl) := ⟨le⟩
instance : LT (IE F fl) := ⟨lt⟩
noncomputable instance : DecidableLE (IE F fl) := fun _ _ => Classical.propDecidable _
noncomputable instance : DecidableLT (IE F fl) := fun _ _ => Classical.propDecidable _

/-- The absolute value (`crates/aether_core/src/real/std_impl.rs:12`, `50`: `f32::abs`, `f64::abs`): it clears the sign. -/
def abs (a : IE F fl) : IE F fl := match a.val with
  | .nan => nan
  | .inf _ => inf false
  | .num x => num |x|

/-- A literal, rounded to the format. -/
noncomputable instance : OfScientific (IE F fl) := ⟨fun m s e => ofReal (OfScientific.ofScientific m s e : ℝ)⟩

end IE

theorem le_num (x y : ℝ) : (IE.num x ≤ (IE.num y : IE F fl)) ↔ x ≤ y := Iff.rfl
theorem lt_num (x y : ℝ) : (IE.num x < (IE.num y : IE F fl)) ↔ x < y := Iff.rfl

theorem le_nan (a : IE F fl) : ¬ a ≤ IE.nan := by
  rcases a with ⟨_ | _ | _⟩ <;> exact id

theorem nan_le (a : IE F fl) : ¬ IE.nan ≤ a := by
  rcases a with ⟨_ | _ | _⟩ <;> exact id

theorem lt_nan (a : IE F fl) : ¬ a < IE.nan := by
  rcases a with ⟨_ | _ | _⟩ <;> exact id

theorem nan_lt (a : IE F fl) : ¬ IE.nan < a := by
  rcases a with ⟨_ | _ | _⟩ <;> exact id

theorem inf_le_num (y : ℝ) : ¬ IE.inf false ≤ (IE.num y : IE F fl) := fun h => Bool.noConfusion (show false = true from h)

end Verif.Ieee
