import Verif.Shapes.PropsMass
import Verif.Frames.PropsAxes

/-!
# Mass properties in other axes (C224)

A change of axes is a rotation matrix `R` and a new origin, as in `Verif/Frames/PropsAxes.lean`.
-/

namespace Verif.Shapes

open Verif.Mat Verif.Frames Matrix

/-- The same part, described in other axes: its attitude and position are turned, its position is moved. -/
noncomputable def Model.turned (R : Matrix (Fin 3) (Fin 3) ℝ) (t : Fin 3 → ℝ) (p : Model ℝ) : Model ℝ where
  solid := p.solid
  density := p.density
  rot := fun i j => (R * Matrix.of p.rot) i j
  pos := R *ᵥ p.pos + t

/-- The same mass properties in other axes. -/
noncomputable def MassProps.turned (R : Matrix (Fin 3) (Fin 3) ℝ) (t : Fin 3 → ℝ) (P : MassProps ℝ) : MassProps ℝ where
  volume := P.volume
  density := P.density
  mass := P.mass
  com := R *ᵥ P.com + t
  inertia := fun i j => (R * Matrix.of P.inertia * Rᵀ) i j

/-- The inertia tensor of a unit of mass at `r`, about the origin. -/
def pointTensor (r : Fin 3 → ℝ) : Matrix (Fin 3) (Fin 3) ℝ := fun i j => (∑ k, r k * r k) * (if i = j then 1 else 0) - r i * r j

theorem pointTensor_eq (r : Fin 3 → ℝ) : pointTensor r = (r ⬝ᵥ r) • (1 : Matrix (Fin 3) (Fin 3) ℝ) - vecMulVec r r := by
  ext i j
  simp [pointTensor, dotProduct, Matrix.one_apply, vecMulVec_apply]

theorem pointTensor_turn {R : Matrix (Fin 3) (Fin 3) ℝ} (h : Turn R) (r : Fin 3 → ℝ) :
    pointTensor (R *ᵥ r) = R * pointTensor r * Rᵀ := by
  rw [pointTensor_eq, pointTensor_eq, h.inner, Matrix.mul_sub, Matrix.sub_mul, Matrix.mul_smul, Matrix.mul_one, Matrix.smul_mul, h.orth]
  congr 1
  ext i j
  simp only [vecMulVec_apply, Matrix.mul_apply, Matrix.mulVec, dotProduct, transpose_apply, Finset.sum_mul, Finset.mul_sum]
  refine Finset.sum_congr rfl fun a _ => Finset.sum_congr rfl fun b _ => ?_
  ring

/-- Two masses about their common centre (also for a negative second mass). -/
theorem two_points {ma mb : ℝ} (hm : ma + mb ≠ 0) (ra rb : Fin 3 → ℝ) :
    ma • pointTensor ra + mb • pointTensor rb - (ma + mb) • pointTensor (fun i => (ra i * ma + rb i * mb) / (ma + mb))
      = (ma * mb / (ma + mb)) • pointTensor (ra - rb) := by
  ext i j
  simp only [pointTensor, Matrix.sub_apply, Matrix.add_apply, Matrix.smul_apply, smul_eq_mul, Fin.sum_univ_three, Pi.sub_apply]
  field_simp
  ring

theorem tensor_turned {R : Matrix (Fin 3) (Fin 3) ℝ} (t : Fin 3 → ℝ) (p : Model ℝ) : (p.turned R t).tensor = R * p.tensor * Rᵀ := by
  unfold Model.tensor Model.turned
  show (R * of p.rot) * diagonal _ * (R * of p.rot)ᵀ = _
  rw [Matrix.transpose_mul]
  simp only [Matrix.mul_assoc]

theorem origin_mat (p : Model ℝ) : of p.inertiaOrigin = p.tensor + (p.density * p.solid.volume) • pointTensor p.pos := by
  ext i j
  exact origin_eq p i j

/-- The tensor of two parts together, as tensors of the parts and of two points at their centres. -/
theorem combined (a b : Model ℝ) {ma mb : ℝ} (ha : ma = a.density * a.solid.volume) (hb : mb = b.density * b.solid.volume) (hm : ma + mb ≠ 0) :
    (fun i j => a.inertiaOrigin i j + b.inertiaOrigin i j - (ma + mb) *
      pointTensor (fun i => (a.pos i * ma + b.pos i * mb) / (ma + mb)) i j : Mat ℝ 3 3)
      = fun i j => (a.tensor + b.tensor + (ma * mb / (ma + mb)) • pointTensor (a.pos - b.pos)) i j := by
  have h := two_points hm a.pos b.pos
  have ea := origin_mat a
  have eb := origin_mat b
  rw [← ha] at ea
  rw [← hb] at eb
  funext i j
  have h' := congrFun (congrFun h i) j
  have ea' := congrFun (congrFun ea i) j
  have eb' := congrFun (congrFun eb i) j
  simp only [Matrix.add_apply, Matrix.sub_apply, Matrix.smul_apply, smul_eq_mul, of_apply] at h' ea' eb' ⊢
  rw [ea', eb', ← h']
  ring

/-- C224. Adding parts in other axes and from another origin gives the sum in these axes: the same volume, density and mass,
the centre of mass in the new coordinates and the turned inertia tensor; what is refused in one is refused in the other. -/
theorem C224_add {R : Matrix (Fin 3) (Fin 3) ℝ} (h : Turn R) (t : Fin 3 → ℝ) (a b : Model ℝ) :
    (a.turned R t).add (b.turned R t) = (a.add b).map (MassProps.turned R t) := by
  rw [add_eq, add_eq]
  have es : ∀ p : Model ℝ, (p.turned R t).solid = p.solid ∧ (p.turned R t).density = p.density := fun p => ⟨rfl, rfl⟩
  rw [(es a).1, (es a).2, (es b).1, (es b).2]
  generalize hma : a.density * a.solid.volume = ma
  generalize hmb : b.density * b.solid.volume = mb
  split_ifs with hc
  · rfl
  · have hm : ma + mb ≠ 0 := by
      intro h0; exact hc (Or.inr (Or.inr h0.le))
    dsimp only
    rw [Option.map_some, MassProps.turned]
    congr 1
    have e1 := combined (a.turned R t) (b.turned R t) (ma := ma) (mb := mb) hma.symm hmb.symm hm
    have e2 := combined a b (ma := ma) (mb := mb) hma.symm hmb.symm hm
    simp only [pointTensor] at e1 e2
    rw [e1, e2]
    congr 1
    · funext i
      show ((R *ᵥ a.pos + t) i * ma + (R *ᵥ b.pos + t) i * mb) / (ma + mb) = (R *ᵥ fun i => (a.pos i * ma + b.pos i * mb) / (ma + mb)) i + t i
      simp only [Pi.add_apply, Matrix.mulVec, dotProduct, Fin.sum_univ_three]
      field_simp
      ring
    · funext i j
      have hd : (a.turned R t).pos - (b.turned R t).pos = R *ᵥ (a.pos - b.pos) := by
        show R *ᵥ a.pos + t - (R *ᵥ b.pos + t) = _
        rw [mulVec_sub]; abel
      rw [tensor_turned, tensor_turned, hd, pointTensor_turn h]
      show _ = (R * (a.tensor + b.tensor + (ma * mb / (ma + mb)) • pointTensor (a.pos - b.pos)) * Rᵀ) i j
      rw [Matrix.mul_add, Matrix.mul_add, Matrix.add_mul, Matrix.add_mul, Matrix.mul_smul, Matrix.smul_mul]

/-- The tensor of what is left when a part is taken out. -/
theorem left_over (a b : Model ℝ) {ma mb : ℝ} (ha : ma = a.density * a.solid.volume) (hb : mb = b.density * b.solid.volume) (hm : ma - mb ≠ 0) :
    (fun i j => a.inertiaOrigin i j - b.inertiaOrigin i j - (ma - mb) *
      pointTensor (fun i => (a.pos i * ma - b.pos i * mb) / (ma - mb)) i j : Mat ℝ 3 3)
      = fun i j => (a.tensor - b.tensor + (ma * -mb / (ma - mb)) • pointTensor (a.pos - b.pos)) i j := by
  have h := two_points (ma := ma) (mb := -mb) (by rwa [← sub_eq_add_neg]) a.pos b.pos
  have e : (fun i => (a.pos i * ma + b.pos i * -mb) / (ma + -mb)) = fun i => (a.pos i * ma - b.pos i * mb) / (ma - mb) := by
    funext i; congr 1; ring
  rw [e, ← sub_eq_add_neg] at h
  have ea := origin_mat a
  have eb := origin_mat b
  rw [← ha] at ea
  rw [← hb] at eb
  funext i j
  have h' := congrFun (congrFun h i) j
  have ea' := congrFun (congrFun ea i) j
  have eb' := congrFun (congrFun eb i) j
  simp only [Matrix.add_apply, Matrix.sub_apply, Matrix.smul_apply, smul_eq_mul, of_apply] at h' ea' eb' ⊢
  rw [ea', eb', ← h']
  ring

/-- C224. Taking one part out of another in other axes and from another origin. -/
theorem C224_sub {R : Matrix (Fin 3) (Fin 3) ℝ} (h : Turn R) (t : Fin 3 → ℝ) (a b : Model ℝ) :
    (a.turned R t).sub (b.turned R t) = (a.sub b).map (MassProps.turned R t) := by
  rw [sub_eq, sub_eq]
  have es : ∀ p : Model ℝ, (p.turned R t).solid = p.solid ∧ (p.turned R t).density = p.density := fun p => ⟨rfl, rfl⟩
  rw [(es a).1, (es a).2, (es b).1, (es b).2]
  generalize hma : a.density * a.solid.volume = ma
  generalize hmb : b.density * b.solid.volume = mb
  split_ifs with hc
  · rfl
  · have hm : ma - mb ≠ 0 := by
      intro h0; exact hc (Or.inr (Or.inr (Or.inl h0.le)))
    dsimp only
    rw [Option.map_some, MassProps.turned]
    congr 1
    have e1 := left_over (a.turned R t) (b.turned R t) (ma := ma) (mb := mb) hma.symm hmb.symm hm
    have e2 := left_over a b (ma := ma) (mb := mb) hma.symm hmb.symm hm
    simp only [pointTensor] at e1 e2
    rw [e1, e2]
    congr 1
    · funext i
      show ((R *ᵥ a.pos + t) i * ma - (R *ᵥ b.pos + t) i * mb) / (ma - mb) = (R *ᵥ fun i => (a.pos i * ma - b.pos i * mb) / (ma - mb)) i + t i
      simp only [Pi.add_apply, Matrix.mulVec, dotProduct, Fin.sum_univ_three]
      field_simp
      ring
    · funext i j
      have hd : (a.turned R t).pos - (b.turned R t).pos = R *ᵥ (a.pos - b.pos) := by
        show R *ᵥ a.pos + t - (R *ᵥ b.pos + t) = _
        rw [mulVec_sub]; abel
      rw [tensor_turned, tensor_turned, hd, pointTensor_turn h]
      show _ = (R * (a.tensor - b.tensor + (ma * -mb / (ma - mb)) • pointTensor (a.pos - b.pos)) * Rᵀ) i j
      rw [Matrix.mul_add, Matrix.mul_sub, Matrix.add_mul, Matrix.sub_mul, Matrix.mul_smul, Matrix.smul_mul]

-- Two balls that can be added.
example : ∃ P, (⟨sphere 1, 2, fun i j => if i = j then 1 else 0, ![1, 0, 0]⟩ : Model ℝ).add
    ⟨sphere 2, 3, fun i j => if i = j then 1 else 0, ![0, 5, 0]⟩ = some P := by
  cases hP : (⟨sphere 1, 2, fun i j => if i = j then 1 else 0, ![1, 0, 0]⟩ : Model ℝ).add
    ⟨sphere 2, 3, fun i j => if i = j then 1 else 0, ![0, 5, 0]⟩ with
  | some P => exact ⟨P, rfl⟩
  | none =>
    have h1 : 0 < (sphere 1).volume := by unfold sphere sphereOf; dsimp only; positivity
    have h2 : 0 < (sphere 2).volume := by unfold sphere sphereOf; dsimp only; positivity
    rcases (C53_add _ _).1.1 hP with h | h | h
    · exact absurd h (not_le.2 h1)
    · exact absurd h (not_le.2 h2)
    · dsimp only at h; linarith

end Verif.Shapes
