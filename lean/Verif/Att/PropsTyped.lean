import Verif.Att.Typed
import Verif.Att.PropsEuler
import Mathlib.LinearAlgebra.Matrix.NonsingularInverse
import Mathlib.LinearAlgebra.CrossProduct

/-!
# C133: the frame types of the attitude API can be trusted

The world: every frame `f` has an orientation, a rotation matrix `R f` that takes a vector of physical space to its coordinates in `f`. An
attitude value of type `From = a`, `To = b` is right if it takes the coordinates in `a` of every physical vector to its coordinates in `b`.
-/

namespace Verif.Att

open Verif.Mat Matrix

/-- Every frame is a right-handed orthonormal frame. -/
def World {F : Type} (R : F → Matrix (Fin 3) (Fin 3) ℝ) : Prop := ∀ f, R f * (R f)ᵀ = 1 ∧ (R f).det = 1

/-- An attitude value of type `From = a`, `To = b` is what its type says. Quaternions are of unit norm, and are used by rotating vectors. -/
def Right {F : Type} (R : F → Matrix (Fin 3) (Fin 3) ℝ) : (k : Kind) → Val k → F → F → Prop
  | .dcm, m, a, b => ∀ p, (Matrix.of m) *ᵥ (R a *ᵥ p) = R b *ᵥ p
  | .quat, q, a, b => Quat.norm2 q = 1 ∧ ∀ p, Quat.rotate q (R a *ᵥ p) = R b *ᵥ p
  | .euler, e, a, b => ∀ p, (Matrix.of (rotX e.roll) * Matrix.of (rotY e.pitch) * Matrix.of (rotZ e.yaw)) *ᵥ (R a *ᵥ p) = R b *ᵥ p

/-- The values in the program are right, it uses none of `to_dcm`, `conjugate`, products of quaternions and `compose`, and it takes Euler
angles of attitudes with pitch different from a right angle only. -/
def Expr.Ok {F : Type} (R : F → Matrix (Fin 3) (Fin 3) ℝ) : {k : Kind} → {a b : F} → Expr F k a b → Prop
  | k, a, b, .lit v => Right R k v a b
  | _, _, _, .dcmMul l r => l.Ok R ∧ r.Ok R
  | _, _, _, .dcmTranspose e => e.Ok R
  | _, _, _, .dcmOfQuat e => e.Ok R
  | _, _, _, .dcmOfEuler e => e.Ok R
  | _, _, _, .toDcm _ => False
  | _, _, _, .quatInverse e => e.Ok R
  | _, _, _, .quatConj _ => False
  | _, _, _, .quatNormalized e => e.Ok R
  | _, _, _, .quatNeg e => e.Ok R
  | _, _, _, .quatMul _ _ => False
  | _, _, _, .compose _ _ => False
  | _, _, _, .quatOfDcm e => e.Ok R
  | _, _, _, .quatOfEuler e => e.Ok R
  | _, a, b, .eulerOfDcm e => e.Ok R ∧ |(R b * (R a)ᵀ) 0 2| < 1
  | _, a, b, .eulerOfQuat e => e.Ok R ∧ |(R b * (R a)ᵀ) 0 2| < 1

/-- All attitudes in a vector program are of this kind. -/
def VExpr.Ok {F : Type} (R : F → Matrix (Fin 3) (Fin 3) ℝ) : {a : F} → VExpr F a → Prop
  | _, .lit _ => True
  | _, .apply m x => m.Ok R ∧ x.Ok R
  | _, .rotate q x => q.Ok R ∧ x.Ok R
  | _, .add x y => x.Ok R ∧ y.Ok R
  | _, .sub x y => x.Ok R ∧ y.Ok R
  | _, .neg x => x.Ok R
  | _, .scale x _ => x.Ok R
  | _, .cross x y => x.Ok R ∧ y.Ok R

/-- The physical vector that a program denotes: changing the frame does nothing to it. -/
def VExpr.phys {F : Type} (R : F → Matrix (Fin 3) (Fin 3) ℝ) : {a : F} → VExpr F a → Fin 3 → ℝ
  | a, .lit v => (R a)ᵀ *ᵥ v
  | _, .apply _ x => x.phys R
  | _, .rotate _ x => x.phys R
  | _, .add x y => x.phys R + y.phys R
  | _, .sub x y => x.phys R - y.phys R
  | _, .neg x => -x.phys R
  | _, .scale x s => s • x.phys R
  | _, .cross x y => crossProduct (x.phys R) (y.phys R)

section
variable {F : Type} {R : F → Matrix (Fin 3) (Fin 3) ℝ}

theorem of_dcmMul (x y : Mat ℝ 3 3) : Matrix.of (dcmMul x y) = Matrix.of x * Matrix.of y := by
  ext i j
  simp [dcmMul_apply, Matrix.mul_apply, Fin.sum_univ_three]

theorem of_dcmTranspose (x : Mat ℝ 3 3) : Matrix.of (dcmTranspose x) = (Matrix.of x)ᵀ := by
  ext i j
  simp [dcmTranspose_apply]

theorem dcmApply_of (x : Mat ℝ 3 3) (v : Fin 3 → ℝ) : dcmApply x v = Matrix.of x *ᵥ v := by
  funext i
  simp [dcmApply_apply, Matrix.mulVec, dotProduct, Fin.sum_univ_three]

theorem mulVec_inj {A B : Matrix (Fin 3) (Fin 3) ℝ} (h : ∀ p, A *ᵥ p = B *ᵥ p) : A = B := by
  ext i j
  have := congrFun (h (Pi.single j 1)) i
  simpa using this

theorem right_dcm_iff (m : Mat ℝ 3 3) (a b : F) : Right R .dcm m a b ↔ Matrix.of m * R a = R b := by
  constructor
  · intro h
    refine mulVec_inj fun p => ?_
    rw [← Matrix.mulVec_mulVec]
    exact h p
  · intro h p
    rw [Matrix.mulVec_mulVec, h]

theorem World.left (hR : World R) (f : F) : (R f)ᵀ * R f = 1 := mul_eq_one_comm.1 (hR f).1

theorem right_dcm_eq (hR : World R) {m : Mat ℝ 3 3} {a b : F} (h : Right R .dcm m a b) : Matrix.of m = R b * (R a)ᵀ := by
  rw [← (right_dcm_iff m a b).1 h, Matrix.mul_assoc, (hR a).1, Matrix.mul_one]

theorem right_dcm_rotation (hR : World R) {m : Mat ℝ 3 3} {a b : F} (h : Right R .dcm m a b) : IsRotation m := by
  have e := right_dcm_eq hR h
  unfold IsRotation
  rw [e]
  constructor
  · rw [Matrix.transpose_mul, Matrix.transpose_transpose, Matrix.mul_assoc, ← Matrix.mul_assoc (R a)ᵀ, hR.left a, Matrix.one_mul, (hR b).1]
  · rw [Matrix.det_mul, Matrix.det_transpose, (hR a).2, (hR b).2, one_mul]

theorem right_quat_dcm {q : Quat ℝ} {a b : F} (h : Right R .quat q a b) : Right R .dcm (dcmOfQuat q) a b := by
  intro p
  have := (C29_from h.1 (R a *ᵥ p)).1
  rw [dcmApply_of] at this
  rw [← this]
  exact h.2 p

theorem right_dcm_quat {q : Quat ℝ} {a b : F} (h1 : q.norm2 = 1) (h : Right R .dcm (dcmOfQuat q) a b) : Right R .quat q a b := by
  refine ⟨h1, fun p => ?_⟩
  show q.rotate _ = _
  rw [(C29_from h1 (R a *ᵥ p)).1, dcmApply_of]
  exact h p

theorem right_euler_dcm {e : Euler} {a b : F} : Right R .euler e a b ↔ Right R .dcm (dcmOfEuler e) a b := by
  unfold Right
  simp only [dcmOfEuler, of_dcmMul]

/-- **C133**: in every world, for all frames, every program over the attitude types that the compiler accepts, of any size, in which the given
values are right and which uses none of `to_dcm`, `conjugate`, quaternion products and `compose`, runs without an error and its value is right.
The restriction on the operations is needed (`C133_fails`). -/
theorem C133_attitude_partial (hR : World R) {k : Kind} {a b : F} (e : Expr F k a b) (h : e.Ok R) :
    ∃ v, e.eval = some v ∧ Right R k v a b := by
  induction e with
  | lit v => exact ⟨v, rfl, h⟩
  | dcmMul l r ihl ihr =>
    obtain ⟨x, hx, rx⟩ := ihl h.1
    obtain ⟨y, hy, ry⟩ := ihr h.2
    refine ⟨Att.dcmMul x y, by simp [Expr.eval, hx, hy], ?_⟩
    rw [right_dcm_iff] at *
    rw [of_dcmMul, Matrix.mul_assoc, ry, rx]
  | dcmTranspose e ih =>
    obtain ⟨x, hx, rx⟩ := ih h
    refine ⟨Att.dcmTranspose x, by simp [Expr.eval, hx], ?_⟩
    rw [right_dcm_iff, of_dcmTranspose, right_dcm_eq hR rx, Matrix.transpose_mul, Matrix.transpose_transpose, Matrix.mul_assoc, hR.left,
      Matrix.mul_one]
  | dcmOfQuat e ih =>
    obtain ⟨x, hx, rx⟩ := ih h
    exact ⟨Att.dcmOfQuat x, by simp [Expr.eval, hx], right_quat_dcm rx⟩
  | dcmOfEuler e ih =>
    obtain ⟨x, hx, rx⟩ := ih h
    exact ⟨Att.dcmOfEuler x, by simp [Expr.eval, hx], right_euler_dcm.1 rx⟩
  | toDcm e ih => exact h.elim
  | @quatInverse a b e ih =>
    obtain ⟨x, hx, rx⟩ := ih h
    refine ⟨Quat.inv x, by simp [Expr.eval, hx], ?_, fun p => ?_⟩
    · have hx1 : Quat.norm2 x = 1 := rx.1
      have h0 := ne_zero_of_unit hx1
      have h2 := ((C31_algebra x x x).2.2.2.2.2 (by rw [hx1]; norm_num)).1
      have h3 := norm2_mul x (Quat.inv x)
      rw [h2, hx1, one_mul] at h3
      rw [← h3, norm2_eq]
      simp [Quat.identity]
    · have h0 := ne_zero_of_unit rx.1
      rw [← rx.2 p]
      exact (C31_inverse_rotate h0 _).1
  | quatConj e ih => exact h.elim
  | quatNormalized e ih =>
    obtain ⟨x, hx, rx⟩ := ih h
    refine ⟨x, ?_, rx⟩
    have h2 : Quat.normalized x = x := normalized_of_unit rx.1
    simp [Expr.eval, hx, h2]
  | quatNeg e ih =>
    obtain ⟨x, hx, rx⟩ := ih h
    have hx1 : Quat.norm2 x = 1 := rx.1
    refine ⟨Quat.neg x, by simp [Expr.eval, hx], ?_, fun p => ?_⟩
    · rw [norm2_eq] at *
      simp only [Quat.neg]
      linarith
    · rw [(C28_scale (fun h => by rw [h, norm2_eq] at hx1; norm_num at hx1) one_ne_zero _).2]
      exact rx.2 p
  | quatMul l r => exact h.elim
  | compose l r => exact h.elim
  | quatOfDcm e ih =>
    obtain ⟨x, hx, rx⟩ := ih h
    obtain ⟨q, h1, h2, h3⟩ := C32_rotation (right_dcm_rotation hR rx)
    refine ⟨q, by simp [Expr.eval, hx, h1], right_dcm_quat h2 ?_⟩
    rw [h3]
    exact rx
  | quatOfEuler e ih =>
    obtain ⟨x, hx, rx⟩ := ih h
    refine ⟨Att.quatOfEuler x, by simp [Expr.eval, hx], right_dcm_quat (C33_quaternion x).1 ?_⟩
    rw [(C33_quaternion x).2]
    exact right_euler_dcm.1 rx
  | @eulerOfDcm a b e ih =>
    obtain ⟨x, hx, rx⟩ := ih h.1
    refine ⟨Att.eulerOfDcm x, by simp [Expr.eval, hx], right_euler_dcm.2 ?_⟩
    have h2 := h.2
    rw [← right_dcm_eq hR rx] at h2
    rw [C33_reconstruct (right_dcm_rotation hR rx) h2]
    exact rx
  | @eulerOfQuat a b e ih =>
    obtain ⟨x, hx, rx⟩ := ih h.1
    refine ⟨Att.eulerOfQuat x, by simp [Expr.eval, hx], right_euler_dcm.2 ?_⟩
    have r2 := right_quat_dcm rx
    have h2 := h.2
    rw [← right_dcm_eq hR r2] at h2
    rw [C33_extract_agree rx.1, C33_reconstruct (right_dcm_rotation hR r2) h2]
    exact r2

/-- Cross products do not depend on the frame. -/
theorem World.cross (hR : World R) (f : F) (u v : Fin 3 → ℝ) :
    Mat.cross (R f *ᵥ u) (R f *ᵥ v) = R f *ᵥ (crossProduct u v) := by
  have hrot : IsRotation (fun i j => R f i j) := hR f
  obtain ⟨f00, f01, f02, f10, f11, f12, f20, f21, f22⟩ := rotation_cofactors hrot
  funext i
  fin_cases i
  · simp [Mat.cross, Matrix.mulVec, dotProduct, Fin.sum_univ_three, cross_apply]
    rw [f00, f01, f02]
    ring
  · simp [Mat.cross, Matrix.mulVec, dotProduct, Fin.sum_univ_three, cross_apply]
    rw [f10, f11, f12]
    ring
  · simp [Mat.cross, Matrix.mulVec, dotProduct, Fin.sum_univ_three, cross_apply]
    rw [f20, f21, f22]
    ring

/-- **C133**: the value of a vector program of frame `a` is the coordinates in `a` of the physical vector it denotes, where changes of frame do
nothing and sums, differences, multiples and cross products are those of physical space. -/
theorem C133_vector_partial (hR : World R) {a : F} (x : VExpr F a) (h : x.Ok R) : x.eval = some (R a *ᵥ x.phys R) := by
  induction x with
  | @lit a v => simp [VExpr.eval, VExpr.phys, Matrix.mulVec_mulVec, (hR a).1]
  | @apply a b m x ih =>
    obtain ⟨w, hw, rw'⟩ := C133_attitude_partial hR m h.1
    have h2 := rw' (x.phys R)
    simp only [VExpr.eval, VExpr.phys, hw, ih h.2, Option.bind_eq_bind, Option.bind_some, Option.pure_def, dcmApply_of, h2]
  | @rotate a b q x ih =>
    obtain ⟨w, hw, rw'⟩ := C133_attitude_partial hR q h.1
    have h2 := rw'.2 (x.phys R)
    simp only [VExpr.eval, VExpr.phys, hw, ih h.2, Option.bind_eq_bind, Option.bind_some, Option.pure_def, h2]
  | add x y ihx ihy =>
    simp only [VExpr.eval, VExpr.phys, ihx h.1, ihy h.2, Option.bind_eq_bind, Option.bind_some, Option.pure_def, Matrix.mulVec_add]
    rfl
  | sub x y ihx ihy =>
    simp only [VExpr.eval, VExpr.phys, ihx h.1, ihy h.2, Option.bind_eq_bind, Option.bind_some, Option.pure_def, Matrix.mulVec_sub]
    rfl
  | neg x ih =>
    simp only [VExpr.eval, VExpr.phys, ih h, Option.bind_eq_bind, Option.bind_some, Option.pure_def, Matrix.mulVec_neg]
    rfl
  | scale x s ih =>
    simp only [VExpr.eval, VExpr.phys, ih h, Option.bind_eq_bind, Option.bind_some, Option.pure_def, Matrix.mulVec_smul]
    congr 1
    funext i
    simp [mul_comm]
  | cross x y ihx ihy =>
    simp only [VExpr.eval, VExpr.phys, ihx h.1, ihy h.2, Option.bind_eq_bind, Option.bind_some, Option.pure_def, hR.cross]

end

/-- A world with two frames, the second turned about the first axis, and a program with a conversion to a quaternion, to a matrix and back. -/
example (t : ℝ) : let R : Bool → Matrix (Fin 3) (Fin 3) ℝ := fun f => if f then Matrix.of (rotX t) else 1
    World R ∧ (VExpr.apply (.dcmTranspose (.dcmOfQuat (.quatOfDcm (.lit (k := .dcm) (a := false) (b := true) (rotX t)))))
      (.lit ![1, 2, 3])).Ok R := by
  intro R
  refine ⟨fun f => ?_, ?_, trivial⟩
  · cases f
    · simp [R]
    · exact (C32_elementary t).1
  · intro p
    simp [R]

/-- **C133**: `to_dcm`, `conjugate`, the product of quaternions and `Rotation::compose` take right values to wrong ones. -/
theorem C133_fails :
    (∃ (R : Fin 2 → Matrix (Fin 3) (Fin 3) ℝ) (q : Quat ℝ), World R ∧ Right R .quat q 0 1 ∧
      ¬ Right R .dcm q.toDcm 0 1 ∧ ¬ Right R .quat q.conj 0 1) ∧
    ∃ (R : Fin 3 → Matrix (Fin 3) (Fin 3) ℝ) (p q : Quat ℝ), World R ∧ Right R .quat p 1 2 ∧ Right R .quat q 0 1 ∧
      ¬ Right R .quat (p.mul q) 0 2 ∧ ¬ Right R .quat (composeRotation q p) 0 2 := by
  have rot : ∀ q : Quat ℝ, q.norm2 = 1 → (Matrix.of (dcmOfQuat q) * (Matrix.of (dcmOfQuat q))ᵀ = 1 ∧ (Matrix.of (dcmOfQuat q)).det = 1) :=
    fun q hq => rotation_mat hq
  constructor
  · obtain ⟨hq, hne⟩ := C29_to_dcm_fails
    set q : Quat ℝ := ⟨3 / 5, 0, 0, 4 / 5⟩
    refine ⟨![1, Matrix.of (dcmOfQuat q)], q, ?_, ⟨hq, fun p => ?_⟩, ?_, ?_⟩
    · intro f
      fin_cases f
      · simp
      · exact rot q hq
    · show q.rotate ((1 : Matrix (Fin 3) (Fin 3) ℝ) *ᵥ p) = Matrix.of (dcmOfQuat q) *ᵥ p
      rw [Matrix.one_mulVec, (C29_from hq p).1, dcmApply_of]
    · intro h
      have h2 : Matrix.of q.toDcm *ᵥ ((1 : Matrix (Fin 3) (Fin 3) ℝ) *ᵥ ![1, 0, 0]) = Matrix.of (dcmOfQuat q) *ᵥ ![1, 0, 0] := h _
      rw [Matrix.one_mulVec, ← dcmApply_of, ← dcmApply_of, ← (C29_from hq _).1] at h2
      exact hne h2
    · intro h
      have h2 : ∀ v, q.conj.rotate v = q.rotate v := by
        intro v
        have := h.2 v
        have h3 : q.conj.rotate ((1 : Matrix (Fin 3) (Fin 3) ℝ) *ᵥ v) = Matrix.of (dcmOfQuat q) *ᵥ v := this
        rw [Matrix.one_mulVec, ← dcmApply_of, ← (C29_from hq _).1] at h3
        exact h3
      have h4 : q.inv = q.conj := by
        unfold Quat.inv Quat.conj
        rw [hq]
        simp
      have h5 := (C31_inverse_rotate (ne_zero_of_unit hq) ![1, 0, 0]).1
      rw [h4, h2] at h5
      have h6 := C29_to_dcm_inverse (ne_zero_of_unit hq) (q.rotate ![1, 0, 0])
      rw [h5] at h6
      exact hne h6
  · obtain ⟨p, q, v, hp, hq, h1, h2⟩ := C30_order_fails
    have key : ∀ w, Matrix.of (dcmOfQuat p) *ᵥ (Matrix.of (dcmOfQuat q) *ᵥ w) = p.rotate (q.rotate w) := by
      intro w
      rw [(C29_from hq w).1, (C29_from hp _).1, dcmApply_of, dcmApply_of]
    refine ⟨![1, Matrix.of (dcmOfQuat q), Matrix.of (dcmOfQuat p) * Matrix.of (dcmOfQuat q)], p, q, ?_, ⟨hp, fun w => ?_⟩, ⟨hq, fun w => ?_⟩,
      fun h => h1 ?_, fun h => h2 ?_⟩
    · intro f
      fin_cases f
      · simp
      · exact rot q hq
      · show (Matrix.of (dcmOfQuat p) * Matrix.of (dcmOfQuat q)) * (Matrix.of (dcmOfQuat p) * Matrix.of (dcmOfQuat q))ᵀ = 1 ∧
          (Matrix.of (dcmOfQuat p) * Matrix.of (dcmOfQuat q)).det = 1
        rw [← of_dcmMul]
        exact isRotation_mul (rotation_mat hp) (rotation_mat hq)
    · show p.rotate (Matrix.of (dcmOfQuat q) *ᵥ w) = (Matrix.of (dcmOfQuat p) * Matrix.of (dcmOfQuat q)) *ᵥ w
      rw [← Matrix.mulVec_mulVec, key, ← dcmApply_of, ← (C29_from hq w).1]
    · show q.rotate ((1 : Matrix (Fin 3) (Fin 3) ℝ) *ᵥ w) = Matrix.of (dcmOfQuat q) *ᵥ w
      rw [Matrix.one_mulVec, (C29_from hq w).1, dcmApply_of]
    · have h3 : (p.mul q).rotate ((1 : Matrix (Fin 3) (Fin 3) ℝ) *ᵥ v) = (Matrix.of (dcmOfQuat p) * Matrix.of (dcmOfQuat q)) *ᵥ v := h.2 v
      rwa [Matrix.one_mulVec, ← Matrix.mulVec_mulVec, key] at h3
    · have h3 : (composeRotation q p).rotate ((1 : Matrix (Fin 3) (Fin 3) ℝ) *ᵥ v) =
          (Matrix.of (dcmOfQuat p) * Matrix.of (dcmOfQuat q)) *ᵥ v := h.2 v
      rwa [Matrix.one_mulVec, ← Matrix.mulVec_mulVec, key] at h3

/-- The other reading of quaternions: through `to_dcm` only. -/
def RightActive {F : Type} (R : F → Matrix (Fin 3) (Fin 3) ℝ) : (k : Kind) → Val k → F → F → Prop
  | .dcm, m, a, b => ∀ p, (Matrix.of m) *ᵥ (R a *ᵥ p) = R b *ᵥ p
  | .quat, q, a, b => q ≠ ⟨0, 0, 0, 0⟩ ∧ ∀ p, (Matrix.of (Quat.toDcm q)) *ᵥ (R a *ᵥ p) = R b *ᵥ p
  | .euler, _, _, _ => False

/-- The values in the program are right in this reading and it uses products, inverses, transposes and `to_dcm` only. -/
def Expr.OkActive {F : Type} (R : F → Matrix (Fin 3) (Fin 3) ℝ) : {k : Kind} → {a b : F} → Expr F k a b → Prop
  | k, a, b, .lit v => RightActive R k v a b
  | _, _, _, .dcmMul l r => l.OkActive R ∧ r.OkActive R
  | _, _, _, .dcmTranspose e => e.OkActive R
  | _, _, _, .toDcm e => e.OkActive R
  | _, _, _, .quatInverse e => e.OkActive R
  | _, _, _, .quatNormalized e => e.OkActive R
  | _, _, _, .quatMul l r => l.OkActive R ∧ r.OkActive R
  | _, _, _, .compose l r => l.OkActive R ∧ r.OkActive R
  | _, _, _, _ => False

theorem toDcm_eq (q : Quat ℝ) : q.toDcm = dcmTranspose (dcmOfQuat q.normalized) := dcmActive_eq _

theorem toDcm_identity : (Matrix.of (Quat.identity : Quat ℝ).toDcm) = 1 := by
  have h1 : (Quat.identity : Quat ℝ).norm2 = 1 := by rw [norm2_eq]; simp [Quat.identity]
  ext i j
  unfold Quat.toDcm
  rw [normalized_of_unit h1]
  fin_cases i <;> fin_cases j <;> simp [Quat.dcmActive, Quat.identity]

theorem toDcm_inv {q : Quat ℝ} (hq : q ≠ ⟨0, 0, 0, 0⟩) : Matrix.of q.inv.toDcm * Matrix.of q.toDcm = 1 ∧ q.inv ≠ ⟨0, 0, 0, 0⟩ := by
  have h := (C31_algebra q q q).2.2.2.2.2 (ne_of_gt (norm2_pos hq))
  constructor
  · rw [← of_dcmMul, ← C30_to_dcm, h.2, toDcm_identity]
  · intro h0
    have h1 := h.1
    rw [h0] at h1
    have := congrArg Quat.w h1
    simp [Quat.mul, Quat.identity] at this

/-- **C133**: programs that make matrices of quaternions by `to_dcm` only, and use products, `compose`, inverses, `normalized` and transposes, are
right too. So each of the two readings is consistent by itself. -/
theorem C133_active {F : Type} {R : F → Matrix (Fin 3) (Fin 3) ℝ} (hR : World R) {k : Kind} {a b : F} (e : Expr F k a b)
    (h : e.OkActive R) : ∃ v, e.eval = some v ∧ RightActive R k v a b := by
  have iff : ∀ (m : Mat ℝ 3 3) (a b : F), RightActive R .dcm m a b ↔ Matrix.of m * R a = R b := fun m a b => right_dcm_iff m a b
  have iffq : ∀ (q : Quat ℝ) (a b : F), RightActive R .quat q a b ↔ q ≠ ⟨0, 0, 0, 0⟩ ∧ Matrix.of q.toDcm * R a = R b :=
    fun q a b => and_congr Iff.rfl (right_dcm_iff q.toDcm a b)
  have prod : ∀ (p q : Quat ℝ) (a b c : F), RightActive R .quat p b c → RightActive R .quat q a b → RightActive R .quat (p.mul q) a c := by
    intro p q a b c hp hq
    rw [iffq] at *
    refine ⟨(C30_order_partial hp.1 hq.1 0 0 0).2.1, ?_⟩
    rw [C30_to_dcm, of_dcmMul, Matrix.mul_assoc, hq.2, hp.2]
  induction e with
  | lit v => exact ⟨v, rfl, h⟩
  | dcmMul l r ihl ihr =>
    obtain ⟨x, hx, rx⟩ := ihl h.1
    obtain ⟨y, hy, ry⟩ := ihr h.2
    refine ⟨Att.dcmMul x y, by simp [Expr.eval, hx, hy], ?_⟩
    rw [iff] at *
    rw [of_dcmMul, Matrix.mul_assoc, ry, rx]
  | dcmTranspose e ih =>
    obtain ⟨x, hx, rx⟩ := ih h
    refine ⟨Att.dcmTranspose x, by simp [Expr.eval, hx], ?_⟩
    rw [iff, of_dcmTranspose, right_dcm_eq hR rx, Matrix.transpose_mul, Matrix.transpose_transpose, Matrix.mul_assoc, hR.left, Matrix.mul_one]
  | toDcm e ih =>
    obtain ⟨x, hx, rx⟩ := ih h
    exact ⟨Quat.toDcm x, by simp [Expr.eval, hx], rx.2⟩
  | quatInverse e ih =>
    obtain ⟨x, hx, rx⟩ := ih h
    refine ⟨Quat.inv x, by simp [Expr.eval, hx], ?_⟩
    rw [iffq] at *
    obtain ⟨h1, h2⟩ := toDcm_inv rx.1
    refine ⟨h2, ?_⟩
    rw [← rx.2, ← Matrix.mul_assoc, h1, Matrix.one_mul]
  | quatNormalized e ih =>
    obtain ⟨x, hx, rx⟩ := ih h
    refine ⟨Quat.normalized x, by simp [Expr.eval, hx], ?_⟩
    rw [iffq] at *
    have h1 := normalized_unit rx.1
    refine ⟨ne_zero_of_unit h1, ?_⟩
    have h2 : (Quat.normalized x).toDcm = Quat.toDcm x := by
      unfold Quat.toDcm
      rw [normalized_of_unit h1]
    rw [h2]
    exact rx.2
  | quatMul l r ihl ihr =>
    obtain ⟨x, hx, rx⟩ := ihl h.1
    obtain ⟨y, hy, ry⟩ := ihr h.2
    exact ⟨Quat.mul x y, by simp [Expr.eval, hx, hy], prod _ _ _ _ _ rx ry⟩
  | compose l r ihl ihr =>
    obtain ⟨x, hx, rx⟩ := ihl h.1
    obtain ⟨y, hy, ry⟩ := ihr h.2
    exact ⟨composeRotation x y, by simp [Expr.eval, hx, hy], prod _ _ _ _ _ ry rx⟩
  | dcmOfQuat e => exact h.elim
  | dcmOfEuler e => exact h.elim
  | quatConj e => exact h.elim
  | quatNeg e => exact h.elim
  | quatOfDcm e => exact h.elim
  | quatOfEuler e => exact h.elim
  | eulerOfDcm e => exact h.elim
  | eulerOfQuat e => exact h.elim

/-- The hypotheses hold for the matrix of the inverse of a quaternion, between frames turned by its matrix. -/
example : let q : Quat ℝ := ⟨3 / 5, 0, 0, 4 / 5⟩
    let R : Bool → Matrix (Fin 3) (Fin 3) ℝ := fun f => if f then Matrix.of q.toDcm else 1
    World R ∧ (Expr.toDcm (.quatInverse (.lit (k := .quat) (a := false) (b := true) q))).OkActive R := by
  intro q R
  have hq : q.norm2 = 1 := by rw [norm2_eq]; norm_num [q]
  refine ⟨fun f => ?_, ne_zero_of_unit hq, fun p => ?_⟩
  · cases f
    · simp [R]
    · show Matrix.of q.toDcm * (Matrix.of q.toDcm)ᵀ = 1 ∧ (Matrix.of q.toDcm).det = 1
      have h := rotation_mat (normalized_unit (ne_zero_of_unit hq))
      rw [toDcm_eq, of_dcmTranspose, Matrix.transpose_transpose, Matrix.det_transpose]
      exact ⟨mul_eq_one_comm.1 h.1, h.2⟩
  · simp [R]

end Verif.Att
