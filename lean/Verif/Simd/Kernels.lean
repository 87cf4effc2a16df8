import Verif.Simd.Lemmas

/-!
# Each kernel on its own: in bounds, and close to the sum of products
-/

namespace Verif.Simd

open Verif.Mat (Mat)

variable {fl : ℝ → ℝ} {u : ℝ} {m n p : Nat}

theorem App.add2 (h : Accurate fl u) {x y : Fl fl} {d d' : Nat} {e s f t : ℝ} (hx : App u x d e s)
    (hy : App u y d' f t) : App u (x + y) (max d d' + 1) (e + f) (s + t) :=
  App.add h (hx.mono h (le_max_left _ _)) (hy.mono h (le_max_right _ _))

theorem close_of (h : Accurate fl u) {x : Fl fl} {d d' : Nat} {e s : ℝ} {a b : Fin n → Fl fl}
    (hx : App u x d e s) (hd : d ≤ d') (he : e = ∑ k, (a k).val * (b k).val)
    (hs : s = ∑ k, |(a k).val * (b k).val|) : Close u d' x a b := by
  subst he hs; exact (hx.mono h hd).close

/-- Build the error bound of an expression out of sums, products, fused multiply-adds and zeros. -/
macro "app_build" h:term : tactic => `(tactic|
  repeat' first
    | exact App.zero
    | exact App.mul $h _ _
    | apply App.fma $h
    | apply App.add2 $h)

/-- Four products. -/
macro "close4" h:term : tactic => `(tactic|
  (apply close_of $h
   · app_build $h
   · decide
   all_goals (rw [Fin.sum_univ_four]; try ring)))

/-- Six products. -/
macro "close6" h:term : tactic => `(tactic|
  (apply close_of $h
   · app_build $h
   · decide
   all_goals (rw [Fin.sum_univ_six]; try ring)))

/-- The value of a dot-product kernel. -/
def OkDot (u : ℝ) (d : Nat) (r : Option (Fl fl)) (a b : Fin n → Fl fl) : Prop :=
  ∃ x, r = some x ∧ Close u d x a b

/-- The value of a matrix–vector kernel. -/
def OkVec (u : ℝ) (d : Nat) (r : Option (Fin m → Fl fl)) (a : Mat (Fl fl) m n) (v : Fin n → Fl fl) : Prop :=
  ∃ out, r = some out ∧ ∀ i, Close u d (out i) (a i) v

/-- The value of a matrix–matrix kernel. -/
def OkMat (u : ℝ) (d : Nat) (r : Option (Mat (Fl fl) m p)) (a : Mat (Fl fl) m n) (b : Mat (Fl fl) n p) :
    Prop :=
  ∃ out, r = some out ∧ ∀ i j, Close u d (out i j) (a i) (fun k => b k j)

section Dot
variable (h : Accurate fl u) (a b : Fin 4 → Fl fl)
include h

theorem dot4AvxFmaF64_ok : OkDot u 4 (dot4AvxFmaF64 a b) a b := by
  have e : dot4AvxFmaF64 a b = some (fma (a 0) (b 0) 0 + fma (a 1) (b 1) 0 + fma (a 2) (b 2) 0
    + fma (a 3) (b 3) 0) := rfl
  refine ⟨_, e, ?_⟩
  close4 h

theorem dot4AvxF64_ok : OkDot u 4 (dot4AvxF64 a b) a b := by
  have e : dot4AvxF64 a b = some (a 0 * b 0 + a 1 * b 1 + a 2 * b 2 + a 3 * b 3) := rfl
  refine ⟨_, e, ?_⟩
  close4 h

theorem dot4SseFmaF32_ok : OkDot u 4 (dot4SseFmaF32 a b) a b := by
  have e : dot4SseFmaF32 a b = some (fma (a 0) (b 0) 0 + fma (a 1) (b 1) 0 + fma (a 2) (b 2) 0
    + fma (a 3) (b 3) 0) := rfl
  refine ⟨_, e, ?_⟩
  close4 h

theorem dot4SseF32_ok : OkDot u 4 (dot4SseF32 a b) a b := by
  have e : dot4SseF32 a b = some (a 0 * b 0 + a 1 * b 1 + a 2 * b 2 + a 3 * b 3) := rfl
  refine ⟨_, e, ?_⟩
  close4 h

theorem dot4NeonF32_ok : OkDot u 4 (dot4NeonF32 a b) a b := by
  have e : dot4NeonF32 a b = some ((a 0 * b 0 + a 1 * b 1) + (a 2 * b 2 + a 3 * b 3)) := rfl
  refine ⟨_, e, ?_⟩
  close4 h

theorem dot4NeonF64_ok : OkDot u 4 (dot4NeonF64 a b) a b := by
  have e : dot4NeonF64 a b = some ((a 0 * b 0 + a 1 * b 1) + (a 2 * b 2 + a 3 * b 3)) := rfl
  refine ⟨_, e, ?_⟩
  close4 h

theorem dot4M33_ok : OkDot u 4 (dot4M33 a b) a b := by
  refine ⟨_, rfl, ?_⟩
  close4 h

theorem dot_ok {n : Nat} (a b : Fin n → Fl fl) : Close u (n + 1) (Mat.dot a b) a b := by
  rw [Mat.C22_dot]; exact close_foldl h a b

end Dot

section Vec4
variable (h : Accurate fl u) (a : Mat (Fl fl) m 4) (v : Fin 4 → Fl fl)
include h

theorem plain4 (i : Fin m) : Close u 4 (a i 0 * v 0 + a i 1 * v 1 + a i 2 * v 2 + a i 3 * v 3) (a i) v := by
  close4 h

theorem fused4 (i : Fin m) : Close u 4 (fma (a i 0) (v 0) 0 + fma (a i 1) (v 1) 0 + fma (a i 2) (v 2) 0
    + fma (a i 3) (v 3) 0) (a i) v := by
  close4 h

theorem pair4 (i : Fin m) :
    Close u 4 ((a i 0 * v 0 + a i 1 * v 1) + (a i 2 * v 2 + a i 3 * v 3)) (a i) v := by
  close4 h

theorem mulVec4AvxFmaF64_ok : OkVec u 4 (mulVec4AvxFmaF64 a v) a v :=
  ⟨_, rows_eq (f := _) (fun _ => rfl), fused4 h a v⟩

theorem mulVec4AvxF64_ok : OkVec u 4 (mulVec4AvxF64 a v) a v := ⟨_, rows_eq (fun _ => rfl), plain4 h a v⟩

theorem mulVec4SseFmaF32_ok : OkVec u 4 (mulVec4SseFmaF32 a v) a v :=
  ⟨_, rows_eq (fun _ => rfl), fused4 h a v⟩

theorem mulVec4SseF32_ok : OkVec u 4 (mulVec4SseF32 a v) a v := ⟨_, rows_eq (fun _ => rfl), plain4 h a v⟩

theorem mulVec4NeonF32_ok : OkVec u 4 (mulVec4NeonF32 a v) a v := ⟨_, rows_eq (fun _ => rfl), pair4 h a v⟩

theorem mulVec4NeonF64_ok : OkVec u 4 (mulVec4NeonF64 a v) a v := ⟨_, rows_eq (fun _ => rfl), pair4 h a v⟩

theorem mulVec4M33_ok : OkVec u 4 (mulVec4M33 a v) a v := ⟨_, rows_eq (fun _ => rfl), plain4 h a v⟩

theorem mulVec4_ok : OkVec u 4 (some (Mat.mulVec4 a v)) a v := by
  refine ⟨_, rfl, fun i => ?_⟩
  unfold Mat.mulVec4; rw [Mat.vecLoop]
  exact plain4 h a v i

end Vec4

section Vec6
variable (h : Accurate fl u) (a : Mat (Fl fl) m 6) (v : Fin 6 → Fl fl)
include h

theorem plain6 (i : Fin m) : Close u 6 (a i 0 * v 0 + a i 1 * v 1 + a i 2 * v 2 + a i 3 * v 3 + a i 4 * v 4
    + a i 5 * v 5) (a i) v := by
  close6 h

theorem mulVec6AvxFmaF64_ok : OkVec u 6 (mulVec6AvxFmaF64 a v) a v := by
  have e : mulVec6AvxFmaF64 a v = some fun i => fma (a i 0) (v 0) 0 + fma (a i 1) (v 1) 0
    + fma (a i 2) (v 2) 0 + fma (a i 3) (v 3) 0 + a i 4 * v 4 + a i 5 * v 5 := rows_eq (fun _ => rfl)
  refine ⟨_, e, fun i => ?_⟩
  close6 h

theorem mulVec6AvxF64_ok : OkVec u 6 (mulVec6AvxF64 a v) a v := ⟨_, rows_eq (fun _ => rfl), plain6 h a v⟩

theorem mulVec6Fma128F64_ok : OkVec u 6 (mulVec6Fma128F64 a v) a v := by
  have e : mulVec6Fma128F64 a v = some fun i =>
      fma (a i 4) (v 4) (fma (a i 2) (v 2) (fma (a i 0) (v 0) 0))
      + fma (a i 5) (v 5) (fma (a i 3) (v 3) (fma (a i 1) (v 1) 0)) := rows_eq (fun _ => rfl)
  refine ⟨_, e, fun i => ?_⟩
  close6 h

theorem pair6 (i : Fin m) : Close u 6 ((a i 0 * v 0 + a i 2 * v 2 + a i 4 * v 4)
    + (a i 1 * v 1 + a i 3 * v 3 + a i 5 * v 5)) (a i) v := by
  close6 h

theorem mulVec6Sse2F64_ok : OkVec u 6 (mulVec6Sse2F64 a v) a v := ⟨_, rows_eq (fun _ => rfl), pair6 h a v⟩

theorem mulVec6AvxFmaF32_ok : OkVec u 6 (mulVec6AvxFmaF32 a v) a v := by
  have e : mulVec6AvxFmaF32 a v = some fun i => fma (a i 0) (v 0) 0 + fma (a i 1) (v 1) 0
    + fma (a i 2) (v 2) 0 + fma (a i 3) (v 3) 0 + fma (a i 4) (v 4) 0 + fma (a i 5) (v 5) 0 :=
    rows_eq (fun _ => rfl)
  refine ⟨_, e, fun i => ?_⟩
  close6 h

theorem mulVec6AvxF32_ok : OkVec u 6 (mulVec6AvxF32 a v) a v := ⟨_, rows_eq (fun _ => rfl), plain6 h a v⟩

theorem mulVec6Fma128F32_ok : OkVec u 6 (mulVec6Fma128F32 a v) a v := by
  have e : mulVec6Fma128F32 a v = some fun i => fma (a i 0) (v 0) 0 + fma (a i 1) (v 1) 0
    + fma (a i 2) (v 2) 0 + fma (a i 3) (v 3) 0 + a i 4 * v 4 + a i 5 * v 5 := rows_eq (fun _ => rfl)
  refine ⟨_, e, fun i => ?_⟩
  close6 h

theorem mulVec6SseF32_ok : OkVec u 6 (mulVec6SseF32 a v) a v := ⟨_, rows_eq (fun _ => rfl), plain6 h a v⟩

theorem mulVec6NeonF32_ok : OkVec u 6 (mulVec6NeonF32 a v) a v := by
  have e : mulVec6NeonF32 a v = some fun i => ((a i 0 * v 0 + a i 1 * v 1) + (a i 2 * v 2 + a i 3 * v 3))
    + (a i 4 * v 4 + a i 5 * v 5) := rows_eq (fun _ => rfl)
  refine ⟨_, e, fun i => ?_⟩
  close6 h

theorem mulVec6NeonF64_ok : OkVec u 6 (mulVec6NeonF64 a v) a v := ⟨_, rows_eq (fun _ => rfl), pair6 h a v⟩

theorem mulVec6_ok : OkVec u 6 (some (Mat.mulVec6 a v)) a v := by
  refine ⟨_, rfl, fun i => ?_⟩
  unfold Mat.mulVec6; rw [Mat.vecLoop]
  exact plain6 h a v i

end Vec6

section Mat
variable (h : Accurate fl u)
include h

theorem mulMatrixAvxF64_ok (a : Mat (Fl fl) m n) (b : Mat (Fl fl) n p) :
    OkMat u (n + 1) (mulMatrixAvxF64 a b) a b :=
  mulMatrixLanes_close h _ (g := fun a c b => c + a * b) (fun _ _ _ _ => rfl)
    (fun _ _ _ => Or.inr (Or.inr (Or.inl rfl))) a b

theorem mulMatrixAvxFmaF64_ok (a : Mat (Fl fl) m n) (b : Mat (Fl fl) n p) :
    OkMat u (n + 1) (mulMatrixAvxFmaF64 a b) a b :=
  mulMatrixLanes_close h _ (g := fun a c b => fma a b c) (fun _ _ _ _ => rfl) (fun _ _ _ => Or.inl rfl) a b

theorem mulMatrixAvxF32_ok (a : Mat (Fl fl) m n) (b : Mat (Fl fl) n p) :
    OkMat u (n + 1) (mulMatrixAvxF32 a b) a b :=
  mulMatrixLanes_close h _ (g := fun a c b => c + a * b) (fun _ _ _ _ => rfl)
    (fun _ _ _ => Or.inr (Or.inr (Or.inl rfl))) a b

theorem mulMatrixAvxFmaF32_ok (a : Mat (Fl fl) m n) (b : Mat (Fl fl) n p) :
    OkMat u (n + 1) (mulMatrixAvxFmaF32 a b) a b :=
  mulMatrixLanes_close h _ (g := fun a c b => fma a b c) (fun _ _ _ _ => rfl) (fun _ _ _ => Or.inl rfl) a b

theorem mulMatrixNeonF64_ok (a : Mat (Fl fl) m n) (b : Mat (Fl fl) n p) :
    OkMat u (n + 1) (mulMatrixNeonF64 a b) a b :=
  mulMatrixLanes_close h _ (g := fun a c b => fma b a c) (fun _ _ _ _ => rfl)
    (fun _ _ _ => Or.inr (Or.inl rfl)) a b

theorem mulMatrixNeonF32_ok (a : Mat (Fl fl) m n) (b : Mat (Fl fl) n p) :
    OkMat u (n + 1) (mulMatrixNeonF32 a b) a b := by
  unfold mulMatrixNeonF32
  by_cases h4 : p = 4
  · subst h4
    rw [if_pos rfl]
    refine kernel_close h a b fun i c k => ⟨fun j => fma (b k j) (a i k) (c j), ?_, fun j => Or.inr (Or.inl rfl)⟩
    refine congrArg some (funext fun j => ?_)
    fin_cases j <;> rfl
  rw [if_neg h4]
  by_cases h6 : p = 6
  · subst h6
    rw [if_pos rfl]
    refine kernel_close h a b fun i c k => ⟨fun j => if j.val < 4 then fma (b k j) (a i k) (c j)
      else c j + a i k * b k j, ?_, fun j => ?_⟩
    · refine congrArg some (funext fun j => ?_)
      fin_cases j <;> rfl
    · dsimp only
      by_cases hj : j.val < 4
      · rw [if_pos hj]; exact Or.inr (Or.inl rfl)
      · rw [if_neg hj]; exact Or.inr (Or.inr (Or.inl rfl))
  rw [if_neg h6]
  by_cases h3 : p = 3
  · subst h3
    rw [if_pos rfl]
    refine kernel_close h a b fun i c k => ⟨fun j => c j + a i k * b k j, ?_,
      fun j => Or.inr (Or.inr (Or.inl rfl))⟩
    refine congrArg some (funext fun j => ?_)
    fin_cases j <;> rfl
  rw [if_neg h3]
  exact mulMatrixLanes_close h _ (g := fun a c b => fma b a c) (fun _ _ _ _ => rfl)
    (fun _ _ _ => Or.inr (Or.inl rfl)) a b

theorem mul_ok (a : Mat (Fl fl) m n) (b : Mat (Fl fl) n p) : OkMat u (n + 1) (some (Mat.mul a b)) a b :=
  ⟨_, rfl, fun i j => by rw [Mat.C21_mul_entry]; exact close_foldl h (a i) (fun k => b k j)⟩

theorem mulMat3NeonF32_ok (a b : Mat (Fl fl) 3 3) : OkMat u 4 (mulMat3NeonF32 a b) a b := by
  have e : mulMat3NeonF32 a b = some fun i j => 0 + b 0 j * a i 0 + b 1 j * a i 1 + b 2 j * a i 2 := by
    refine matRows_eq fun i => congrArg some (funext fun j => ?_)
    fin_cases j <;> rfl
  refine ⟨_, e, fun i j => ?_⟩
  apply close_of h
  · app_build h
  · decide
  all_goals (simp only [Fin.sum_univ_three, mul_comm (a i _).val]; ring)

theorem mulMat3NeonF64_ok (a b : Mat (Fl fl) 3 3) : OkMat u 4 (mulMat3NeonF64 a b) a b := by
  have e : mulMat3NeonF64 a b = some fun i j =>
      fma (b 2 j) (a i 2) (fma (b 1 j) (a i 1) (fma (b 0 j) (a i 0) 0)) := by
    refine matRows_eq fun i => congrArg some (funext fun j => ?_)
    fin_cases j <;> rfl
  refine ⟨_, e, fun i j => ?_⟩
  apply close_of h
  · app_build h
  · decide
  all_goals (simp only [Fin.sum_univ_three, mul_comm (a i _).val]; ring)

theorem mulMat4NeonF32_ok (a b : Mat (Fl fl) 4 4) : OkMat u 5 (mulMat4NeonF32 a b) a b := by
  have e : mulMat4NeonF32 a b = some fun i j => 0 + b 0 j * a i 0 + b 1 j * a i 1 + b 2 j * a i 2
      + b 3 j * a i 3 := by
    refine matRows_eq fun i => congrArg some (funext fun j => ?_)
    fin_cases j <;> rfl
  refine ⟨_, e, fun i j => ?_⟩
  apply close_of h
  · app_build h
  · decide
  all_goals (simp only [Fin.sum_univ_four, mul_comm (a i _).val]; ring)

theorem mulMat4NeonF64_ok (a b : Mat (Fl fl) 4 4) : OkMat u 5 (mulMat4NeonF64 a b) a b := by
  have e : mulMat4NeonF64 a b = some fun i j => fma (b 3 j) (a i 3)
      (fma (b 2 j) (a i 2) (fma (b 1 j) (a i 1) (fma (b 0 j) (a i 0) 0))) := by
    refine matRows_eq fun i => congrArg some (funext fun j => ?_)
    fin_cases j <;> rfl
  refine ⟨_, e, fun i j => ?_⟩
  apply close_of h
  · app_build h
  · decide
  all_goals (simp only [Fin.sum_univ_four, mul_comm (a i _).val]; ring)

theorem mulMat6NeonF32_ok (a b : Mat (Fl fl) 6 6) : OkMat u 7 (mulMat6NeonF32 a b) a b := by
  have e : mulMat6NeonF32 a b = some fun i j => 0 + b 0 j * a i 0 + b 1 j * a i 1 + b 2 j * a i 2
      + b 3 j * a i 3 + b 4 j * a i 4 + b 5 j * a i 5 := by
    refine matRows_eq fun i => congrArg some (funext fun j => ?_)
    fin_cases j <;> rfl
  refine ⟨_, e, fun i j => ?_⟩
  apply close_of h
  · app_build h
  · decide
  all_goals (simp only [Fin.sum_univ_six, mul_comm (a i _).val]; ring)

theorem mulMat6NeonF64_ok (a b : Mat (Fl fl) 6 6) : OkMat u 7 (mulMat6NeonF64 a b) a b := by
  have e : mulMat6NeonF64 a b = some fun i j => fma (b 5 j) (a i 5) (fma (b 4 j) (a i 4) (fma (b 3 j) (a i 3)
      (fma (b 2 j) (a i 2) (fma (b 1 j) (a i 1) (fma (b 0 j) (a i 0) 0))))) := by
    refine matRows_eq fun i => congrArg some (funext fun j => ?_)
    fin_cases j <;> rfl
  refine ⟨_, e, fun i j => ?_⟩
  apply close_of h
  · app_build h
  · decide
  all_goals (simp only [Fin.sum_univ_six, mul_comm (a i _).val]; ring)

end Mat

end Verif.Simd
