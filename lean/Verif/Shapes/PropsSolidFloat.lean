import Verif.Float.Rel
import Verif.Float.Eval
import Verif.Shapes.PropsSolid

/-!
# Volumes and moments of inertia of solids in floating point (C230)

`sphereOf`, `cylinderOf` and `prismOf` run in a format of `p ≥ 24` bits with any rounding to nearest; `pi'` is the constant of the
scalar type, right up to one rounding.
-/

namespace Verif.Shapes

open Verif.Float MeasureTheory

variable {fl : ℝ → ℝ} {lib : Libm} {p : ℕ}

/-- The small whole numbers the code builds by adding ones are exact. -/
theorem whole_next (hp : 24 ≤ p) (h : Nearest p fl) {x : ℝ} (n : ℕ) (hx : x = n) (hn : n < 12) :
    (CF.num x + CF.num 1 : CF fl lib) = CF.num (x + 1) := by
  rw [cf_add, h.fix]
  refine ⟨(n + 1 : ℕ), 0, ?_, by rw [hx]; push_cast; ring⟩
  have : (2 : ℤ) ^ 24 ≤ 2 ^ p := pow_le_pow_right₀ (by norm_num) hp
  rw [abs_of_nonneg (by positivity)]
  omega

theorem two_eq (hp : 24 ≤ p) (h : Nearest p fl) : (1 + 1 : CF fl lib) = CF.num 2 := by
  rw [cf_one, whole_next hp h 1 (by norm_num) (by norm_num)]; norm_num

theorem three_eq (hp : 24 ≤ p) (h : Nearest p fl) : (1 + 1 + 1 : CF fl lib) = CF.num 3 := by
  rw [two_eq hp h, cf_one, whole_next hp h 2 (by norm_num) (by norm_num)]; norm_num

theorem four_eq (hp : 24 ≤ p) (h : Nearest p fl) : (1 + 1 + 1 + 1 : CF fl lib) = CF.num 4 := by
  rw [three_eq hp h, cf_one, whole_next hp h 3 (by norm_num) (by norm_num)]; norm_num

theorem five_eq (hp : 24 ≤ p) (h : Nearest p fl) : (1 + 1 + 1 + 1 + 1 : CF fl lib) = CF.num 5 := by
  rw [four_eq hp h, cf_one, whole_next hp h 4 (by norm_num) (by norm_num)]; norm_num

theorem twelve_eq (hp : 24 ≤ p) (h : Nearest p fl) :
    (1 + 1 + 1 + 1 + 1 + 1 + 1 + 1 + 1 + 1 + 1 + 1 : CF fl lib) = CF.num 12 := by
  rw [five_eq hp h, cf_one, whole_next hp h 5 (by norm_num) (by norm_num), whole_next hp h 6 (by norm_num) (by norm_num),
    whole_next hp h 7 (by norm_num) (by norm_num), whole_next hp h 8 (by norm_num) (by norm_num),
    whole_next hp h 9 (by norm_num) (by norm_num), whole_next hp h 10 (by norm_num) (by norm_num),
    whole_next hp h 11 (by norm_num) (by norm_num)]
  norm_num

/-- One more exact factor. -/
theorem Rel.times {u k a a' : ℝ} (hs : Small fl u) (hk0 : 0 ≤ k) (hk : k ≤ 40) (h : Rel u k a' a) (x : ℝ) :
    Rel u (k + 102 / 100) (fl (a' * x)) (a * x) :=
  ((Rel.mul hs hk0 (by linarith) le_rfl (by norm_num) h (Rel.refl u x)).round hs (by linarith) (by linarith)).mono hs (by linarith)

/-- C230. The volume of a sphere is right up to 6.1 roundings, its moments up to 4.1. -/
theorem C230_sphere (hp : 24 ≤ p) (h : Nearest p fl) {pi' : ℝ} (hpi : Rel (2 ^ (-p : ℤ)) 1 pi' Real.pi) (r m : ℝ) (hr : 0 ≤ r) :
    ∃ V I : ℝ, (sphereOf (CF.num pi' : CF fl lib) (CF.num r)).volume = CF.num V ∧
      (∀ i, (sphereOf (CF.num pi' : CF fl lib) (CF.num r)).inertia (CF.num m) i = CF.num I) ∧
      Rel (2 ^ (-p : ℤ)) (61 / 10) V (volume.real (sphereRegion r)) ∧
      ∀ i, Rel (2 ^ (-p : ℤ)) (41 / 10) I ((sphere r).inertia m i) := by
  have hs := nearest_small hp h
  have q := hs.rel (4 / 3)
  have v1 := (Rel.mul hs zero_le_one (by norm_num) zero_le_one (by norm_num) q hpi).round hs (by norm_num) (by norm_num)
  have v2 := Rel.times hs (by norm_num) (by norm_num) (Rel.times hs (by norm_num) (by norm_num) (Rel.times hs (by norm_num) (by norm_num) v1 r) r) r
  have i1 := Rel.times hs (by norm_num) (by norm_num) (Rel.times hs (by norm_num) (by norm_num) (Rel.times hs (by norm_num) (by norm_num)
    (hs.rel (2 / 5)) m) r) r
  have v3 := v2.mono hs (show _ ≤ (61 / 10 : ℝ) by norm_num)
  have i2 := i1.mono hs (show _ ≤ (41 / 10 : ℝ) by norm_num)
  refine ⟨fl (fl (fl (fl (fl (4 / 3) * pi') * r) * r) * r), fl (fl (fl (fl (2 / 5) * m) * r) * r), ?_, ?_, ?_, fun i => ?_⟩
  · simp only [sphereOf]
    rw [four_eq hp h, three_eq hp h, cf_div _ (by norm_num), cf_mul, cf_mul, cf_mul, cf_mul]
  · intro i
    simp only [sphereOf]
    rw [five_eq hp h, two_eq hp h, cf_div _ (by norm_num), cf_mul, cf_mul, cf_mul]
    fin_cases i <;> rfl
  · rw [← (C54_sphere r hr).1, sphere, sphereOf]
    convert v3 using 1
    norm_num
  · convert i2 using 1
    rw [sphere, sphereOf]
    fin_cases i <;> norm_num

/-- C230. The volume of a cylinder is right up to 4.1 roundings, its moments up to 5.1; the two moments across the axis are equal. -/
theorem C230_cylinder (hp : 24 ≤ p) (h : Nearest p fl) {pi' : ℝ} (hpi : Rel (2 ^ (-p : ℤ)) 1 pi' Real.pi) (r l m : ℝ) (hr : 0 ≤ r)
    (hl : 0 ≤ l) (hm : 0 ≤ m) :
    ∃ V I J : ℝ, (cylinderOf (CF.num pi' : CF fl lib) (CF.num r) (CF.num l)).volume = CF.num V ∧
      (∀ i, (cylinderOf (CF.num pi' : CF fl lib) (CF.num r) (CF.num l)).inertia (CF.num m) i = CF.num ((![I, I, J] : Fin 3 → ℝ) i)) ∧
      Rel (2 ^ (-p : ℤ)) (41 / 10) V (volume.real (cylinderRegion r l)) ∧
      ∀ i, Rel (2 ^ (-p : ℤ)) (51 / 10) ((![I, I, J] : Fin 3 → ℝ) i) ((cylinder r l).inertia m i) := by
  have hs := nearest_small hp h
  have v := Rel.times hs (by norm_num) (by norm_num) (Rel.times hs (by norm_num) (by norm_num) (Rel.times hs zero_le_one (by norm_num) hpi r) r) l
  have hhalf : fl (1 / 2) = 1 / 2 := by
    refine h.fix ?_
    have := isFloat_zpow (p := p) (by omega) (-1)
    rwa [zpow_neg_one, ← one_div] at this
  have r2 := hs.rel (r * r)
  have l2 := hs.rel (l * l)
  have j1 := (Rel.mul hs le_rfl (by norm_num) zero_le_one (by norm_num) (Rel.refl _ m) r2).round hs (by norm_num) (by norm_num)
  have j2 := Rel.times hs (by norm_num) (by norm_num) j1 (1 / 2)
  have k1 := (Rel.mul hs zero_le_one (by norm_num) zero_le_one (by norm_num) (hs.rel (m * 3)) r2).round hs (by norm_num) (by norm_num)
  have k2 := (Rel.mul hs le_rfl (by norm_num) zero_le_one (by norm_num) (Rel.refl _ m) l2).round hs (by norm_num) (by norm_num)
  have k3 := (Rel.add k1 (k2.mono hs (by norm_num)) (by positivity) (by positivity)).round hs (by norm_num) (by norm_num)
  have k4 := (Rel.div hs (by norm_num) (by norm_num) le_rfl (by norm_num) k3 (Rel.refl _ 12) (by norm_num)).round hs (by norm_num) (by norm_num)
  have v3 := v.mono hs (show _ ≤ (41 / 10 : ℝ) by norm_num)
  refine ⟨fl (fl (fl (pi' * r) * r) * l), fl (fl (fl (fl (m * 3) * fl (r * r)) + fl (m * fl (l * l))) / 12), fl (fl (m * fl (r * r)) * (1 / 2)), ?_, ?_, ?_, ?_⟩
  rotate_left
  · intro i
    simp only [cylinderOf]
    rw [twelve_eq hp h, three_eq hp h, two_eq hp h, cf_one, cf_div _ (by norm_num), hhalf, cf_mul, cf_mul, cf_mul, cf_mul, cf_mul,
      cf_mul, cf_mul, cf_add, cf_div _ (by norm_num)]
    fin_cases i <;> rfl
  · rw [← (C54_cylinder r l hr hl).1, cylinder, cylinderOf]
    exact v3
  · intro i
    have e : (cylinder r l).inertia m i = (![(m * 3 * (r * r) + m * (l * l)) / 12, (m * 3 * (r * r) + m * (l * l)) / 12, m * (r * r) * (1 / 2)] : Fin 3 → ℝ) i := by
      rw [cylinder, cylinderOf]
      fin_cases i <;> norm_num
    rw [e]
    fin_cases i
    · exact k4.mono hs (by norm_num)
    · exact k4.mono hs (by norm_num)
    · exact j2.mono hs (by norm_num)
  · simp only [cylinderOf]
    rw [cf_mul, cf_mul, cf_mul]

/-- C230. The volume of a block is right up to 2.1 roundings, its moments up to 4.1. -/
theorem C230_prism (hp : 24 ≤ p) (h : Nearest p fl) (a b c m : ℝ) (ha : 0 ≤ a) (hb : 0 ≤ b) (hc : 0 ≤ c) :
    ∃ (V : ℝ) (I : Fin 3 → ℝ), (prismOf (CF.num a : CF fl lib) (CF.num b) (CF.num c)).volume = CF.num V ∧
      (∀ i, (prismOf (CF.num a : CF fl lib) (CF.num b) (CF.num c)).inertia (CF.num m) i = CF.num (I i)) ∧
      Rel (2 ^ (-p : ℤ)) (21 / 10) V (volume.real (prismRegion a b c)) ∧
      ∀ i, Rel (2 ^ (-p : ℤ)) (41 / 10) (I i) ((prism a b c).inertia m i) := by
  have hs := nearest_small hp h
  have v := Rel.times hs zero_le_one (by norm_num) (hs.rel (a * b)) c
  have one : ∀ x y : ℝ, Rel (2 ^ (-p : ℤ)) (41 / 10) (fl (fl (m * fl (fl (x * x) + fl (y * y))) / 12)) (m * (x * x + y * y) / 12) := by
    intro x y
    have s := (Rel.add (hs.rel (x * x)) (hs.rel (y * y)) (mul_self_nonneg x) (mul_self_nonneg y)).round hs (by norm_num) (by norm_num)
    have t := (Rel.mul hs le_rfl (by norm_num) (by norm_num) (by norm_num) (Rel.refl _ m) s).round hs (by norm_num) (by norm_num)
    exact ((Rel.div hs (by norm_num) (by norm_num) le_rfl (by norm_num) t (Rel.refl _ 12) (by norm_num)).round hs (by norm_num) (by norm_num)).mono
      hs (by norm_num)
  have v3 := v.mono hs (show _ ≤ (21 / 10 : ℝ) by norm_num)
  refine ⟨fl (fl (a * b) * c), ![fl (fl (m * fl (fl (b * b) + fl (c * c))) / 12), fl (fl (m * fl (fl (a * a) + fl (c * c))) / 12),
    fl (fl (m * fl (fl (a * a) + fl (b * b))) / 12)], ?_, ?_, ?_, ?_⟩
  rotate_left
  · intro i
    simp only [prismOf]
    rw [twelve_eq hp h]
    simp only [cf_mul, cf_add]
    rw [cf_div _ (by norm_num), cf_div _ (by norm_num), cf_div _ (by norm_num)]
    fin_cases i <;> rfl
  · rw [← (C54_prism a b c ha hb hc).1, prism, prismOf]
    exact v3
  · intro i
    have e : (prism a b c).inertia m i = (![m * (b * b + c * c) / 12, m * (a * a + c * c) / 12, m * (a * a + b * b) / 12] : Fin 3 → ℝ) i := by
      rw [prism, prismOf]
      fin_cases i <;> norm_num
    rw [e]
    fin_cases i
    · exact one b c
    · exact one a c
    · exact one a b
  · simp only [prismOf]
    rw [cf_mul, cf_mul]

/-- Single precision, with the correctly rounded constant. -/
example : Nearest 24 (rnd 24) ∧ Rel (2 ^ (-(24 : ℕ) : ℤ)) 1 (rnd 24 Real.pi) Real.pi :=
  ⟨rnd_nearest (by norm_num), (nearest_small le_rfl (rnd_nearest (by norm_num))).rel _⟩

end Verif.Shapes
