import Verif.Float.Scale
import Verif.Geom.Model

/-!
# C215: units that differ by powers of two give the same digits; C216: the linear solver

`scl (2 ^ k) a` is the number `a` in a unit `2 ^ k` times smaller. The theorems say that a computation in such units is the original one
with its results in the new units: not up to rounding, but digit for digit.
-/

namespace Verif.Float

open Verif.Simd (Fl)
open Verif.Mat

variable {fl : ℝ → ℝ} {m n p : ℕ}

/-! ## C215 -/

theorem fold_dot {s t : ℝ} (hs : Unit2 fl s) (ht : Unit2 fl t) (u v : Fin n → Fl fl) (l : List (Fin n)) :
    l.foldl (fun acc i => acc + scl s (u i) * scl t (v i)) 0 = scl (s * t) (l.foldl (fun acc i => acc + u i * v i) 0) := by
  refine foldl_sim (fun a b => a = scl (s * t) b) _ _ l (fun i _ a b h => ?_) scl_zero.symm
  rw [h, scl_mul hs ht, scl_add (hs.mul ht)]

/-- **C215.** Inner products, lengths and directions. -/
theorem C215_vectors (h : DigitsOnly fl) (j k : ℤ) (u v : Fin n → Fl fl) :
    dot (fun i => scl (2 ^ j) (u i)) (fun i => scl (2 ^ k) (v i)) = scl (2 ^ (j + k)) (dot u v) ∧
    Mat.norm Geom.rsqrt (fun i => scl (2 ^ j) (u i)) = scl (2 ^ j) (Mat.norm Geom.rsqrt u) ∧
    (∀ f : Geom.Fns (Fl fl), f.sqrt = Geom.rsqrt → Geom.normalize f (fun i => scl (2 ^ j) (u i)) = Geom.normalize f u) := by
  have hj := h.unit j
  have hk := h.unit k
  have hn : Mat.norm Geom.rsqrt (fun i => scl (2 ^ j) (u i)) = scl (2 ^ j) (Mat.norm Geom.rsqrt u) := by
    unfold Mat.norm
    rw [fold_dot hj hj u u, scl_rsqrt hj]
  refine ⟨?_, hn, fun f hf => ?_⟩
  · unfold dot
    rw [fold_dot hj hk u v, zpow_add₀ (by norm_num)]
  · unfold Geom.normalize
    rw [hf, hn]
    funext i
    show scl (2 ^ j) (u i) / scl (2 ^ j) (Mat.norm Geom.rsqrt u) = u i / Mat.norm Geom.rsqrt u
    rw [scl_div hj hj, div_self hj.1.ne', scl_one]

/-- **C215.** Matrix products, with a unit for each row of the left factor, each column of the right one, and each inner index. -/
theorem C215_product (h : DigitsOnly fl) (r : Fin m → ℤ) (q : Fin n → ℤ) (c : Fin p → ℤ) (a : Mat (Fl fl) m n) (b : Mat (Fl fl) n p)
    (i : Fin m) (j : Fin p) :
    mul (fun i k => scl (2 ^ (r i + q k)) (a i k)) (fun k j => scl (2 ^ (c j - q k)) (b k j)) i j = scl (2 ^ (r i + c j)) (mul a b i j) := by
  rw [mul_apply, mul_apply]
  refine foldl_sim (fun x y => x = scl (2 ^ (r i + c j)) y) _ _ _ (fun k _ x y hxy => ?_) scl_zero.symm
  rw [hxy, scl_mul (h.unit _) (h.unit _), ← zpow_add₀ (by norm_num), show r i + q k + (c j - q k) = r i + c j by ring, scl_add (h.unit _)]

/-- **C215.** The Runge-Kutta run in other units: a unit for each component of the state and one for the time. -/
theorem C215_rk4 (h : DigitsOnly fl) (k : Fin n → ℤ) (c : ℤ) (f g : (Fin n → Fl fl) → Fin n → Fl fl)
    (hg : ∀ y i, g (fun i => scl (2 ^ k i) (y i)) i = scl (2 ^ (k i - c)) (f y i)) (dt : Fl fl) (x : Fin n → Fl fl) (N : ℕ) :
    (fun y => Ode.rk4 y g (scl (2 ^ c) dt))^[N] (fun i => scl (2 ^ k i) (x i)) =
      fun i => scl (2 ^ k i) ((fun y => Ode.rk4 y f dt)^[N] x i) := by
  have hdiv : ∀ (w : Fl fl), scl (2 ^ c) dt / w = scl (2 ^ c) (dt / w) := fun w => by
    have := scl_div (h.unit c) Unit2.one dt w
    rwa [scl_one, div_one] at this
  have hx : ∀ (x d : Fin n → Fl fl) (w : Fl fl), (fun i => scl (2 ^ k i) (x i)) + Ode.vscale (fun i => scl (2 ^ (k i - c)) (d i)) (scl (2 ^ c) w) =
      fun i => scl (2 ^ k i) ((x + Ode.vscale d w) i) := fun x d w => by
    funext i
    show scl (2 ^ k i) (x i) + scl (2 ^ (k i - c)) (d i) * scl (2 ^ c) w = scl (2 ^ k i) (x i + d i * w)
    rw [scl_mul (h.unit _) (h.unit _), ← zpow_add₀ (by norm_num), sub_add_cancel, scl_add (h.unit _)]
  have hadd : ∀ d e : Fin n → Fl fl, ((fun i => scl (2 ^ (k i - c)) (d i)) + fun i => scl (2 ^ (k i - c)) (e i)) =
      fun i => scl (2 ^ (k i - c)) ((d + e) i) := fun d e => by
    funext i; exact scl_add (h.unit _) _ _
  have hg' : ∀ y : Fin n → Fl fl, g (fun i => scl (2 ^ k i) (y i)) = fun i => scl (2 ^ (k i - c)) (f y i) := fun y => funext (hg y)
  induction N with
  | zero => rfl
  | succ N ih =>
    rw [Function.iterate_succ_apply', ih, Function.iterate_succ_apply']
    generalize (fun y => Ode.rk4 y f dt)^[N] x = z
    unfold Ode.rk4
    simp only [hg', hdiv, hx, hadd]

/-- The hypothesis: a falling body whose height and speed are measured in units `1024` times smaller and whose time is measured in a unit
`2` times smaller. -/
example (y : Fin 2 → Fl fl) (i : Fin 2) :
    (fun s : Fin 2 → Fl fl => ![scl (2 ^ (-1 : ℤ)) (s 1), scl (2 ^ (9 : ℤ)) ⟨-9.81⟩]) (fun i => scl (2 ^ (![10, 10] i : ℤ)) (y i)) i =
      scl (2 ^ (![10, 10] i - 1 : ℤ)) ((fun s : Fin 2 → Fl fl => ![s 1, ⟨-9.81⟩]) y i) := by
  fin_cases i
  · ext; simp [scl]; norm_num; ring
  · simp

/-- **C215.** Newton's method in other units, with the tolerance in the unit of the unknown. -/
theorem C215_newton [DecidableEq (Fl fl)] (h : DigitsOnly fl) (j k : ℤ) (f df g dg : Fl fl → Fl fl)
    (hg : ∀ x, g (scl (2 ^ j) x) = scl (2 ^ k) (f x)) (hdg : ∀ x, dg (scl (2 ^ j) x) = scl (2 ^ (k - j)) (df x)) (tol : Fl fl) (N : ℕ) (x : Fl fl) :
    Ode.newton absV (fun a b => decide (a < b)) (scl (2 ^ j) tol) g dg N (scl (2 ^ j) x) =
      ((Ode.newton absV (fun a b => decide (a < b)) tol f df N x).1.map (scl (2 ^ j)),
        (Ode.newton absV (fun a b => decide (a < b)) tol f df N x).2.map (scl (2 ^ j))) := by
  have hj := h.unit j
  induction N generalizing x with
  | zero => rfl
  | succ N ih =>
    simp only [Ode.newton, hg, hdg]
    by_cases hd : df x = 0
    · simp [hd, scl_zero, Except.map]
    · have hd' : ¬ scl (2 ^ (k - j)) (df x) = 0 := fun e => hd ((scl_eq_zero (h.unit _).1 _).1 e)
      have en : scl (2 ^ j) x - scl (2 ^ k) (f x) / scl (2 ^ (k - j)) (df x) = scl (2 ^ j) (x - f x / df x) := by
        rw [scl_div (h.unit _) (h.unit _), ← zpow_sub₀ (by norm_num), sub_sub_cancel, scl_sub hj]
      have et : absV (scl (2 ^ j) (x - f x / df x) - scl (2 ^ j) x) < scl (2 ^ j) tol ↔ absV (x - f x / df x - x) < tol := by
        rw [scl_sub hj, scl_abs hj.1, scl_lt hj.1]
      simp only [hd, hd', if_false, en]
      by_cases ht : absV (x - f x / df x - x) < tol
      · simp only [decide_eq_true (et.2 ht), decide_eq_true ht, if_true]
        rfl
      · simp only [decide_eq_false (fun h => ht (et.1 h)), decide_eq_false ht, Bool.false_eq_true, if_false, ih, List.map_cons]

/-- The rounding: for every precision there is one that looks at the digits only, and it is to nearest. -/
example (p : ℕ) (hp : 1 ≤ p) : DigitsOnly (rnd p) ∧ Nearest p (rnd p) := ⟨rnd_digits p, rnd_nearest hp⟩

/-! ## C216 -/

variable {s : Fin n → ℝ}

theorem pivot_scl (hs : ∀ j, Unit2 fl (s j)) (k : Fin n) (a b : Mat (Fl fl) n n) (h : ∀ i, k ≤ i → b i k = scl (s k) (a i k)) :
    pivot b k = ((pivot a k).1, scl (s k) (pivot a k).2) := by
  unfold pivot
  rw [h k le_rfl, scl_abs (hs k).1]
  refine foldl_sim (fun (x y : Fin n × Fl fl) => x = (y.1, scl (s k) y.2)) _ _ _ (fun r hr x y hxy => ?_) rfl
  have hkr : k ≤ r := by have := (mem_rng.1 hr).1; exact Fin.le_def.2 (by omega)
  subst hxy
  rw [h r hkr, scl_abs (hs k).1]
  by_cases hc : absV (a r k) > y.2
  · rw [if_pos ((scl_lt (hs k).1 _ _).2 hc), if_pos hc]
  · rw [if_neg (fun e => hc ((scl_lt (hs k).1 _ _).1 e)), if_neg hc]

/-- The factorisations side by side: multipliers are equal, everything else is in the unit of its column. -/
def Side (s : Fin n → ℝ) (k : ℕ) (d e : Lu (Fl fl) n) : Prop :=
  e.piv = d.piv ∧ e.sign = d.sign ∧ ∀ i j, e.lu i j = if j < i ∧ j.1 < k then d.lu i j else scl (s j) (d.lu i j)

theorem side_step (hs : ∀ j, Unit2 fl (s j)) {eps : Fl fl} {k : Fin n} {d e d' : Lu (Fl fl) n} (h : Side s k.1 d e)
    (hd : luStep eps d k = some d') (ht : ¬ (pivot e.lu k).2 ≤ eps) : ∃ e', luStep eps e k = some e' ∧ Side s (k.1 + 1) d' e' := by
  obtain ⟨h1, h2, h3⟩ := h
  have hpv := pivot_scl hs k d.lu e.lu (fun i hi => by rw [h3, if_neg]; rintro ⟨-, hh⟩; omega)
  have hkp := (Round.pivot_fl d.lu k).1
  have elim : ∀ x y : Lu (Fl fl) n, Side s k.1 x y → Side s (k.1 + 1) { x with lu := luElim x.lu k } { y with lu := luElim y.lu k } := by
    rintro x y ⟨g1, g2, g3⟩
    refine ⟨g1, g2, fun i j => ?_⟩
    simp only [luElim_apply]
    have hkk : y.lu k k = scl (s k) (x.lu k k) := by rw [g3, if_neg (by rintro ⟨hh, -⟩; exact lt_irrefl _ hh)]
    by_cases hi : k < i
    · have hik : y.lu i k = scl (s k) (x.lu i k) := by rw [g3, if_neg (by rintro ⟨-, hh⟩; omega)]
      have hmul : y.lu i k / y.lu k k = x.lu i k / x.lu k k := by
        rw [hik, hkk, scl_div (hs k) (hs k), div_self (hs k).1.ne', scl_one]
      rw [if_pos hi, if_pos hi, hmul]
      rcases lt_trichotomy j k with hj | rfl | hj
      · rw [if_neg hj.ne, if_neg hj.not_gt, if_neg hj.ne, if_neg hj.not_gt, g3,
          if_pos ⟨hj.trans hi, Fin.lt_def.1 hj⟩, if_pos ⟨hj.trans hi, by have := Fin.lt_def.1 hj; omega⟩]
      · rw [if_pos rfl, if_pos rfl, if_pos ⟨hi, by omega⟩]
      · have hc : ¬ (j < i ∧ j.1 < k.1) := by have := Fin.lt_def.1 hj; rintro ⟨-, hh⟩; omega
        have hc' : ¬ (j < i ∧ j.1 < k.1 + 1) := by have := Fin.lt_def.1 hj; rintro ⟨-, hh⟩; omega
        have hkj : y.lu k j = scl (s j) (x.lu k j) := by
          rw [g3, if_neg (by have := Fin.lt_def.1 hj; rintro ⟨-, hh⟩; omega)]
        have hm : x.lu i k / x.lu k k * scl (s j) (x.lu k j) = scl (s j) (x.lu i k / x.lu k k * x.lu k j) := by
          have := scl_mul Unit2.one (hs j) (x.lu i k / x.lu k k) (x.lu k j)
          rwa [scl_one, one_mul] at this
        rw [if_neg hj.ne', if_pos hj, if_neg hj.ne', if_pos hj, if_neg hc', g3, if_neg hc, hkj, hm, scl_sub (hs j)]
    · rw [if_neg hi, if_neg hi, g3]
      have : (j < i ∧ j.1 < k.1) ↔ (j < i ∧ j.1 < k.1 + 1) := by
        simp only [Fin.lt_def] at hi ⊢; omega
      simp only [this]
  unfold luStep at hd ⊢
  dsimp only at hd ⊢
  rw [if_neg ht]
  split at hd
  · cases hd
  · rw [hpv]
    dsimp only
    by_cases hp : (pivot d.lu k).1 = k
    · simp only [hp, ne_eq, not_true_eq_false, if_false] at hd ⊢
      cases hd
      exact ⟨_, rfl, elim d e ⟨h1, h2, h3⟩⟩
    · simp only [ne_eq, hp, not_false_eq_true, if_true] at hd ⊢
      cases hd
      refine ⟨_, rfl, elim ⟨swapRows d.lu k (pivot d.lu k).1, swapIdx d.piv k (pivot d.lu k).1, -d.sign⟩
        ⟨swapRows e.lu k (pivot d.lu k).1, swapIdx e.piv k (pivot d.lu k).1, -e.sign⟩ ⟨by rw [h1], by rw [h2], fun i j => ?_⟩⟩
      simp only [swapRows_eq]
      rw [h3]
      by_cases hi : i.1 < k.1
      · rw [Round.swap_low hkp hi]
      · have := Round.swap_high hkp (not_lt.1 hi)
        have e : (j < Equiv.swap k (pivot d.lu k).1 i ∧ j.1 < k.1) ↔ (j < i ∧ j.1 < k.1) := by
          simp only [Fin.lt_def]; omega
        simp only [e]

/-- Running the two factorisations side by side. -/
theorem side_run (hs : ∀ j, Unit2 fl (s j)) {eps : Fl fl} {a b : Mat (Fl fl) n n} (hab : ∀ i j, b i j = scl (s j) (a i j)) {d : Lu (Fl fl) n}
    (hd : luDecompose eps a = some d) (ht : (∃ e, luDecompose eps b = some e) ∨ (0 ≤ eps.val ∧ ∀ j, 1 ≤ s j)) :
    ∃ e, luDecompose eps b = some e ∧ Side s n d e := by
  suffices H : ∀ (c : ℕ) (k : ℕ), k + c = n → ∀ d₀ e₀ : Lu (Fl fl) n, Side s k d₀ e₀ → (rng n k n).foldlM (luStep eps) d₀ = some d →
      ((∃ e, (rng n k n).foldlM (luStep eps) e₀ = some e) ∨ (0 ≤ eps.val ∧ ∀ j, 1 ≤ s j)) →
      ∃ e, (rng n k n).foldlM (luStep eps) e₀ = some e ∧ Side s n d e by
    refine H n 0 (by omega) ⟨a, id, 1⟩ ⟨b, id, 1⟩ ⟨rfl, rfl, fun i j => ?_⟩ hd ht
    rw [if_neg (by rintro ⟨-, hh⟩; omega)]
    exact hab i j
  intro c
  induction c with
  | zero =>
    intro k hk d₀ e₀ h hd ht
    have : k = n := by omega
    subst this
    rw [rng_nil le_rfl] at hd ⊢
    cases hd
    exact ⟨e₀, rfl, h⟩
  | succ c ih =>
    intro k hk d₀ e₀ h hd ht
    have hkn : k < n := by omega
    rw [rng_cons hkn le_rfl, List.foldlM_cons] at hd ht ⊢
    obtain ⟨d₁, hd1, hd2⟩ := Option.bind_eq_some_iff.1 hd
    have hpv := pivot_scl hs ⟨k, hkn⟩ d₀.lu e₀.lu (fun i hi => by
      rw [h.2.2, if_neg]; rintro ⟨-, hh⟩; simp at hh)
    have hthr : ¬ (pivot e₀.lu ⟨k, hkn⟩).2 ≤ eps := by
      rcases ht with ⟨e, he⟩ | ⟨he0, hs1⟩
      · obtain ⟨e₁, he1, -⟩ := Option.bind_eq_some_iff.1 he
        intro hle
        unfold luStep at he1
        dsimp only at he1
        rw [if_pos hle] at he1
        cases he1
      · intro hle
        rw [hpv] at hle
        have hle' : s ⟨k, hkn⟩ * (pivot d₀.lu ⟨k, hkn⟩).2.val ≤ eps.val := hle
        have hnot : ¬ (pivot d₀.lu ⟨k, hkn⟩).2 ≤ eps := by
          intro hh
          unfold luStep at hd1
          dsimp only at hd1
          rw [if_pos hh] at hd1
          cases hd1
        have hnot' : eps.val < (pivot d₀.lu ⟨k, hkn⟩).2.val := not_le.1 hnot
        nlinarith [hs1 ⟨k, hkn⟩]
    obtain ⟨e₁, he1, hside⟩ := side_step hs h hd1 hthr
    rw [he1] at ht ⊢
    exact ih (k + 1) (by omega) d₁ e₁ hside hd2 (by simpa using ht)

/-- The substitutions side by side. -/
theorem side_solve (hs : ∀ j, Unit2 fl (s j)) {t : ℝ} (htu : Unit2 fl t) {d e : Lu (Fl fl) n} (h : Side s n d e) (b : Fin n → Fl fl) (j : Fin n) :
    e.solve (fun i => scl t (b i)) j = scl (t / s j) (d.solve b j) := by
  obtain ⟨h1, -, h3⟩ := h
  have hlow : ∀ i j : Fin n, j < i → e.lu i j = d.lu i j := fun i j hij => by rw [h3, if_pos ⟨hij, j.2⟩]
  have hup : ∀ i j : Fin n, i ≤ j → e.lu i j = scl (s j) (d.lu i j) := fun i j hij => by
    rw [h3, if_neg]; rintro ⟨hh, -⟩; exact absurd hh (not_lt.2 hij)
  unfold Lu.solve
  dsimp only
  rw [h1]
  set x1 := (rng n 0 n).foldl (fun x i => Function.update x i (scl t (b (d.piv i)))) (fun _ => (0 : Fl fl)) with hx1
  set x0 := (rng n 0 n).foldl (fun x i => Function.update x i (b (d.piv i))) (fun _ => (0 : Fl fl)) with hx0
  have e0 : ∀ i, x1 i = scl t (x0 i) := by
    have := foldl_sim (fun (x y : Fin n → Fl fl) => ∀ i, x i = scl t (y i)) (fun x i => Function.update x i (scl t (b (d.piv i))))
      (fun x i => Function.update x i (b (d.piv i))) (rng n 0 n) (fun i _ x y hxy k => by
        by_cases hk : k = i
        · subst hk; simp
        · simp [Function.update_of_ne hk, hxy]) (a := fun _ => 0) (b := fun _ => 0) (fun i => scl_zero.symm)
    exact this
  set y1 := (rng n 0 n).foldl (fun x i => Function.update x i ((rng n 0 i.1).foldl (fun s j => s - e.lu i j * x j) (x i))) x1
  set y0 := (rng n 0 n).foldl (fun x i => Function.update x i ((rng n 0 i.1).foldl (fun s j => s - d.lu i j * x j) (x i))) x0
  have ey : ∀ i, y1 i = scl t (y0 i) := by
    refine foldl_sim (fun (x y : Fin n → Fl fl) => ∀ i, x i = scl t (y i)) _ _ (rng n 0 n) (fun i _ x y hxy k => ?_) e0
    by_cases hk : k = i
    · subst hk
      rw [Function.update_self, Function.update_self]
      refine foldl_sim (fun a b => a = scl t b) _ _ _ (fun j hj a c hac => ?_) (hxy k)
      have hjk : j < k := Fin.lt_def.2 (mem_rng.1 hj).2
      have hm : d.lu k j * scl t (y j) = scl t (d.lu k j * y j) := by
        have := scl_mul Unit2.one htu (d.lu k j) (y j)
        rwa [scl_one, one_mul] at this
      rw [hac, hlow k j hjk, hxy j, hm, scl_sub htu]
    · rw [Function.update_of_ne hk, Function.update_of_ne hk]; exact hxy k
  have fin := foldl_rev (fun (p : (Fin n → Fl fl) × (Fin n → Fl fl)) i =>
      (Function.update p.1 i ((rng n (i.1 + 1) n).foldl (fun s j => s - e.lu i j * p.1 j) (p.1 i) / e.lu i i),
        Function.update p.2 i ((rng n (i.1 + 1) n).foldl (fun s j => s - d.lu i j * p.2 j) (p.2 i) / d.lu i i)))
    (fun k p => ∀ i : Fin n, p.1 i = if k ≤ i.1 then scl (t / s i) (p.2 i) else scl t (p.2 i)) (fun k hk p hp i => by
      dsimp only
      by_cases hi : i = ⟨k, hk⟩
      · subst hi
        rw [Function.update_self, Function.update_self, if_pos le_rfl, hup _ _ le_rfl]
        have : (rng n (k + 1) n).foldl (fun s j => s - e.lu ⟨k, hk⟩ j * p.1 j) (p.1 ⟨k, hk⟩) =
            scl t ((rng n (k + 1) n).foldl (fun s j => s - d.lu ⟨k, hk⟩ j * p.2 j) (p.2 ⟨k, hk⟩)) := by
          refine foldl_sim (fun a b => a = scl t b) _ _ _ (fun j hj a c hac => ?_) (by rw [hp, if_neg]; simp)
          have hkj : k + 1 ≤ j.1 := (mem_rng.1 hj).1
          rw [hac, hup _ _ (Fin.le_def.2 (by simp; omega)), hp j, if_pos hkj, scl_mul (hs j) (htu.div (hs j)),
            mul_div_cancel₀ _ (hs j).1.ne', scl_sub htu]
        rw [this, scl_div htu (hs _)]
      · have hne : i.1 ≠ k := fun hh => hi (Fin.ext hh)
        rw [Function.update_of_ne hi, Function.update_of_ne hi, hp i]
        have : (k + 1 ≤ i.1) ↔ (k ≤ i.1) := by omega
        simp only [this]) (s := (y1, y0)) (fun i => by rw [if_neg (by have := i.2; omega)]; exact ey i)
  rw [foldl_pair (fun (x : Fin n → Fl fl) i => Function.update x i ((rng n (i.1 + 1) n).foldl (fun s j => s - e.lu i j * x j) (x i) / e.lu i i))
    (fun (x : Fin n → Fl fl) i => Function.update x i ((rng n (i.1 + 1) n).foldl (fun s j => s - d.lu i j * x j) (x i) / d.lu i i))] at fin
  have := fin j
  rw [if_pos (Nat.zero_le _)] at this
  exact this

/-- **C216.** The unknowns in units that differ by powers of two, one for each unknown, and the right-hand side in another unit: if both systems
are accepted, the solutions agree digit for digit. A common unit of the equations is a common factor of the matrix and of the right-hand side.
Missing: that both systems are accepted; the threshold is absolute. -/
theorem C216_partial (h : DigitsOnly fl) (c : Fin n → ℤ) (t : ℤ) {eps : Fl fl} {a : Mat (Fl fl) n n} {b x y : Fin n → Fl fl}
    (hx : solve eps a b = some x) (hy : solve eps (fun i j => scl (2 ^ c j) (a i j)) (fun i => scl (2 ^ t) (b i)) = some y) :
    ∀ j, y j = scl (2 ^ (t - c j)) (x j) := by
  obtain ⟨d, hd, rfl⟩ := Option.map_eq_some_iff.1 hx
  obtain ⟨e, he, rfl⟩ := Option.map_eq_some_iff.1 hy
  obtain ⟨e', he', hside⟩ := side_run (s := fun j => 2 ^ c j) (fun j => h.unit (c j)) (fun i j => rfl) hd (Or.inl ⟨e, he⟩)
  rw [he] at he'
  cases he'
  intro j
  rw [side_solve (fun j => h.unit (c j)) (h.unit t) hside, ← zpow_sub₀ (by norm_num)]

/-- **C216.** Going to smaller units of the unknowns never turns an accepted system into a refused one. -/
theorem C216_accepted (h : DigitsOnly fl) (c : Fin n → ℤ) (hc : ∀ j, 0 ≤ c j) (t : ℤ) {eps : Fl fl} (he : 0 ≤ eps.val) {a : Mat (Fl fl) n n}
    {b x : Fin n → Fl fl} (hx : solve eps a b = some x) :
    solve eps (fun i j => scl (2 ^ c j) (a i j)) (fun i => scl (2 ^ t) (b i)) = some fun j => scl (2 ^ (t - c j)) (x j) := by
  obtain ⟨d, hd, rfl⟩ := Option.map_eq_some_iff.1 hx
  obtain ⟨e, he', hside⟩ := side_run (s := fun j => 2 ^ c j) (fun j => h.unit (c j)) (fun i j => rfl) hd
    (Or.inr ⟨he, fun j => one_le_zpow₀ (by norm_num) (hc j)⟩)
  refine Option.map_eq_some_iff.2 ⟨e, he', funext fun j => ?_⟩
  rw [side_solve (fun j => h.unit (c j)) (h.unit t) hside, ← zpow_sub₀ (by norm_num)]

/-- **C216.** The determinant in smaller units of the columns: a determinant that is not reported as zero is multiplied by the product of the
factors, digit for digit. -/
theorem C216_determinant (h : DigitsOnly fl) (c : Fin n → ℤ) (hc : ∀ j, 0 ≤ c j) {eps : Fl fl} (he : 0 ≤ eps.val) {a : Mat (Fl fl) n n}
    (ha : determinant eps a ≠ 0) :
    determinant eps (fun i j => scl (2 ^ c j) (a i j)) = scl (2 ^ ∑ j, c j) (determinant eps a) := by
  have hu : ∀ j, Unit2 fl (2 ^ c j) := fun j => h.unit (c j)
  have hone : ∀ j, (1 : ℝ) ≤ 2 ^ c j := fun j => one_le_zpow₀ (by norm_num) (hc j)
  obtain ⟨r, hr⟩ : ∃ r, (rng n 0 n).foldlM (detStep eps) (a, 1) = some r := by
    unfold determinant at ha
    cases hh : (rng n 0 n).foldlM (detStep eps) (a, 1) with
    | none => rw [hh] at ha; exact absurd rfl ha
    | some r => exact ⟨r, rfl⟩
  suffices H : ∀ (w : ℕ) (k : ℕ), k + w = n → ∀ (x : Mat (Fl fl) n n) (v v' : Fl fl),
      v' = scl (2 ^ ∑ j with j.1 < k, c j) v → (rng n k n).foldlM (detStep eps) (x, v) = some r →
      ∃ r', (rng n k n).foldlM (detStep eps) ((fun i j => scl (2 ^ c j) (x i j)), v') = some r' ∧ r'.2 = scl (2 ^ ∑ j, c j) r.2 by
    obtain ⟨r', h1, h2⟩ := H n 0 (by omega) a 1 1 (by simp [scl_one]) hr
    unfold determinant
    rw [hr, h1]
    exact h2
  intro w
  induction w with
  | zero =>
    intro k hk x v v' hv hf
    have : k = n := by omega
    subst this
    rw [rng_nil le_rfl] at hf ⊢
    cases hf
    refine ⟨_, rfl, ?_⟩
    show v' = _
    rw [hv, Finset.filter_true_of_mem fun j _ => j.2]
  | succ w ih =>
    intro k hk x v v' hv hf
    have hkn : k < n := by omega
    rw [rng_cons hkn le_rfl, List.foldlM_cons] at hf ⊢
    obtain ⟨x₁, hx1, hx2⟩ := Option.bind_eq_some_iff.1 hf
    set q : Fin n := ⟨k, hkn⟩ with hq
    have hpv := pivot_scl (s := fun j => 2 ^ c j) hu q x (fun i j => scl (2 ^ c j) (x i j)) (fun i _ => rfl)
    have hthr : ¬ (pivot x q).2 ≤ eps := by
      intro hle
      unfold detStep at hx1
      dsimp only at hx1
      rw [if_pos hle] at hx1
      cases hx1
    have hthr' : ¬ (pivot (fun i j => scl (2 ^ c j) (x i j)) q).2 ≤ eps := by
      rw [hpv]
      intro hle
      have hle' : 2 ^ c q * (pivot x q).2.val ≤ eps.val := hle
      have hnot' : eps.val < (pivot x q).2.val := not_le.1 hthr
      nlinarith [hone q]
    have helim : ∀ z : Mat (Fl fl) n n, detElim (fun i j => scl (2 ^ c j) (z i j)) q = fun i j => scl (2 ^ c j) (detElim z q i j) := by
      intro z
      funext i j
      simp only [detElim_apply]
      by_cases hij : q < i ∧ q < j
      · rw [if_pos hij, if_pos hij, scl_div (hu q) (hu q), div_self (hu q).1.ne', scl_one]
        have := scl_mul Unit2.one (hu j) (z i q / z q q) (z q j)
        rw [scl_one, one_mul] at this
        rw [this, scl_sub (hu j)]
      · rw [if_neg hij, if_neg hij]
    have hacc : ∀ z : Fl fl, ∀ v v' : Fl fl, v' = scl (2 ^ ∑ j with j.1 < k, c j) v →
        v' * scl (2 ^ c q) z = scl (2 ^ ∑ j with j.1 < k + 1, c j) (v * z) := by
      intro z v v' hv
      have hsum : ∑ j with j.1 < k + 1, c j = ∑ j with j.1 < k, c j + c q := by
        have hset : (Finset.univ.filter fun j : Fin n => j.1 < k + 1) = insert q (Finset.univ.filter fun j : Fin n => j.1 < k) := by
          ext j
          simp only [Finset.mem_filter, Finset.mem_univ, true_and, Finset.mem_insert, Fin.ext_iff, hq]
          omega
        rw [hset, Finset.sum_insert (by simp [hq]), add_comm]
      rw [hv, scl_mul (h.unit _) (hu q), ← zpow_add₀ (by norm_num), hsum]
    unfold detStep at hx1 ⊢
    dsimp only at hx1 ⊢
    rw [if_neg hthr] at hx1
    rw [if_neg hthr', hpv]
    dsimp only
    by_cases hp : (pivot x q).1 = q
    · simp only [hp, ne_eq, not_true_eq_false, if_false] at hx1 ⊢
      cases hx1
      rw [helim]
      exact ih (k + 1) (by omega) _ _ _ (hacc (x q q) v v' hv) hx2
    · simp only [ne_eq, hp, not_false_eq_true, if_true] at hx1 ⊢
      cases hx1
      have hsw : swapRows (fun i j => scl (2 ^ c j) (x i j)) q (pivot x q).1 = fun i j => scl (2 ^ c j) (swapRows x q (pivot x q).1 i j) := by
        simp only [swapRows_eq]
      rw [hsw, helim]
      exact ih (k + 1) (by omega) _ _ _ (hacc (swapRows x q (pivot x q).1 q q) (-v) (-v') (by rw [hv, scl_neg])) hx2

theorem solve_one (eps a b : Fl fl) :
    solve eps (fun _ _ : Fin 1 => a) (fun _ => b) = if absV a ≤ eps then none else some fun _ => b / a := by
  have e : rng 1 0 1 = [0] := by decide
  have e' : rng 1 1 1 = [] := by decide
  have e0 : rng 1 0 0 = [] := by decide
  by_cases h : absV a ≤ eps
  · simp [solve, luDecompose, e, luStep, pivot, e', h]
  · simp only [solve, luDecompose, e, luStep, pivot, h, if_false, List.foldlM_cons, List.foldlM_nil]
    simp [Lu.solve, e, e', e0, luElim]
    refine ⟨h, funext fun i => ?_⟩
    rw [Subsingleton.elim i 0]
    simp

theorem determinant_one (eps a : Fl fl) (h : ¬ absV a ≤ eps) : determinant eps (fun _ _ : Fin 1 => a) = 1 * a := by
  have e : rng 1 0 1 = [0] := by decide
  have e' : rng 1 1 1 = [] := by decide
  simp [determinant, e, detStep, pivot, e', h]

/-- The hypotheses: systems in one unknown that are accepted. -/
example : solve (⟨2 ^ (-52 : ℤ)⟩ : Fl (rnd 53)) (fun _ _ : Fin 1 => ⟨3⟩) (fun _ => ⟨6⟩) ≠ none ∧
    determinant (⟨1 / 1000⟩ : Fl (rnd 53)) (fun _ _ : Fin 1 => ⟨3⟩) ≠ 0 := by
  constructor
  · rw [solve_one, if_neg]
    · exact Option.some_ne_none _
    · show ¬ |(3 : ℝ)| ≤ 2 ^ (-52 : ℤ)
      norm_num
  · rw [determinant_one]
    · intro hh
      have hv : rnd 53 (1 * 3) = 0 := congrArg Fl.val hh
      rw [one_mul, (rnd_nearest (by norm_num : 1 ≤ 53)).fix ⟨3, 0, by norm_num, by norm_num⟩] at hv
      norm_num at hv
    · show ¬ |(3 : ℝ)| ≤ 1 / 1000
      norm_num

/-- **C216 fails** without: `x = 1` is solved, with the answer 1; `2⁻⁵³ x = 2⁻⁵³` is refused. -/
theorem C216_fails (fl : ℝ → ℝ) (h : fl 1 = 1) :
    solve (⟨2 ^ (-52 : ℤ)⟩ : Fl fl) (fun _ _ : Fin 1 => ⟨1⟩) (fun _ => ⟨1⟩) = some (fun _ => ⟨1⟩) ∧
    solve (⟨2 ^ (-52 : ℤ)⟩ : Fl fl) (fun _ _ : Fin 1 => scl (2 ^ (-53 : ℤ)) ⟨1⟩) (fun _ => scl (2 ^ (-53 : ℤ)) ⟨1⟩) = none := by
  constructor
  · rw [solve_one, if_neg]
    · congr 1
      funext _
      ext
      show fl (1 / 1) = 1
      rw [div_one, h]
    · show ¬ |(1 : ℝ)| ≤ 2 ^ (-52 : ℤ)
      norm_num
  · rw [solve_one, if_pos]
    show |(2 : ℝ) ^ (-53 : ℤ) * 1| ≤ 2 ^ (-52 : ℤ)
    rw [mul_one, abs_of_pos (zpow_pos (by norm_num) _)]
    exact zpow_le_zpow_right₀ (by norm_num) (by norm_num)

end Verif.Float
