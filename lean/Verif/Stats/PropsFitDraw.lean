import Verif.Stats.PropsGaussIeee
import Verif.Stats.PropsDrawIeee

/-!
# Draws from a fitted normal distribution in machine arithmetic (C239)
-/

namespace Verif.Stats.Ie

open Verif.Ieee Verif.ML.Ie

variable {fl : ℝ → ℝ}

/-- What a user's loop over `gaussian.rs:20-33` `sample` with one generator collects: `k` successive draws. -/
noncomputable def drawMany (ln cos : IE binary64 fl → IE binary64 fl) (d : Gauss fl) : ℕ → Rand.Gen → List (IE binary64 fl) × Rand.Gen
  | 0, g => ([], g)
  | k + 1, g =>
    let (x, g) := draw ln cos d.mu d.sigma g
    let (xs, g) := drawMany ln cos d k g
    (x :: xs, g)

/-- **C239.** Fit a normal distribution to up to `2 ^ 53` numbers of size at most `2 ^ 480`, also to none, and draw from it any number of times with any generator: every
draw is a finite number within 9 standard deviations of the fitted mean (and a rounding), and the generator has taken exactly two steps for each draw. -/
theorem C239_draws (h : Rounds binary64 fl) {ln cos : IE binary64 fl → IE binary64 fl} (hln : LnDraw ln) (hcos : CosDraw cos)
    {samples : List (IE binary64 fl)} (hlen : samples.length ≤ 2 ^ 53) (hs : ∀ a ∈ samples, Below 480 a) :
    ∃ m s, Gauss.fit samples = ⟨IE.num m, IE.num s⟩ ∧ |m| ≤ 2 ^ 480 ∧ 0 < s ∧ ∀ k g, ∃ xs : List ℝ,
      drawMany ln cos (Gauss.fit samples) k g = (xs.map IE.num, (g.draws (2 * k)).2) ∧ xs.length = k ∧
      ∀ x ∈ xs, Finite binary64 x ∧ |x - m| ≤ 9 * s + 2 ^ (-53 : ℤ) * |m| + 2 ^ (-1074 : ℤ) := by
  obtain ⟨m, s, e, hm, -, hmb, h1, h2, -⟩ := C177_fit_partial h (expR_ok h).1 (expR_ok h).2 hlen hs
  have hs0 : 0 < s := lt_of_lt_of_le (by positivity) h1
  refine ⟨m, s, e, hmb, hs0, fun k => ?_⟩
  rw [e]
  induction k with
  | zero => exact fun g => ⟨[], rfl, rfl, by simp⟩
  | succ k ih =>
    intro g
    obtain ⟨x, ex, fx, hx⟩ := C236_sample holds64 h h hln hcos (mu := m) (sigma := s) hm
      (hmb.trans (by rw [← zpow_natCast]; exact zpow_le_zpow_right₀ (by norm_num) (by norm_num [binary64])))
      (by rw [abs_of_pos hs0]; exact h2.trans (zpow_le_zpow_right₀ (by norm_num) (by norm_num [binary64]))) g
    obtain ⟨xs, exs, hl, hxs⟩ := ih (g.draws 2).2
    refine ⟨x :: xs, ?_, by simp [hl], ?_⟩
    · unfold drawMany
      simp only [ex]
      rw [exs]
      rw [show 2 * (k + 1) = 2 * k + 1 + 1 by ring]
      rfl
    · intro y hy
      rcases List.mem_cons.1 hy with rfl | hy
      · refine ⟨fx, ?_⟩
        rw [abs_of_pos hs0] at hx
        simpa [unit, binary64] using hx
      · exact hxs y hy

/-- Three measurements and ten draws. -/
example (h : Rounds binary64 fl) {ln cos : IE binary64 fl → IE binary64 fl} (hln : LnDraw ln) (hcos : CosDraw cos) (g : Rand.Gen) :
    ∃ xs : List ℝ, drawMany ln cos (Gauss.fit [IE.num 1, IE.num 0, IE.num 1]) 10 g = (xs.map IE.num, (g.draws 20).2) ∧ ∀ x ∈ xs, Finite binary64 x := by
  have one : Below 480 (IE.num 1 : IE binary64 fl) := ⟨1, rfl, fin_one, by rw [abs_one]; exact one_le_pow₀ (by norm_num)⟩
  have zero : Below 480 (IE.num 0 : IE binary64 fl) := ⟨0, rfl, fin_zero, by simp⟩
  obtain ⟨_, _, _, _, _, hd⟩ := C239_draws h hln hcos (samples := [IE.num 1, IE.num 0, IE.num 1]) (by norm_num)
    (by intro a ha; simp only [List.mem_cons, List.not_mem_nil, or_false] at ha; rcases ha with rfl | rfl | rfl <;> assumption)
  obtain ⟨xs, e, -, hx⟩ := hd 10 g
  exact ⟨xs, e, fun x m => (hx x m).1⟩

end Verif.Stats.Ie
