import Verif.Viz.Viewer

/-!
# What a click leaves alone
-/

namespace Verif.Viz

variable {F : Type}

theorem toggle_keeps (v : Viewer F) (b : Axis × Name) :
    (toggle v b).sources = v.sources ∧ (toggle v b).xLabel = v.xLabel ∧ (toggle v b).yLabels = v.yLabels := by
  unfold toggle
  split
  · split
    · split <;> exact ⟨rfl, rfl, rfl⟩
    · exact ⟨rfl, rfl, rfl⟩
  · exact ⟨rfl, rfl, rfl⟩

theorem toggles_keep (bs : List (Axis × Name)) (v : Viewer F) :
    (bs.foldl toggle v).sources = v.sources ∧ (bs.foldl toggle v).xLabel = v.xLabel ∧ (bs.foldl toggle v).yLabels = v.yLabels := by
  induction bs generalizing v with
  | nil => exact ⟨rfl, rfl, rfl⟩
  | cons b bs ih =>
    obtain ⟨h1, h2, h3⟩ := ih (toggle v b)
    obtain ⟨k1, k2, k3⟩ := toggle_keeps v b
    exact ⟨h1.trans k1, h2.trans k2, h3.trans k3⟩

end Verif.Viz
