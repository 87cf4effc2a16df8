import Verif.Stars.Model
import Mathlib.Tactic.Linarith
import Mathlib.Tactic.NormNum
import Mathlib.Tactic.Positivity
import Mathlib.Order.Interval.Set.Basic

/-!
# C66: star colours

Specification vocabulary: a channel is displayable when it lies in `Set.Icc 0 1`; the temperature scale is antitone in the
colour index and takes the published values at the published indices.
-/

namespace Verif.Stars

open Real

theorem clamp_mem {x lo hi : ℝ} (h : lo ≤ hi) : clamp x lo hi ∈ Set.Icc lo hi := by
  unfold clamp
  by_cases h1 : x < lo
  · rw [if_pos h1]; exact ⟨le_rfl, h⟩
  · rw [if_neg h1]
    by_cases h2 : hi < x
    · rw [if_pos h2]; exact ⟨h, le_rfl⟩
    · rw [if_neg h2]; exact ⟨not_lt.mp h1, not_lt.mp h2⟩

theorem clamp_eq {x lo hi : ℝ} (h : x ∈ Set.Icc lo hi) : clamp x lo hi = x := by
  unfold clamp
  rw [if_neg (not_lt.mpr h.1), if_neg (not_lt.mpr h.2)]

theorem clamp_max_min {x lo hi : ℝ} (h : lo ≤ hi) : clamp x lo hi = max lo (min x hi) := by
  unfold clamp
  by_cases h1 : x < lo
  · rw [if_pos h1, min_eq_left (h1.le.trans h), max_eq_left h1.le]
  · rw [if_neg h1]
    by_cases h2 : hi < x
    · rw [if_pos h2, min_eq_right h2.le, max_eq_right h]
    · rw [if_neg h2, min_eq_left (not_lt.mp h2), max_eq_right (not_lt.mp h1)]

theorem clamp_mono {x y lo hi : ℝ} (h : lo ≤ hi) (hxy : x ≤ y) : clamp x lo hi ≤ clamp y lo hi := by
  rw [clamp_max_min h, clamp_max_min h]
  exact max_le_max le_rfl (min_le_min hxy le_rfl)

/-- Knots with increasing abscissae and ordinates that do not increase. -/
def Falling (l : List (ℝ × ℝ)) : Prop := l.IsChain (fun a b => a.1 < b.1 ∧ b.2 ≤ a.2)

theorem scan_le (l : List (ℝ × ℝ)) : ∀ k : ℝ × ℝ, Falling (k :: l) → ∀ x, k.1 ≤ x → scan x (k :: l) ≤ k.2 := by
  induction l with
  | nil => intro k _ x _; exact le_rfl
  | cons k1 r ih =>
    intro k hc x hx
    obtain ⟨⟨h1, h2⟩, hr⟩ := List.isChain_cons_cons.mp hc
    simp only [scan]
    by_cases hle : x ≤ k1.1
    · rw [if_pos hle]
      have : 0 ≤ (x - k.1) / (k1.1 - k.1) := div_nonneg (by linarith) (by linarith)
      nlinarith
    · rw [if_neg hle]
      exact (ih k1 hr x (not_le.mp hle).le).trans h2

theorem le_scan (l : List (ℝ × ℝ)) : ∀ k : ℝ × ℝ, Falling (k :: l) → ∀ x, k.1 ≤ x →
    ((k :: l).getLast (List.cons_ne_nil k l)).2 ≤ scan x (k :: l) := by
  induction l with
  | nil => intro k _ x _; exact le_rfl
  | cons k1 r ih =>
    intro k hc x hx
    obtain ⟨⟨h1, h2⟩, hr⟩ := List.isChain_cons_cons.mp hc
    rw [List.getLast_cons_cons]
    simp only [scan]
    by_cases hle : x ≤ k1.1
    · rw [if_pos hle]
      have h3 := ih k1 hr k1.1 le_rfl
      have h4 := scan_le r k1 hr k1.1 le_rfl
      have : (x - k.1) / (k1.1 - k.1) ≤ 1 := (div_le_one (by linarith)).mpr (by linarith)
      nlinarith
    · rw [if_neg hle]
      exact ih k1 hr x (not_le.mp hle).le

theorem scan_antitone (l : List (ℝ × ℝ)) : ∀ k : ℝ × ℝ, Falling (k :: l) → ∀ x y, k.1 ≤ x → x ≤ y →
    scan y (k :: l) ≤ scan x (k :: l) := by
  induction l with
  | nil => intro k _ x y _ _; exact le_rfl
  | cons k1 r ih =>
    intro k hc x y hx hxy
    obtain ⟨⟨h1, h2⟩, hr⟩ := List.isChain_cons_cons.mp hc
    simp only [scan]
    by_cases hyle : y ≤ k1.1
    · rw [if_pos hyle, if_pos (hxy.trans hyle)]
      have h3 : (x - k.1) / (k1.1 - k.1) ≤ (y - k.1) / (k1.1 - k.1) := div_le_div_of_nonneg_right (by linarith) (by linarith)
      nlinarith
    · rw [if_neg hyle]
      by_cases hxle : x ≤ k1.1
      · rw [if_pos hxle]
        have h4 := scan_le r k1 hr y (not_le.mp hyle).le
        have : (x - k.1) / (k1.1 - k.1) ≤ 1 := (div_le_one (by linarith)).mpr (by linarith)
        nlinarith
      · rw [if_neg hxle]
        exact ih k1 hr x y (not_le.mp hxle).le hxy

theorem scan_knot (l : List (ℝ × ℝ)) : ∀ k : ℝ × ℝ, Falling (k :: l) → ∀ q ∈ k :: l, scan q.1 (k :: l) = q.2 := by
  induction l with
  | nil => intro k _ q hq; rw [List.mem_singleton] at hq; subst hq; rfl
  | cons k1 r ih =>
    intro k hc q hq
    obtain ⟨⟨h1, h2⟩, hr⟩ := List.isChain_cons_cons.mp hc
    simp only [scan]
    rcases List.mem_cons.mp hq with rfl | hq
    · rw [if_pos h1.le]; simp
    · have hge : k1.1 ≤ q.1 := by
        rcases List.mem_cons.mp hq with rfl | hq'
        · exact le_rfl
        · have : (k1 :: r).Pairwise (fun a b : ℝ × ℝ => a.1 < b.1) :=
            haveI : IsTrans (ℝ × ℝ) (fun a b => a.1 < b.1) := ⟨fun _ _ _ h h' => h.trans h'⟩
            List.isChain_iff_pairwise.mp (hr.imp fun _ _ h => h.1)
          exact ((List.pairwise_cons.mp this).1 q hq').le
      by_cases hle : q.1 ≤ k1.1
      · have he : q.1 = k1.1 := le_antisymm hle hge
        have hq2 : q.2 = k1.2 := by
          rw [← ih k1 hr q hq, he, ih k1 hr k1 (List.mem_cons_self)]
        rw [if_pos hle, he, hq2, div_self (by linarith)]
        ring
      · rw [if_neg hle]
        exact ih k1 hr q hq

theorem knots_falling : Falling knots := by
  unfold Falling knots
  simp only [List.isChain_cons_cons, List.isChain_singleton]
  norm_num

/-- C66. The effective temperature of a star lies between 3000 K and 15000 K for every colour index, never increases with the
index, and takes the published values at the published indices. -/
theorem C66_temperature : (∀ x, teff x ∈ Set.Icc 3000 15000) ∧ Antitone teff ∧
    teff (-0.2) = 15000 ∧ teff 0 = 10000 ∧ teff 0.3 = 8000 ∧ teff 0.65 = 5800 ∧ teff 1 = 5000 ∧ teff 1.5 = 4000 ∧
    teff 2 = 3500 ∧ teff 2.5 = 3200 ∧ teff 3 = 3000 := by
  have hk : ∀ q ∈ knots, teff q.1 = q.2 := by
    intro q hq
    have hmem : q.1 ∈ Set.Icc (-0.2 : ℝ) 3 := by
      simp only [knots, List.mem_cons, List.not_mem_nil, or_false] at hq
      rcases hq with rfl | rfl | rfl | rfl | rfl | rfl | rfl | rfl | rfl <;> constructor <;> norm_num
    unfold teff
    rw [clamp_eq hmem]
    exact scan_knot _ _ knots_falling q hq
  have hb : ∀ x, (-0.2 : ℝ) ≤ clamp x (-0.2) 3 := fun x => (clamp_mem (by norm_num)).1
  refine ⟨fun x => ⟨le_scan _ _ knots_falling _ (hb x), scan_le _ _ knots_falling _ (hb x)⟩, fun x y hxy => ?_, ?_, ?_, ?_, ?_, ?_, ?_, ?_, ?_, ?_⟩
  · exact scan_antitone _ _ knots_falling _ _ (hb x) (clamp_mono (by norm_num) hxy)
  all_goals first
    | exact hk (-0.2, 15000) (by simp [knots]) | exact hk (0, 10000) (by simp [knots]) | exact hk (0.3, 8000) (by simp [knots])
    | exact hk (0.65, 5800) (by simp [knots]) | exact hk (1, 5000) (by simp [knots]) | exact hk (1.5, 4000) (by simp [knots])
    | exact hk (2, 3500) (by simp [knots]) | exact hk (2.5, 3200) (by simp [knots]) | exact hk (3, 3000) (by simp [knots])

/-- Halfway between two published indices the temperature is halfway. -/
example : teff 1.25 = 4500 := by
  unfold teff
  rw [clamp_eq ⟨by norm_num, by norm_num⟩]
  norm_num [knots, scan]

/-- Every channel is in `[0, 1]`. -/
def Rgb.Displayable (c : Rgb) : Prop := c.r ∈ Set.Icc 0 1 ∧ c.g ∈ Set.Icc 0 1 ∧ c.b ∈ Set.Icc 0 1

theorem ramp_mem (x : ℝ) : min (max x 0) 255 / 255 ∈ Set.Icc (0 : ℝ) 1 := by
  constructor
  · exact div_nonneg (le_min (le_max_right _ _) (by norm_num)) (by norm_num)
  · exact (div_le_one (by norm_num)).mpr (min_le_right _ _)

theorem blackbody_displayable (T : ℝ) : (blackbody T).Displayable := by
  refine ⟨?_, ?_, ?_⟩ <;> dsimp only [blackbody]
  · by_cases h : clamp T 1000 40000 / 100 ≤ 66
    · rw [if_pos h]; exact ⟨zero_le_one, le_rfl⟩
    · rw [if_neg h]; exact clamp_mem zero_le_one
  · by_cases h : clamp T 1000 40000 / 100 ≤ 66
    · rw [if_pos h]; exact ramp_mem _
    · rw [if_neg h]; exact clamp_mem zero_le_one
  · by_cases h : 66 ≤ clamp T 1000 40000 / 100
    · rw [if_pos h]; exact ⟨zero_le_one, le_rfl⟩
    · rw [if_neg h]
      by_cases h' : clamp T 1000 40000 / 100 ≤ 19
      · rw [if_pos h']; exact ⟨le_rfl, zero_le_one⟩
      · rw [if_neg h']; exact ramp_mem _

/-- C66. For every temperature the blackbody colour is displayable; heating a star never makes it redder and never makes it less
blue; up to 6600 K red is full, from 6600 K blue is full, up to 1900 K there is no blue. -/
theorem C66_blackbody : (∀ T, (blackbody T).Displayable) ∧ Antitone (fun T => (blackbody T).r) ∧ Monotone (fun T => (blackbody T).b) ∧
    (∀ T, T ≤ 6600 → (blackbody T).r = 1) ∧ (∀ T, 6600 ≤ T → (blackbody T).b = 1) ∧ (∀ T, T ≤ 1900 → (blackbody T).b = 0) := by
  have hm : ∀ {S T : ℝ}, S ≤ T → clamp S 1000 40000 / 100 ≤ clamp T 1000 40000 / 100 := fun h =>
    div_le_div_of_nonneg_right (clamp_mono (by norm_num) h) (by norm_num)
  have hlo : ∀ {T a : ℝ}, T ≤ a → 1000 ≤ a → a ≤ 40000 → clamp T 1000 40000 / 100 ≤ a / 100 := by
    intro T a h h1 h2
    have := hm h
    rwa [clamp_eq (x := a) ⟨h1, h2⟩] at this
  have hhi : ∀ {T a : ℝ}, a ≤ T → 1000 ≤ a → a ≤ 40000 → a / 100 ≤ clamp T 1000 40000 / 100 := by
    intro T a h h1 h2
    have := hm h
    rwa [clamp_eq (x := a) ⟨h1, h2⟩] at this
  refine ⟨blackbody_displayable, ?_, ?_, ?_, ?_, ?_⟩
  · intro S T h
    have hst := hm h
    have hS := (blackbody_displayable S).1.2
    have hT := (blackbody_displayable T).1.2
    dsimp only [blackbody] at hS hT ⊢
    generalize clamp S 1000 40000 / 100 = s at *
    generalize clamp T 1000 40000 / 100 = t at *
    by_cases h1 : s ≤ 66
    · rw [if_pos h1]; exact hT
    · rw [if_neg h1, if_neg (by linarith)]
      refine clamp_mono zero_le_one (div_le_div_of_nonneg_right (mul_le_mul_of_nonneg_left ?_ (by norm_num)) (by norm_num))
      exact rpow_le_rpow_of_nonpos (by linarith) (by linarith) (by norm_num)
  · intro S T h
    have hst := hm h
    have hS := (blackbody_displayable S).2.2
    have hT := (blackbody_displayable T).2.2
    dsimp only [blackbody] at hS hT ⊢
    generalize clamp S 1000 40000 / 100 = s at *
    generalize clamp T 1000 40000 / 100 = t at *
    by_cases h1 : 66 ≤ t
    · rw [if_pos h1]; exact hS.2
    · by_cases h2 : s ≤ 19
      · rw [if_neg (by linarith : ¬ 66 ≤ s), if_pos h2]; exact hT.1
      · rw [if_neg (by linarith : ¬ 66 ≤ s), if_neg h1, if_neg h2, if_neg (by linarith)]
        have hl : log (s - 10) ≤ log (t - 10) := log_le_log (by linarith) (by linarith)
        refine div_le_div_of_nonneg_right (min_le_min (max_le_max ?_ le_rfl) le_rfl) (by norm_num)
        linarith
  · intro T h
    dsimp only [blackbody]
    have := hlo h (by norm_num) (by norm_num)
    exact if_pos (by linarith)
  · intro T h
    dsimp only [blackbody]
    have := hhi h (by norm_num) (by norm_num)
    exact if_pos (by linarith)
  · intro T h
    dsimp only [blackbody]
    have := hlo h (by norm_num) (by norm_num)
    rw [if_neg (by linarith), if_pos (by linarith)]

/-- The colour scale is not constant: the coolest stars have no blue, the hottest ones full blue. -/
example : (blackbody 1500).b = 0 ∧ (blackbody 9000).b = 1 :=
  ⟨C66_blackbody.2.2.2.2.2 _ (by norm_num), C66_blackbody.2.2.2.2.1 _ (by norm_num)⟩

/-- C66. The display transfer function maps `[0, 1]` onto itself end to end and preserves order, across its two branches. -/
theorem C66_transfer : MonotoneOn linear1 (Set.Icc 0 1) ∧ (∀ u ∈ Set.Icc (0 : ℝ) 1, linear1 u ∈ Set.Icc 0 1) ∧
    linear1 0 = 0 ∧ linear1 1 = 1 := by
  have h0 : linear1 0 = 0 := by unfold linear1; rw [if_pos (by norm_num)]; norm_num
  have h1 : linear1 1 = 1 := by unfold linear1; rw [if_neg (by norm_num)]; norm_num
  have hjoin : (0.04045 / 12.92 : ℝ) ≤ ((0.04045 + 0.055) / 1.055) ^ (2.4 : ℝ) := by
    have e : (2.4 : ℝ) = (12 : ℕ) * (1 / 5) := by norm_num
    have hb : (0 : ℝ) ≤ (0.04045 + 0.055) / 1.055 := by norm_num
    rw [e, rpow_mul hb, rpow_natCast]
    refine (pow_le_pow_iff_left₀ (by norm_num) (rpow_nonneg (by positivity) _) (n := 5) (by norm_num)).mp ?_
    rw [← rpow_natCast (_ ^ (1 / 5 : ℝ)) 5, ← rpow_mul (by positivity)]
    norm_num
  have hmono : MonotoneOn linear1 (Set.Icc 0 1) := by
    intro u hu v hv h
    unfold linear1
    by_cases h1 : v ≤ 0.04045
    · rw [if_pos h1, if_pos (h.trans h1)]
      exact div_le_div_of_nonneg_right h (by norm_num)
    · rw [if_neg h1]
      have hv0 := not_le.mp h1
      by_cases h2 : u ≤ 0.04045
      · rw [if_pos h2]
        refine (div_le_div_of_nonneg_right h2 (by norm_num)).trans (hjoin.trans ?_)
        exact rpow_le_rpow (by norm_num) (div_le_div_of_nonneg_right (by linarith) (by norm_num)) (by norm_num)
      · rw [if_neg h2]
        exact rpow_le_rpow (div_nonneg (by linarith [hu.1]) (by norm_num)) (div_le_div_of_nonneg_right (by linarith) (by norm_num))
          (by norm_num)
  refine ⟨hmono, fun u hu => ⟨?_, ?_⟩, h0, h1⟩
  · have := hmono (Set.left_mem_Icc.mpr zero_le_one) hu hu.1
    rwa [h0] at this
  · have := hmono hu (Set.right_mem_Icc.mpr zero_le_one) hu.2
    rwa [h1] at this

/-- C66. For every colour index, linear or not, the colour of a star is displayable, and asking for linear output is the same as
converting the other output. -/
theorem C66_rgb (x : ℝ) : (∀ b, (bpRpToRgb x b).Displayable) ∧ bpRpToRgb x true = srgbToLinear (bpRpToRgb x false) := by
  have hf : (bpRpToRgb x false).Displayable := ⟨clamp_mem zero_le_one, clamp_mem zero_le_one, clamp_mem zero_le_one⟩
  refine ⟨fun b => ?_, rfl⟩
  cases b
  · exact hf
  · exact ⟨C66_transfer.2.1 _ hf.1, C66_transfer.2.1 _ hf.2.1, C66_transfer.2.1 _ hf.2.2⟩

/-- C66. A star gets a photometric colour exactly when its three magnitudes are known; the sample repeats them, its colour is
displayable and is the linear colour of `bp - rp`. -/
theorem C66_photometric (s : Star) : (s.photometricColor.isSome ↔ s.bpmag.isSome ∧ s.rpmag.isSome ∧ s.gmag.isSome) ∧
    ∀ c, s.photometricColor = some c → s.gmag = some c.gmag ∧ s.bpmag = some c.bpmag ∧ s.rpmag = some c.rpmag ∧
      c.rgb = bpRpToRgb (c.bpmag - c.rpmag) true ∧ c.rgb.Displayable := by
  unfold Star.photometricColor
  rcases s.bpmag with _ | bp <;> rcases s.rpmag with _ | rp <;> rcases s.gmag with _ | g <;> refine ⟨by simp, ?_⟩ <;> intro c hc
  all_goals cases hc
  exact ⟨rfl, rfl, rfl, (C66_rgb _).2.symm, by rw [← (C66_rgb _).2]; exact (C66_rgb _).1 true⟩

/-- A star with all magnitudes known has a colour. -/
example : ∃ c, (⟨0, 0, 0, 0, none, none, none, none, none, none, some 5, some 5.3, some 4.6, none, none, none⟩ : Star).photometricColor = some c :=
  ⟨_, rfl⟩

/-- C66. Infrared false colour: it is reported missing exactly when a magnitude is; otherwise red, green, blue are the brightness in
K, H, J, displayable, and a star at least as bright (magnitude at most as large) gets a channel at least as large. Magnitude 8 and below is full, 16 and above is black. -/
theorem C66_infrared (s : Star) : (s.infrared = .missing ↔ s.jmag = none ∨ s.hmag = none ∨ s.kmag = none) ∧
    (∀ c j h k, s.infrared = .from2Mass c j h k → s.jmag = some j ∧ s.hmag = some h ∧ s.kmag = some k ∧ c.Displayable ∧
      c.r = brightness k ∧ c.g = brightness h ∧ c.b = brightness j) ∧
    Antitone brightness ∧ (∀ m, m ≤ 8 → brightness m = 1) ∧ (∀ m, 16 ≤ m → brightness m = 0) ∧ brightness 12 = 0.5 := by
  have hanti : Antitone brightness := fun m n h => clamp_mono zero_le_one (by linarith)
  have h8 : brightness 8 = 1 := by unfold brightness; rw [clamp_eq ⟨by norm_num, by norm_num⟩]; norm_num
  have h16 : brightness 16 = 0 := by unfold brightness; rw [clamp_eq ⟨by norm_num, by norm_num⟩]; norm_num
  refine ⟨?_, ?_, hanti, fun m h => ?_, fun m h => ?_, ?_⟩
  · unfold Star.infrared
    rcases s.jmag with _ | j <;> rcases s.hmag with _ | h <;> rcases s.kmag with _ | k <;> simp
  · intro c j h k hc
    unfold Star.infrared at hc
    revert hc
    rcases s.jmag with _ | j' <;> rcases s.hmag with _ | h' <;> rcases s.kmag with _ | k' <;> intro hc
    all_goals cases hc
    exact ⟨rfl, rfl, rfl, ⟨clamp_mem zero_le_one, clamp_mem zero_le_one, clamp_mem zero_le_one⟩, rfl, rfl, rfl⟩
  · exact le_antisymm (clamp_mem zero_le_one).2 (h8 ▸ hanti h)
  · exact le_antisymm (h16 ▸ hanti h) (clamp_mem zero_le_one).1
  · unfold brightness; rw [clamp_eq ⟨by norm_num, by norm_num⟩]; norm_num

end Verif.Stars
