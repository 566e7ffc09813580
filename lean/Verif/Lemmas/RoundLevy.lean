import Verif.Lemmas.RefIntegral
import Verif.Lemmas.RefLipschitz

/-!
# Profiles that differ by small displacements

Rounding moves the heights of the watermarks a little. For occupancies that decrease with depth the effect on numbers of
electrons is in proportion to the displacement, however many watermarks there are.
-/

set_option linter.unusedSectionVars false
set_option linter.unusedVariables false

namespace Arctic
open MeasureTheory

variable {s : ℕ}

/-- `h` is `g` up to displacements by `δ` and changes by `η`. -/
def Levy (δ η : ℝ) (g h : ℝ → ℝ) : Prop := ∀ d, 0 < d → g (d + δ) - η ≤ h d ∧ h d ≤ g (d - δ) + η

theorem antitone_integrable {g : ℝ → ℝ} (hg : Antitone g) (a b : ℝ) : IntervalIntegrable g volume a b :=
  hg.intervalIntegrable

theorem levy_integral {δ η : ℝ} {g h : ℝ → ℝ} (hg : Antitone g) (g0 : ∀ d, 0 ≤ g d) (g1 : ∀ d, g d ≤ 1)
    (hh : IntervalIntegrable h volume 0 1) (hδ : 0 ≤ δ) (hl : Levy δ η g h) :
    ∫ d in (0 : ℝ)..1, |g d - h d| ≤ 2 * δ + η := by
  have ia := antitone_integrable hg
  have i1 : IntervalIntegrable (fun d => g (d - δ)) volume 0 1 :=
    antitone_integrable (g := fun d => g (d - δ)) (fun a b hab => hg (by linarith)) 0 1
  have i2 : IntervalIntegrable (fun d => g (d + δ)) volume 0 1 :=
    antitone_integrable (g := fun d => g (d + δ)) (fun a b hab => hg (by linarith)) 0 1
  have i3 : IntervalIntegrable (fun _ : ℝ => η) volume 0 1 := intervalIntegrable_const
  have e1 : ∫ d in (0 : ℝ)..1, (g (d - δ) - g (d + δ) + η) =
      (∫ d in (-δ)..(1 - δ), g d) - (∫ d in δ..(1 + δ), g d) + η := by
    rw [intervalIntegral.integral_add (i1.sub i2) i3, intervalIntegral.integral_sub i1 i2,
      intervalIntegral.integral_comp_sub_right, intervalIntegral.integral_comp_add_right]
    simp
  have e2 : (∫ d in (-δ)..(1 - δ), g d) - (∫ d in δ..(1 + δ), g d) =
      (∫ d in (-δ)..δ, g d) - ∫ d in (1 - δ)..(1 + δ), g d := by
    have a1 := intervalIntegral.integral_add_adjacent_intervals (ia (-δ) (1 - δ)) (ia (1 - δ) (1 + δ))
    have a2 := intervalIntegral.integral_add_adjacent_intervals (ia (-δ) δ) (ia δ (1 + δ))
    linarith
  have b1 : ∫ d in (-δ)..δ, g d ≤ 2 * δ := by
    have : ∫ d in (-δ)..δ, g d ≤ ∫ _ in (-δ)..δ, (1 : ℝ) :=
      intervalIntegral.integral_mono_on (by linarith) (ia _ _) intervalIntegrable_const fun d _ => g1 d
    refine this.trans (le_of_eq ?_)
    simp; ring
  have b2 : 0 ≤ ∫ d in (1 - δ)..(1 + δ), g d := intervalIntegral.integral_nonneg (by linarith) fun d _ => g0 d
  have key : ∫ d in (0 : ℝ)..1, |g d - h d| ≤ ∫ d in (0 : ℝ)..1, (g (d - δ) - g (d + δ) + η) := by
    have hle : ∀ d, 0 < d → |g d - h d| ≤ g (d - δ) - g (d + δ) + η := by
      intro d hd
      obtain ⟨l1, l2⟩ := hl d hd
      have m1 := hg (show d - δ ≤ d by linarith)
      have m2 := hg (show d ≤ d + δ by linarith)
      rw [abs_le]; constructor <;> linarith
    refine intervalIntegral.integral_mono_ae_restrict zero_le_one ((ia 0 1).sub hh).abs ((i1.sub i2).add i3) ?_
    have hne : ∀ᵐ d ∂(volume.restrict (Set.Icc (0 : ℝ) 1)), d ≠ 0 := by
      refine ae_restrict_of_ae ?_
      exact (measure_eq_zero_iff_ae_notMem.1 (measure_singleton (0 : ℝ))).mono fun d hd h => hd (by simpa using h)
    have hin : ∀ᵐ d ∂(volume.restrict (Set.Icc (0 : ℝ) 1)), d ∈ Set.Icc (0 : ℝ) 1 :=
      ae_restrict_mem measurableSet_Icc
    filter_upwards [hne, hin] with d h1 h2
    exact hle d (lt_of_le_of_ne h2.1 (Ne.symm h1))
  rw [e1, e2] at key
  linarith

/-! ### watermarks whose occupancy decreases with depth -/

/-- The lower the fuller. -/
def Sinking (wm : WM ℝ s) : Prop := wm.Pairwise fun r r' => ∀ j, r'.fill j ≤ r.fill j

theorem Sinking.tail {r : Row ℝ s} {wm : WM ℝ s} (h : Sinking (r :: wm)) : Sinking wm := (List.pairwise_cons.1 h).2

theorem occ_le_of {wm : WM ℝ s} {j : Fin s} {f : ℝ} (hf : ∀ r ∈ wm, r.fill j ≤ f) (h0 : 0 ≤ f) (d : ℝ) : occ wm d j ≤ f := by
  induction wm generalizing d with
  | nil => exact h0
  | cons r wm ih =>
    rw [occ_cons]
    split
    · exact hf r List.mem_cons_self
    · exact ih (fun x hx => hf x (List.mem_cons_of_mem _ hx)) _

theorem occ_antitone {wm : WM ℝ s} (hF : ∀ r ∈ wm, Frac r.fill) (hs : Sinking wm) (j : Fin s) :
    Antitone fun d => occ wm d j := by
  induction wm with
  | nil => exact fun _ _ _ => le_rfl
  | cons r wm ih =>
    intro a b hab
    have hF' : ∀ x ∈ wm, Frac x.fill := fun x hx => hF x (List.mem_cons_of_mem _ hx)
    simp only [occ_cons]
    by_cases hb : b ≤ r.vol
    · rw [if_pos hb, if_pos (hab.trans hb)]
    · rw [if_neg hb]
      by_cases ha : a ≤ r.vol
      · rw [if_pos ha]
        exact occ_le_of (fun x hx => (List.pairwise_cons.1 hs).1 x hx j) (hF r List.mem_cons_self j).1 _
      · rw [if_neg ha]
        exact ih hF' hs.tail (by linarith)

theorem occ_append_ge (l l' : WM ℝ s) (hp : ∀ r ∈ l, 0 ≤ r.vol) (z : ℝ) (hz : 0 < z) (j : Fin s) :
    occ (l ++ l') (z + volSum l) j = occ l' z j := by
  induction l generalizing z with
  | nil => simp [volSum]
  | cons r l ih =>
    have hv : volSum (r :: l) = r.vol + volSum l := by simp [volSum]
    have h0 : 0 ≤ volSum l := List.sum_nonneg fun v hv => by
      obtain ⟨q, hq, rfl⟩ := List.mem_map.1 hv
      exact hp q (List.mem_cons_of_mem _ hq)
    rw [List.cons_append, occ_cons, hv, if_neg (by linarith)]
    rw [show z + (r.vol + volSum l) - r.vol = z + volSum l by ring]
    exact ih (fun x hx => hp x (List.mem_cons_of_mem _ hx)) z hz

/-- What a cloud up to height `x` makes of a profile. -/
noncomputable def raised (x : ℝ) (g : ℝ → ℝ) (d : ℝ) : ℝ := if d ≤ x then 1 else g d

theorem raised_antitone {x : ℝ} {g : ℝ → ℝ} (hg : Antitone g) (g1 : ∀ d, g d ≤ 1) : Antitone (raised x g) := by
  intro a b hab
  unfold raised
  by_cases hb : b ≤ x
  · rw [if_pos hb, if_pos (hab.trans hb)]
  · rw [if_neg hb]
    split
    · exact g1 b
    · exact hg hab

theorem raised_bounds {x : ℝ} {g : ℝ → ℝ} (g0 : ∀ d, 0 ≤ g d) (g1 : ∀ d, g d ≤ 1) (d : ℝ) :
    0 ≤ raised x g d ∧ raised x g d ≤ 1 := by
  unfold raised
  split
  · exact ⟨zero_le_one, le_rfl⟩
  · exact ⟨g0 d, g1 d⟩

/-- The rows up to the cloud are replaced by one full row. -/
theorem levy_boundary {P rest : WM ℝ s} {x X δ : ℝ} (hp : ∀ r ∈ P, 0 ≤ r.vol) (hF : ∀ r ∈ P ++ rest, Frac r.fill)
    (hs : Sinking (P ++ rest)) (hX : |X - x| ≤ δ) (hT : |X - volSum P| ≤ δ) (j : Fin s) (row : Row ℝ s) (hv : row.vol = X)
    (hf : row.fill j = 1) :
    Levy δ 0 (raised x fun d => occ (P ++ rest) d j) fun d => occ (row :: rest) d j := by
  intro d hd
  have an := occ_antitone hF hs j
  have bd := fun d => occ_bounds (P ++ rest) hF d j
  rw [abs_le] at hX hT
  rw [sub_zero, add_zero]
  simp only [occ_cons, hv, hf]
  have hr : X < d → occ rest (d - X) j = occ (P ++ rest) (d - X + volSum P) j := fun h =>
    (occ_append_ge P rest hp (d - X) (by linarith) j).symm
  unfold raised
  constructor
  · by_cases h : d ≤ X
    · rw [if_pos h]
      split
      · exact le_rfl
      · exact (bd _).2
    · rw [if_neg h, if_neg (by linarith), hr (not_le.1 h)]
      exact an (by linarith)
  · by_cases h : d - δ ≤ x
    · rw [if_pos h]
      split
      · exact le_rfl
      · exact (occ_bounds rest (fun r hr => hF r (List.mem_append_right _ hr)) _ j).2
    · rw [if_neg h, if_neg (by linarith), hr (by linarith)]
      exact an (by linarith)

/-- The rows below the one that contains the cloud, and its lower part, are replaced by one full row. -/
theorem levy_split {P rest : WM ℝ s} {r : Row ℝ s} {x X u δ : ℝ} (hp : ∀ q ∈ P, 0 ≤ q.vol) (hr0 : 0 ≤ r.vol)
    (hF : ∀ q ∈ P ++ r :: rest, Frac q.fill) (hs : Sinking (P ++ r :: rest)) (hX : |X - x| ≤ δ) (hT : volSum P ≤ X + δ)
    (hu : |X + u - (volSum P + r.vol)| ≤ δ) (j : Fin s) (row : Row ℝ s) (hv : row.vol = X) (hf : row.fill j = 1) :
    Levy δ 0 (raised x fun d => occ (P ++ r :: rest) d j) fun d => occ (row :: ⟨u, r.fill⟩ :: rest) d j := by
  intro d hd
  have an := occ_antitone hF hs j
  have bd := fun d => occ_bounds (P ++ r :: rest) hF d j
  rw [abs_le] at hX hu
  rw [sub_zero, add_zero]
  simp only [occ_cons, hv, hf]
  have hFr := hF r (by simp) j
  have rr : X + u < d → occ rest (d - X - u) j = occ (P ++ r :: rest) (d - X - u + (volSum P + r.vol)) j := by
    intro h
    have e : volSum (P ++ [r]) = volSum P + r.vol := by simp [volSum]
    have := occ_append_ge (P ++ [r]) rest (fun q hq => by
      rcases List.mem_append.1 hq with hq | hq
      · exact hp q hq
      · rw [List.mem_singleton.1 hq]; exact hr0) (d - X - u) (by linarith) j
    rw [e, List.append_assoc] at this
    exact this.symm
  -- the row itself
  have at_r : ∀ z, volSum P < z → occ (P ++ r :: rest) z j ≤ r.fill j := by
    intro z hz
    have := occ_append_ge P (r :: rest) hp (z - volSum P) (by linarith) j
    rw [sub_add_cancel] at this
    rw [this]
    refine occ_le_of (fun q hq => ?_) hFr.1 _
    have h2 : Sinking (r :: rest) := (List.pairwise_append.1 hs).2.1
    rcases List.mem_cons.1 hq with rfl | hq
    · exact le_rfl
    · exact (List.pairwise_cons.1 h2).1 q hq j
  have up_r : ∀ z, z ≤ volSum P + r.vol → r.fill j ≤ occ (P ++ r :: rest) z j := by
    have gen : ∀ (Q : WM ℝ s), (∀ q ∈ Q, r.fill j ≤ q.fill j) → ∀ z, z ≤ volSum Q + r.vol → r.fill j ≤ occ (Q ++ r :: rest) z j := by
      intro Q
      induction Q with
      | nil =>
        intro _ z hz
        rw [List.nil_append, occ_cons, if_pos (by simpa [volSum] using hz)]
      | cons q Q ih =>
        intro hQ z hz
        rw [List.cons_append, occ_cons]
        split
        · exact hQ q List.mem_cons_self
        · refine ih (fun x hx => hQ x (List.mem_cons_of_mem _ hx)) _ ?_
          have : volSum (q :: Q) = q.vol + volSum Q := by simp [volSum]
          linarith
    exact gen P fun q hq => (List.pairwise_append.1 hs).2.2 q hq r List.mem_cons_self j
  unfold raised
  constructor
  · by_cases h : d ≤ X
    · rw [if_pos h]
      split
      · exact le_rfl
      · exact (bd _).2
    · rw [if_neg h, if_neg (by linarith)]
      split
      · exact at_r _ (by linarith)
      · rw [rr (by linarith)]
        exact an (by linarith)
  · by_cases h : d - δ ≤ x
    · rw [if_pos h]
      split
      · exact le_rfl
      · split
        · exact hFr.2
        · exact (occ_bounds rest (fun q hq => hF q (by simp [hq])) _ j).2
    · rw [if_neg h, if_neg (by linarith)]
      split
      · exact up_r _ (by linarith)
      · rw [rr (by linarith)]
        exact an (by linarith)

/-- A cloud above everything. -/
theorem levy_top {P rest new : WM ℝ s} {x X δ : ℝ} (j : Fin s) (hp : ∀ r ∈ P, 0 ≤ r.vol) (hF : ∀ r ∈ P ++ rest, Frac r.fill)
    (hz : ∀ d, occ (P ++ rest) d j = occ P d j) (hnew : ∀ d, occ new d j = 0) (hX : |X - x| ≤ δ) (hT : volSum P ≤ X + δ)
    (row : Row ℝ s) (hv : row.vol = X) (hf : row.fill j = 1) :
    Levy δ 0 (raised x fun d => occ (P ++ rest) d j) fun d => occ (row :: new) d j := by
  intro d hd
  have bd := fun d => occ_bounds (P ++ rest) hF d j
  rw [abs_le] at hX
  rw [sub_zero, add_zero]
  simp only [occ_cons, hv, hf, hnew]
  unfold raised
  constructor
  · by_cases h : d ≤ X
    · rw [if_pos h]
      split
      · exact le_rfl
      · exact (bd _).2
    · rw [if_neg h, if_neg (by linarith)]; beta_reduce; rw [hz]
      have h1 := occ_append_ge P [] hp (d + δ - volSum P) (by linarith) j
      rw [sub_add_cancel, List.append_nil] at h1
      rw [h1]
      exact le_rfl
  · by_cases h : d - δ ≤ x
    · rw [if_pos h]
      split
      · exact le_rfl
      · exact zero_le_one
    · rw [if_neg h, if_neg (by linarith)]
      exact (bd _).1

/-- Displacements add up. -/
theorem Levy.raise {δ δ' η x F : ℝ} {g g' h : ℝ → ℝ} (hl : Levy δ 0 (raised x g) h) (hx : |x - F| ≤ δ') (hδ' : 0 ≤ δ')
    (hη : 0 ≤ η) (hg : Antitone g') (hg1 : ∀ d, g' d ≤ 1) (hg0 : ∀ d, g d ≤ 1) (hgg : ∀ d, 0 < d → |g d - g' d| ≤ η) (hx0 : 0 ≤ x)
    (hδ : 0 ≤ δ) :
    Levy (δ + δ') η (raised F g') h := by
  intro d hd
  obtain ⟨l1, l2⟩ := hl d hd
  rw [sub_zero] at l1
  rw [add_zero] at l2
  rw [abs_le] at hx
  have an := raised_antitone (x := F) hg hg1
  constructor
  · have : raised F g' (d + (δ + δ')) - η ≤ raised x g (d + δ) := by
      unfold raised
      by_cases h1 : d + δ ≤ x
      · rw [if_pos h1]
        split
        · linarith
        · linarith [hg1 (d + (δ + δ'))]
      · rw [if_neg h1, if_neg (by linarith)]
        have := abs_le.1 (hgg (d + δ) (by linarith))
        linarith [hg (show d + δ ≤ d + (δ + δ') by linarith)]
    linarith
  · have : raised x g (d - δ) ≤ raised F g' (d - (δ + δ')) + η := by
      unfold raised
      by_cases h1 : d - (δ + δ') ≤ F
      · rw [if_pos h1]
        split
        · linarith
        · linarith [hg0 (d - δ)]
      · rw [if_neg h1, if_neg (by linarith)]
        have := abs_le.1 (hgg (d - δ) (by linarith))
        linarith [hg (show d - (δ + δ') ≤ d - δ by linarith)]
    linarith

/-- Numbers of electrons of an array whose volumes exceed the pixel by little. -/
theorem electrons_near (dens : Fin s → ℝ) (hd : ∀ j, 0 ≤ dens j) (wm : WM ℝ s) (hp : ∀ r ∈ wm, 0 ≤ r.vol)
    (hF : ∀ r ∈ wm, Frac r.fill) {B : ℝ} (hB : 1 ≤ B) (hv : volSum wm ≤ B) :
    |electrons dens wm - ∑ j, dens j * ∫ d in (0 : ℝ)..1, occ wm d j| ≤ (∑ j, dens j) * (B - 1) := by
  rw [upTo_electrons dens wm hp B hv, ← Finset.sum_sub_distrib, Finset.sum_mul]
  refine (Finset.abs_sum_le_sum_abs _ _).trans (Finset.sum_le_sum fun j _ => ?_)
  rw [← mul_sub, abs_mul, abs_of_nonneg (hd j)]
  refine mul_le_mul_of_nonneg_left ?_ (hd j)
  rw [← occ_integral wm hp hF j B (by linarith),
    ← intervalIntegral.integral_add_adjacent_intervals (b := 1) (occ_integrable wm hF j 0 1) (occ_integrable wm hF j 1 B),
    add_sub_cancel_left]
  have h0 : 0 ≤ ∫ d in (1 : ℝ)..B, occ wm d j := intervalIntegral.integral_nonneg hB fun d _ => (occ_bounds wm hF d j).1
  rw [abs_of_nonneg h0]
  have : ∫ d in (1 : ℝ)..B, occ wm d j ≤ ∫ _ in (1 : ℝ)..B, (1 : ℝ) :=
    intervalIntegral.integral_mono_on hB (occ_integrable wm hF j 1 B) intervalIntegrable_const
      fun d _ => (occ_bounds wm hF d j).2
  simpa using this

end Arctic
