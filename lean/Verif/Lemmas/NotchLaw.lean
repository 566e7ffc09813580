import Verif.Lemmas.BackFull
import Verif.Props.Trail
import Verif.Lemmas.WellFill

/-!
# The filling law of a CCD with a notch, for clouds above a background
-/

set_option linter.unusedSectionVars false
set_option linter.unusedVariables false

namespace Arctic

/-- The law made linear below `b` electrons, for a law of slope at most `L` from `b` electrons on. -/
theorem lift_lip {f : ℝ → ℝ} {b L : ℝ} (hf : FillModel f) (hm : Monotone f) (hb : 0 < b) (h0 : f b / b ≤ L)
    (hL : ∀ x y, b ≤ x → x ≤ y → f y - f x ≤ L * (y - x)) : LipFill (liftFill f b) L := by
  have hs : 0 ≤ f b / b := div_nonneg (hf.nonneg b) hb.le
  have hfb : f b / b * b = f b := div_mul_cancel₀ _ hb.ne'
  have low : ∀ n, ¬ b ≤ n → f b / b * max 0 n ≤ f b := by
    intro n hn
    have := mul_le_mul_of_nonneg_left (max_le hb.le (not_le.1 hn).le : max 0 n ≤ b) hs
    rwa [hfb] at this
  refine ⟨⟨fun n => ?_, fun n => ?_, fun n hn => ?_⟩, fun x y hxy => ?_, fun x y hxy => ?_⟩
  · unfold liftFill; split
    · exact hf.nonneg n
    · exact mul_nonneg hs (le_max_left _ _)
  · unfold liftFill; split
    · exact hf.le_one n
    · next hn => exact (low n hn).trans (hf.le_one b)
  · unfold liftFill
    rw [if_neg (by linarith), max_eq_left hn, mul_zero]
  · unfold liftFill
    by_cases hy : b ≤ y
    · rw [if_pos hy]
      by_cases hx : b ≤ x
      · rw [if_pos hx]; exact hm hxy
      · rw [if_neg hx]
        exact (low x hx).trans (hm hy)
    · rw [if_neg hy, if_neg (fun hx => hy (hx.trans hxy))]
      exact mul_le_mul_of_nonneg_left (max_le_max le_rfl hxy) hs
  · have hd : max 0 y - max 0 x ≤ y - x := by
      rcases le_total 0 x with h0 | h0
      · rw [max_eq_right h0, max_eq_right (h0.trans hxy)]
      · rw [max_eq_left h0]
        rcases le_total 0 y with h1 | h1
        · rw [max_eq_right h1]; linarith
        · rw [max_eq_left h1]; linarith
    unfold liftFill
    by_cases hy : b ≤ y
    · rw [if_pos hy]
      by_cases hx : b ≤ x
      · rw [if_pos hx]; exact hL x y hx hxy
      · rw [if_neg hx]
        have h1 := hL b y le_rfl hy
        have h2 := mul_le_mul_of_nonneg_left (sub_le_sub_left (le_max_right 0 x) b) hs
        have h3 := mul_le_mul_of_nonneg_right h0 (by linarith [not_le.1 hx] : 0 ≤ b - x)
        nlinarith
    · rw [if_neg hy, if_neg (fun hx => hy (hx.trans hxy)), ← mul_sub]
      exact (mul_le_mul_of_nonneg_left hd hs).trans (mul_le_mul_of_nonneg_right h0 (by linarith))

/-- The slope of the filling law from `b` electrons on, with a notch: for `well_fill_power ≤ 1` the volume of `b` electrons over
the electrons above the notch, for larger powers the slope of a full well. -/
noncomputable def notchSlope (notch full power b : ℝ) : ℝ :=
  open Classical in
  if power ≤ 1 then notchFill notch full power b / (b - notch) else power / (full - notch)

theorem notchFill_wellFill (notch full power n : ℝ) : notchFill notch full power n = wellFill (full - notch) power (n - notch) := rfl

theorem notch_law {notch full power b : ℝ} (h0 : 0 ≤ notch) (hf : notch < full) (hp : 0 < power) (hb : notch < b) :
    LawFrom (notchFill notch full power) b (notchSlope notch full power b) := by
  have hw : 0 < full - notch := by linarith
  have hm : Monotone (notchFill notch full power) := fun x y h =>
    Real.rpow_le_rpow (wellLevel_bounds hw _).1 (wellLevel_mono hw (by linarith)) hp.le
  have hmod := (notchFill_model h0 hf hp).1
  have hb0 : 0 < b := by linarith
  have hpos : ∀ n, notch < n → 0 < notchFill notch full power n := fun n hn =>
    (wellFill_exact hw hp).2 (n - notch) (by linarith)
  refine ⟨hb0, hmod, lift_lip hmod hm hb0 ?_ ?_, fun n hn => ?_⟩
  · unfold notchSlope
    split
    · exact div_le_div_of_nonneg_left (hmod.nonneg b) (by linarith) (by linarith)
    · next h =>
      have h1 := (wellFill_lip hw (not_le.1 h).le).le_slope (b - notch)
      rw [max_eq_right (by linarith), ← notchFill_wellFill] at h1
      have h2 : 0 ≤ power / (full - notch) := div_nonneg hp.le hw.le
      rw [div_le_iff₀ hb0]
      nlinarith
  · intro x y hx hxy
    unfold notchSlope
    split
    · next h =>
      have hl := ((wellFill_concave hw hp h).lift (by linarith : 0 < b - notch)).lip (x - notch) (y - notch) (by linarith)
      rw [liftFill_eq (by linarith), liftFill_eq (by linarith)] at hl
      refine hl.trans (le_of_eq ?_)
      rw [← notchFill_wellFill]
      ring
    · next h =>
      have hl := (wellFill_lip hw (not_le.1 h).le).lip (x - notch) (y - notch) (by linarith)
      refine hl.trans (le_of_eq ?_)
      ring
  · unfold liftFill
    split
    · next h => exact hpos n (by linarith)
    · rw [max_eq_right hn.le]
      exact mul_pos (div_pos (hpos b hb) hb0) hn

end Arctic
