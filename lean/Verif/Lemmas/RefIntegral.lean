import Verif.Lemmas.Short
import Verif.Spec.Reference
import Mathlib.MeasureTheory.Integral.IntervalIntegral.Basic

/-!
# Watermarks as functions of depth: sums over levels are integrals
-/

set_option linter.unusedSectionVars false
set_option linter.unusedVariables false

namespace Arctic
open MeasureTheory

variable {s : ℕ}

theorem occ_measurable (wm : WM ℝ s) (j : Fin s) : Measurable fun d => occ wm d j := by
  induction wm with
  | nil => exact measurable_const
  | cons r rs ih =>
    simp only [occ_cons]
    refine Measurable.ite measurableSet_Iic measurable_const ?_
    exact ih.comp (measurable_id.sub_const r.vol)

theorem occ_bounds (wm : WM ℝ s) (hF : ∀ r ∈ wm, Frac r.fill) (d : ℝ) (j : Fin s) : 0 ≤ occ wm d j ∧ occ wm d j ≤ 1 := by
  induction wm generalizing d with
  | nil => exact ⟨le_rfl, zero_le_one⟩
  | cons r rs ih =>
    rw [occ_cons]
    split
    · exact hF r List.mem_cons_self j
    · exact ih (fun x hx => hF x (List.mem_cons_of_mem _ hx)) _

theorem occ_integrable (wm : WM ℝ s) (hF : ∀ r ∈ wm, Frac r.fill) (j : Fin s) (a b : ℝ) :
    IntervalIntegrable (fun d => occ wm d j) volume a b := by
  refine (intervalIntegrable_const (c := (1 : ℝ)) (μ := volume) (a := a) (b := b)).mono_fun
    (occ_measurable wm j).aestronglyMeasurable ?_
  refine Filter.Eventually.of_forall fun d => ?_
  have := occ_bounds wm hF d j
  simp only [Real.norm_eq_abs, abs_one, abs_of_nonneg this.1]
  exact this.2

theorem occ_integral (wm : WM ℝ s) (hp : ∀ r ∈ wm, 0 ≤ r.vol) (hF : ∀ r ∈ wm, Frac r.fill) (j : Fin s) (c : ℝ) (hc : 0 ≤ c) :
    ∫ d in (0 : ℝ)..c, occ wm d j = upTo c wm j := by
  induction wm generalizing c with
  | nil => simp [occ, upTo]
  | cons r rs ih =>
    have ihp := ih (fun x hx => hp x (List.mem_cons_of_mem _ hx)) (fun x hx => hF x (List.mem_cons_of_mem _ hx))
    have hr := hp r List.mem_cons_self
    have low : ∀ x, 0 ≤ x → x ≤ r.vol → ∫ d in (0 : ℝ)..x, occ (r :: rs) d j = x * r.fill j := by
      intro x h0 hx
      rw [intervalIntegral.integral_congr (g := fun _ => r.fill j)]
      · simp
      · intro d hd
        rw [Set.uIcc_of_le h0] at hd
        simp only [occ_cons]
        rw [if_pos (hd.2.trans hx)]
    unfold upTo
    split
    · rename_i h; exact low c hc h
    · rename_i h
      have h := not_le.1 h
      rw [← intervalIntegral.integral_add_adjacent_intervals (b := r.vol) (occ_integrable _ hF j _ _)
        (occ_integrable _ hF j _ _), low r.vol hr le_rfl]
      congr 1
      have : ∫ d in r.vol..c, occ (r :: rs) d j = ∫ d in r.vol..c, occ rs (d - r.vol) j := by
        apply intervalIntegral.integral_congr_ae
        refine Filter.Eventually.of_forall fun d hd => ?_
        rw [Set.uIoc_of_le h.le] at hd
        rw [occ_cons, if_neg (not_le.2 hd.1)]
      rw [this, intervalIntegral.integral_comp_sub_right (fun d => occ rs d j), sub_self]
      exact ihp (c - r.vol) (by linarith)

/-- Integrals over positive depths only depend on the occupancy at positive depths. -/
theorem integral_congr_pos {f g : ℝ → ℝ} {c : ℝ} (hc : 0 ≤ c) (h : ∀ d, 0 < d → f d = g d) :
    ∫ d in (0 : ℝ)..c, f d = ∫ d in (0 : ℝ)..c, g d := by
  apply intervalIntegral.integral_congr_ae
  refine Filter.Eventually.of_forall fun d hd => ?_
  rw [Set.uIoc_of_le hc] at hd
  exact h d hd.1

theorem vacant_integral (dens : Fin s → ℝ) (wm : WM ℝ s) (hp : ∀ r ∈ wm, 0 ≤ r.vol) (hF : ∀ r ∈ wm, Frac r.fill)
    (c : ℝ) (hc : 0 ≤ c) :
    ∑ j, dens j * ∫ d in (0 : ℝ)..c, (1 - occ wm d j) = vacant dens c wm := by
  rw [upTo_vacant]
  refine Finset.sum_congr rfl fun j _ => ?_
  congr 1
  rw [intervalIntegral.integral_sub intervalIntegrable_const (occ_integrable wm hF j _ _),
    occ_integral wm hp hF j c hc]
  simp

theorem electrons_integral (dens : Fin s → ℝ) (wm : WM ℝ s) (hp : ∀ r ∈ wm, 0 ≤ r.vol) (hF : ∀ r ∈ wm, Frac r.fill)
    (hv : volSum wm ≤ 1) : ∑ j, dens j * ∫ d in (0 : ℝ)..1, occ wm d j = electrons dens wm := by
  rw [upTo_electrons dens wm hp 1 hv]
  exact Finset.sum_congr rfl fun j _ => by rw [occ_integral wm hp hF j 1 zero_le_one]

end Arctic
