import Verif.Props.Traps
import Mathlib.MeasureTheory.Function.Jacobian
import Mathlib.Analysis.SpecialFunctions.Gaussian.GaussianIntegral
import Mathlib.MeasureTheory.Integral.DominatedConvergence

/-!
# Lifetime continuum traps (C45)
-/

set_option linter.unusedSectionVars false
set_option linter.unusedVariables false

namespace Arctic
open MeasureTheory Filter Topology Set

/-- A normalised, non-negative distribution of lifetimes, as the docstring of `TrapLifetimeContinuumAbstract` asks
for ("its integral from 0 to infinity = 1"). -/
structure Lifetimes (p : ℝ → ℝ) : Prop where
  nonneg : ∀ τ, 0 < τ → 0 ≤ p τ
  integrable : IntegrableOn p (Ioi 0)
  total : ∫ τ in Ioi (0 : ℝ), p τ = 1

section
variable {p : ℝ → ℝ}

theorem Lifetimes.integrable_exp (h : Lifetimes p) {t : ℝ} (ht : 0 ≤ t) :
    IntegrableOn (fun τ => p τ * Real.exp (-t / τ)) (Ioi 0) := by
  refine Integrable.mono' h.integrable ?_ ?_
  · exact h.integrable.aestronglyMeasurable.mul
      (Measurable.aestronglyMeasurable (Real.measurable_exp.comp (measurable_const.div measurable_id)))
  · refine (ae_restrict_iff' measurableSet_Ioi).2 (ae_of_all _ fun τ hτ => ?_)
    have hτ : 0 < τ := hτ
    have h0 := h.nonneg τ hτ
    rw [Real.norm_eq_abs, abs_of_nonneg (mul_nonneg h0 (Real.exp_pos _).le)]
    refine mul_le_of_le_one_right h0 (Real.exp_le_one_iff.2 ?_)
    have := div_nonneg ht hτ.le
    rw [neg_div]; linarith

/-- **C45**: for every normalised non-negative distribution the fill fraction starts at 1, stays within `[0, 1]`,
does not increase, is continuous and tends to 0. -/
theorem C45_fill_fraction (d : ℝ) (dist : ℝ → ℝ → ℝ → ℝ) (mu sigma : ℝ)
    (h : Lifetimes fun τ => dist τ mu sigma) :
    let t := Trap.continuum d dist mu sigma
    t.fillFraction 0 = 1 ∧ (∀ x, 0 ≤ x → 0 ≤ t.fillFraction x ∧ t.fillFraction x ≤ 1) ∧
      AntitoneOn t.fillFraction (Ici 0) ∧ ContinuousOn t.fillFraction (Ici 0) ∧
      Tendsto t.fillFraction atTop (𝓝 0) := by
  intro t
  have h0 : t.fillFraction 0 = 1 := by
    simp only [t, Trap.fillFraction, neg_zero, zero_div, Real.exp_zero, mul_one]
    exact h.total
  have hanti : AntitoneOn t.fillFraction (Ici 0) := by
    intro x hx y hy hxy
    refine setIntegral_mono_on (h.integrable_exp hy) (h.integrable_exp hx) measurableSet_Ioi fun τ hτ => ?_
    have hτ : 0 < τ := hτ
    refine mul_le_mul_of_nonneg_left (Real.exp_le_exp.2 ?_) (h.nonneg τ hτ)
    rw [div_le_div_iff_of_pos_right hτ]
    linarith
  refine ⟨h0, fun x hx => ⟨?_, ?_⟩, hanti, ?_, ?_⟩
  · exact setIntegral_nonneg measurableSet_Ioi fun τ hτ => mul_nonneg (h.nonneg τ hτ) (Real.exp_pos _).le
  · rw [← h0]; exact hanti (mem_Ici.2 le_rfl) hx hx
  · refine continuousOn_of_dominated (bound := fun τ => dist τ mu sigma) (fun x hx =>
      (h.integrable_exp hx).aestronglyMeasurable) (fun x hx => ?_) h.integrable ?_
    · refine (ae_restrict_iff' measurableSet_Ioi).2 (ae_of_all _ fun τ hτ => ?_)
      have hτ : 0 < τ := hτ
      have h0 := h.nonneg τ hτ
      rw [Real.norm_eq_abs, abs_of_nonneg (mul_nonneg h0 (Real.exp_pos _).le)]
      refine mul_le_of_le_one_right h0 (Real.exp_le_one_iff.2 ?_)
      have := div_nonneg (mem_Ici.1 hx) hτ.le
      rw [neg_div]; linarith
    · refine ae_of_all _ fun τ => ?_
      fun_prop
  · have key : Tendsto (fun x => ∫ τ in Ioi (0 : ℝ), dist τ mu sigma * Real.exp (-x / τ)) atTop
        (𝓝 (∫ τ in Ioi (0 : ℝ), (0 : ℝ))) := by
      refine tendsto_integral_filter_of_dominated_convergence (fun τ => dist τ mu sigma) ?_ ?_ h.integrable ?_
      · exact (eventually_ge_atTop 0).mono fun x hx => (h.integrable_exp hx).aestronglyMeasurable
      · refine (eventually_ge_atTop 0).mono fun x hx => ?_
        refine (ae_restrict_iff' measurableSet_Ioi).2 (ae_of_all _ fun τ hτ => ?_)
        have hτ : 0 < τ := hτ
        have h0 := h.nonneg τ hτ
        rw [Real.norm_eq_abs, abs_of_nonneg (mul_nonneg h0 (Real.exp_pos _).le)]
        refine mul_le_of_le_one_right h0 (Real.exp_le_one_iff.2 ?_)
        have := div_nonneg hx hτ.le
        rw [neg_div]; linarith
      · refine (ae_restrict_iff' measurableSet_Ioi).2 (ae_of_all _ fun τ hτ => ?_)
        have hτ : 0 < τ := hτ
        have : Tendsto (fun x : ℝ => Real.exp (-x / τ)) atTop (𝓝 0) :=
          Real.tendsto_exp_atBot.comp ((tendsto_neg_atTop_atBot).atBot_div_const hτ)
        simpa using this.const_mul (dist τ mu sigma)
    rw [integral_zero] at key
    exact key

/-- **C45**: electrons released in a dwell time equal the drop in fill fraction. -/
theorem C45_released (d : ℝ) (dist : ℝ → ℝ → ℝ → ℝ) (mu sigma : ℝ) (h : Lifetimes fun τ => dist τ mu sigma)
    {x dwell : ℝ} (hx : 0 ≤ x) (hd : 0 ≤ dwell) :
    let t := Trap.continuum d dist mu sigma
    t.electronsReleasedFromTime x dwell = t.fillFraction x - t.fillFraction (x + dwell) ∧
      0 ≤ t.electronsReleasedFromTime x dwell ∧ t.electronsReleasedFromTime x dwell ≤ t.fillFraction x := by
  intro t
  have e : t.electronsReleasedFromTime x dwell = t.fillFraction x - t.fillFraction (x + dwell) := by
    simp only [t, Trap.electronsReleasedFromTime, Trap.fillFraction]
    rw [← integral_sub (h.integrable_exp hx) (h.integrable_exp (add_nonneg hx hd))]
    refine setIntegral_congr_fun measurableSet_Ioi fun τ hτ => ?_
    change dist τ mu sigma * Real.exp (-x / τ) * (1 - Real.exp (-dwell / τ)) =
      dist τ mu sigma * Real.exp (-x / τ) - dist τ mu sigma * Real.exp (-(x + dwell) / τ)
    rw [show -(x + dwell) / τ = -x / τ + -dwell / τ by ring, Real.exp_add]
    ring
  obtain ⟨-, h2, h3, -⟩ := C45_fill_fraction d dist mu sigma h
  refine ⟨e, ?_, ?_⟩
  · rw [e]; exact sub_nonneg.2 (h3 hx (add_nonneg hx hd) (by linarith))
  · rw [e]; linarith [(h2 (x + dwell) (add_nonneg hx hd)).1]

/-- **C45**: what `time_elapsed_from_fill_fraction` looks for exists, for every fill fraction in `(0, 1]`. If the
solver's answer passes the check of traps.py:336, it reproduces the fill fraction up to `1e-7`. -/
theorem C45_time_elapsed (d : ℝ) (dist : ℝ → ℝ → ℝ → ℝ) (mu sigma : ℝ) (h : Lifetimes fun τ => dist τ mu sigma)
    {f : ℝ} (h0 : 0 < f) (h1 : f ≤ 1) :
    let t := Trap.continuum d dist mu sigma
    (∃ x, 0 ≤ x ∧ t.fillFraction x = f ∧ Trap.timeElapsedContinuum t x f = .ok x) ∧
      ∀ root x, Trap.timeElapsedContinuum t root f = .ok x → |t.fillFraction x - f| < 1e-7 := by
  intro t
  refine ⟨?_, ?_⟩
  · obtain ⟨hz, -, -, hcont, hlim⟩ := C45_fill_fraction d dist mu sigma h
    obtain ⟨X, hX, hX0⟩ : ∃ X, t.fillFraction X < f ∧ 0 ≤ X := by
      have h3 := (hlim.eventually (gt_mem_nhds h0)).and (eventually_ge_atTop (0 : ℝ))
      exact h3.exists
    have hmem : f ∈ Icc (t.fillFraction X) (t.fillFraction 0) := ⟨hX.le, by rw [hz]; exact h1⟩
    obtain ⟨x, hx, e⟩ := intermediate_value_Icc' hX0 (hcont.mono fun y hy => hy.1) hmem
    refine ⟨x, hx.1, e, ?_⟩
    unfold Trap.timeElapsedContinuum
    rw [e]; norm_num
  · intro root x hh
    unfold Trap.timeElapsedContinuum at hh
    split at hh
    · rename_i hlt
      cases hh
      exact hlt
    · cases hh

end

/-- **C45**: the log-normal distribution is non-negative and integrates to 1. -/
theorem C45_logNormal {mu sigma : ℝ} (hmu : 0 < mu) (hs : 0 < sigma) :
    Lifetimes fun τ => Trap.logNormal τ mu sigma := by
  have hderiv : ∀ u ∈ (univ : Set ℝ), HasDerivWithinAt Real.exp (Real.exp u) univ u :=
    fun u _ => (Real.hasDerivAt_exp u).hasDerivWithinAt
  have hinj : InjOn Real.exp univ := Real.exp_injective.injOn
  have himg : Real.exp '' univ = Ioi 0 := by rw [image_univ, Real.range_exp]
  have hb : 0 < 1 / (2 * sigma ^ 2) := by positivity
  have hfun : ∀ u, |Real.exp u| • Trap.logNormal (Real.exp u) mu sigma =
      (1 / (sigma * Real.sqrt (2 * Real.pi))) * Real.exp (-(1 / (2 * sigma ^ 2)) * (u - Real.log mu) ^ 2) := by
    intro u
    have hp : 0 < Real.sqrt (2 * Real.pi) := Real.sqrt_pos.2 (by positivity)
    rw [Trap.logNormal, Real.log_exp, abs_of_pos (Real.exp_pos u), smul_eq_mul]
    have he := (Real.exp_pos u).ne'
    rw [show -(u - Real.log mu) ^ 2 / (2 * sigma ^ 2) = -(1 / (2 * sigma ^ 2)) * (u - Real.log mu) ^ 2 by ring]
    generalize Real.exp (-(1 / (2 * sigma ^ 2)) * (u - Real.log mu) ^ 2) = G
    field_simp
  have hint : Integrable fun u : ℝ =>
      (1 / (sigma * Real.sqrt (2 * Real.pi))) * Real.exp (-(1 / (2 * sigma ^ 2)) * (u - Real.log mu) ^ 2) :=
    ((integrable_exp_neg_mul_sq hb).comp_sub_right (Real.log mu)).const_mul _
  refine ⟨fun τ hτ => ?_, ?_, ?_⟩
  · unfold Trap.logNormal; positivity
  · rw [← himg, integrableOn_image_iff_integrableOn_abs_deriv_smul MeasurableSet.univ hderiv hinj, integrableOn_univ]
    simpa only [hfun] using hint
  · rw [← himg, integral_image_eq_integral_abs_deriv_smul MeasurableSet.univ hderiv hinj, setIntegral_univ]
    simp only [hfun]
    rw [integral_const_mul,
      integral_sub_right_eq_self (fun u : ℝ => Real.exp (-(1 / (2 * sigma ^ 2)) * u ^ 2)) (Real.log mu),
      integral_gaussian]
    have h1 : Real.pi / (1 / (2 * sigma ^ 2)) = sigma ^ 2 * (2 * Real.pi) := by field_simp
    rw [h1, Real.sqrt_mul (sq_nonneg sigma) (2 * Real.pi), Real.sqrt_sq hs.le]
    have : 0 < Real.sqrt (2 * Real.pi) := Real.sqrt_pos.2 (by positivity)
    field_simp

/-- **C45**: `mu` is the median of the log-normal distribution, as its docstring says: half of the traps have a
longer lifetime. -/
theorem C45_logNormal_median {mu sigma : ℝ} (hmu : 0 < mu) (hs : 0 < sigma) :
    ∫ τ in Ioi mu, Trap.logNormal τ mu sigma = 1 / 2 := by
  have hderiv : ∀ u ∈ Ioi (0 : ℝ), HasDerivWithinAt (fun u => mu * Real.exp u) (mu * Real.exp u) (Ioi 0) u :=
    fun u _ => ((Real.hasDerivAt_exp u).const_mul mu).hasDerivWithinAt
  have hinj : InjOn (fun u => mu * Real.exp u) (Ioi 0) := fun u _ v _ e =>
    Real.exp_injective (mul_left_cancel₀ hmu.ne' e)
  have himg : (fun u => mu * Real.exp u) '' Ioi 0 = Ioi mu := by
    ext y
    constructor
    · rintro ⟨u, hu, rfl⟩
      have : 1 < Real.exp u := Real.one_lt_exp_iff.2 hu
      exact (lt_mul_iff_one_lt_right hmu).2 this
    · intro hy
      have hy : mu < y := hy
      refine ⟨Real.log (y / mu), Real.log_pos ((one_lt_div hmu).2 hy), ?_⟩
      simp only
      rw [Real.exp_log (div_pos (hmu.trans hy) hmu)]
      field_simp
  have hfun : ∀ u, |mu * Real.exp u| • Trap.logNormal (mu * Real.exp u) mu sigma =
      (1 / (sigma * Real.sqrt (2 * Real.pi))) * Real.exp (-(1 / (2 * sigma ^ 2)) * u ^ 2) := by
    intro u
    have hp : 0 < Real.sqrt (2 * Real.pi) := Real.sqrt_pos.2 (by positivity)
    have hmu' := hmu.ne'
    have he := (Real.exp_pos u).ne'
    rw [Trap.logNormal, Real.log_mul hmu' he, Real.log_exp, abs_of_pos (mul_pos hmu (Real.exp_pos u)), smul_eq_mul]
    rw [show -(Real.log mu + u - Real.log mu) ^ 2 / (2 * sigma ^ 2) = -(1 / (2 * sigma ^ 2)) * u ^ 2 by ring]
    generalize Real.exp (-(1 / (2 * sigma ^ 2)) * u ^ 2) = G
    field_simp
  rw [← himg, integral_image_eq_integral_abs_deriv_smul measurableSet_Ioi hderiv hinj]
  simp only [hfun]
  rw [integral_const_mul, integral_gaussian_Ioi]
  have h1 : Real.pi / (1 / (2 * sigma ^ 2)) = sigma ^ 2 * (2 * Real.pi) := by field_simp
  rw [h1, Real.sqrt_mul (sq_nonneg sigma) (2 * Real.pi), Real.sqrt_sq hs.le]
  have : 0 < Real.sqrt (2 * Real.pi) := Real.sqrt_pos.2 (by positivity)
  field_simp

/-- So a log-normal trap behaves as described. -/
theorem C45_logNormalTrap (d : ℝ) {mu sigma : ℝ} (hmu : 0 < mu) (hs : 0 < sigma) :
    (Trap.logNormalTrap d mu sigma).fillFraction 0 = 1 ∧
      AntitoneOn (Trap.logNormalTrap d mu sigma).fillFraction (Ici 0) ∧
      ∀ x dwell, 0 ≤ x → 0 ≤ dwell → (Trap.logNormalTrap d mu sigma).electronsReleasedFromTime x dwell =
        (Trap.logNormalTrap d mu sigma).fillFraction x - (Trap.logNormalTrap d mu sigma).fillFraction (x + dwell) := by
  have h := C45_logNormal hmu hs
  have h1 := C45_fill_fraction d Trap.logNormal mu sigma h
  exact ⟨h1.1, h1.2.2.1, fun x dwell hx hd => (C45_released d Trap.logNormal mu sigma h hx hd).1⟩

end Arctic
