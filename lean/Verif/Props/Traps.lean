import Verif.Model.Traps
import Mathlib.Analysis.SpecialFunctions.ExpDeriv
import Mathlib.Analysis.SpecialFunctions.Exp
import Mathlib.Tactic.Linarith
import Mathlib.Tactic.Positivity
import Mathlib.Tactic.FieldSimp
import Mathlib.Tactic.Ring
import Mathlib.Tactic.NormNum

/-!
# Trap species: fill probabilities and elapsed times (C25, C26)
-/

set_option linter.unusedSectionVars false
set_option linter.unusedVariables false

namespace Arctic
open MeasureTheory Filter Topology

/-! ## C25 — fill probabilities -/

/-- A trap with positive release timescale and non-negative capture timescale. -/
structure Trap.Physical (t : Trap) : Prop where
  release : 0 < t.releaseTimescale
  capture : 0 ≤ t.captureTimescale

/-- What a fill level `x` becomes when probabilities `e`, `f` are applied
(the update of trap_managers.py:803-807). -/
def evolve (e f x : ℝ) : ℝ := x * f + (1 - x) * e

section slow
variable {d τ c : ℝ} {b : Bool}

theorem fillFromEmpty_slow (hτ : 0 < τ) (hc : 0 < c) (dwell : ℝ) :
    fillFromEmpty (.trap d τ c b) dwell =
      .fin (1 / c / (1 / c + 1 / τ) * (1 - Real.exp (-(1 / c + 1 / τ) * dwell))) := by
  have h : 1 / c + 1 / τ ≠ 0 := by positivity
  simp only [fillFromEmpty, exponentialFactor, Trap.captureRate, Trap.emissionRate, Trap.captureTimescale,
    Trap.releaseTimescale, hc.ne', if_false, ExtF.add, ExtF.neg, ExtF.mul, ExtF.exp, ExtF.sub, ExtF.div, h,
    ExtF.nanToOne, ExtF.fin.injEq]
  ring

theorem fillFromFull_slow (hτ : 0 < τ) (hc : 0 < c) (dwell : ℝ) :
    fillFromFull (.trap d τ c b) dwell =
      .fin (1 - 1 / τ / (1 / c + 1 / τ) * (1 - Real.exp (-(1 / c + 1 / τ) * dwell))) := by
  have h : 1 / c + 1 / τ ≠ 0 := by positivity
  simp only [fillFromFull, exponentialFactor, Trap.captureRate, Trap.emissionRate, Trap.captureTimescale,
    Trap.releaseTimescale, hc.ne', if_false, ExtF.add, ExtF.neg, ExtF.mul, ExtF.exp, ExtF.sub, ExtF.div, h,
    ExtF.fin.injEq]
  ring

end slow

theorem fillFromEmpty_instant (t : Trap) (hc : t.captureTimescale = 0) {dwell : ℝ} (h : 0 ≤ dwell) :
    fillFromEmpty t dwell = .fin 1 := by
  rcases h.eq_or_lt with h | h
  · simp [fillFromEmpty, exponentialFactor, Trap.captureRate, hc, ExtF.add, ExtF.neg, ExtF.mul, ExtF.exp, ExtF.sub,
      ExtF.div, ExtF.infMul, ← h, ExtF.nanToOne]
  · simp [fillFromEmpty, exponentialFactor, Trap.captureRate, hc, ExtF.add, ExtF.neg, ExtF.mul, ExtF.exp, ExtF.sub,
      ExtF.div, ExtF.infMul, h, ExtF.nanToOne]

theorem fillFromFull_instant (t : Trap) (hc : t.captureTimescale = 0) {dwell : ℝ} (h : 0 < dwell) :
    fillFromFull t dwell = .fin 1 := by
  simp [fillFromFull, exponentialFactor, Trap.captureRate, hc, ExtF.add, ExtF.neg, ExtF.mul, ExtF.exp, ExtF.sub,
      ExtF.div, ExtF.infMul, h]

/-- Slow traps are the only ones with a capture timescale other than 0. -/
theorem Trap.slow_or_instant (t : Trap) (h : t.Physical) :
    t.captureTimescale = 0 ∨ ∃ d τ c b, t = .trap d τ c b ∧ 0 < τ ∧ 0 < c := by
  cases t with
  | trap d τ c b =>
    rcases h.capture.eq_or_lt with e | e
    · exact Or.inl e.symm
    · exact Or.inr ⟨d, τ, c, b, rfl, h.release, e⟩
  | instant => exact Or.inl rfl
  | continuum => exact Or.inl rfl

/-- **C25**: for a positive dwell time the three fill probabilities are numbers (no infinity, no NaN) in `[0, 1]`,
and a full trap is at least as likely to be full afterwards as an empty one. -/
theorem C25_probabilities (t : Trap) (h : t.Physical) {dwell : ℝ} (hd : 0 < dwell) :
    ∃ e f : ℝ, fillFromEmpty t dwell = .fin e ∧ fillFromFull t dwell = .fin f ∧
      0 ≤ e ∧ e ≤ f ∧ f ≤ 1 ∧ 0 < fillFromRelease t dwell ∧ fillFromRelease t dwell < 1 := by
  have hr : 0 < fillFromRelease t dwell ∧ fillFromRelease t dwell < 1 := by
    refine ⟨Real.exp_pos _, ?_⟩
    unfold fillFromRelease Trap.emissionRate
    rw [Real.exp_lt_one_iff, neg_mul]
    have := mul_pos (one_div_pos.2 h.release) hd
    linarith
  rcases t.slow_or_instant h with h0 | ⟨d, τ, c, b, rfl, hτ, hc⟩
  · exact ⟨1, 1, fillFromEmpty_instant t h0 hd.le, fillFromFull_instant t h0 hd, by norm_num, le_rfl, le_rfl, hr⟩
  · refine ⟨_, _, fillFromEmpty_slow hτ hc dwell, fillFromFull_slow hτ hc dwell, ?_, ?_, ?_, hr⟩
    all_goals
      have hE : Real.exp (-(1 / c + 1 / τ) * dwell) ≤ 1 := by
        rw [Real.exp_le_one_iff, neg_mul]
        have : 0 ≤ (1 / c + 1 / τ) * dwell := by positivity
        linarith
      have hE0 := Real.exp_pos (-(1 / c + 1 / τ) * dwell)
      generalize Real.exp (-(1 / c + 1 / τ) * dwell) = E at hE hE0
      have hs : 1 / c / (1 / c + 1 / τ) + 1 / τ / (1 / c + 1 / τ) = 1 := by
        rw [← add_div]; exact div_self (by positivity)
      have h1 : 0 ≤ 1 / c / (1 / c + 1 / τ) := by positivity
      have h2 : 0 ≤ 1 / τ / (1 / c + 1 / τ) := by positivity
      generalize 1 / c / (1 / c + 1 / τ) = u at hs h1
      generalize 1 / τ / (1 / c + 1 / τ) = v at hs h2
    · exact mul_nonneg h1 (by linarith)
    · have : u = 1 - v := by linarith
      subst this
      nlinarith
    · have := mul_nonneg h2 (sub_nonneg.2 hE)
      linarith

/-- **C25**: two dwell times in a row are the same as their sum, for capture and release together and for release
alone. -/
theorem C25_compose (t : Trap) (h : t.Physical) {d₁ d₂ : ℝ} (h₁ : 0 < d₁) (h₂ : 0 < d₂) :
    ∃ e₁ f₁ e₂ f₂ e f : ℝ,
      fillFromEmpty t d₁ = .fin e₁ ∧ fillFromFull t d₁ = .fin f₁ ∧
      fillFromEmpty t d₂ = .fin e₂ ∧ fillFromFull t d₂ = .fin f₂ ∧
      fillFromEmpty t (d₁ + d₂) = .fin e ∧ fillFromFull t (d₁ + d₂) = .fin f ∧
      (∀ x, evolve e₂ f₂ (evolve e₁ f₁ x) = evolve e f x) ∧
      fillFromRelease t d₁ * fillFromRelease t d₂ = fillFromRelease t (d₁ + d₂) := by
  have hr : fillFromRelease t d₁ * fillFromRelease t d₂ = fillFromRelease t (d₁ + d₂) := by
    unfold fillFromRelease
    rw [← Real.exp_add]; congr 1; ring
  rcases t.slow_or_instant h with h0 | ⟨d, τ, c, b, rfl, hτ, hc⟩
  · exact ⟨1, 1, 1, 1, 1, 1, fillFromEmpty_instant t h0 h₁.le, fillFromFull_instant t h0 h₁,
      fillFromEmpty_instant t h0 h₂.le, fillFromFull_instant t h0 h₂,
      fillFromEmpty_instant t h0 (by linarith), fillFromFull_instant t h0 (by linarith),
      fun x => by simp only [evolve]; ring, hr⟩
  · refine ⟨_, _, _, _, _, _, fillFromEmpty_slow hτ hc d₁, fillFromFull_slow hτ hc d₁, fillFromEmpty_slow hτ hc d₂,
      fillFromFull_slow hτ hc d₂, fillFromEmpty_slow hτ hc _, fillFromFull_slow hτ hc _, fun x => ?_, hr⟩
    rw [mul_add, Real.exp_add]
    generalize Real.exp (-(1 / c + 1 / τ) * d₁) = E₁
    generalize Real.exp (-(1 / c + 1 / τ) * d₂) = E₂
    have hs : 1 / c / (1 / c + 1 / τ) + 1 / τ / (1 / c + 1 / τ) = 1 := by
      rw [← add_div]; exact div_self (by positivity)
    generalize 1 / c / (1 / c + 1 / τ) = u at hs
    have hv : 1 / τ / (1 / c + 1 / τ) = 1 - u := by linarith
    rw [hv]
    unfold evolve
    ring

/-- **C25**: the probabilities are those of the rate equation `n' = (1 - n) / τ_capture - n / τ_release` with the
initial fill level `x` (Lindegren 1998, section 3.2), at every dwell time; release alone is `n' = - n / τ_release`. -/
theorem C25_rate_equation (d τ c : ℝ) (b : Bool) (hτ : 0 < τ) (hc : 0 < c) (x : ℝ) :
    ∃ n : ℝ → ℝ, n 0 = x ∧ (∀ t, HasDerivAt n ((1 - n t) / c - n t / τ) t) ∧
      (∀ dwell, ∃ e f, fillFromEmpty (.trap d τ c b) dwell = .fin e ∧ fillFromFull (.trap d τ c b) dwell = .fin f ∧
        evolve e f x = n dwell) ∧
      fillFromRelease (.trap d τ c b) 0 = 1 ∧
      ∀ t, HasDerivAt (fillFromRelease (.trap d τ c b)) (-(fillFromRelease (.trap d τ c b) t) / τ) t := by
  refine ⟨fun t => evolve (1 / c / (1 / c + 1 / τ) * (1 - Real.exp (-(1 / c + 1 / τ) * t)))
    (1 - 1 / τ / (1 / c + 1 / τ) * (1 - Real.exp (-(1 / c + 1 / τ) * t))) x, ?_, fun t => ?_, fun dwell =>
    ⟨_, _, fillFromEmpty_slow hτ hc dwell, fillFromFull_slow hτ hc dwell, rfl⟩, ?_, fun t => ?_⟩
  · simp [evolve]
  · have h1 : HasDerivAt (fun t : ℝ => -(1 / c + 1 / τ) * t) (-(1 / c + 1 / τ)) t := by
      simpa using (hasDerivAt_id t).const_mul (-(1 / c + 1 / τ))
    have h2 := h1.exp
    have h3 := (((h2.const_sub 1).const_mul (1 / τ / (1 / c + 1 / τ))).const_sub 1).const_mul x
    have h4 := ((h2.const_sub 1).const_mul (1 / c / (1 / c + 1 / τ))).const_mul (1 - x)
    refine (h3.add h4).congr_deriv ?_
    simp only [evolve]
    have hs : 1 / c + 1 / τ ≠ 0 := by positivity
    generalize Real.exp (-(1 / c + 1 / τ) * t) = E
    field_simp
    ring
  · simp [fillFromRelease]
  · have h1 : HasDerivAt (fun t : ℝ => -(1 / τ) * t) (-(1 / τ)) t := by
      simpa using (hasDerivAt_id t).const_mul (-(1 / τ))
    refine h1.exp.congr_deriv ?_
    simp only [fillFromRelease, Trap.emissionRate, Trap.releaseTimescale]
    ring

/-- **C25**: traps that capture instantly are full after any positive dwell time, whatever their level was. -/
theorem C25_instant (t : Trap) (hc : t.captureTimescale = 0) {dwell : ℝ} (h : 0 < dwell) :
    ∃ e f : ℝ, fillFromEmpty t dwell = .fin e ∧ fillFromFull t dwell = .fin f ∧ ∀ x, evolve e f x = 1 :=
  ⟨1, 1, fillFromEmpty_instant t hc h.le, fillFromFull_instant t hc h, fun x => by simp only [evolve]; ring⟩

/-- **C25** fails at dwell time 0 for instant capture: the probability to stay full is NaN (`inf * 0`); the code
replaces NaN in the other probability only. -/
theorem C25_zero_dwell (t : Trap) (hc : t.captureTimescale = 0) :
    fillFromEmpty t 0 = .fin 1 ∧ fillFromFull t 0 = .nan := by
  refine ⟨fillFromEmpty_instant t hc le_rfl, ?_⟩
  simp [fillFromFull, exponentialFactor, Trap.captureRate, hc, ExtF.add, ExtF.neg, ExtF.mul, ExtF.exp, ExtF.sub,
    ExtF.div, ExtF.infMul]

/-- At dwell time 0 slow traps keep their level. -/
theorem C25_zero_dwell_slow (d τ c : ℝ) (b : Bool) (hτ : 0 < τ) (hc : 0 < c) :
    fillFromEmpty (.trap d τ c b) 0 = .fin 0 ∧ fillFromFull (.trap d τ c b) 0 = .fin 1 ∧
      fillFromRelease (.trap d τ c b) 0 = 1 := by
  rw [fillFromEmpty_slow hτ hc, fillFromFull_slow hτ hc]
  simp [fillFromRelease]

/-- The factor with which the clocking code's slow probabilities come out, as numbers. -/
theorem C25_fillProbs {s : ℕ} (traps : Fin s → Trap) (h : ∀ j, (traps j).Physical) {dwell : ℝ} (hd : 0 < dwell)
    (j : Fin s) :
    0 ≤ (fillProbs traps dwell).fromEmpty j ∧
      (fillProbs traps dwell).fromEmpty j ≤ (fillProbs traps dwell).fromFull j ∧
      (fillProbs traps dwell).fromFull j ≤ 1 ∧ 0 < (fillProbs traps dwell).fromRelease j ∧
      (fillProbs traps dwell).fromRelease j < 1 := by
  obtain ⟨e, f, h1, h2, h3⟩ := C25_probabilities (traps j) (h j) hd
  simpa [fillProbs, h1, h2, ExtF.toReal] using h3

/-- Capture takes 3 times as long as release; dwell time `3 τ ln 2`: a sixteenth of the difference survives. -/
theorem C25_slow_example (d τ : ℝ) (hτ : 0 < τ) (b : Bool) :
    fillFromEmpty (.trap d τ (3 * τ) b) (3 * τ * Real.log 2) = .fin (15 / 64) ∧
      fillFromFull (.trap d τ (3 * τ) b) (3 * τ * Real.log 2) = .fin (19 / 64) ∧
      fillFromRelease (.trap d τ (3 * τ) b) (3 * τ * Real.log 2) = 1 / 8 := by
  have hτ' := hτ.ne'
  have e1 : Real.exp (-(1 / (3 * τ) + 1 / τ) * (3 * τ * Real.log 2)) = 1 / 16 := by
    have : -(1 / (3 * τ) + 1 / τ) * (3 * τ * Real.log 2) = -(4 * Real.log 2) := by field_simp; ring
    rw [this, show (4 : ℝ) * Real.log 2 = Real.log (2 ^ 4) by rw [Real.log_pow]; norm_num, ← Real.log_inv,
      Real.exp_log (by norm_num)]
    norm_num
  have e2 : Real.exp (-(1 / τ) * (3 * τ * Real.log 2)) = 1 / 8 := by
    have : -(1 / τ) * (3 * τ * Real.log 2) = -(3 * Real.log 2) := by field_simp
    rw [this, show (3 : ℝ) * Real.log 2 = Real.log (2 ^ 3) by rw [Real.log_pow]; norm_num, ← Real.log_inv,
      Real.exp_log (by norm_num)]
    norm_num
  rw [fillFromEmpty_slow hτ (by positivity), fillFromFull_slow hτ (by positivity), e1]
  refine ⟨?_, ?_, e2⟩
  · congr 1; field_simp; norm_num
  · congr 1; field_simp; norm_num

/-! ## C26 — fill fraction and elapsed time -/

/-- Traps with a single release timescale: everything but the lifetime continuum. -/
def Trap.Exponential : Trap → Prop
  | .continuum .. => False
  | _ => True

theorem Trap.fillFraction_exp {t : Trap} (h : t.Exponential) (x : ℝ) :
    t.fillFraction x = Real.exp (-x / t.releaseTimescale) := by
  cases t <;> first | rfl | exact h.elim

/-- **C26**: the two conversions are inverse to each other. -/
theorem C26_inverse (t : Trap) (ht : t.Exponential) (h : 0 < t.releaseTimescale) :
    (∀ x, Trap.timeElapsed t.releaseTimescale (t.fillFraction x) = x) ∧
      ∀ f, 0 < f → t.fillFraction (Trap.timeElapsed t.releaseTimescale f) = f := by
  refine ⟨fun x => ?_, fun f hf => ?_⟩
  · rw [Trap.fillFraction_exp ht, Trap.timeElapsed, Real.log_exp]; field_simp
  · rw [Trap.fillFraction_exp ht, Trap.timeElapsed]
    have : -(-t.releaseTimescale * Real.log f) / t.releaseTimescale = Real.log f := by field_simp
    rw [this, Real.exp_log hf]

/-- **C26**: the fill fraction starts at 1, decreases strictly and tends to 0; fill fractions in `(0, 1]` belong to
non-negative times. -/
theorem C26_decreasing (t : Trap) (ht : t.Exponential) (h : 0 < t.releaseTimescale) :
    t.fillFraction 0 = 1 ∧ StrictAnti t.fillFraction ∧ Tendsto t.fillFraction atTop (𝓝 0) ∧
      (∀ x, 0 < t.fillFraction x) ∧ ∀ f, 0 < f → f ≤ 1 → 0 ≤ Trap.timeElapsed t.releaseTimescale f := by
  have hfun : t.fillFraction = fun x => Real.exp (-x / t.releaseTimescale) :=
    funext (Trap.fillFraction_exp ht)
  refine ⟨?_, ?_, ?_, ?_, ?_⟩
  · simp [hfun]
  · intro x y hxy
    rw [hfun]
    exact Real.exp_lt_exp.2 (by rw [div_lt_div_iff_of_pos_right h]; linarith)
  · rw [hfun]
    refine Real.tendsto_exp_atBot.comp ?_
    exact (tendsto_neg_atTop_atBot).atBot_div_const h
  · intro x; rw [hfun]; exact Real.exp_pos _
  · intro f h0 h1
    have := Real.log_nonpos h0.le h1
    unfold Trap.timeElapsed
    nlinarith

/-- **C26**: electrons released during a dwell time are the drop of the fill fraction, and a population of `n`
trapped electrons loses what the fill fraction says. -/
theorem C26_released (t : Trap) (ht : t.Exponential) (x dwell n : ℝ) :
    t.electronsReleasedFromTime x dwell = t.fillFraction x - t.fillFraction (x + dwell) ∧
      t.electronsReleased n dwell = n * t.fillFraction 0 - n * t.fillFraction dwell ∧
      t.electronsReleased (t.fillFraction x) dwell = t.electronsReleasedFromTime x dwell := by
  have h1 : t.electronsReleasedFromTime x dwell =
      Real.exp (-x / t.releaseTimescale) * (1 - Real.exp (-dwell / t.releaseTimescale)) := by
    cases t <;> first | rfl | exact ht.elim
  have h2 := Trap.fillFraction_exp ht
  refine ⟨?_, ?_, ?_⟩
  · rw [h1, h2, h2, show -(x + dwell) / t.releaseTimescale = -x / t.releaseTimescale + -dwell / t.releaseTimescale by
      ring, Real.exp_add]
    ring
  · unfold Trap.electronsReleased
    rw [h2, h2]; simp; ring
  · unfold Trap.electronsReleased
    rw [h1, h2, h2]

/-- After `τ ln 2` half of the traps are full; a further `τ ln 2` releases a quarter. -/
example (d τ : ℝ) (hτ : 0 < τ) :
    (Trap.instant d τ false).fillFraction (τ * Real.log 2) = 1 / 2 ∧
      (Trap.instant d τ false).electronsReleasedFromTime (τ * Real.log 2) (τ * Real.log 2) = 1 / 4 := by
  have hτ' := hτ.ne'
  have e : Real.exp (-(τ * Real.log 2) / τ) = 1 / 2 := by
    have : -(τ * Real.log 2) / τ = -Real.log 2 := by field_simp
    rw [this, ← Real.log_inv, Real.exp_log (by norm_num)]; norm_num
  refine ⟨e, ?_⟩
  simp only [Trap.electronsReleasedFromTime, e]
  norm_num

end Arctic
