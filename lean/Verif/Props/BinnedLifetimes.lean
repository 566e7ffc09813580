import Verif.Props.ErrorsFull
import Mathlib.Analysis.Calculus.Deriv.MeanValue

/-!
# C114 — a distribution of lifetimes replaced by a few lifetimes

`TrapLifetimeContinuumAbstract` needs a numerical integral for every age. A group of `TrapInstantCapture` with one trap for every bin of
lifetimes does not, and does nearly the same.
-/

set_option linter.unusedSectionVars false
set_option linter.unusedVariables false

namespace Arctic
open MeasureTheory Set

/-! ## Specification -/

/-- Two lifetimes with a ratio of at most `1 + ε`. -/
def RatioNear (ε τ t : ℝ) : Prop := τ ≤ (1 + ε) * t ∧ t ≤ (1 + ε) * τ

/-- Bins for the lifetimes of a distribution `p`: bin `j` stands for the lifetime `T j` and has the share `w j` of the traps. A share of
at most `δ` of the traps has a lifetime that is not within a factor of `1 + ε` of that of its bin. -/
structure Bins {m : ℕ} (ε δ : ℝ) (p : ℝ → ℝ) (bin : ℝ → Fin m) (T w : Fin m → ℝ) : Prop where
  meas : Measurable bin
  pos : ∀ j, 0 < T j
  share : ∀ j, w j = ∫ τ in Ioi (0 : ℝ) ∩ {τ | bin τ = j}, p τ
  far : ∫ τ in Ioi (0 : ℝ) ∩ {τ | ¬ RatioNear ε τ (T (bin τ))}, p τ ≤ δ

/-- A group of traps and the one to replace it: itself or, for a distribution of lifetimes, one trap with instant capture for every
bin. -/
inductive Binned (ε δ : ℝ) : List Trap → List Trap → Prop
  | same (l : List Trap) : Binned ε δ l l
  | bins {m : ℕ} (d mu sigma : ℝ) (p : ℝ → ℝ → ℝ → ℝ) (bin : ℝ → Fin m) (T w : Fin m → ℝ)
      (h : Bins ε δ (fun τ => p τ mu sigma) bin T w) :
      Binned ε δ [.continuum d p mu sigma] (List.ofFn fun j => .instant (d * w j) (T j) false)

/-! ## How fast the difference of two exponentials fades -/

theorem mul_exp_half_le {s : ℝ} (hs : 0 ≤ s) : s * Real.exp (-s) ≤ Real.exp (-s / 2) := by
  have h := Real.quadratic_le_exp_of_nonneg (by linarith : 0 ≤ s / 2)
  have h2 : s ≤ Real.exp (s / 2) := by nlinarith [sq_nonneg (s / 2 - 1)]
  have e : Real.exp (-s / 2) = Real.exp (s / 2) * Real.exp (-s) := by rw [← Real.exp_add]; congr 1; ring
  rw [e]
  exact mul_le_mul_of_nonneg_right h2 (Real.exp_pos _).le

/-- Derivatives of two exponentials. -/
theorem exp_rate_gap {a b ε x : ℝ} (ha : 0 < a) (hab : a ≤ b) (hb : b ≤ (1 + ε) * a) (hx : 0 ≤ x) :
    |b * Real.exp (-(b * x)) - a * Real.exp (-(a * x))| ≤ ε * a * Real.exp (-(a * x) / 2) := by
  have e0 : 0 ≤ ε := by
    by_contra h
    nlinarith [mul_neg_of_neg_of_pos (not_le.1 h) ha]
  have i1 : Real.exp (-(b * x)) ≤ Real.exp (-(a * x)) := Real.exp_le_exp.2 (by nlinarith)
  have i2 : Real.exp (-(a * x)) ≤ Real.exp (-(a * x) / 2) := Real.exp_le_exp.2 (by nlinarith [mul_nonneg ha.le hx])
  have i3 : Real.exp (-(a * x)) * (1 - (b - a) * x) ≤ Real.exp (-(b * x)) := by
    have e : Real.exp (-(b * x)) = Real.exp (-(a * x)) * Real.exp (-((b - a) * x)) := by rw [← Real.exp_add]; congr 1; ring
    rw [e]
    refine mul_le_mul_of_nonneg_left ?_ (Real.exp_pos _).le
    have := Real.add_one_le_exp (-((b - a) * x))
    linarith
  have i4 := mul_exp_half_le (mul_nonneg ha.le hx)
  have z := Real.exp_pos (-(a * x))
  have z2 := Real.exp_pos (-(b * x))
  have hba : b - a ≤ ε * a := by linarith
  rw [abs_le]
  constructor
  · have s1 : a * Real.exp (-(a * x)) - b * Real.exp (-(b * x)) ≤ a * ((b - a) * x * Real.exp (-(a * x))) := by
      have := mul_le_mul_of_nonneg_left i3 ha.le
      have := mul_le_mul_of_nonneg_right hab z2.le
      nlinarith
    have s2 : a * ((b - a) * x * Real.exp (-(a * x))) = (b - a) * (a * x * Real.exp (-(a * x))) := by ring
    have s3 : (b - a) * (a * x * Real.exp (-(a * x))) ≤ ε * a * Real.exp (-(a * x) / 2) :=
      mul_le_mul hba i4 (mul_nonneg (mul_nonneg ha.le hx) z.le) (mul_nonneg e0 ha.le)
    linarith
  · have s1 : b * Real.exp (-(b * x)) - a * Real.exp (-(a * x)) ≤ (b - a) * Real.exp (-(a * x)) := by
      have := mul_le_mul_of_nonneg_left i1 (ha.le.trans hab)
      linarith
    have s2 : (b - a) * Real.exp (-(a * x)) ≤ ε * a * Real.exp (-(a * x) / 2) :=
      mul_le_mul hba i2 z.le (mul_nonneg e0 ha.le)
    linarith

theorem exp_fall_gap {a b ε x y : ℝ} (ha : 0 < a) (hab : a ≤ b) (hb : b ≤ (1 + ε) * a) (hx : 0 ≤ x) (hxy : x ≤ y) :
    |(Real.exp (-(a * x)) - Real.exp (-(a * y))) - (Real.exp (-(b * x)) - Real.exp (-(b * y)))| ≤
      2 * ε * Real.exp (-(a * x) / 2) - 2 * ε * Real.exp (-(a * y) / 2) := by
  have d : ∀ c z : ℝ, HasDerivAt (fun z => Real.exp (-(c * z))) (-c * Real.exp (-(c * z))) z := by
    intro c z
    have h1 : HasDerivAt (fun z : ℝ => -(c * z)) (-c) z := by
      have := (hasDerivAt_id z).const_mul (-c)
      rw [mul_one] at this
      refine this.congr_of_eventuallyEq (Filter.Eventually.of_forall fun z => ?_)
      simp
    have := h1.exp
    rw [mul_comm] at this
    exact this
  have d2 : ∀ z : ℝ, HasDerivAt (fun z => 2 * ε * Real.exp (-(a * z) / 2)) (-(ε * a * Real.exp (-(a * z) / 2))) z := by
    intro z
    have h := (d (a / 2) z).const_mul (2 * ε)
    have e : ∀ z : ℝ, -(a / 2 * z) = -(a * z) / 2 := by intro z; ring
    simp only [e] at h
    have e2 : 2 * ε * (-(a / 2) * Real.exp (-(a * z) / 2)) = -(ε * a * Real.exp (-(a * z) / 2)) := by ring
    rw [e2] at h
    exact h
  have mono : ∀ s : ℝ, s = 1 ∨ s = -1 →
      AntitoneOn (fun z => 2 * ε * Real.exp (-(a * z) / 2) + s * (Real.exp (-(a * z)) - Real.exp (-(b * z)))) (Ici 0) := by
    intro s hs
    have dd : ∀ z : ℝ, HasDerivAt (fun z => 2 * ε * Real.exp (-(a * z) / 2) + s * (Real.exp (-(a * z)) - Real.exp (-(b * z))))
        (-(ε * a * Real.exp (-(a * z) / 2)) + s * (-a * Real.exp (-(a * z)) - -b * Real.exp (-(b * z)))) z := fun z =>
      (d2 z).add (((d a z).sub (d b z)).const_mul s)
    refine antitoneOn_of_deriv_nonpos (convex_Ici 0) (fun z _ => (dd z).continuousAt.continuousWithinAt)
      (fun z _ => (dd z).differentiableAt.differentiableWithinAt) fun z hz => ?_
    rw [(dd z).deriv]
    rw [interior_Ici] at hz
    obtain ⟨l, u⟩ := abs_le.1 (exp_rate_gap ha hab hb (le_of_lt hz : (0 : ℝ) ≤ z))
    rcases hs with rfl | rfl <;> linarith
  have m1 := mono 1 (Or.inl rfl) (mem_Ici.2 hx) (mem_Ici.2 (hx.trans hxy)) hxy
  have m2 := mono (-1) (Or.inr rfl) (mem_Ici.2 hx) (mem_Ici.2 (hx.trans hxy)) hxy
  simp only at m1 m2
  rw [abs_le]
  constructor <;> linarith

/-- The same for lifetimes. -/
theorem lifetime_fall_gap {ε τ t x y : ℝ} (hτ : 0 < τ) (ht : 0 < t) (h : RatioNear ε τ t) (hx : 0 ≤ x) (hxy : x ≤ y) :
    |(Real.exp (-x / τ) - Real.exp (-y / τ)) - (Real.exp (-x / t) - Real.exp (-y / t))| ≤
      2 * ε * Real.exp (-x / (2 * max τ t)) - 2 * ε * Real.exp (-y / (2 * max τ t)) := by
  have key : ∀ τ t : ℝ, 0 < τ → 0 < t → t ≤ τ → τ ≤ (1 + ε) * t →
      |(Real.exp (-x / τ) - Real.exp (-y / τ)) - (Real.exp (-x / t) - Real.exp (-y / t))| ≤
        2 * ε * Real.exp (-x / (2 * τ)) - 2 * ε * Real.exp (-y / (2 * τ)) := by
    intro τ t hτ ht hle hr
    have := exp_fall_gap (a := 1 / τ) (b := 1 / t) (ε := ε) (one_div_pos.2 hτ) (one_div_le_one_div_of_le ht hle)
      (by rw [mul_one_div, div_le_div_iff₀ ht hτ]; linarith) hx hxy
    have e1 : ∀ c z : ℝ, -(1 / c * z) = -z / c := by intro c z; ring
    have e2 : ∀ c z : ℝ, -z / c / 2 = -z / (2 * c) := by intro c z; rw [div_div, mul_comm c]
    simpa only [e1, e2] using this
  rcases le_total t τ with hle | hle
  · rw [max_eq_left hle]
    exact key τ t hτ ht hle h.1
  · rw [max_eq_right hle, abs_sub_comm]
    exact key t τ ht hτ hle h.2

/-! ## The law of the bins -/

/-- Share of traps still filled after `x`. -/
noncomputable def binLaw {m : ℕ} (T w : Fin m → ℝ) (x : ℝ) : ℝ := ∑ j, w j * Real.exp (-x / T j)

open Classical in
/-- How the difference between a lifetime and that of its bin fades. -/
noncomputable def binFade {m : ℕ} (ε : ℝ) (bin : ℝ → Fin m) (T : Fin m → ℝ) (x τ : ℝ) : ℝ :=
  if RatioNear ε τ (T (bin τ)) then 2 * ε * Real.exp (-x / (2 * max τ (T (bin τ))))
  else Real.exp (-x / τ) + Real.exp (-x / T (bin τ))

/-- How the difference between a distribution and its bins fades. -/
noncomputable def binFall {m : ℕ} (ε : ℝ) (p : ℝ → ℝ) (bin : ℝ → Fin m) (T : Fin m → ℝ) (x : ℝ) : ℝ :=
  ∫ τ in Ioi (0 : ℝ), p τ * binFade ε bin T x τ

section law
variable {m : ℕ} {ε δ : ℝ} {p : ℝ → ℝ} {bin : ℝ → Fin m} {T w : Fin m → ℝ}

theorem exp_frac {x τ : ℝ} (hx : 0 ≤ x) (hτ : 0 < τ) : 0 ≤ Real.exp (-x / τ) ∧ Real.exp (-x / τ) ≤ 1 := by
  refine ⟨(Real.exp_pos _).le, Real.exp_le_one_iff.2 ?_⟩
  have := div_nonneg hx hτ.le
  rw [neg_div]; linarith

theorem Bins.meas_far (h : Bins ε δ p bin T w) : MeasurableSet {τ | ¬ RatioNear ε τ (T (bin τ))} := by
  have mT : Measurable fun τ => T (bin τ) := (measurable_of_finite T).comp h.meas
  refine MeasurableSet.compl (MeasurableSet.inter ?_ ?_)
  · exact measurableSet_le measurable_id (mT.const_mul _)
  · exact measurableSet_le mT (measurable_id.const_mul _)

theorem Bins.meas_fade (h : Bins ε δ p bin T w) (x : ℝ) : Measurable (binFade ε bin T x) := by
  have mT : Measurable fun τ => T (bin τ) := (measurable_of_finite T).comp h.meas
  unfold binFade
  have ms : MeasurableSet {τ | RatioNear ε τ (T (bin τ))} := by
    have := h.meas_far.compl
    rwa [show {τ | ¬ RatioNear ε τ (T (bin τ))}ᶜ = {τ | RatioNear ε τ (T (bin τ))} by ext τ; simp] at this
  refine Measurable.ite ms ?_ ?_
  · exact (Real.measurable_exp.comp (measurable_const.div ((measurable_id.max mT).const_mul _))).const_mul _
  · exact (Real.measurable_exp.comp (measurable_const.div measurable_id)).add (Real.measurable_exp.comp (measurable_const.div mT))

theorem Bins.fade_bound (h : Bins ε δ p bin T w) (h0 : 0 ≤ ε) {x τ : ℝ} (hx : 0 ≤ x) (hτ : 0 < τ) :
    0 ≤ binFade ε bin T x τ ∧ binFade ε bin T x τ ≤ 2 * ε + 2 := by
  have a := exp_frac hx hτ
  have b := exp_frac hx (h.pos (bin τ))
  have c := exp_frac hx (mul_pos two_pos (lt_max_of_lt_left hτ : 0 < max τ (T (bin τ))))
  unfold binFade
  split
  · refine ⟨mul_nonneg (by linarith) c.1, ?_⟩
    have := mul_le_mul_of_nonneg_left c.2 (by linarith : 0 ≤ 2 * ε)
    linarith
  · constructor <;> linarith [a.1, a.2, b.1, b.2]

theorem integrable_weighted (hp : Lifetimes p) {g : ℝ → ℝ} (hg : Measurable g) {C : ℝ} (hC : ∀ τ, 0 < τ → 0 ≤ g τ ∧ g τ ≤ C) :
    IntegrableOn (fun τ => p τ * g τ) (Ioi 0) := by
  refine Integrable.mono' (hp.integrable.const_mul C) (hp.integrable.aestronglyMeasurable.mul hg.aestronglyMeasurable) ?_
  refine (ae_restrict_iff' measurableSet_Ioi).2 (ae_of_all _ fun τ hτ => ?_)
  have hτ : 0 < τ := hτ
  have h1 := hp.nonneg τ hτ
  rw [Real.norm_eq_abs, abs_of_nonneg (mul_nonneg h1 (hC τ hτ).1), mul_comm]
  exact mul_le_mul_of_nonneg_right (hC τ hτ).2 h1

theorem Bins.law_eq (h : Bins ε δ p bin T w) (hp : Lifetimes p) {x : ℝ} (hx : 0 ≤ x) :
    binLaw T w x = ∫ τ in Ioi (0 : ℝ), p τ * Real.exp (-x / T (bin τ)) := by
  have ms : ∀ j, MeasurableSet {τ | bin τ = j} := fun j => h.meas (measurableSet_singleton j)
  have e : ∀ τ, p τ * Real.exp (-x / T (bin τ)) =
      ∑ j, {τ | bin τ = j}.indicator (fun τ => p τ * Real.exp (-x / T j)) τ := by
    intro τ
    rw [Finset.sum_eq_single (bin τ)]
    · simp [indicator]
    · intro j _ hj
      simp [indicator, Ne.symm hj]
    · simp
  simp only [e]
  rw [integral_finsetSum]
  · unfold binLaw
    refine Finset.sum_congr rfl fun j _ => ?_
    rw [setIntegral_indicator (ms j), integral_mul_const, h.share j]
  · intro j _
    exact (hp.integrable.mul_const _).indicator (ms j)

theorem Bins.total (h : Bins ε δ p bin T w) (hp : Lifetimes p) : ∑ j, w j = 1 := by
  have := h.law_eq hp le_rfl
  simpa [binLaw, hp.total] using this

theorem Bins.share_nonneg (h : Bins ε δ p bin T w) (hp : Lifetimes p) (j : Fin m) : 0 ≤ w j := by
  rw [h.share j]
  exact setIntegral_nonneg (measurableSet_Ioi.inter (h.meas (measurableSet_singleton j))) fun τ hτ => hp.nonneg τ hτ.1

theorem Bins.fall_start (h : Bins ε δ p bin T w) (hp : Lifetimes p) (h0 : 0 ≤ ε) : binFall ε p bin T 0 ≤ 2 * (ε + δ) := by
  have i1 := integrable_weighted hp (h.meas_fade 0) (C := 2 * ε + 2) fun τ hτ => h.fade_bound h0 le_rfl hτ
  have i2 : IntegrableOn (fun τ => 2 * ε * p τ + 2 * {τ | ¬ RatioNear ε τ (T (bin τ))}.indicator p τ) (Ioi 0) :=
    (hp.integrable.const_mul _).add ((hp.integrable.indicator h.meas_far).const_mul _)
  have key : binFall ε p bin T 0 ≤ ∫ τ in Ioi (0 : ℝ), (2 * ε * p τ + 2 * {τ | ¬ RatioNear ε τ (T (bin τ))}.indicator p τ) := by
    refine setIntegral_mono_on i1 i2 measurableSet_Ioi fun τ hτ => ?_
    have pτ := hp.nonneg τ hτ
    unfold binFade
    by_cases hn : RatioNear ε τ (T (bin τ))
    · simp [indicator, hn]
      linarith
    · simp [indicator, hn]
      nlinarith [mul_nonneg h0 pτ]
  refine key.trans ?_
  rw [integral_add (hp.integrable.const_mul _) ((hp.integrable.indicator h.meas_far).const_mul _), integral_const_mul,
    integral_const_mul, hp.total, setIntegral_indicator h.meas_far]
  linarith [h.far]

theorem Bins.fall_nonneg (h : Bins ε δ p bin T w) (hp : Lifetimes p) (h0 : 0 ≤ ε) {x : ℝ} (hx : 0 ≤ x) :
    0 ≤ binFall ε p bin T x :=
  setIntegral_nonneg measurableSet_Ioi fun τ hτ => mul_nonneg (hp.nonneg τ hτ) (h.fade_bound h0 hx hτ).1

theorem Bins.fall_change (h : Bins ε δ p bin T w) (hp : Lifetimes p) (h0 : 0 ≤ ε) {x y : ℝ} (hx : 0 ≤ x) (hxy : x ≤ y) :
    |((∫ τ in Ioi (0 : ℝ), p τ * Real.exp (-x / τ)) - ∫ τ in Ioi (0 : ℝ), p τ * Real.exp (-y / τ)) -
        (binLaw T w x - binLaw T w y)| ≤ binFall ε p bin T x - binFall ε p bin T y := by
  have hy := hx.trans hxy
  have mT : Measurable fun τ => T (bin τ) := (measurable_of_finite T).comp h.meas
  have iT : ∀ z, 0 ≤ z → IntegrableOn (fun τ => p τ * Real.exp (-z / T (bin τ))) (Ioi 0) := fun z hz =>
    integrable_weighted hp (Real.measurable_exp.comp (measurable_const.div mT)) (C := 1) fun τ _ => exp_frac hz (h.pos _)
  have iF : ∀ z, 0 ≤ z → IntegrableOn (fun τ => p τ * binFade ε bin T z τ) (Ioi 0) := fun z hz =>
    integrable_weighted hp (h.meas_fade z) (C := 2 * ε + 2) fun τ hτ => h.fade_bound h0 hz hτ
  rw [h.law_eq hp hx, h.law_eq hp hy]
  unfold binFall
  have i1 : IntegrableOn (fun τ => p τ * Real.exp (-x / τ) - p τ * Real.exp (-y / τ)) (Ioi 0) :=
    (hp.integrable_exp hx).sub (hp.integrable_exp hy)
  have i2 : IntegrableOn (fun τ => p τ * Real.exp (-x / T (bin τ)) - p τ * Real.exp (-y / T (bin τ))) (Ioi 0) :=
    (iT x hx).sub (iT y hy)
  rw [← integral_sub (hp.integrable_exp hx) (hp.integrable_exp hy), ← integral_sub (iT x hx) (iT y hy), ← integral_sub i1 i2,
    ← integral_sub (iF x hx) (iF y hy)]
  refine (abs_integral_le_integral_abs).trans (setIntegral_mono_on (i1.sub i2).abs ((iF x hx).sub (iF y hy)) measurableSet_Ioi
    fun τ hτ => ?_)
  have hτ : 0 < τ := hτ
  have pτ := hp.nonneg τ hτ
  rw [show p τ * Real.exp (-x / τ) - p τ * Real.exp (-y / τ) - (p τ * Real.exp (-x / T (bin τ)) - p τ * Real.exp (-y / T (bin τ))) =
    p τ * ((Real.exp (-x / τ) - Real.exp (-y / τ)) - (Real.exp (-x / T (bin τ)) - Real.exp (-y / T (bin τ)))) by ring, abs_mul,
    abs_of_nonneg pτ, ← mul_sub]
  refine mul_le_mul_of_nonneg_left ?_ pτ
  unfold binFade
  by_cases hn : RatioNear ε τ (T (bin τ))
  · rw [if_pos hn, if_pos hn]
    exact lifetime_fall_gap hτ (h.pos _) hn hx hxy
  · rw [if_neg hn, if_neg hn]
    have f : ∀ t : ℝ, 0 < t → Real.exp (-y / t) ≤ Real.exp (-x / t) := fun t ht => Real.exp_le_exp.2 (by
      rw [div_le_div_iff_of_pos_right ht]; linarith)
    have f1 := f τ hτ
    have f2 := f _ (h.pos (bin τ))
    rw [abs_le]
    constructor <;> linarith

end law

/-! ## The same traps with one clock for all bins -/

/-- Traps of all bins as one species that follows the law of the bins. -/
noncomputable def binClock {m : ℕ} (d : ℝ) (T w : Fin m → ℝ) (age : ℝ → Option ℝ) : Ref.Clocks :=
  ⟨1, fun _ => d, fun _ => binLaw T w, fun z _ => age z⟩

/-- Traps of all bins as one species each. -/
noncomputable def binTraps {m : ℕ} (d : ℝ) (T w : Fin m → ℝ) (age : ℝ → Option ℝ) : Ref.Traps :=
  ⟨m, fun j => d * w j, fun x j => Real.exp (-x / T j), fun z j => (age z).elim 0 fun a => Real.exp (-a / T j)⟩

/-- The same traps in the same state, or one clock for all bins. -/
inductive Ref.BinTwin : Ref.FullTraps → Ref.FullTraps → Prop
  | same (t : Ref.FullTraps) : BinTwin t t
  | bins {m : ℕ} (d : ℝ) (T w : Fin m → ℝ) (age : ℝ → Option ℝ) :
      BinTwin (.inr (binClock d T w age)) (.inl (.inl (binTraps d T w age)))

section twin
variable {m : ℕ} {d : ℝ} {T w : Fin m → ℝ} {age : ℝ → Option ℝ} {dw L : ℝ} {f : ℝ → ℝ}

theorem binTraps_filled (h : (binTraps d T w age).Reg dw) :
    held (binClock d T w age).dens (binClock d T w age).occ = (binTraps d T w age).filled := by
  have i : ∀ j, IntervalIntegrable (fun z => (age z).elim 0 fun a => Real.exp (-a / T j)) volume 0 1 := fun j =>
    integrable_bdd 1 (h.meas j) (fun z => by
      have := h.frac z j
      exact abs_le.2 ⟨by linarith [this.1], this.2⟩) _ _
  have e : ∀ z, (age z).elim 0 (binLaw T w) = ∑ j, w j * (age z).elim 0 fun a => Real.exp (-a / T j) := by
    intro z
    cases age z with
    | none => simp
    | some a => simp [binLaw]
  change ∑ j : Fin 1, d * ∫ z in (0 : ℝ)..1, (age z).elim 0 (binLaw T w) =
    ∑ j : Fin m, d * w j * ∫ z in (0 : ℝ)..1, (age z).elim 0 fun a => Real.exp (-a / T j)
  rw [Fin.sum_univ_one]
  simp only [e]
  rw [intervalIntegral.integral_finsetSum fun j _ => (i j).const_mul _, Finset.mul_sum]
  refine Finset.sum_congr rfl fun j _ => ?_
  rw [intervalIntegral.integral_const_mul, mul_assoc]

theorem elim_later (o : Option ℝ) (dw t : ℝ) :
    (o.elim 0 fun a => Real.exp (-a / t)) * Real.exp (-dw / t) = (o.map (· + dw)).elim 0 fun a => Real.exp (-a / t) := by
  cases o with
  | none => simp
  | some a =>
    simp only [Option.map_some, Option.elim_some]
    rw [← Real.exp_add]
    congr 1
    ring

theorem binTraps_release : (binTraps d T w age).release dw = binTraps d T w fun z => (age z).map (· + dw) := by
  unfold Ref.Traps.release binTraps
  congr 1
  funext z j
  exact elim_later _ _ _

/-- One transfer. -/
theorem bin_step (hf : LipFill f L) (h : (binClock d T w age).Reg) (h' : (binTraps d T w age).Reg dw) (hd : 0 ≤ dw)
    (hL : (binTraps d T w age).total * L ≤ 1) (n : ℝ) :
    ∃ age', Ref.FullTraps.transfer f dw (.inl (.inl (binTraps d T w age))) n =
        ((Ref.FullTraps.transfer f dw (.inr (binClock d T w age)) n).1, .inl (.inl (binTraps d T w age'))) ∧
      (Ref.FullTraps.transfer f dw (.inr (binClock d T w age)) n).2 = .inr (binClock d T w age') := by
  have e1 := h'.transfer_plain hf hL n
  have E1 : Ref.FullTraps.transfer f dw (.inl (.inl (binTraps d T w age))) n =
      (((binTraps d T w age).plain f dw n).1, .inl (.inl ((binTraps d T w age).plain f dw n).2)) := by
    unfold Ref.FullTraps.transfer Ref.MixTraps.transfer
    simp only [e1]
  rw [E1, Ref.FullTraps.transfer_inr _ h hd hf n]
  have hr := h'.release
  rw [binTraps_release] at hr
  have cl : (binClock d T w age).cloud dw n = n + (binTraps d T w age).outflow dw := by
    unfold Ref.Clocks.cloud Ref.Traps.outflow
    rw [binTraps_release, ← binTraps_filled h', ← binTraps_filled hr]
    congr 2
    have : (binClock d T w age).later dw = (binClock d T w fun z => (age z).map (· + dw)).occ := by
      funext z j
      change ((age z).elim 0 fun a => binLaw T w (a + dw)) = ((age z).map (· + dw)).elim 0 (binLaw T w)
      cases age z <;> rfl
    exact congrArg (held (fun _ : Fin 1 => d)) this
  obtain ⟨z0, hz0⟩ : ∃ z0, z0 = f (n + (binTraps d T w age).outflow dw) := ⟨_, rfl⟩
  have n1 : (binClock d T w age).next f dw n = binClock d T w fun z => if z ≤ z0 then some 0 else (age z).map (· + dw) := by
    unfold Ref.Clocks.next
    rw [cl, ← hz0]
    rfl
  have n2 : ((binTraps d T w age).plain f dw n).2 = binTraps d T w fun z => if z ≤ z0 then some 0 else (age z).map (· + dw) := by
    unfold Ref.Traps.plain
    rw [← hz0]
    unfold binTraps
    simp only
    congr 1
    funext z j
    by_cases hz : z ≤ z0
    · simp [hz]
    · simp only [hz, if_false]
      exact elim_later _ _ _
  have n3 := h'.plain f n
  refine ⟨fun z => if z ≤ z0 then some 0 else (age z).map (· + dw), ?_, congrArg Sum.inr n1⟩
  have fl := h'.plain_filled hf n
  rw [n2] at n3 fl ⊢
  refine Prod.ext ?_ rfl
  have fl2 := binTraps_filled n3
  change ((binTraps d T w age).plain f dw n).1 = held (binClock d T w age).dens (binClock d T w age).occ -
    held (binClock d T w age).dens ((binClock d T w age).next f dw n).occ
  rw [binTraps_filled h']
  have e3 : held (binClock d T w age).dens ((binClock d T w age).next f dw n).occ =
      held (binClock d T w fun z => if z ≤ z0 then some 0 else (age z).map (· + dw)).dens
        (binClock d T w fun z => if z ≤ z0 then some 0 else (age z).map (· + dw)).occ := by
    exact congrArg (fun t : Ref.Clocks => held t.dens t.occ) n1
  rw [e3, fl2, fl, Ref.Traps.plain_fst]
  ring

theorem Ref.BinTwin.step {t t' : Ref.FullTraps} (hf : LipFill f L) (h : Ref.BinTwin t t') (ht : t.Reg dw) (ht' : t'.Reg dw)
    (hL : t'.total * L ≤ 1) (n : ℝ) :
    (Ref.FullTraps.transfer f dw t n).1 = (Ref.FullTraps.transfer f dw t' n).1 ∧
      Ref.BinTwin (Ref.FullTraps.transfer f dw t n).2 (Ref.FullTraps.transfer f dw t' n).2 := by
  cases h with
  | same => exact ⟨rfl, .same _⟩
  | bins d T w age =>
    obtain ⟨age', e1, e2⟩ := bin_step hf ht.1 ht' ht.2 hL n
    rw [e1, e2]
    exact ⟨rfl, .bins _ _ _ _⟩

theorem Ref.binTwins_step {ts ts' : List Ref.FullTraps} (hf : LipFill f L) (h : List.Forall₂ Ref.BinTwin ts ts')
    (hr : ∀ t ∈ ts, t.Reg dw) (hr' : ∀ t ∈ ts', t.Reg dw) (hL : Ref.fullTotal ts' * L ≤ 1) (n : ℝ) :
    (Ref.fullStep f dw ts n).1 = (Ref.fullStep f dw ts' n).1 ∧
      List.Forall₂ Ref.BinTwin (Ref.fullStep f dw ts n).2 (Ref.fullStep f dw ts' n).2 := by
  induction h with
  | nil => exact ⟨rfl, .nil⟩
  | @cons t t' ts ts' h hs ih =>
    have a1 := (hr' t' List.mem_cons_self).total_nonneg
    have a2 := Ref.fullTotal_nonneg fun x hx => hr' x (List.mem_cons_of_mem _ hx)
    have a3 : Ref.fullTotal (t' :: ts') = t'.total + Ref.fullTotal ts' := by simp [Ref.fullTotal]
    have l0 := hf.nonneg_slope
    rw [a3, add_mul] at hL
    have m1 := mul_nonneg a1 l0
    have m2 := mul_nonneg a2 l0
    obtain ⟨i1, i2⟩ := ih (fun x hx => hr x (List.mem_cons_of_mem _ hx)) (fun x hx => hr' x (List.mem_cons_of_mem _ hx))
      (by linarith)
    obtain ⟨j1, j2⟩ := h.step hf (hr t List.mem_cons_self) (hr' t' List.mem_cons_self) (by linarith) n
    rw [Ref.fullStep_cons, Ref.fullStep_cons]
    exact ⟨by simp only [i1, j1], .cons j2 i2⟩

end twin

/-- A readout with other states of the traps that behave in the same way. -/
theorem stepReadout_twin {σ τ : Type} (R : σ → τ → Prop) {step : σ → ℝ → ℝ × σ} {step' : τ → ℝ → ℝ × τ}
    (h : ∀ s t n, R s t → (step s n).1 = (step' t n).1 ∧ R (step s n).2 (step' t n).2) {s : σ} {t : τ} (hst : R s t)
    (passes : List (List (ℕ × ℝ))) (col : ℕ → ℝ) :
    Ref.stepReadout step s passes col = Ref.stepReadout step' t passes col := by
  have hp : Ref.stepPass step s = Ref.stepPass step' t := by
    funext col todo
    unfold Ref.stepPass
    suffices ∀ (col : ℕ → ℝ) (s : σ) (t : τ), R s t → (todo.foldl (Ref.stepRow step) (col, s)).1 =
        (todo.foldl (Ref.stepRow step') (col, t)).1 from this col s t hst
    induction todo with
    | nil => intro col s t _; rfl
    | cons x todo ih =>
      intro col s t hst
      rw [List.foldl_cons, List.foldl_cons]
      obtain ⟨e1, e2⟩ := h s t (col x.1) hst
      have a : Ref.stepRow step (col, s) x = ((Ref.stepRow step' (col, t) x).1, (step s (col x.1)).2) := by
        unfold Ref.stepRow
        simp only [e1]
      rw [a]
      exact ih _ _ _ e2
  unfold Ref.stepReadout
  rw [hp]

/-! ## Groups -/

theorem Ref.FullKin.refl {dw ε : ℝ} {t : Ref.FullTraps} (h0 : 0 ≤ ε) (h : t.Reg dw) : Ref.FullKin dw ε t t 0 := by
  rcases t with (t | t) | t
  · have hh : t.Reg dw := h
    have := Ref.FullKin.instant (dw := dw) (ε := ε) t t.occ t.dens t.keep hh
      ⟨fun j => by rw [sub_self, abs_zero]; exact mul_nonneg h0 (hh.dens j),
        fun j => by rw [sub_self, abs_zero]; exact mul_nonneg h0 (sub_nonneg.2 (hh.keep j).2)⟩
    have e : t.gap t.occ = 0 := by simp [Ref.Traps.gap]
    rw [e] at this
    exact this
  · have hh : t.Reg dw := h
    have := Ref.FullKin.slow (dw := dw) (ε := ε) t t.occ t.dens t.take t.hold t.keep hh
      ⟨fun j => by rw [sub_self, abs_zero]; exact mul_nonneg h0 (hh.dens j),
        fun j => by rw [sub_self, abs_zero]; exact mul_nonneg h0 (by linarith [(hh.keep j).2.2]),
        fun j => by rw [sub_self, abs_zero]; linarith, fun j => by rw [sub_self, abs_zero]; linarith⟩
    have e : heldGap t.dens t.occ t.occ = 0 := by simp [heldGap]
    rw [e] at this
    exact this
  · have hh : t.Reg := h.1
    have z : ∀ x, aged (fun (_ : Fin t.s) (_ : ℝ) => (0 : ℝ)) t.age x = fun _ _ => 0 := by
      intro x
      funext d j
      unfold aged
      cases t.age d j <;> rfl
    have := Ref.FullKin.clock (dw := dw) (ε := ε) t t.age t.dens t.law (fun _ _ => 0) hh hh
      (fun j => by rw [sub_self, abs_zero]; exact mul_nonneg h0 (hh.dens j))
      ⟨fun j => h0, fun j x _ => le_rfl, fun j x y _ _ => by simp⟩
      ⟨hh.age, fun x _ j => by rw [z x]; exact measurable_const⟩
    have e : heldGap t.dens t.occ (t.reage t.age).occ + 6 * held t.dens (aged (fun (_ : Fin t.s) (_ : ℝ) => (0 : ℝ)) t.age 0) = 0 := by
      rw [z 0]
      change heldGap t.dens t.occ t.occ + _ = 0
      simp [heldGap, held]
    have h2 := this
    exact e ▸ h2

theorem binClock_reg {m : ℕ} {ε δ d : ℝ} {p : ℝ → ℝ} {bin : ℝ → Fin m} {T w : Fin m → ℝ} (h : Bins ε δ p bin T w)
    (hp : Lifetimes p) (hd : 0 ≤ d) : (binClock d T w fun _ => none).Reg := by
  have w0 := h.share_nonneg hp
  have f : ∀ j x, 0 ≤ x → 0 ≤ Real.exp (-x / T j) ∧ Real.exp (-x / T j) ≤ 1 := fun j x hx => exp_frac hx (h.pos j)
  have anti : ∀ j a b, a ≤ b → Real.exp (-b / T j) ≤ Real.exp (-a / T j) := fun j a b hab => Real.exp_le_exp.2 (by
    rw [div_le_div_iff_of_pos_right (h.pos j)]; linarith)
  refine ⟨fun _ => hd, fun _ => ?_, fun _ x hx => ⟨?_, ?_⟩, fun _ a b ha hab => ?_, fun _ a b x ha hab hx => ?_,
    fun z j a ha => by simp [binClock] at ha, fun x hx j => measurable_const⟩
  · change binLaw T w 0 = 1
    simpa [binLaw] using h.total hp
  · change 0 ≤ binLaw T w x
    exact Finset.sum_nonneg fun j _ => mul_nonneg (w0 j) (f j x hx).1
  · change binLaw T w x ≤ 1
    rw [← h.total hp]
    exact Finset.sum_le_sum fun j _ => mul_le_of_le_one_right (w0 j) (f j x hx).2
  · change binLaw T w b ≤ binLaw T w a
    exact Finset.sum_le_sum fun j _ => mul_le_mul_of_nonneg_left (anti j a b hab) (w0 j)
  · change binLaw T w b - binLaw T w (b + x) ≤ binLaw T w a - binLaw T w (a + x)
    unfold binLaw
    rw [← Finset.sum_sub_distrib, ← Finset.sum_sub_distrib]
    refine Finset.sum_le_sum fun j _ => ?_
    rw [← mul_sub, ← mul_sub]
    refine mul_le_mul_of_nonneg_left ?_ (w0 j)
    have e : ∀ c : ℝ, Real.exp (-c / T j) - Real.exp (-(c + x) / T j) = Real.exp (-c / T j) * (1 - Real.exp (-x / T j)) := by
      intro c
      rw [mul_sub, mul_one, ← Real.exp_add]
      congr 2
      ring
    rw [e, e]
    exact mul_le_mul_of_nonneg_right (anti j a b hab) (by linarith [(f j x hx).2])

theorem Binned.density {ε δ : ℝ} {l l' : List Trap} (h : Binned ε δ l l') (he : EveryGroup l) :
    (l'.map Trap.density).sum = (l.map Trap.density).sum := by
  cases h with
  | same => rfl
  | bins d mu sigma p bin T w h =>
    have s := (he.all _ List.mem_cons_self).1
    rw [List.map_ofFn, List.sum_ofFn]
    simp only [Function.comp_def, Trap.density, List.map_cons, List.map_nil, List.sum_cons, List.sum_nil, add_zero]
    rw [← Finset.mul_sum, h.total s.2.2, mul_one]

/-- A group, the same with one clock for all bins, and the group with bins. -/
theorem Binned.middle {ε δ dw : ℝ} (hd : 0 < dw) (h0 : 0 ≤ ε) (hδ : 0 ≤ δ) {l l' : List Trap} (h : Binned ε δ l l')
    (he : EveryGroup l) (he' : EveryGroup l') :
    ∃ t, t.Reg dw ∧ t.filled = 0 ∧ t.total = (l.map Trap.density).sum ∧
      Ref.FullKin dw (2 * (ε + δ)) (Ref.fullOf l) t 0 ∧ Ref.BinTwin t (Ref.fullOf l') := by
  cases h with
  | same =>
    exact ⟨Ref.fullOf l, he.full_reg hd, Ref.fullOf_filled l, Ref.fullOf_total l, .refl (by linarith) (he.full_reg hd), .same _⟩
  | @bins m d mu sigma p bin T w h =>
    have s := (he.all _ List.mem_cons_self).1
    have hp := s.2.2
    have hr := binClock_reg h hp s.1
    refine ⟨.inr (binClock d T w fun _ => none), ⟨hr, hd.le⟩, ?_, ?_, ?_, ?_⟩
    · change held _ _ = 0
      simp [held, Ref.Clocks.occ, binClock]
    · change ∑ j : Fin 1, d = _
      simp [Trap.density]
    · have := Ref.FullKin.clock (dw := dw) (ε := 2 * (ε + δ)) (Ref.clocksOf [.continuum d p mu sigma]) (fun _ _ => none)
        (fun _ => d) (fun _ => binLaw T w) (fun _ => binFall ε (fun τ => p τ mu sigma) bin T) hr he.clocks_reg
        (fun j => by
          have : j = ⟨0, by simp [Ref.clocksOf]⟩ := Subsingleton.elim (α := Fin 1) _ _
          subst this
          change |d - d| ≤ _
          rw [sub_self, abs_zero]
          exact mul_nonneg (by linarith) s.1)
        ⟨fun j => h.fall_start hp h0, fun j x hx => h.fall_nonneg hp h0 hx, fun j x y hx hxy => by
          have : j = ⟨0, by simp [Ref.clocksOf]⟩ := Subsingleton.elim (α := Fin 1) _ _
          subst this
          exact h.fall_change hp h0 hx hxy⟩
        ⟨fun z j a ha => by simp at ha, fun x hx j => measurable_const⟩
      have e : heldGap (Ref.clocksOf [Trap.continuum d p mu sigma]).dens (Ref.clocksOf [Trap.continuum d p mu sigma]).occ
          ((Ref.clocksOf [Trap.continuum d p mu sigma]).reage fun _ _ => none).occ +
          6 * held (fun _ : Fin 1 => d) (aged (fun _ => binFall ε (fun τ => p τ mu sigma) bin T) (fun _ _ => none) 0) = 0 := by
        have z1 : heldGap (Ref.clocksOf [Trap.continuum d p mu sigma]).dens (Ref.clocksOf [Trap.continuum d p mu sigma]).occ
            ((Ref.clocksOf [Trap.continuum d p mu sigma]).reage fun _ _ => none).occ = 0 := by
          change heldGap (Ref.clocksOf [Trap.continuum d p mu sigma]).dens (Ref.clocksOf [Trap.continuum d p mu sigma]).occ
            (Ref.clocksOf [Trap.continuum d p mu sigma]).occ = 0
          simp [heldGap]
        rw [z1]
        simp [held, aged]
      have h2 := this
      exact e ▸ h2
    · have e : Ref.fullOf (List.ofFn fun j => Trap.instant (d * w j) (T j) false) = .inl (.inl (binTraps d T w fun _ => none)) := by
        have e1 : Ref.fullOf (List.ofFn fun j => Trap.instant (d * w j) (T j) false) =
            .inl (.inl (Ref.ofTraps (List.ofFn fun j => Trap.instant (d * w j) (T j) false))) := by
          cases m with
          | zero => exact absurd (bin 0).2 (by omega)
          | succ m => rw [List.ofFn_succ]; rfl
        rw [e1, Ref.ofTraps_of_length _ m (List.length_ofFn)]
        unfold binTraps
        simp [Trap.density, Trap.releaseTimescale]
      rw [e]
      exact .bins _ _ _ _

theorem Binned.middles {ε δ dw : ℝ} (hd : 0 < dw) (h0 : 0 ≤ ε) (hδ : 0 ≤ δ) {gs gs' : List (List Trap)}
    (h : List.Forall₂ (Binned ε δ) gs gs') (he : ∀ l ∈ gs, EveryGroup l) (he' : ∀ l ∈ gs', EveryGroup l) :
    ∃ ts, Ref.FullFew dw (trapCount gs) ts ∧ Ref.fullFilled ts = 0 ∧ Ref.FullKins dw (2 * (ε + δ)) (gs.map Ref.fullOf) ts 0 ∧
      List.Forall₂ Ref.BinTwin ts (gs'.map Ref.fullOf) := by
  induction h with
  | nil => exact ⟨[], ⟨by simp, rfl⟩, rfl, .nil, .nil⟩
  | @cons l l' gs gs' hl hs ih =>
    obtain ⟨ts, a1, a2, a3, a4⟩ := ih (fun l hl => he l (List.mem_cons_of_mem _ hl)) fun l hl => he' l (List.mem_cons_of_mem _ hl)
    obtain ⟨t, b1, b2, b3, b4, b5⟩ := hl.middle hd h0 hδ (he l List.mem_cons_self) (he' l' List.mem_cons_self)
    refine ⟨t :: ts, ⟨?_, ?_⟩, ?_, ?_, .cons b5 a4⟩
    · intro x hx
      rcases List.mem_cons.1 hx with rfl | hx
      · exact b1
      · exact a1.reg x hx
    · have := a1.total
      simp only [Ref.fullTotal, trapCount, List.map_cons, List.sum_cons] at this ⊢
      rw [this, b3]
    · rw [Ref.fullFilled_cons, a2, b2, add_zero]
    · have := Ref.FullKins.cons b4 a3
      rw [add_zero] at this
      exact this

theorem Binned.count {ε δ : ℝ} {gs gs' : List (List Trap)} (h : List.Forall₂ (Binned ε δ) gs gs') (he : ∀ l ∈ gs, EveryGroup l) :
    trapCount gs' = trapCount gs := by
  induction h with
  | nil => rfl
  | @cons l l' gs gs' hl hs ih =>
    have i := ih fun l hl => he l (List.mem_cons_of_mem _ hl)
    have j := hl.density (he l List.mem_cons_self)
    simp only [trapCount, List.map_cons, List.sum_cons] at i ⊢
    rw [i, j]

section columns
variable {full power dw : ℝ} {gs gs' : List (List Trap)} {i i' : Bool} {c c' : CCD} {o : ℕ} {d d' : PyDirection}

theorem binned_close {ε δ l : ℝ} (h : FullObjects full power dw gs i c o d) (h' : FullObjects full power dw gs' i' c' o d')
    (h0 : 0 ≤ ε) (hδ : 0 ≤ δ) (h1 : 2 * (ε + δ) ≤ 1) (hn : List.Forall₂ (Binned ε δ) gs gs')
    (hl : 4 * (trapCount gs * (power / full)) ≤ l) (hl1 : l < 1) (n : ℕ) :
    Close n 0 (2 * (ε + δ)) (lossSlope l (n + o))
      (Ref.stepReadout (Ref.fullStep (wellFill full power) dw) (gs.map Ref.fullOf) (Ref.allPasses n o))
      (Ref.stepReadout (Ref.fullStep (wellFill full power) dw) (gs'.map Ref.fullOf) (Ref.allPasses n o)) := by
  have hf := wellFill_lip h.full h.power
  have k := h.slope_nonneg
  obtain ⟨ts, t1, t2, t3, t4⟩ := Binned.middles h.dwell h0 hδ hn h.groups.2 h'.groups.2
  have hc := Binned.count hn h.groups.2
  have D := full_drift (dw := dw) (T := trapCount gs) (T' := trapCount gs) hf (by linarith : 0 ≤ 2 * (ε + δ)) h1 hl hl hl1.le
  have key := D.readout (full_gentle (dw := dw) hf h.count_nonneg (by linarith)) (full_gentle hf h.count_nonneg (by linarith))
    (by linarith) hl1 (by linarith) n h.few.1 t1 t3 t2
    (Ref.allPasses n o) (allPasses_good n o).nodup (allPasses_one n o)
  rw [allPasses_length] at key
  have few' := h'.few.1
  rw [hc] at few'
  have hL : trapCount gs * (power / full) ≤ 1 := by linarith
  have tw : ∀ y, Ref.stepReadout (Ref.fullStep (wellFill full power) dw) ts (Ref.allPasses n o) y =
      Ref.stepReadout (Ref.fullStep (wellFill full power) dw) (gs'.map Ref.fullOf) (Ref.allPasses n o) y := by
    intro y
    refine stepReadout_twin (fun s t => List.Forall₂ Ref.BinTwin s t ∧ Ref.FullFew dw (trapCount gs) s ∧
      Ref.FullFew dw (trapCount gs) t) (fun s t n hst => ?_) ⟨t4, t1, few'⟩ _ _
    obtain ⟨s1, s2⟩ := Ref.binTwins_step hf hst.1 hst.2.1.reg hst.2.2.reg (by rw [hst.2.2.total]; exact hL) n
    exact ⟨s1, s2, (full_step hf hst.2.1 hL n).1, (full_step hf hst.2.2 hL n).1⟩
  refine ⟨fun y hy => ?_, fun x y hx hy => ?_⟩
  · rw [← tw]
    exact (key y y hy hy).1
  · rw [← tw]
    exact (key x y hx hy).2

end columns

/-! ## C114 -/

section main
variable {fp fs pp ps dp ds : ℝ} {gp gp' gs gs' : List (List Trap)} {ip is ip' is' : Bool} {cp cs cp' cs' : CCD} {op os : ℕ}
  {par ser par' ser' : PyDirection}

/-- **C114**: `add_cti` with traps of all classes, `well_fill_power ≥ 1`, and with groups of instant-capture traps in the place of some
of the distributions of lifetimes. Let all but a share `δ` of the traps have a lifetime within a factor of `1 + ε` of that of their
bin, let `λ` be at least four times the number of traps per pixel times `power / full_well_depth` and
`q = (1-λ_p)^-(rows+offset_p) · (1-λ_s)^-(columns+offset_s) - 1`. Then the images differ by at most `40 (ε + δ) q` times the charge
of the image, summed over all pixels. -/
theorem C114_add_cti (hp : FullObjects fp pp dp gp ip cp op par) (hs : FullObjects fs ps ds gs is cs os ser)
    (hp' : FullObjects fp pp dp gp' ip' cp' op par') (hs' : FullObjects fs ps ds gs' is' cs' os ser') (ε δ : ℝ)
    (h0 : 0 ≤ ε) (hδ : 0 ≤ δ) (h1 : 2 * (ε + δ) ≤ 1) (np : List.Forall₂ (Binned ε δ) gp gp')
    (ns : List.Forall₂ (Binned ε δ) gs gs')
    (img : Image ℝ) (hnr : 0 < img.nr) (hnc : 0 < img.nc) (himg : img.NonNeg) (lp ls q : ℝ)
    (hlp : 4 * (trapCount gp * (pp / fp)) ≤ lp) (hls : 4 * (trapCount gs * (ps / fs)) ≤ ls) (hlp1 : lp < 1) (hls1 : ls < 1)
    (hq : q = (1 / (1 - lp)) ^ (img.nr + op) * (1 / (1 - ls)) ^ (img.nc + os) - 1) :
    ∃ a b roes roes', addCtiPy img par .all ser .all none = .ok (a, roes) ∧
      addCtiPy img par' .all ser' .all none = .ok (b, roes') ∧ a.SameShape img ∧ b.SameShape img ∧
      a.dist b ≤ 40 * (ε + δ) * q * img.total := by
  have kp := hp.slope_nonneg
  have ks := hs.slope_nonneg
  have ep := Binned.count np hp.groups.2
  have es := Binned.count ns hs.groups.2
  have mP := (hp.mild (by linarith) img.nr).mono le_rfl (lossSlope_mono hlp hlp1 (img.nr + op))
  have mP' := (hp'.mild (by rw [ep]; linarith) img.nr).mono le_rfl (lossSlope_mono (by rw [ep]; exact hlp) hlp1 (img.nr + op))
  have cP := binned_close hp hp' h0 hδ h1 np hlp hlp1 img.nr
  have cS := binned_close hs hs' h0 hδ h1 ns hls hls1 img.nc
  obtain ⟨a, a1, a2, a3, a4⟩ := C103_add_cti hp hs (by linarith) (by linarith) img himg hnr hnc
  obtain ⟨b, b1, b2, b3, b4⟩ := C103_add_cti hp' hs' (by rw [ep]; linarith) (by rw [es]; linarith) img himg hnr hnc
  refine ⟨a, b, _, _, a1, b1, ⟨a2, a3⟩, ⟨b2, b3⟩, ?_⟩
  have key := close_image cP cS mP mP' (by linarith) (lossSlope_nonneg (by linarith) hls1 _) img.px himg
  have e : (1 + lossSlope lp (img.nr + op)) * (1 + lossSlope ls (img.nc + os)) - 1 = q := by
    rw [hq]; unfold lossSlope; ring
  rw [e, show 20 * (2 * (ε + δ)) = 40 * (ε + δ) by ring] at key
  refine le_trans (le_of_eq ?_) key
  unfold Image.dist
  rw [a2, a3]
  refine Finset.sum_congr rfl fun r hr => Finset.sum_congr rfl fun c hc => ?_
  rw [a4 r (Finset.mem_range.1 hr) c (Finset.mem_range.1 hc), b4 r (Finset.mem_range.1 hr) c (Finset.mem_range.1 hc)]

/-- **C114**: an image made with distributions of lifetimes and corrected with a few lifetimes in their place. If `q < 1` and every
pixel of the true image has at least `q + 40 (ε + δ) q / (1-q)` times the total charge of the image, the image returned after `n`
iterations differs from the true image by at most `q^(n+1) + 40 (ε + δ) q / (1-q)` times its total charge. -/
theorem C114_remove_cti (hp : FullObjects fp pp dp gp ip cp op par) (hs : FullObjects fs ps ds gs is cs os ser)
    (hp' : FullObjects fp pp dp gp' ip' cp' op par') (hs' : FullObjects fs ps ds gs' is' cs' os ser') (ε δ : ℝ)
    (h0 : 0 ≤ ε) (hδ : 0 ≤ δ) (h1 : 2 * (ε + δ) ≤ 1) (np : List.Forall₂ (Binned ε δ) gp gp')
    (ns : List.Forall₂ (Binned ε δ) gs gs') (truth : Image ℝ) (hnr : 0 < truth.nr) (hnc : 0 < truth.nc) (lp ls q : ℝ)
    (hlp : 4 * (trapCount gp * (pp / fp)) ≤ lp) (hls : 4 * (trapCount gs * (ps / fs)) ≤ ls) (hlp1 : lp < 1) (hls1 : ls < 1)
    (hq : q = (1 / (1 - lp)) ^ (truth.nr + op) * (1 / (1 - ls)) ^ (truth.nc + os) - 1) (hq1 : q < 1) (hpos : 0 ≤ truth.total)
    (htruth : ∀ r < truth.nr, ∀ c < truth.nc, (q + 40 * (ε + δ) * q / (1 - q)) * truth.total ≤ truth.px r c) :
    ∃ img roes, addCtiPy truth par .all ser .all none = .ok (img, roes) ∧
      ∀ n, ∃ out, removeCtiPy img n par' .all ser' .all none = .ok (out, par'.roe, ser'.roe) ∧ out.SameShape truth ∧
        out.dist truth ≤ (q ^ (n + 1) + 40 * (ε + δ) * q / (1 - q)) * truth.total := by
  have kp := hp.slope_nonneg
  have ks := hs.slope_nonneg
  have ep := Binned.count np hp.groups.2
  have es := Binned.count ns hs.groups.2
  have mP := (hp.mild (by linarith) truth.nr).mono le_rfl (lossSlope_mono hlp hlp1 (truth.nr + op))
  have mP' := (hp'.mild (by rw [ep]; linarith) truth.nr).mono le_rfl (lossSlope_mono (by rw [ep]; exact hlp) hlp1 (truth.nr + op))
  have cP := binned_close hp hp' h0 hδ h1 np hlp hlp1 truth.nr
  have cS := binned_close hs hs' h0 hδ h1 ns hls hls1 truth.nc
  have mS := (hs.mild (by linarith) truth.nc).mono le_rfl (lossSlope_mono hls hls1 (truth.nc + os))
  have mS' := (hs'.mild (by rw [es]; linarith) truth.nc).mono le_rfl (lossSlope_mono (by rw [es]; exact hls) hls1 (truth.nc + os))
  have q0p := lossSlope_nonneg (by linarith : 0 ≤ lp) hlp1 (truth.nr + op)
  have q0s := lossSlope_nonneg (by linarith : 0 ≤ ls) hls1 (truth.nc + os)
  have qe : (1 + lossSlope lp (truth.nr + op)) * (1 + lossSlope ls (truth.nc + os)) - 1 = q := by
    rw [hq]; unfold lossSlope; ring
  have hq0 : 0 ≤ q := by rw [← qe]; nlinarith
  have hE : 0 ≤ 40 * (ε + δ) * q := mul_nonneg (by linarith) hq0
  have hd : 0 ≤ 40 * (ε + δ) * q / (1 - q) := div_nonneg hE (by linarith)
  have ht0 : ∀ r < truth.nr, ∀ c < truth.nc, 0 ≤ truth.px r c := fun r hr c hc =>
    (mul_nonneg (by linarith) hpos).trans (htruth r hr c hc)
  have key := close_image cP cS mP mP' (by linarith) q0s truth.px ht0
  rw [qe, show 20 * (2 * (ε + δ)) = 40 * (ε + δ) by ring] at key
  refine remove_other hp hs (by linarith) (by linarith) hp' hs' (by rw [ep]; linarith) (by rw [es]; linarith) truth hnr hnc _ _ q
    (40 * (ε + δ) * q) q0s qe hq0 hq1 hE mP' mS' mP mS hpos htruth (le_trans (le_of_eq ?_) key)
  exact Finset.sum_congr rfl fun r _ => Finset.sum_congr rfl fun c _ => abs_sub_comm _ _

/-- **C114**: the same, made with a few lifetimes and corrected with the distributions. -/
theorem C114_remove_cti_back (hp : FullObjects fp pp dp gp ip cp op par) (hs : FullObjects fs ps ds gs is cs os ser)
    (hp' : FullObjects fp pp dp gp' ip' cp' op par') (hs' : FullObjects fs ps ds gs' is' cs' os ser') (ε δ : ℝ)
    (h0 : 0 ≤ ε) (hδ : 0 ≤ δ) (h1 : 2 * (ε + δ) ≤ 1) (np : List.Forall₂ (Binned ε δ) gp gp')
    (ns : List.Forall₂ (Binned ε δ) gs gs') (truth : Image ℝ) (hnr : 0 < truth.nr) (hnc : 0 < truth.nc) (lp ls q : ℝ)
    (hlp : 4 * (trapCount gp * (pp / fp)) ≤ lp) (hls : 4 * (trapCount gs * (ps / fs)) ≤ ls) (hlp1 : lp < 1) (hls1 : ls < 1)
    (hq : q = (1 / (1 - lp)) ^ (truth.nr + op) * (1 / (1 - ls)) ^ (truth.nc + os) - 1) (hq1 : q < 1) (hpos : 0 ≤ truth.total)
    (htruth : ∀ r < truth.nr, ∀ c < truth.nc, (q + 40 * (ε + δ) * q / (1 - q)) * truth.total ≤ truth.px r c) :
    ∃ img roes, addCtiPy truth par' .all ser' .all none = .ok (img, roes) ∧
      ∀ n, ∃ out, removeCtiPy img n par .all ser .all none = .ok (out, par.roe, ser.roe) ∧ out.SameShape truth ∧
        out.dist truth ≤ (q ^ (n + 1) + 40 * (ε + δ) * q / (1 - q)) * truth.total := by
  have kp := hp.slope_nonneg
  have ks := hs.slope_nonneg
  have ep := Binned.count np hp.groups.2
  have es := Binned.count ns hs.groups.2
  have mP := (hp.mild (by linarith) truth.nr).mono le_rfl (lossSlope_mono hlp hlp1 (truth.nr + op))
  have mP' := (hp'.mild (by rw [ep]; linarith) truth.nr).mono le_rfl (lossSlope_mono (by rw [ep]; exact hlp) hlp1 (truth.nr + op))
  have cP := binned_close hp hp' h0 hδ h1 np hlp hlp1 truth.nr
  have cS := binned_close hs hs' h0 hδ h1 ns hls hls1 truth.nc
  have mS := (hs.mild (by linarith) truth.nc).mono le_rfl (lossSlope_mono hls hls1 (truth.nc + os))
  have mS' := (hs'.mild (by rw [es]; linarith) truth.nc).mono le_rfl (lossSlope_mono (by rw [es]; exact hls) hls1 (truth.nc + os))
  have q0p := lossSlope_nonneg (by linarith : 0 ≤ lp) hlp1 (truth.nr + op)
  have q0s := lossSlope_nonneg (by linarith : 0 ≤ ls) hls1 (truth.nc + os)
  have qe : (1 + lossSlope lp (truth.nr + op)) * (1 + lossSlope ls (truth.nc + os)) - 1 = q := by
    rw [hq]; unfold lossSlope; ring
  have hq0 : 0 ≤ q := by rw [← qe]; nlinarith
  have hE : 0 ≤ 40 * (ε + δ) * q := mul_nonneg (by linarith) hq0
  have hd : 0 ≤ 40 * (ε + δ) * q / (1 - q) := div_nonneg hE (by linarith)
  have ht0 : ∀ r < truth.nr, ∀ c < truth.nc, 0 ≤ truth.px r c := fun r hr c hc =>
    (mul_nonneg (by linarith) hpos).trans (htruth r hr c hc)
  have key := close_image cP cS mP mP' (by linarith) q0s truth.px ht0
  rw [qe, show 20 * (2 * (ε + δ)) = 40 * (ε + δ) by ring] at key
  exact remove_other hp' hs' (by rw [ep]; linarith) (by rw [es]; linarith) hp hs (by linarith) (by linarith) truth hnr hnc _ _ q
    (40 * (ε + δ) * q) q0s qe hq0 hq1 hE mP mS mP' mS' hpos htruth key

end main

/-! ### a case -/

/-- Lifetimes between 2 and 2.04, all equally likely. -/
noncomputable def exFlat (τ _ _ : ℝ) : ℝ := (Icc (2 : ℝ) 2.04).indicator (fun _ => 25) τ

theorem exFlat_part {a b : ℝ} (h : a ≤ b) : ∫ τ in Icc a b, (25 : ℝ) = 25 * (b - a) := by
  rw [setIntegral_const, measureReal_def, Real.volume_Icc, ENNReal.toReal_ofReal (by linarith), smul_eq_mul]
  ring

theorem exFlat_lifetimes : Lifetimes fun τ => exFlat τ 2.02 0.02 := by
  have i : Integrable fun τ => exFlat τ 2.02 0.02 :=
    (integrable_indicator_iff measurableSet_Icc).2 (integrableOn_const (by simp) (by simp))
  refine ⟨fun τ _ => indicator_nonneg (fun _ _ => by norm_num) _, i.integrableOn, ?_⟩
  unfold exFlat
  rw [setIntegral_indicator measurableSet_Icc,
    show Ioi (0 : ℝ) ∩ Icc 2 2.04 = Icc 2 2.04 from inter_eq_right.2 fun τ h => lt_of_lt_of_le (by norm_num) h.1,
    exFlat_part (by norm_num)]
  norm_num

/-- Two bins, lifetimes 2.01 and 2.03. -/
theorem exFlat_bins : Bins 0.005 0 (fun τ => exFlat τ 2.02 0.02) (fun τ => if τ < 2.02 then (0 : Fin 2) else 1) ![2.01, 2.03]
    ![1 / 2, 1 / 2] := by
  have near : ∀ τ ∈ Icc (2 : ℝ) 2.04, RatioNear 0.005 τ (![2.01, 2.03] (if τ < 2.02 then (0 : Fin 2) else 1)) := by
    intro τ h
    unfold RatioNear
    by_cases hτ : τ < 2.02
    · simp only [hτ, if_true, Matrix.cons_val_zero]
      constructor <;> linarith [h.1, h.2]
    · simp only [hτ, if_false, Matrix.cons_val_one, Matrix.cons_val_zero]
      constructor <;> linarith [h.1, h.2]
  have ms : Measurable fun τ : ℝ => if τ < 2.02 then (0 : Fin 2) else 1 :=
    Measurable.ite measurableSet_Iio measurable_const measurable_const
  refine ⟨ms, fun j => ?_, fun j => ?_, ?_⟩
  · fin_cases j <;> norm_num
  · unfold exFlat
    rw [setIntegral_indicator measurableSet_Icc]
    fin_cases j
    · have e : Ioi (0 : ℝ) ∩ {τ | (if τ < 2.02 then (0 : Fin 2) else 1) = 0} ∩ Icc 2 2.04 = Ico 2 2.02 := by
        ext τ
        by_cases hτ : τ < 2.02
        · simp [hτ]
          exact ⟨fun h => h.2.1, fun h => ⟨by linarith, h, by linarith⟩⟩
        · simp [hτ]
      change (1 / 2 : ℝ) = ∫ τ in Ioi (0 : ℝ) ∩ {τ | (if τ < 2.02 then (0 : Fin 2) else 1) = 0} ∩ Icc 2 2.04, 25
      rw [e, integral_Ico_eq_integral_Ioo, ← integral_Icc_eq_integral_Ioo, exFlat_part (by norm_num)]
      norm_num
    · have e : Ioi (0 : ℝ) ∩ {τ | (if τ < 2.02 then (0 : Fin 2) else 1) = 1} ∩ Icc 2 2.04 = Icc 2.02 2.04 := by
        ext τ
        simp
        exact ⟨fun h => ⟨h.1.2, h.2.2⟩, fun h => ⟨⟨by linarith [h.1], h.1⟩, by linarith [h.1], h.2⟩⟩
      change (1 / 2 : ℝ) = ∫ τ in Ioi (0 : ℝ) ∩ {τ | (if τ < 2.02 then (0 : Fin 2) else 1) = 1} ∩ Icc 2 2.04, 25
      rw [e, exFlat_part (by norm_num)]
      norm_num
  · unfold exFlat
    rw [setIntegral_indicator measurableSet_Icc]
    have e : Ioi (0 : ℝ) ∩ {τ | ¬ RatioNear 0.005 τ (![2.01, 2.03] (if τ < 2.02 then (0 : Fin 2) else 1))} ∩ Icc 2 2.04 = ∅ := by
      ext τ
      simp only [mem_inter_iff, mem_ofPred_eq, mem_empty_iff_false, iff_false]
      exact fun h => h.1.2 (near τ h.2)
    rw [e]
    simp

/-- Three rows and two columns of 100 electrons, traps with a distribution of lifetimes and traps with a capture timescale. The image is
corrected with two lifetimes in the place of the distribution: after three iterations it is within 2 of 600 electrons of the true
one. -/
example : ∃ img roes out, addCtiPy ⟨3, 2, fun _ _ => 100⟩
      ⟨some ⟨[1], [1000], [1], [0], [.num 1000]⟩, some (.standard [1] true true true false),
        some (.list ([[.continuum 0.2 exFlat 2.02 0.02], [.trap 0.1 2 0.1 false]].map .group)), 0, 2⟩ .all
      ⟨some ⟨[1], [1000], [1], [0], [.num 1000]⟩, some (.standard [1] true true true false),
        some (.list ([[.continuum 0.2 exFlat 2.02 0.02], [.trap 0.1 2 0.1 false]].map .group)), 0, 2⟩ .all
      none = .ok (img, roes) ∧
    removeCtiPy img 3
      ⟨some ⟨[1], [1000], [1], [0], [.num 1000]⟩, some (.standard [1] true true true false),
        some (.list ([[.instant 0.1 2.01 false, .instant 0.1 2.03 false], [.trap 0.1 2 0.1 false]].map .group)), 0, 2⟩ .all
      ⟨some ⟨[1], [1000], [1], [0], [.num 1000]⟩, some (.standard [1] true true true false),
        some (.list ([[.instant 0.1 2.01 false, .instant 0.1 2.03 false], [.trap 0.1 2 0.1 false]].map .group)), 0, 2⟩ .all
      none = .ok (out, some (.standard [1] true true true false), some (.standard [1] true true true false)) ∧
    out.dist ⟨3, 2, fun _ _ => 100⟩ ≤ 2 := by
  have g2 : EveryGroup [.trap 0.1 2 0.1 false] := by
    refine ⟨by simp, fun t ht => ?_⟩
    simp only [List.mem_cons, List.not_mem_nil, or_false] at ht
    subst ht
    exact ⟨⟨by norm_num, by norm_num⟩, by simp only [Trap.captureTimescale]; norm_num⟩
  have h : FullObjects 1000 1 1 [[.continuum 0.2 exFlat 2.02 0.02], [.trap 0.1 2 0.1 false]] false
      ⟨[1], [1000], [1], [0], [.num 1000]⟩ 2
      ⟨some ⟨[1], [1000], [1], [0], [.num 1000]⟩, some (.standard [1] true true true false),
        some (.list ([[.continuum 0.2 exFlat 2.02 0.02], [.trap 0.1 2 0.1 false]].map .group)), 0, 2⟩ := by
    refine ⟨rfl, exFull.phase, exFull.full, exFull.power, exFull.dwell, by simp, fun l hl => ?_⟩
    simp only [List.mem_cons, List.not_mem_nil, or_false] at hl
    rcases hl with rfl | rfl
    · refine ⟨by simp, fun t ht => ?_⟩
      simp only [List.mem_cons, List.not_mem_nil, or_false] at ht
      subst ht
      exact ⟨⟨by norm_num, by norm_num, exFlat_lifetimes⟩, le_rfl⟩
    · exact g2
  have h' : FullObjects 1000 1 1 [[.instant 0.1 2.01 false, .instant 0.1 2.03 false], [.trap 0.1 2 0.1 false]] false
      ⟨[1], [1000], [1], [0], [.num 1000]⟩ 2
      ⟨some ⟨[1], [1000], [1], [0], [.num 1000]⟩, some (.standard [1] true true true false),
        some (.list ([[.instant 0.1 2.01 false, .instant 0.1 2.03 false], [.trap 0.1 2 0.1 false]].map .group)), 0, 2⟩ := by
    refine ⟨rfl, exFull.phase, exFull.full, exFull.power, exFull.dwell, by simp, fun l hl => ?_⟩
    simp only [List.mem_cons, List.not_mem_nil, or_false] at hl
    rcases hl with rfl | rfl
    · refine ⟨by simp, fun t ht => ?_⟩
      simp only [List.mem_cons, List.not_mem_nil, or_false] at ht
      rcases ht with rfl | rfl
      · exact ⟨⟨by norm_num, by norm_num⟩, le_rfl⟩
      · exact ⟨⟨by norm_num, by norm_num⟩, le_rfl⟩
    · exact g2
  have hc : trapCount [[.continuum 0.2 exFlat 2.02 0.02], [.trap 0.1 2 0.1 false]] = 0.3 := by
    simp [trapCount, Trap.density]; norm_num
  have hn : List.Forall₂ (Binned 0.005 0) [[.continuum 0.2 exFlat 2.02 0.02], [.trap 0.1 2 0.1 false]]
      [[.instant 0.1 2.01 false, .instant 0.1 2.03 false], [.trap 0.1 2 0.1 false]] := by
    have b := Binned.bins 0.2 2.02 0.02 exFlat _ _ _ exFlat_bins
    have e : (List.ofFn fun j : Fin 2 => Trap.instant (0.2 * ![(1 : ℝ) / 2, 1 / 2] j) (![2.01, 2.03] j) false) =
        [.instant 0.1 2.01 false, .instant 0.1 2.03 false] := by
      simp [List.ofFn_succ]
      norm_num
    rw [e] at b
    exact .cons b (.cons (.same _) .nil)
  obtain ⟨q, hq⟩ : ∃ q : ℝ, q = (1 / (1 - 0.0012)) ^ (3 + 2) * (1 / (1 - 0.0012)) ^ (2 + 2) - 1 := ⟨_, rfl⟩
  have hq0 : 0 ≤ q := by rw [hq]; norm_num
  have hq1 : q ≤ 0.011 := by rw [hq]; norm_num
  have htot : Image.total (⟨3, 2, fun _ _ => 100⟩ : Image ℝ) = 600 := by
    simp [Image.total]; norm_num
  have hfrac : 40 * (0.005 + 0) * q / (1 - q) ≤ 0.003 := by
    rw [div_le_iff₀ (by linarith)]
    linarith
  obtain ⟨img, roes, g1, G⟩ := C114_remove_cti h h h' h' 0.005 0 (by norm_num) le_rfl (by norm_num) hn hn
    (⟨3, 2, fun _ _ => 100⟩ : Image ℝ) (by norm_num) (by norm_num) 0.0012 0.0012 q (by rw [hc]; norm_num)
    (by rw [hc]; norm_num) (by norm_num) (by norm_num) hq (by linarith)
    (by rw [htot]; norm_num) (fun r hr c hc' => by
      rw [htot]
      simp only
      linarith)
  obtain ⟨out, g2, -, g3⟩ := G 3
  refine ⟨img, roes, out, g1, g2, g3.trans ?_⟩
  rw [htot]
  have e : q ^ (3 + 1) ≤ 0.011 ^ (3 + 1) := pow_le_pow_left₀ hq0 hq1 _
  norm_num at e ⊢
  norm_num at hfrac
  linarith

end Arctic
