import Verif.Lemmas.RefIntegral

/-!
# The reference simulation when there are always enough electrons

If the volume of a cloud grows by at most `L` per electron and there are at most `1 / L` traps in a pixel, no cloud has
fewer electrons than vacant traps. Transfers are then monotone and Lipschitz in the charge and in the occupancy.
-/

set_option linter.unusedSectionVars false
set_option linter.unusedVariables false

namespace Arctic
open MeasureTheory

/-- A filling law of slope at most `L`. -/
structure LipFill (f : ℝ → ℝ) (L : ℝ) : Prop extends FillModel f where
  mono : Monotone f
  lip : ∀ x y, x ≤ y → f y - f x ≤ L * (y - x)

theorem LipFill.nonneg_slope {f : ℝ → ℝ} {L : ℝ} (h : LipFill f L) : 0 ≤ L := by
  have h1 := h.lip 0 1 zero_le_one
  have h2 := h.mono (zero_le_one (α := ℝ))
  linarith

theorem LipFill.le_slope {f : ℝ → ℝ} {L : ℝ} (h : LipFill f L) (x : ℝ) : f x ≤ L * max 0 x := by
  rcases le_total x 0 with hx | hx
  · rw [h.empty x hx, max_eq_left hx, mul_zero]
  · have := h.lip 0 x hx
    rw [h.empty 0 le_rfl] at this
    rw [max_eq_right hx]
    linarith

theorem LipFill.abs_sub {f : ℝ → ℝ} {L : ℝ} (h : LipFill f L) (x y : ℝ) : |f x - f y| ≤ L * |x - y| := by
  rcases le_total x y with hx | hx
  · rw [abs_sub_comm, abs_of_nonneg (sub_nonneg.2 (h.mono hx)), abs_sub_comm x, abs_of_nonneg (sub_nonneg.2 hx)]
    exact h.lip x y hx
  · rw [abs_of_nonneg (sub_nonneg.2 (h.mono hx)), abs_of_nonneg (sub_nonneg.2 hx)]
    exact h.lip y x hx

/-- Number of traps of a group. -/
noncomputable def Ref.Traps.total (t : Ref.Traps) : ℝ := ∑ j, t.dens j

/-- Densities and fractions that make sense. -/
structure Ref.Traps.Reg (dw : ℝ) (t : Ref.Traps) : Prop where
  dens : ∀ j, 0 ≤ t.dens j
  keep : ∀ j, 0 ≤ t.keep dw j ∧ t.keep dw j ≤ 1
  frac : ∀ d j, 0 ≤ t.occ d j ∧ t.occ d j ≤ 1
  meas : ∀ j, Measurable fun d => t.occ d j

theorem Ref.Traps.Reg.total_nonneg {dw : ℝ} {t : Ref.Traps} (h : t.Reg dw) : 0 ≤ t.total :=
  Finset.sum_nonneg fun j _ => h.dens j

theorem integrable_bdd {g : ℝ → ℝ} (C : ℝ) (hm : Measurable g) (hb : ∀ d, |g d| ≤ C) (a b : ℝ) :
    IntervalIntegrable g volume a b := by
  refine (intervalIntegrable_const (c := C) (μ := volume) (a := a) (b := b)).mono_fun hm.aestronglyMeasurable ?_
  refine Filter.Eventually.of_forall fun d => ?_
  simp only [Real.norm_eq_abs]
  exact (hb d).trans (le_abs_self C)

theorem integral_upTo {g : ℝ → ℝ} {h : ℝ} (h0 : 0 ≤ h) (h1 : h ≤ 1) (hg : IntervalIntegrable g volume 0 1)
    (hi : IntervalIntegrable (fun d => if d ≤ h then g d else 0) volume 0 1) :
    ∫ d in (0 : ℝ)..h, g d = ∫ d in (0 : ℝ)..1, if d ≤ h then g d else 0 := by
  have s1 : Set.uIcc (0 : ℝ) h ⊆ Set.uIcc 0 1 := by
    rw [Set.uIcc_of_le h0, Set.uIcc_of_le zero_le_one]; exact Set.Icc_subset_Icc le_rfl h1
  have s2 : Set.uIcc h (1 : ℝ) ⊆ Set.uIcc 0 1 := by
    rw [Set.uIcc_of_le h1, Set.uIcc_of_le zero_le_one]; exact Set.Icc_subset_Icc h0 le_rfl
  rw [← intervalIntegral.integral_add_adjacent_intervals (b := h) (hi.mono_set s1) (hi.mono_set s2)]
  rw [intervalIntegral.integral_zero_ae (a := h) (b := 1), add_zero]
  · apply intervalIntegral.integral_congr
    intro d hd
    rw [Set.uIcc_of_le h0] at hd
    simp only
    rw [if_pos hd.2]
  · refine Filter.Eventually.of_forall fun d hd => ?_
    rw [Set.uIoc_of_le h1] at hd
    rw [if_neg (not_le.2 hd.1)]

section step

variable {dw : ℝ} {t : Ref.Traps}

theorem Ref.Traps.Reg.released (h : t.Reg dw) (d : ℝ) (j : Fin t.s) :
    0 ≤ t.occ d j * t.keep dw j ∧ t.occ d j * t.keep dw j ≤ 1 := by
  have h1 := h.frac d j; have h2 := h.keep j
  exact ⟨mul_nonneg h1.1 h2.1, by nlinarith⟩

theorem Ref.Traps.Reg.meas_released (h : t.Reg dw) (j : Fin t.s) : Measurable fun d => t.occ d j * t.keep dw j :=
  (h.meas j).mul_const _

theorem Ref.Traps.Reg.release (h : t.Reg dw) : (t.release dw).Reg dw :=
  ⟨h.dens, h.keep, h.released, h.meas_released⟩

/-- Electrons released. -/
noncomputable def Ref.Traps.outflow (t : Ref.Traps) (dw : ℝ) : ℝ := t.filled - (t.release dw).filled

theorem Ref.Traps.outflow_eq (t : Ref.Traps) (dw : ℝ) :
    t.outflow dw = ∑ j, t.dens j * (1 - t.keep dw j) * ∫ d in (0 : ℝ)..1, t.occ d j := by
  unfold outflow filled release
  simp only [intervalIntegral.integral_mul_const]
  rw [← Finset.sum_sub_distrib]
  exact Finset.sum_congr rfl fun j _ => by ring

theorem Ref.Traps.Reg.outflow_nonneg (h : t.Reg dw) : 0 ≤ t.outflow dw := by
  rw [Ref.Traps.outflow_eq]
  refine Finset.sum_nonneg fun j _ => mul_nonneg (mul_nonneg (h.dens j) (sub_nonneg.2 (h.keep j).2)) ?_
  exact intervalIntegral.integral_nonneg zero_le_one fun d _ => (h.frac d j).1

theorem Ref.Traps.Reg.vacant_le (h : t.Reg dw) {x : ℝ} (hx : 0 ≤ x) : t.vacant x ≤ t.total * x := by
  unfold Ref.Traps.vacant Ref.Traps.total
  rw [Finset.sum_mul]
  refine Finset.sum_le_sum fun j _ => mul_le_mul_of_nonneg_left ?_ (h.dens j)
  have : ∫ d in (0 : ℝ)..x, (1 - t.occ d j) ≤ ∫ _ in (0 : ℝ)..x, (1 : ℝ) := by
    refine intervalIntegral.integral_mono_on hx ?_ intervalIntegrable_const fun d _ => by linarith [(h.frac d j).1]
    exact integrable_bdd (g := fun d => 1 - t.occ d j) 1 (measurable_const.sub (h.meas j))
      (fun d => by rw [abs_le]; constructor <;> linarith [(h.frac d j).1, (h.frac d j).2]) _ _
  simpa using this

/-- What a transfer does when there are enough electrons. -/
noncomputable def Ref.Traps.plain (t : Ref.Traps) (f : ℝ → ℝ) (dw n : ℝ) : ℝ × Ref.Traps :=
  (t.outflow dw - (t.release dw).vacant (f (n + t.outflow dw)),
    { t with occ := fun d j => if d ≤ f (n + t.outflow dw) then 1 else t.occ d j * t.keep dw j })

theorem Ref.Traps.Reg.transfer_plain {f : ℝ → ℝ} {L : ℝ} (h : t.Reg dw) (hf : LipFill f L) (hL : t.total * L ≤ 1) (n : ℝ) :
    t.transfer f dw n = t.plain f dw n := by
  have hv : (t.release dw).vacant (f (n + t.outflow dw)) ≤ max 0 (n + t.outflow dw) := by
    refine (h.release.vacant_le (hf.nonneg _)).trans ?_
    change t.total * _ ≤ _
    have := mul_le_mul_of_nonneg_left (hf.le_slope (n + t.outflow dw)) h.total_nonneg
    have h2 : t.total * L * max 0 (n + t.outflow dw) ≤ 1 * max 0 (n + t.outflow dw) :=
      mul_le_mul_of_nonneg_right hL (le_max_left _ _)
    nlinarith
  have hc : (t.release dw).capture (f (n + t.outflow dw)) (max 0 (n + t.outflow dw)) =
      ((t.release dw).vacant (f (n + t.outflow dw)), { t.release dw with
        occ := fun d j => if d ≤ f (n + t.outflow dw) then 1 else (t.release dw).occ d j }) := by
    unfold Ref.Traps.capture
    exact if_pos hv
  unfold Ref.Traps.transfer
  change (t.outflow dw - ((t.release dw).capture (f (n + t.outflow dw)) (max 0 (n + t.outflow dw))).1,
    ((t.release dw).capture (f (n + t.outflow dw)) (max 0 (n + t.outflow dw))).2) = _
  rw [hc]
  rfl

theorem Ref.Traps.Reg.plain (h : t.Reg dw) (f : ℝ → ℝ) (n : ℝ) : (t.plain f dw n).2.Reg dw := by
  refine ⟨h.dens, h.keep, fun d j => ?_, fun j => ?_⟩
  · change 0 ≤ (if _ then _ else _ : ℝ) ∧ (if _ then _ else _ : ℝ) ≤ 1
    split
    · exact ⟨zero_le_one, le_rfl⟩
    · exact h.released d j
  · exact Measurable.ite measurableSet_Iic measurable_const (h.meas_released j)

/-- A transfer takes at most a fraction `total * L` of the cloud. -/
theorem Ref.Traps.Reg.plain_ge {f : ℝ → ℝ} {L : ℝ} (h : t.Reg dw) (hf : LipFill f L) (hL : t.total * L ≤ 1) {n : ℝ}
    (hn : 0 ≤ n) : -(t.total * L * n) ≤ (t.plain f dw n).1 := by
  have ho := h.outflow_nonneg
  have h1 := h.release.vacant_le (hf.nonneg (n + t.outflow dw))
  have h2 := hf.le_slope (n + t.outflow dw)
  rw [max_eq_right (by linarith)] at h2
  have h3 := mul_le_mul_of_nonneg_left h2 h.total_nonneg
  have h4 : (t.release dw).total = t.total := rfl
  rw [h4] at h1
  have h5 : t.total * L * t.outflow dw ≤ 1 * t.outflow dw := mul_le_mul_of_nonneg_right hL ho
  change _ ≤ t.outflow dw - (t.release dw).vacant _
  nlinarith

end step

/-! ### two sets of traps -/

/-- The same traps, filled differently. -/
def Ref.Traps.refill (t : Ref.Traps) (o : ℝ → Fin t.s → ℝ) : Ref.Traps := { t with occ := o }

/-- More electrons, and traps that are fuller everywhere: less is lost relative to the surplus. -/
theorem plain_mono {dw : ℝ} {t : Ref.Traps} {o : ℝ → Fin t.s → ℝ} {f : ℝ → ℝ} {L : ℝ} (h : t.Reg dw)
    (h' : (t.refill o).Reg dw) (hle : ∀ d j, t.occ d j ≤ o d j) (hf : LipFill f L) (hL : t.total * L ≤ 1) {n n' : ℝ}
    (hn : n ≤ n') :
    -(t.total * L * (n' - n)) ≤ ((t.refill o).plain f dw n').1 - (t.plain f dw n).1 ∧
      ∀ d j, (t.plain f dw n).2.occ d j ≤ ((t.refill o).plain f dw n').2.occ d j := by
  have hout : t.outflow dw ≤ (t.refill o).outflow dw := by
    rw [Ref.Traps.outflow_eq, Ref.Traps.outflow_eq]
    refine Finset.sum_le_sum fun j _ => ?_
    refine mul_le_mul_of_nonneg_left ?_ (mul_nonneg (h.dens j) (sub_nonneg.2 (h.keep j).2))
    refine intervalIntegral.integral_mono_on zero_le_one ?_ ?_ fun d _ => hle d j
    · exact integrable_bdd 1 (h.meas j) (fun d => by rw [abs_of_nonneg (h.frac d j).1]; exact (h.frac d j).2) _ _
    · exact integrable_bdd 1 (h'.meas j) (fun d => by rw [abs_of_nonneg (h'.frac d j).1]; exact (h'.frac d j).2) _ _
  set a := n + t.outflow dw with ha
  set a' := n' + (t.refill o).outflow dw with ha'
  have haa : a ≤ a' := by linarith
  have hff := hf.mono haa
  have hvac : ((t.refill o).release dw).vacant (f a') ≤ (t.release dw).vacant (f a) + t.total * (f a' - f a) := by
    unfold Ref.Traps.vacant Ref.Traps.total
    rw [Finset.sum_mul]
    change ∑ j, t.dens j * _ ≤ (∑ j, t.dens j * _) + ∑ j, t.dens j * _
    rw [← Finset.sum_add_distrib]
    refine Finset.sum_le_sum fun j _ => ?_
    rw [← mul_add]
    refine mul_le_mul_of_nonneg_left ?_ (h.dens j)
    have i1 : ∀ x y, IntervalIntegrable (fun d => 1 - o d j * t.keep dw j) volume x y := fun x y =>
      integrable_bdd (g := fun d => 1 - o d j * t.keep dw j) 1 (measurable_const.sub (h'.meas_released j)) (fun d => by
        have := h'.released d j
        change 0 ≤ o d j * t.keep dw j ∧ o d j * t.keep dw j ≤ 1 at this
        rw [abs_le]; constructor <;> linarith) _ _
    have i2 : ∀ x y, IntervalIntegrable (fun d => 1 - t.occ d j * t.keep dw j) volume x y := fun x y =>
      integrable_bdd (g := fun d => 1 - t.occ d j * t.keep dw j) 1 (measurable_const.sub (h.meas_released j)) (fun d => by
        have := h.released d j
        rw [abs_le]; constructor <;> linarith) _ _
    change ∫ d in (0 : ℝ)..f a', (1 - o d j * t.keep dw j) ≤ (∫ d in (0 : ℝ)..f a, (1 - t.occ d j * t.keep dw j)) + _
    rw [← intervalIntegral.integral_add_adjacent_intervals (b := f a) (i1 _ _) (i1 _ _)]
    refine add_le_add ?_ ?_
    · refine intervalIntegral.integral_mono_on (hf.nonneg _) (i1 _ _) (i2 _ _) fun d _ => ?_
      have := mul_le_mul_of_nonneg_right (hle d j) (h.keep j).1
      linarith
    · have : ∫ d in f a..f a', (1 - o d j * t.keep dw j) ≤ ∫ _ in f a..f a', (1 : ℝ) := by
        refine intervalIntegral.integral_mono_on hff (i1 _ _) intervalIntegrable_const fun d _ => ?_
        have : 0 ≤ o d j * t.keep dw j := (h'.released d j).1
        linarith
      simpa using this
  refine ⟨?_, fun d j => ?_⟩
  · change _ ≤ ((t.refill o).outflow dw - ((t.refill o).release dw).vacant (f a')) -
      (t.outflow dw - (t.release dw).vacant (f a))
    have h1 := mul_le_mul_of_nonneg_left (hf.lip a a' haa) h.total_nonneg
    have h2 : t.total * L * ((t.refill o).outflow dw - t.outflow dw) ≤ 1 * ((t.refill o).outflow dw - t.outflow dw) :=
      mul_le_mul_of_nonneg_right hL (by linarith)
    nlinarith
  · change (if d ≤ f a then (1 : ℝ) else t.occ d j * t.keep dw j) ≤ if d ≤ f a' then 1 else o d j * t.keep dw j
    split
    · rename_i hd
      rw [if_pos (hd.trans hff)]
    · split
      · exact (h.released d j).2
      · exact mul_le_mul_of_nonneg_right (hle d j) (h.keep j).1

/-- Difference between two fillings of the same traps, in electrons. -/
noncomputable def Ref.Traps.gap (t : Ref.Traps) (o : ℝ → Fin t.s → ℝ) : ℝ :=
  ∑ j, t.dens j * ∫ d in (0 : ℝ)..1, |t.occ d j - o d j|

theorem indicator_gap {h h' : ℝ} (h0 : 0 ≤ h) (h1 : h ≤ 1) (h0' : 0 ≤ h') (h1' : h' ≤ 1) :
    ∫ d in (0 : ℝ)..1, |(if d ≤ h then (1 : ℝ) else 0) - if d ≤ h' then 1 else 0| = |h - h'| := by
  have key : ∀ x y : ℝ, 0 ≤ x → x ≤ y → y ≤ 1 →
      ∫ d in (0 : ℝ)..1, |(if d ≤ x then (1 : ℝ) else 0) - if d ≤ y then 1 else 0| = |x - y| := by
    intro x y hx hxy hy
    have m : ∀ z : ℝ, Measurable fun d : ℝ => if d ≤ z then (1 : ℝ) else 0 := fun z =>
      Measurable.ite measurableSet_Iic measurable_const measurable_const
    have ii : ∀ z : ℝ, IntervalIntegrable (fun d : ℝ => if d ≤ z then (1 : ℝ) else 0) volume 0 1 := fun z =>
      integrable_bdd 1 (m z) (fun d => by split <;> simp) _ _
    have e : ∀ z : ℝ, 0 ≤ z → z ≤ 1 → ∫ d in (0 : ℝ)..1, (if d ≤ z then (1 : ℝ) else 0) = z := by
      intro z h0 h1
      rw [← integral_upTo (g := fun _ => (1 : ℝ)) h0 h1 intervalIntegrable_const (ii z)]
      simp
    have : (fun d : ℝ => |(if d ≤ x then (1 : ℝ) else 0) - if d ≤ y then 1 else 0|) =
        fun d => (if d ≤ y then (1 : ℝ) else 0) - if d ≤ x then 1 else 0 := by
      funext d
      by_cases h1 : d ≤ x
      · simp [h1, h1.trans hxy]
      · by_cases h2 : d ≤ y <;> simp [h1, h2]
    rw [this, intervalIntegral.integral_sub (ii y) (ii x), e y (hx.trans hxy) hy, e x hx (hxy.trans hy), abs_sub_comm,
      abs_of_nonneg (by linarith)]
  rcases le_total h h' with hh | hh
  · exact key h h' h0 hh h1'
  · rw [abs_sub_comm h, ← key h' h h0' hh h1]
    exact intervalIntegral.integral_congr fun d _ => abs_sub_comm _ _

/-- The same depth of a pixel below two clouds. -/
theorem capture_gap {p q : Prop} [Decidable p] [Decidable q] {x y : ℝ} (hx : 0 ≤ x ∧ x ≤ 1) (hy : 0 ≤ y ∧ y ≤ 1) :
    |(if p then 1 - x else 0) - if q then 1 - y else 0| + |(if p then 1 else x) - if q then 1 else y| ≤
      |x - y| + 2 * |(if p then (1 : ℝ) else 0) - if q then 1 else 0| := by
  by_cases hp : p <;> by_cases hq : q <;> simp only [hp, hq, if_true, if_false]
  · rw [show 1 - x - (1 - y) = -(x - y) by ring, abs_neg]; simp
  · rw [sub_zero, sub_zero, abs_of_nonneg (by linarith : 0 ≤ 1 - x), abs_of_nonneg (by linarith : 0 ≤ 1 - y)]
    have := abs_nonneg (x - y)
    rw [abs_one]; linarith
  · rw [zero_sub, abs_neg, abs_of_nonneg (by linarith : 0 ≤ 1 - y), abs_sub_comm x 1,
      abs_of_nonneg (by linarith : 0 ≤ 1 - x)]
    have := abs_nonneg (x - y)
    rw [zero_sub, abs_neg, abs_one]; linarith
  · simp

/-- A transfer is Lipschitz in the charge and in the filling of the traps. -/
theorem plain_lip {dw : ℝ} {t : Ref.Traps} {o : ℝ → Fin t.s → ℝ} {f : ℝ → ℝ} {L : ℝ} (h : t.Reg dw)
    (h' : (t.refill o).Reg dw) (hf : LipFill f L) (hL : 2 * (t.total * L) ≤ 1) (n n' : ℝ) :
    (1 - 2 * (t.total * L)) * |(t.plain f dw n).1 - ((t.refill o).plain f dw n').1| +
        (t.plain f dw n).2.gap ((t.refill o).plain f dw n').2.occ ≤
      t.gap o + 2 * (t.total * L) * |n - n'| := by
  have hb : ∀ d j, |t.occ d j| ≤ 1 := fun d j => by rw [abs_of_nonneg (h.frac d j).1]; exact (h.frac d j).2
  have hb' : ∀ d j, |o d j| ≤ 1 := fun d j => by
    have := h'.frac d j
    change 0 ≤ o d j ∧ o d j ≤ 1 at this
    rw [abs_of_nonneg this.1]; exact this.2
  have hm' : ∀ j, Measurable fun d => o d j := h'.meas
  have iabs : ∀ j, IntervalIntegrable (fun d => |t.occ d j - o d j|) volume 0 1 := fun j =>
    integrable_bdd (g := fun d => |t.occ d j - o d j|) 2 (continuous_abs.measurable.comp ((h.meas j).sub (hm' j))) (fun d => by
      rw [abs_abs]
      have h1 := hb d j
      have h2 := hb' d j
      rw [abs_le] at *
      constructor <;> linarith) _ _
  have hout : |t.outflow dw - (t.refill o).outflow dw| ≤
      ∑ j, t.dens j * (1 - t.keep dw j) * ∫ d in (0 : ℝ)..1, |t.occ d j - o d j| := by
    rw [Ref.Traps.outflow_eq, Ref.Traps.outflow_eq]
    change |(∑ j, _) - ∑ j, t.dens j * (1 - t.keep dw j) * ∫ d in (0 : ℝ)..1, o d j| ≤ _
    rw [← Finset.sum_sub_distrib]
    refine (Finset.abs_sum_le_sum_abs _ _).trans (Finset.sum_le_sum fun j _ => ?_)
    have hc := mul_nonneg (h.dens j) (sub_nonneg.2 (h.keep j).2)
    rw [← mul_sub, abs_mul, abs_of_nonneg hc]
    refine mul_le_mul_of_nonneg_left ?_ hc
    rw [← intervalIntegral.integral_sub (integrable_bdd 1 (h.meas j) (fun d => hb d j) _ _)
      (integrable_bdd 1 (hm' j) (fun d => hb' d j) _ _)]
    exact intervalIntegral.abs_integral_le_integral_abs zero_le_one
  set a := n + t.outflow dw with ha
  set a' := n' + (t.refill o).outflow dw with ha'
  have hvac : |(t.release dw).vacant (f a) - ((t.refill o).release dw).vacant (f a')| +
      (t.plain f dw n).2.gap ((t.refill o).plain f dw n').2.occ ≤
      ∑ j, t.dens j * (t.keep dw j * (∫ d in (0 : ℝ)..1, |t.occ d j - o d j|) + 2 * |f a - f a'|) := by
    unfold Ref.Traps.vacant Ref.Traps.gap
    change |(∑ j, t.dens j * ∫ d in (0 : ℝ)..f a, (1 - t.occ d j * t.keep dw j)) -
      ∑ j, t.dens j * ∫ d in (0 : ℝ)..f a', (1 - o d j * t.keep dw j)| + ∑ j, t.dens j * ∫ d in (0 : ℝ)..1,
        |(if d ≤ f a then (1 : ℝ) else t.occ d j * t.keep dw j) - if d ≤ f a' then 1 else o d j * t.keep dw j| ≤ _
    rw [← Finset.sum_sub_distrib]
    refine (add_le_add_left (Finset.abs_sum_le_sum_abs _ _) _).trans ?_
    rw [← Finset.sum_add_distrib]
    refine Finset.sum_le_sum fun j _ => ?_
    rw [← mul_sub, abs_mul, abs_of_nonneg (h.dens j), ← mul_add]
    refine mul_le_mul_of_nonneg_left ?_ (h.dens j)
    have r1 := fun d => h.released d j
    have r2 : ∀ d, 0 ≤ o d j * t.keep dw j ∧ o d j * t.keep dw j ≤ 1 := fun d => h'.released d j
    have m1 := h.meas_released j
    have m2 : Measurable fun d => o d j * t.keep dw j := h'.meas_released j
    have i1 : IntervalIntegrable (fun d => 1 - t.occ d j * t.keep dw j) volume 0 1 :=
      integrable_bdd (g := fun d => 1 - t.occ d j * t.keep dw j) 1 (measurable_const.sub m1) (fun d => by
        have := r1 d
        rw [abs_le]; constructor <;> linarith) _ _
    have i2 : IntervalIntegrable (fun d => 1 - o d j * t.keep dw j) volume 0 1 :=
      integrable_bdd (g := fun d => 1 - o d j * t.keep dw j) 1 (measurable_const.sub m2) (fun d => by
        have := r2 d
        rw [abs_le]; constructor <;> linarith) _ _
    have m3 : ∀ x : ℝ, Measurable fun d : ℝ => if d ≤ x then 1 - t.occ d j * t.keep dw j else 0 := fun x =>
      Measurable.ite measurableSet_Iic (measurable_const.sub m1) measurable_const
    have m4 : ∀ x : ℝ, Measurable fun d : ℝ => if d ≤ x then 1 - o d j * t.keep dw j else 0 := fun x =>
      Measurable.ite measurableSet_Iic (measurable_const.sub m2) measurable_const
    have b3 : ∀ x d : ℝ, |if d ≤ x then 1 - t.occ d j * t.keep dw j else 0| ≤ 1 := fun x d => by
      have := r1 d
      split
      · rw [abs_le]; constructor <;> linarith
      · simp
    have b4 : ∀ x d : ℝ, |if d ≤ x then 1 - o d j * t.keep dw j else 0| ≤ 1 := fun x d => by
      have := r2 d
      split
      · rw [abs_le]; constructor <;> linarith
      · simp
    have i3 := integrable_bdd 1 (m3 (f a)) (b3 (f a)) 0 1
    have i4 := integrable_bdd 1 (m4 (f a')) (b4 (f a')) 0 1
    rw [integral_upTo (hf.nonneg _) (hf.le_one _) i1 i3, integral_upTo (hf.nonneg _) (hf.le_one _) i2 i4,
      ← intervalIntegral.integral_sub i3 i4]
    refine (add_le_add_left (intervalIntegral.abs_integral_le_integral_abs zero_le_one) _).trans ?_
    have i5 := (i3.sub i4).abs
    have m6 : Measurable fun d : ℝ => (if d ≤ f a then (1 : ℝ) else t.occ d j * t.keep dw j) -
        if d ≤ f a' then 1 else o d j * t.keep dw j :=
      (Measurable.ite measurableSet_Iic measurable_const m1).sub (Measurable.ite measurableSet_Iic measurable_const m2)
    have i6 : IntervalIntegrable (fun d : ℝ => |(if d ≤ f a then (1 : ℝ) else t.occ d j * t.keep dw j) -
        if d ≤ f a' then 1 else o d j * t.keep dw j|) volume 0 1 :=
      integrable_bdd (g := fun d : ℝ => |(if d ≤ f a then (1 : ℝ) else t.occ d j * t.keep dw j) -
        if d ≤ f a' then 1 else o d j * t.keep dw j|) 1 (continuous_abs.measurable.comp m6) (fun d => by
          have h1 := r1 d; have h2 := r2 d
          rw [abs_abs]
          split <;> split <;> rw [abs_le] <;> constructor <;> linarith) _ _
    rw [← intervalIntegral.integral_add i5 i6]
    have m7 : Measurable fun d : ℝ => (if d ≤ f a then (1 : ℝ) else 0) - if d ≤ f a' then 1 else 0 :=
      (Measurable.ite measurableSet_Iic measurable_const measurable_const).sub
        (Measurable.ite measurableSet_Iic measurable_const measurable_const)
    have i7 : IntervalIntegrable (fun d : ℝ => |(if d ≤ f a then (1 : ℝ) else 0) - if d ≤ f a' then 1 else 0|)
        volume 0 1 :=
      integrable_bdd (g := fun d : ℝ => |(if d ≤ f a then (1 : ℝ) else 0) - if d ≤ f a' then 1 else 0|) 1 (continuous_abs.measurable.comp m7)
        (fun d => by rw [abs_abs]; split <;> split <;> simp) _ _
    have e := indicator_gap (hf.nonneg a) (hf.le_one a) (hf.nonneg a') (hf.le_one a')
    rw [← e, ← intervalIntegral.integral_const_mul, ← intervalIntegral.integral_const_mul,
      ← intervalIntegral.integral_add ((iabs j).const_mul _) (i7.const_mul _)]
    refine intervalIntegral.integral_mono_on zero_le_one (i5.add i6) (((iabs j).const_mul _).add (i7.const_mul _)) ?_
    intro d _
    have := capture_gap (p := d ≤ f a) (q := d ≤ f a') (r1 d) (r2 d)
    rw [← sub_mul, abs_mul, abs_of_nonneg (h.keep j).1, mul_comm |t.occ d j - o d j|] at this
    exact this
  have hsum : ∑ j, t.dens j * (t.keep dw j * (∫ d in (0 : ℝ)..1, |t.occ d j - o d j|) + 2 * |f a - f a'|) +
      ∑ j, t.dens j * (1 - t.keep dw j) * (∫ d in (0 : ℝ)..1, |t.occ d j - o d j|) =
      t.gap o + 2 * t.total * |f a - f a'| := by
    unfold Ref.Traps.gap Ref.Traps.total
    rw [← Finset.sum_add_distrib, mul_assoc, Finset.sum_mul, Finset.mul_sum, ← Finset.sum_add_distrib]
    exact Finset.sum_congr rfl fun j _ => by ring
  have hff : |f a - f a'| ≤ L * (|n - n'| + |t.outflow dw - (t.refill o).outflow dw|) := by
    refine (hf.abs_sub a a').trans (mul_le_mul_of_nonneg_left ?_ hf.nonneg_slope)
    have : a - a' = (n - n') + (t.outflow dw - (t.refill o).outflow dw) := by rw [ha, ha']; ring
    rw [this]
    exact abs_add_le _ _
  have hnet : |(t.plain f dw n).1 - ((t.refill o).plain f dw n').1| ≤
      |t.outflow dw - (t.refill o).outflow dw| +
        |(t.release dw).vacant (f a) - ((t.refill o).release dw).vacant (f a')| := by
    change |(t.outflow dw - (t.release dw).vacant (f a)) -
      ((t.refill o).outflow dw - ((t.refill o).release dw).vacant (f a'))| ≤ _
    rw [show ∀ x y z w : ℝ, (x - y) - (z - w) = (x - z) - (y - w) by intros; ring]
    exact abs_sub _ _
  have h1 := mul_le_mul_of_nonneg_left hff (mul_nonneg zero_le_two h.total_nonneg)
  have h2 := mul_le_mul_of_nonneg_left hnet (sub_nonneg.2 hL)
  have h3 : 0 ≤ 2 * (t.total * L) * |(t.release dw).vacant (f a) - ((t.refill o).release dw).vacant (f a')| :=
    mul_nonneg (mul_nonneg zero_le_two (mul_nonneg h.total_nonneg hf.nonneg_slope)) (abs_nonneg _)
  nlinarith

end Arctic
