import Verif.Lemmas.RefLipschitz
import Verif.Lemmas.RefError
import Verif.Lemmas.Invert
import Verif.Spec.RefMixed

/-!
# Slow capture when there are always enough electrons: Lipschitz bounds of a transfer
-/

set_option linter.unusedSectionVars false
set_option linter.unusedVariables false

namespace Arctic
open MeasureTheory

/-! ### occupancies changed differently inside and outside a cloud -/

/-- An affine map of fractions to fractions. -/
def FracMap (a c : ℝ) : Prop := 0 ≤ a ∧ 0 ≤ c ∧ a + c ≤ 1

theorem FracMap.range {a c x : ℝ} (h : FracMap a c) (hx : 0 ≤ x ∧ x ≤ 1) : 0 ≤ a + c * x ∧ a + c * x ≤ 1 := by
  obtain ⟨h1, h2, h3⟩ := h
  refine ⟨add_nonneg h1 (mul_nonneg h2 hx.1), ?_⟩
  have := mul_le_mul_of_nonneg_left hx.2 h2
  linarith

/-- One depth of a pixel below two clouds. -/
theorem zone_gap {p q : Prop} [Decidable p] [Decidable q] {a c a' c' x y : ℝ} (h : FracMap a c) (h' : FracMap a' c')
    (hx : 0 ≤ x ∧ x ≤ 1) (hy : 0 ≤ y ∧ y ≤ 1) :
    |(x - if p then a + c * x else a' + c' * x) - (y - if q then a + c * y else a' + c' * y)| +
        |(if p then a + c * x else a' + c' * x) - if q then a + c * y else a' + c' * y| ≤
      |x - y| + 2 * |(if p then (1 : ℝ) else 0) - if q then 1 else 0| := by
  have same : ∀ b k : ℝ, FracMap b k → |(x - (b + k * x)) - (y - (b + k * y))| + |b + k * x - (b + k * y)| ≤ |x - y| := by
    rintro b k ⟨h1, h2, h3⟩
    rw [show (x - (b + k * x)) - (y - (b + k * y)) = (1 - k) * (x - y) by ring,
      show b + k * x - (b + k * y) = k * (x - y) by ring, abs_mul, abs_mul, abs_of_nonneg h2,
      abs_of_nonneg (by linarith : 0 ≤ 1 - k)]
    exact le_of_eq (by ring)
  have diff : ∀ u v : ℝ, 0 ≤ u ∧ u ≤ 1 → 0 ≤ v ∧ v ≤ 1 → |(x - u) - (y - v)| + |u - v| ≤ |x - y| + 2 := by
    intro u v hu hv
    have h1 : |u - v| ≤ 1 := by rw [abs_le]; constructor <;> linarith
    have h2 : |(x - u) - (y - v)| ≤ |x - y| + |u - v| := by
      rw [show (x - u) - (y - v) = (x - y) - (u - v) by ring]; exact abs_sub _ _
    linarith
  by_cases hp : p <;> by_cases hq : q <;> simp only [hp, hq, if_true, if_false]
  · simpa using same a c h
  · have := diff _ _ (h.range hx) (h'.range hy)
    simpa using this
  · have := diff _ _ (h'.range hx) (h.range hy)
    simpa using this
  · simpa using same a' c' h'

section zones
variable {s : ℕ}

/-- Fractions of filled traps. -/
structure FilledParts (x : ℝ → Fin s → ℝ) : Prop where
  frac : ∀ d j, 0 ≤ x d j ∧ x d j ≤ 1
  meas : ∀ j, Measurable fun d => x d j

/-- Different changes up to depth `h` and beyond. -/
noncomputable def zones (a c a' c' : Fin s → ℝ) (x : ℝ → Fin s → ℝ) (h : ℝ) : ℝ → Fin s → ℝ :=
  fun d j => if d ≤ h then a j + c j * x d j else a' j + c' j * x d j

/-- Electrons in traps. -/
noncomputable def held (dens : Fin s → ℝ) (x : ℝ → Fin s → ℝ) : ℝ := ∑ j, dens j * ∫ d in (0 : ℝ)..1, x d j

/-- Difference of two fillings. -/
noncomputable def heldGap (dens : Fin s → ℝ) (x y : ℝ → Fin s → ℝ) : ℝ :=
  ∑ j, dens j * ∫ d in (0 : ℝ)..1, |x d j - y d j|

theorem FilledParts.integrable {x : ℝ → Fin s → ℝ} (h : FilledParts x) (j : Fin s) (a b : ℝ) :
    IntervalIntegrable (fun d => x d j) volume a b :=
  integrable_bdd 1 (h.meas j) (fun d => by rw [abs_of_nonneg (h.frac d j).1]; exact (h.frac d j).2) _ _

theorem zones_fractions {a c a' c' : Fin s → ℝ} (h : ∀ j, FracMap (a j) (c j)) (h' : ∀ j, FracMap (a' j) (c' j))
    {x : ℝ → Fin s → ℝ} (hx : FilledParts x) (z : ℝ) : FilledParts (zones a c a' c' x z) := by
  refine ⟨fun d j => ?_, fun j => ?_⟩
  · unfold zones
    split
    · exact (h j).range (hx.frac d j)
    · exact (h' j).range (hx.frac d j)
  · exact Measurable.ite measurableSet_Iic (measurable_const.add ((hx.meas j).const_mul _))
      (measurable_const.add ((hx.meas j).const_mul _))

theorem held_sub {dens : Fin s → ℝ} {x y : ℝ → Fin s → ℝ} (hx : FilledParts x) (hy : FilledParts y) :
    held dens x - held dens y = ∑ j, dens j * ∫ d in (0 : ℝ)..1, (x d j - y d j) := by
  unfold held
  rw [← Finset.sum_sub_distrib]
  refine Finset.sum_congr rfl fun j _ => ?_
  rw [← mul_sub, intervalIntegral.integral_sub (hx.integrable j _ _) (hy.integrable j _ _)]

theorem heldGap_nonneg {dens : Fin s → ℝ} (hd : ∀ j, 0 ≤ dens j) (x y : ℝ → Fin s → ℝ) : 0 ≤ heldGap dens x y :=
  Finset.sum_nonneg fun j _ => mul_nonneg (hd j)
    (intervalIntegral.integral_nonneg zero_le_one fun d _ => abs_nonneg _)

theorem held_nonneg {dens : Fin s → ℝ} (hd : ∀ j, 0 ≤ dens j) {x : ℝ → Fin s → ℝ} (hx : FilledParts x) : 0 ≤ held dens x :=
  Finset.sum_nonneg fun j _ => mul_nonneg (hd j)
    (intervalIntegral.integral_nonneg zero_le_one fun d _ => (hx.frac d j).1)

theorem held_le {dens : Fin s → ℝ} (hd : ∀ j, 0 ≤ dens j) {x : ℝ → Fin s → ℝ} (hx : FilledParts x) :
    held dens x ≤ ∑ j, dens j := by
  refine Finset.sum_le_sum fun j _ => mul_le_of_le_one_right (hd j) ?_
  have : ∫ d in (0 : ℝ)..1, x d j ≤ ∫ _ in (0 : ℝ)..1, (1 : ℝ) :=
    intervalIntegral.integral_mono_on zero_le_one (hx.integrable j _ _) intervalIntegrable_const fun d _ => (hx.frac d j).2
  simpa using this

/-- The electrons given off and the remaining difference are at most the difference before and twice the traps between the
two surfaces. -/
theorem zones_lip {dens a c a' c' : Fin s → ℝ} (hd : ∀ j, 0 ≤ dens j) (h : ∀ j, FracMap (a j) (c j))
    (h' : ∀ j, FracMap (a' j) (c' j)) {x y : ℝ → Fin s → ℝ} (hx : FilledParts x) (hy : FilledParts y) {z z' : ℝ}
    (hz : 0 ≤ z ∧ z ≤ 1) (hz' : 0 ≤ z' ∧ z' ≤ 1) :
    |(held dens x - held dens (zones a c a' c' x z)) - (held dens y - held dens (zones a c a' c' y z'))| +
        heldGap dens (zones a c a' c' x z) (zones a c a' c' y z') ≤
      heldGap dens x y + 2 * (∑ j, dens j) * |z - z'| := by
  have hX := zones_fractions h h' hx z
  have hY := zones_fractions h h' hy z'
  rw [held_sub hx hX, held_sub hy hY, ← Finset.sum_sub_distrib]
  refine (add_le_add_left (Finset.abs_sum_le_sum_abs _ _) _).trans ?_
  unfold heldGap
  rw [← Finset.sum_add_distrib, mul_assoc, Finset.sum_mul, Finset.mul_sum, ← Finset.sum_add_distrib]
  refine Finset.sum_le_sum fun j _ => ?_
  rw [← mul_sub, abs_mul, abs_of_nonneg (hd j), ← mul_add, show 2 * (dens j * |z - z'|) = dens j * (2 * |z - z'|) by ring,
    ← mul_add]
  refine mul_le_mul_of_nonneg_left ?_ (hd j)
  have i1 := (hx.integrable j 0 1).sub (hX.integrable j 0 1)
  have i2 := (hy.integrable j 0 1).sub (hY.integrable j 0 1)
  rw [← intervalIntegral.integral_sub i1 i2]
  refine (add_le_add_left (intervalIntegral.abs_integral_le_integral_abs zero_le_one) _).trans ?_
  have i3 := (i1.sub i2).abs
  have i4 := ((hX.integrable j 0 1).sub (hY.integrable j 0 1)).abs
  have i5 := ((hx.integrable j 0 1).sub (hy.integrable j 0 1)).abs
  have m7 : Measurable fun d : ℝ => (if d ≤ z then (1 : ℝ) else 0) - if d ≤ z' then 1 else 0 :=
    (Measurable.ite measurableSet_Iic measurable_const measurable_const).sub
      (Measurable.ite measurableSet_Iic measurable_const measurable_const)
  have i7 : IntervalIntegrable (fun d : ℝ => |(if d ≤ z then (1 : ℝ) else 0) - if d ≤ z' then 1 else 0|) volume 0 1 :=
    integrable_bdd (g := fun d : ℝ => |(if d ≤ z then (1 : ℝ) else 0) - if d ≤ z' then 1 else 0|) 1
      (continuous_abs.measurable.comp m7) (fun d => by rw [abs_abs]; split <;> split <;> simp) _ _
  rw [← intervalIntegral.integral_add i3 i4, ← indicator_gap hz.1 hz.2 hz'.1 hz'.2,
    ← intervalIntegral.integral_const_mul, ← intervalIntegral.integral_add i5 (i7.const_mul _)]
  refine intervalIntegral.integral_mono_on zero_le_one (i3.add i4) (i5.add (i7.const_mul _)) fun d _ => ?_
  exact zone_gap (p := d ≤ z) (q := d ≤ z') (h j) (h' j) (hx.frac d j) (hy.frac d j)

/-- If traps beyond the surface only release, the traps take at most the traps inside. -/
theorem zones_loss {dens a c c' : Fin s → ℝ} (hd : ∀ j, 0 ≤ dens j) (h : ∀ j, FracMap (a j) (c j))
    (h' : ∀ j, FracMap 0 (c' j)) {x : ℝ → Fin s → ℝ} (hx : FilledParts x) {z : ℝ} (hz : 0 ≤ z ∧ z ≤ 1) :
    -((∑ j, dens j) * z) ≤ held dens x - held dens (zones a c (fun _ => 0) c' x z) := by
  have hX := zones_fractions (a' := fun _ => 0) h h' hx z
  rw [held_sub hx hX, Finset.sum_mul, ← Finset.sum_neg_distrib]
  refine Finset.sum_le_sum fun j _ => ?_
  rw [← mul_neg]
  refine mul_le_mul_of_nonneg_left ?_ (hd j)
  have m : Measurable fun d : ℝ => if d ≤ z then (1 : ℝ) else 0 :=
    Measurable.ite measurableSet_Iic measurable_const measurable_const
  have ii : IntervalIntegrable (fun d : ℝ => if d ≤ z then (1 : ℝ) else 0) volume 0 1 :=
    integrable_bdd 1 m (fun d => by split <;> simp) _ _
  have e : ∫ d in (0 : ℝ)..1, (if d ≤ z then (1 : ℝ) else 0) = z := by
    rw [← integral_upTo (g := fun _ => (1 : ℝ)) hz.1 hz.2 intervalIntegrable_const ii]
    simp
  refine le_trans (le_of_eq (by rw [intervalIntegral.integral_neg, e] :
    -z = ∫ d in (0 : ℝ)..1, -(if d ≤ z then (1 : ℝ) else 0))) ?_
  refine intervalIntegral.integral_mono_on zero_le_one ii.neg ((hx.integrable j 0 1).sub (hX.integrable j 0 1)) fun d _ => ?_
  have q := hx.frac d j
  unfold zones
  by_cases hdz : d ≤ z
  · simp only [hdz, if_true]
    linarith [((h j).range q).2]
  · simp only [hdz, if_false]
    have := mul_le_mul_of_nonneg_right (by linarith [(h' j).2.2] : c' j ≤ 1) q.1
    linarith

/-- Release only. -/
theorem zones_release {dens c c' : Fin s → ℝ} (hd : ∀ j, 0 ≤ dens j) (h : ∀ j, FracMap 0 (c j))
    (h' : ∀ j, FracMap 0 (c' j)) {x : ℝ → Fin s → ℝ} (hx : FilledParts x) (z : ℝ) :
    0 ≤ held dens x - held dens (zones (fun _ => 0) c (fun _ => 0) c' x z) := by
  have hX := zones_fractions (a := fun _ => 0) (a' := fun _ => 0) h h' hx z
  rw [held_sub hx hX]
  refine Finset.sum_nonneg fun j _ => mul_nonneg (hd j) (intervalIntegral.integral_nonneg zero_le_one fun d _ => ?_)
  have q := hx.frac d j
  unfold zones
  split
  · have := mul_le_mul_of_nonneg_right (by linarith [(h j).2.2] : c j ≤ 1) q.1
    linarith
  · have := mul_le_mul_of_nonneg_right (by linarith [(h' j).2.2] : c' j ≤ 1) q.1
    linarith

end zones

/-! ### a transfer of traps with slow capture -/

/-- Densities and fractions that make sense. -/
structure Ref.Slow.Reg (dw : ℝ) (t : Ref.Slow) : Prop where
  dens : ∀ j, 0 ≤ t.dens j
  keep : ∀ j, FracMap 0 (t.keep dw j)
  swap : ∀ j, FracMap (t.take dw j) (t.hold dw j - t.take dw j)
  occ : FilledParts t.occ

/-- The same traps, filled differently. -/
def Ref.Slow.refill (t : Ref.Slow) (o : ℝ → Fin t.s → ℝ) : Ref.Slow := { t with occ := o }

section slow
variable {dw : ℝ} {t : Ref.Slow}

theorem Ref.Slow.release_zones (t : Ref.Slow) (dw h : ℝ) :
    t.release dw h = t.refill (zones (fun _ => 0) (fun _ => 1) (fun _ => 0) (t.keep dw) t.occ h) := by
  unfold Ref.Slow.release Ref.Slow.refill zones
  congr 1
  funext d j
  split <;> ring

theorem Ref.Slow.exchange_zones (t : Ref.Slow) (dw h : ℝ) :
    t.exchange dw h = t.refill (zones (t.take dw) (fun j => t.hold dw j - t.take dw j) (fun _ => 0) (fun _ => 1) t.occ h) := by
  unfold Ref.Slow.exchange Ref.Slow.refill zones
  congr 1
  funext d j
  split <;> ring

theorem fracMap_id : FracMap 0 1 := ⟨le_rfl, zero_le_one, by norm_num⟩

/-- Occupancy after the release. -/
noncomputable def Ref.Slow.first (t : Ref.Slow) (f : ℝ → ℝ) (dw n : ℝ) : ℝ → Fin t.s → ℝ :=
  zones (fun _ => 0) (fun _ => 1) (fun _ => 0) (t.keep dw) t.occ (f n)

/-- Electrons in the cloud after the release. -/
noncomputable def Ref.Slow.cloud (t : Ref.Slow) (f : ℝ → ℝ) (dw n : ℝ) : ℝ :=
  n + (held t.dens t.occ - held t.dens (t.first f dw n))

/-- Occupancy after the exchange. -/
noncomputable def Ref.Slow.second (t : Ref.Slow) (f : ℝ → ℝ) (dw n : ℝ) : ℝ → Fin t.s → ℝ :=
  zones (t.take dw) (fun j => t.hold dw j - t.take dw j) (fun _ => 0) (fun _ => 1) (t.first f dw n) (f (t.cloud f dw n))

theorem Ref.Slow.transfer_eq (t : Ref.Slow) (f : ℝ → ℝ) (dw n : ℝ) :
    t.transfer n dw f = (held t.dens t.occ - held t.dens (t.second f dw n), t.refill (t.second f dw n)) := by
  unfold Ref.Slow.transfer
  simp only
  rw [Ref.Slow.exchange_zones, Ref.Slow.release_zones]
  rfl

theorem Ref.Slow.Reg.first (h : t.Reg dw) (f : ℝ → ℝ) (n : ℝ) : FilledParts (t.first f dw n) :=
  zones_fractions (fun _ => fracMap_id) h.keep h.occ _

theorem Ref.Slow.Reg.second (h : t.Reg dw) (f : ℝ → ℝ) (n : ℝ) : FilledParts (t.second f dw n) :=
  zones_fractions h.swap (fun _ => fracMap_id) (h.first f n) _

theorem Ref.Slow.Reg.step (h : t.Reg dw) (f : ℝ → ℝ) (n : ℝ) : (t.refill (t.second f dw n)).Reg dw :=
  ⟨h.dens, h.keep, h.swap, h.second f n⟩

theorem Ref.Slow.Reg.total_nonneg (h : t.Reg dw) : 0 ≤ t.total := Finset.sum_nonneg fun j _ => h.dens j

theorem Ref.Slow.Reg.cloud_ge (h : t.Reg dw) (f : ℝ → ℝ) (n : ℝ) : n ≤ t.cloud f dw n := by
  have := zones_release h.dens (fun _ => fracMap_id) h.keep h.occ (f n)
  unfold Ref.Slow.cloud Ref.Slow.first
  linarith

/-- A transfer takes at most a fraction `total * L` of the cloud. -/
theorem Ref.Slow.Reg.loss (h : t.Reg dw) {f : ℝ → ℝ} {L : ℝ} (hf : LipFill f L) (hL : t.total * L ≤ 1) {n : ℝ}
    (hn : 0 ≤ n) : -(t.total * L * n) ≤ held t.dens t.occ - held t.dens (t.second f dw n) := by
  have hc := h.cloud_ge f n
  have h1 := zones_loss (c' := fun _ => 1) h.dens h.swap (fun _ => fracMap_id) (h.first f n)
    (z := f (t.cloud f dw n)) ⟨hf.nonneg _, hf.le_one _⟩
  have h2 := hf.le_slope (t.cloud f dw n)
  rw [max_eq_right (by linarith)] at h2
  have h3 := mul_le_mul_of_nonneg_left h2 h.total_nonneg
  have h4 := mul_le_mul_of_nonneg_right hL (by linarith : 0 ≤ t.cloud f dw n - n)
  have h5 : t.cloud f dw n - n = held t.dens t.occ - held t.dens (t.first f dw n) := by unfold Ref.Slow.cloud; ring
  change -(t.total * f (t.cloud f dw n)) ≤ held t.dens (t.first f dw n) - held t.dens (t.second f dw n) at h1
  nlinarith

/-- A transfer is Lipschitz in the charge and in the filling of the traps. -/
theorem slow_lip {o : ℝ → Fin t.s → ℝ} {f : ℝ → ℝ} {L : ℝ} (h : t.Reg dw) (h' : (t.refill o).Reg dw) (hf : LipFill f L)
    (hL : 4 * (t.total * L) ≤ 1) (n n' : ℝ) :
    (1 - 4 * (t.total * L)) * |(held t.dens t.occ - held t.dens (t.second f dw n)) -
          (held t.dens o - held t.dens ((t.refill o).second f dw n'))| +
        heldGap t.dens (t.second f dw n) ((t.refill o).second f dw n') ≤
      heldGap t.dens t.occ o + 4 * (t.total * L) * |n - n'| := by
  have k0 := mul_nonneg h.total_nonneg hf.nonneg_slope
  have r := zones_lip h.dens (fun _ => fracMap_id) h.keep h.occ h'.occ (z := f n) (z' := f n')
    ⟨hf.nonneg _, hf.le_one _⟩ ⟨hf.nonneg _, hf.le_one _⟩
  have u := zones_lip h.dens h.swap (fun _ => fracMap_id) (h.first f n) (h'.first f n') (z := f (t.cloud f dw n))
    (z' := f ((t.refill o).cloud f dw n')) ⟨hf.nonneg _, hf.le_one _⟩ ⟨hf.nonneg _, hf.le_one _⟩
  change |(held t.dens t.occ - held t.dens (t.first f dw n)) - (held t.dens o - held t.dens ((t.refill o).first f dw n'))| +
    heldGap t.dens (t.first f dw n) ((t.refill o).first f dw n') ≤ heldGap t.dens t.occ o + 2 * t.total * |f n - f n'| at r
  change |(held t.dens (t.first f dw n) - held t.dens (t.second f dw n)) -
      (held t.dens ((t.refill o).first f dw n') - held t.dens ((t.refill o).second f dw n'))| +
    heldGap t.dens (t.second f dw n) ((t.refill o).second f dw n') ≤
      heldGap t.dens (t.first f dw n) ((t.refill o).first f dw n') +
        2 * t.total * |f (t.cloud f dw n) - f ((t.refill o).cloud f dw n')| at u
  have l1 := mul_le_mul_of_nonneg_left (hf.abs_sub n n') h.total_nonneg
  have l2 := mul_le_mul_of_nonneg_left (hf.abs_sub (t.cloud f dw n) ((t.refill o).cloud f dw n')) h.total_nonneg
  have cl : |t.cloud f dw n - (t.refill o).cloud f dw n'| ≤ |n - n'| +
      |(held t.dens t.occ - held t.dens (t.first f dw n)) - (held t.dens o - held t.dens ((t.refill o).first f dw n'))| := by
    have e : t.cloud f dw n - (t.refill o).cloud f dw n' = (n - n') +
      ((held t.dens t.occ - held t.dens (t.first f dw n)) - (held t.dens o - held t.dens ((t.refill o).first f dw n'))) := by
      unfold Ref.Slow.cloud
      change n + _ - (n' + (held t.dens o - held t.dens ((t.refill o).first f dw n'))) = _
      ring
    rw [e]
    exact abs_add_le _ _
  have l3 := mul_le_mul_of_nonneg_left cl k0
  have tr := abs_add_le
    ((held t.dens t.occ - held t.dens (t.first f dw n)) - (held t.dens o - held t.dens ((t.refill o).first f dw n')))
    ((held t.dens (t.first f dw n) - held t.dens (t.second f dw n)) -
      (held t.dens ((t.refill o).first f dw n') - held t.dens ((t.refill o).second f dw n')))
  rw [show ∀ a b c d e f : ℝ, (a - b - (c - d)) + (b - e - (d - f)) = (a - e) - (c - f) by intros; ring] at tr
  set P := |held t.dens t.occ - held t.dens (t.first f dw n) - (held t.dens o - held t.dens ((t.refill o).first f dw n'))|
  set Q := |held t.dens (t.first f dw n) - held t.dens (t.second f dw n) -
      (held t.dens ((t.refill o).first f dw n') - held t.dens ((t.refill o).second f dw n'))|
  set G := |held t.dens t.occ - held t.dens (t.second f dw n) -
          (held t.dens o - held t.dens ((t.refill o).second f dw n'))|
  have hQ : 0 ≤ Q := abs_nonneg _
  have hP : 0 ≤ P := abs_nonneg _
  have hG : 0 ≤ G := abs_nonneg _
  set κ := t.total * L
  have l4 : t.total * (L * |n - n'|) = κ * |n - n'| := by ring
  have l5 : t.total * (L * |t.cloud f dw n - (t.refill o).cloud f dw n'|) =
    κ * |t.cloud f dw n - (t.refill o).cloud f dw n'| := by ring
  rw [l4] at l1
  rw [l5] at l2
  have k1 := mul_nonneg k0 hP
  have k2 := mul_nonneg k0 hG
  have k3 := mul_le_mul_of_nonneg_left tr (by linarith : 0 ≤ 1 - 2 * κ)
  have k4 := mul_nonneg k0 hQ
  nlinarith

end slow

end Arctic
