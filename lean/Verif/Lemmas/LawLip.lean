import Verif.Lemmas.FullGentle
import Verif.Lemmas.BackFull

/-!
# Two filling laws that are close

The transfers of the reference simulation with two filling laws, in the way of `plain_lip`, `slow_lip` and `clock_lip`.
-/

set_option linter.unusedSectionVars false
set_option linter.unusedVariables false

namespace Arctic
open MeasureTheory

/-- Two laws, one of slope `L` at most, that differ by `η` at most. -/
structure LawsNear (f f' : ℝ → ℝ) (L η : ℝ) : Prop where
  fill : FillModel f'
  near : ∀ x y, |f x - f' y| ≤ L * |x - y| + η

theorem LawsNear.gap_nonneg {f f' : ℝ → ℝ} {L η : ℝ} (h : LawsNear f f' L η) : 0 ≤ η := by
  have := h.near 0 0
  simp only [sub_self, abs_zero, mul_zero, zero_add] at this
  exact (abs_nonneg _).trans this

set_option maxHeartbeats 1000000 in
theorem plain_laws {dw : ℝ} {t : Ref.Traps} {o : ℝ → Fin t.s → ℝ} {f f' : ℝ → ℝ} {L η : ℝ} (h : t.Reg dw)
    (h' : (t.refill o).Reg dw) (hf : LipFill f L) (hg : LawsNear f f' L η) (hL : 2 * (t.total * L) ≤ 1) (n n' : ℝ) :
    (1 - 2 * (t.total * L)) * |(t.plain f dw n).1 - ((t.refill o).plain f' dw n').1| +
        (t.plain f dw n).2.gap ((t.refill o).plain f' dw n').2.occ ≤
      t.gap o + 2 * (t.total * L) * |n - n'| + 2 * (t.total * η) := by
  have hb : ∀ d j, |t.occ d j| ≤ 1 := fun d j => by rw [abs_of_nonneg (h.frac d j).1]; exact (h.frac d j).2
  have hb' : ∀ d j, |o d j| ≤ 1 := fun d j => by
    have := h'.frac d j
    change 0 ≤ o d j ∧ o d j ≤ 1 at this
    rw [abs_of_nonneg this.1]; exact this.2
  have hm' : ∀ j, Measurable fun d => o d j := h'.meas
  have iabs : ∀ j, IntervalIntegrable (fun d => |t.occ d j - o d j|) volume 0 1 := fun j =>
    integrable_bdd (g := fun d => |t.occ d j - o d j|) 2 (continuous_abs.measurable.comp ((h.meas j).sub (hm' j))) (fun d => by
      rw [abs_abs]
      have h1 := hb d j
      have h2 := hb' d j
      rw [abs_le] at *
      constructor <;> linarith) _ _
  have hout : |t.outflow dw - (t.refill o).outflow dw| ≤
      ∑ j, t.dens j * (1 - t.keep dw j) * ∫ d in (0 : ℝ)..1, |t.occ d j - o d j| := by
    rw [Ref.Traps.outflow_eq, Ref.Traps.outflow_eq]
    change |(∑ j, _) - ∑ j, t.dens j * (1 - t.keep dw j) * ∫ d in (0 : ℝ)..1, o d j| ≤ _
    rw [← Finset.sum_sub_distrib]
    refine (Finset.abs_sum_le_sum_abs _ _).trans (Finset.sum_le_sum fun j _ => ?_)
    have hc := mul_nonneg (h.dens j) (sub_nonneg.2 (h.keep j).2)
    rw [← mul_sub, abs_mul, abs_of_nonneg hc]
    refine mul_le_mul_of_nonneg_left ?_ hc
    rw [← intervalIntegral.integral_sub (integrable_bdd 1 (h.meas j) (fun d => hb d j) _ _)
      (integrable_bdd 1 (hm' j) (fun d => hb' d j) _ _)]
    exact intervalIntegral.abs_integral_le_integral_abs zero_le_one
  set a := n + t.outflow dw with ha
  set a' := n' + (t.refill o).outflow dw with ha'
  have hvac : |(t.release dw).vacant (f a) - ((t.refill o).release dw).vacant (f' a')| +
      (t.plain f dw n).2.gap ((t.refill o).plain f' dw n').2.occ ≤
      ∑ j, t.dens j * (t.keep dw j * (∫ d in (0 : ℝ)..1, |t.occ d j - o d j|) + 2 * |f a - f' a'|) := by
    unfold Ref.Traps.vacant Ref.Traps.gap
    change |(∑ j, t.dens j * ∫ d in (0 : ℝ)..f a, (1 - t.occ d j * t.keep dw j)) -
      ∑ j, t.dens j * ∫ d in (0 : ℝ)..f' a', (1 - o d j * t.keep dw j)| + ∑ j, t.dens j * ∫ d in (0 : ℝ)..1,
        |(if d ≤ f a then (1 : ℝ) else t.occ d j * t.keep dw j) - if d ≤ f' a' then 1 else o d j * t.keep dw j| ≤ _
    rw [← Finset.sum_sub_distrib]
    refine (add_le_add_left (Finset.abs_sum_le_sum_abs _ _) _).trans ?_
    rw [← Finset.sum_add_distrib]
    refine Finset.sum_le_sum fun j _ => ?_
    rw [← mul_sub, abs_mul, abs_of_nonneg (h.dens j), ← mul_add]
    refine mul_le_mul_of_nonneg_left ?_ (h.dens j)
    have r1 := fun d => h.released d j
    have r2 : ∀ d, 0 ≤ o d j * t.keep dw j ∧ o d j * t.keep dw j ≤ 1 := fun d => h'.released d j
    have m1 := h.meas_released j
    have m2 : Measurable fun d => o d j * t.keep dw j := h'.meas_released j
    have i1 : IntervalIntegrable (fun d => 1 - t.occ d j * t.keep dw j) volume 0 1 :=
      integrable_bdd (g := fun d => 1 - t.occ d j * t.keep dw j) 1 (measurable_const.sub m1) (fun d => by
        have := r1 d
        rw [abs_le]; constructor <;> linarith) _ _
    have i2 : IntervalIntegrable (fun d => 1 - o d j * t.keep dw j) volume 0 1 :=
      integrable_bdd (g := fun d => 1 - o d j * t.keep dw j) 1 (measurable_const.sub m2) (fun d => by
        have := r2 d
        rw [abs_le]; constructor <;> linarith) _ _
    have m3 : ∀ x : ℝ, Measurable fun d : ℝ => if d ≤ x then 1 - t.occ d j * t.keep dw j else 0 := fun x =>
      Measurable.ite measurableSet_Iic (measurable_const.sub m1) measurable_const
    have m4 : ∀ x : ℝ, Measurable fun d : ℝ => if d ≤ x then 1 - o d j * t.keep dw j else 0 := fun x =>
      Measurable.ite measurableSet_Iic (measurable_const.sub m2) measurable_const
    have b3 : ∀ x d : ℝ, |if d ≤ x then 1 - t.occ d j * t.keep dw j else 0| ≤ 1 := fun x d => by
      have := r1 d
      split
      · rw [abs_le]; constructor <;> linarith
      · simp
    have b4 : ∀ x d : ℝ, |if d ≤ x then 1 - o d j * t.keep dw j else 0| ≤ 1 := fun x d => by
      have := r2 d
      split
      · rw [abs_le]; constructor <;> linarith
      · simp
    have i3 := integrable_bdd 1 (m3 (f a)) (b3 (f a)) 0 1
    have i4 := integrable_bdd 1 (m4 (f' a')) (b4 (f' a')) 0 1
    rw [integral_upTo (hf.nonneg _) (hf.le_one _) i1 i3, integral_upTo (hg.fill.nonneg _) (hg.fill.le_one _) i2 i4,
      ← intervalIntegral.integral_sub i3 i4]
    refine (add_le_add_left (intervalIntegral.abs_integral_le_integral_abs zero_le_one) _).trans ?_
    have i5 := (i3.sub i4).abs
    have m6 : Measurable fun d : ℝ => (if d ≤ f a then (1 : ℝ) else t.occ d j * t.keep dw j) -
        if d ≤ f' a' then 1 else o d j * t.keep dw j :=
      (Measurable.ite measurableSet_Iic measurable_const m1).sub (Measurable.ite measurableSet_Iic measurable_const m2)
    have i6 : IntervalIntegrable (fun d : ℝ => |(if d ≤ f a then (1 : ℝ) else t.occ d j * t.keep dw j) -
        if d ≤ f' a' then 1 else o d j * t.keep dw j|) volume 0 1 :=
      integrable_bdd (g := fun d : ℝ => |(if d ≤ f a then (1 : ℝ) else t.occ d j * t.keep dw j) -
        if d ≤ f' a' then 1 else o d j * t.keep dw j|) 1 (continuous_abs.measurable.comp m6) (fun d => by
          have h1 := r1 d; have h2 := r2 d
          rw [abs_abs]
          split <;> split <;> rw [abs_le] <;> constructor <;> linarith) _ _
    rw [← intervalIntegral.integral_add i5 i6]
    have m7 : Measurable fun d : ℝ => (if d ≤ f a then (1 : ℝ) else 0) - if d ≤ f' a' then 1 else 0 :=
      (Measurable.ite measurableSet_Iic measurable_const measurable_const).sub
        (Measurable.ite measurableSet_Iic measurable_const measurable_const)
    have i7 : IntervalIntegrable (fun d : ℝ => |(if d ≤ f a then (1 : ℝ) else 0) - if d ≤ f' a' then 1 else 0|)
        volume 0 1 :=
      integrable_bdd (g := fun d : ℝ => |(if d ≤ f a then (1 : ℝ) else 0) - if d ≤ f' a' then 1 else 0|) 1 (continuous_abs.measurable.comp m7)
        (fun d => by rw [abs_abs]; split <;> split <;> simp) _ _
    have e := indicator_gap (hf.nonneg a) (hf.le_one a) (hg.fill.nonneg a') (hg.fill.le_one a')
    rw [← e, ← intervalIntegral.integral_const_mul, ← intervalIntegral.integral_const_mul,
      ← intervalIntegral.integral_add ((iabs j).const_mul _) (i7.const_mul _)]
    refine intervalIntegral.integral_mono_on zero_le_one (i5.add i6) (((iabs j).const_mul _).add (i7.const_mul _)) ?_
    intro d _
    have := capture_gap (p := d ≤ f a) (q := d ≤ f' a') (r1 d) (r2 d)
    rw [← sub_mul, abs_mul, abs_of_nonneg (h.keep j).1, mul_comm |t.occ d j - o d j|] at this
    exact this
  have hsum : ∑ j, t.dens j * (t.keep dw j * (∫ d in (0 : ℝ)..1, |t.occ d j - o d j|) + 2 * |f a - f' a'|) +
      ∑ j, t.dens j * (1 - t.keep dw j) * (∫ d in (0 : ℝ)..1, |t.occ d j - o d j|) =
      t.gap o + 2 * t.total * |f a - f' a'| := by
    unfold Ref.Traps.gap Ref.Traps.total
    rw [← Finset.sum_add_distrib, mul_assoc, Finset.sum_mul, Finset.mul_sum, ← Finset.sum_add_distrib]
    exact Finset.sum_congr rfl fun j _ => by ring
  have hff : |f a - f' a'| ≤ L * (|n - n'| + |t.outflow dw - (t.refill o).outflow dw|) + η := by
    refine (hg.near a a').trans (add_le_add_left (mul_le_mul_of_nonneg_left ?_ hf.nonneg_slope) _)
    have : a - a' = (n - n') + (t.outflow dw - (t.refill o).outflow dw) := by rw [ha, ha']; ring
    rw [this]
    exact abs_add_le _ _
  have hnet : |(t.plain f dw n).1 - ((t.refill o).plain f' dw n').1| ≤
      |t.outflow dw - (t.refill o).outflow dw| +
        |(t.release dw).vacant (f a) - ((t.refill o).release dw).vacant (f' a')| := by
    change |(t.outflow dw - (t.release dw).vacant (f a)) -
      ((t.refill o).outflow dw - ((t.refill o).release dw).vacant (f' a'))| ≤ _
    rw [show ∀ x y z w : ℝ, (x - y) - (z - w) = (x - z) - (y - w) by intros; ring]
    exact abs_sub _ _
  have h1 := mul_le_mul_of_nonneg_left hff (mul_nonneg zero_le_two h.total_nonneg)
  have h2 := mul_le_mul_of_nonneg_left hnet (sub_nonneg.2 hL)
  have h3 : 0 ≤ 2 * (t.total * L) * |(t.release dw).vacant (f a) - ((t.refill o).release dw).vacant (f' a')| :=
    mul_nonneg (mul_nonneg zero_le_two (mul_nonneg h.total_nonneg hf.nonneg_slope)) (abs_nonneg _)
  nlinarith

set_option maxHeartbeats 1000000 in
theorem slow_laws {dw : ℝ} {t : Ref.Slow} {o : ℝ → Fin t.s → ℝ} {f f' : ℝ → ℝ} {L η : ℝ} (h : t.Reg dw) (h' : (t.refill o).Reg dw) (hf : LipFill f L) (hg : LawsNear f f' L η)
    (hL : 4 * (t.total * L) ≤ 1) (n n' : ℝ) :
    (1 - 4 * (t.total * L)) * |(held t.dens t.occ - held t.dens (t.second f dw n)) -
          (held t.dens o - held t.dens ((t.refill o).second f' dw n'))| +
        heldGap t.dens (t.second f dw n) ((t.refill o).second f' dw n') ≤
      heldGap t.dens t.occ o + 4 * (t.total * L) * |n - n'| + 4 * (t.total * η) := by
  have k0 := mul_nonneg h.total_nonneg hf.nonneg_slope
  have r := zones_lip h.dens (fun _ => fracMap_id) h.keep h.occ h'.occ (z := f n) (z' := f' n')
    ⟨hf.nonneg _, hf.le_one _⟩ ⟨hg.fill.nonneg _, hg.fill.le_one _⟩
  have u := zones_lip h.dens h.swap (fun _ => fracMap_id) (h.first f n) (h'.first f' n') (z := f (t.cloud f dw n))
    (z' := f' ((t.refill o).cloud f' dw n')) ⟨hf.nonneg _, hf.le_one _⟩ ⟨hg.fill.nonneg _, hg.fill.le_one _⟩
  change |(held t.dens t.occ - held t.dens (t.first f dw n)) - (held t.dens o - held t.dens ((t.refill o).first f' dw n'))| +
    heldGap t.dens (t.first f dw n) ((t.refill o).first f' dw n') ≤ heldGap t.dens t.occ o + 2 * t.total * |f n - f' n'| at r
  change |(held t.dens (t.first f dw n) - held t.dens (t.second f dw n)) -
      (held t.dens ((t.refill o).first f' dw n') - held t.dens ((t.refill o).second f' dw n'))| +
    heldGap t.dens (t.second f dw n) ((t.refill o).second f' dw n') ≤
      heldGap t.dens (t.first f dw n) ((t.refill o).first f' dw n') +
        2 * t.total * |f (t.cloud f dw n) - f' ((t.refill o).cloud f' dw n')| at u
  have l1 := mul_le_mul_of_nonneg_left (hg.near n n') h.total_nonneg
  have l2 := mul_le_mul_of_nonneg_left (hg.near (t.cloud f dw n) ((t.refill o).cloud f' dw n')) h.total_nonneg
  have cl : |t.cloud f dw n - (t.refill o).cloud f' dw n'| ≤ |n - n'| +
      |(held t.dens t.occ - held t.dens (t.first f dw n)) - (held t.dens o - held t.dens ((t.refill o).first f' dw n'))| := by
    have e : t.cloud f dw n - (t.refill o).cloud f' dw n' = (n - n') +
      ((held t.dens t.occ - held t.dens (t.first f dw n)) - (held t.dens o - held t.dens ((t.refill o).first f' dw n'))) := by
      unfold Ref.Slow.cloud
      change n + _ - (n' + (held t.dens o - held t.dens ((t.refill o).first f' dw n'))) = _
      ring
    rw [e]
    exact abs_add_le _ _
  have l3 := mul_le_mul_of_nonneg_left cl k0
  have tr := abs_add_le
    ((held t.dens t.occ - held t.dens (t.first f dw n)) - (held t.dens o - held t.dens ((t.refill o).first f' dw n')))
    ((held t.dens (t.first f dw n) - held t.dens (t.second f dw n)) -
      (held t.dens ((t.refill o).first f' dw n') - held t.dens ((t.refill o).second f' dw n')))
  rw [show ∀ a b c d e f : ℝ, (a - b - (c - d)) + (b - e - (d - f)) = (a - e) - (c - f) by intros; ring] at tr
  set P := |held t.dens t.occ - held t.dens (t.first f dw n) - (held t.dens o - held t.dens ((t.refill o).first f' dw n'))|
  set Q := |held t.dens (t.first f dw n) - held t.dens (t.second f dw n) -
      (held t.dens ((t.refill o).first f' dw n') - held t.dens ((t.refill o).second f' dw n'))|
  set G := |held t.dens t.occ - held t.dens (t.second f dw n) -
          (held t.dens o - held t.dens ((t.refill o).second f' dw n'))|
  have hQ : 0 ≤ Q := abs_nonneg _
  have hP : 0 ≤ P := abs_nonneg _
  have hG : 0 ≤ G := abs_nonneg _
  set κ := t.total * L
  have l4 : t.total * (L * |n - n'| + η) = κ * |n - n'| + t.total * η := by ring
  have l5 : t.total * (L * |t.cloud f dw n - (t.refill o).cloud f' dw n'| + η) =
    κ * |t.cloud f dw n - (t.refill o).cloud f' dw n'| + t.total * η := by ring
  rw [l4] at l1
  rw [l5] at l2
  have k1 := mul_nonneg k0 hP
  have k2 := mul_nonneg k0 hG
  have k3 := mul_le_mul_of_nonneg_left tr (by linarith : 0 ≤ 1 - 2 * κ)
  have k4 := mul_nonneg k0 hQ
  nlinarith

set_option maxHeartbeats 1000000 in
theorem clock_laws {t : Ref.Clocks} {dw : ℝ} {g : ℝ → Fin t.s → Option ℝ} {f f' : ℝ → ℝ} {L η : ℝ} (h : t.Reg) (h' : (t.reage g).Reg) (hd : 0 ≤ dw)
    (hf : LipFill f L) (hg : LawsNear f f' L η) (hL : 4 * (t.total * L) ≤ 1) (n n' : ℝ) :
    (1 - 4 * (t.total * L)) * |(held t.dens t.occ - held t.dens (t.next f dw n).occ) -
          (held t.dens (t.reage g).occ - held t.dens ((t.reage g).next f' dw n').occ)| +
        heldGap t.dens (t.next f dw n).occ ((t.reage g).next f' dw n').occ ≤
      heldGap t.dens t.occ (t.reage g).occ + 4 * (t.total * L) * |n - n'| + 4 * (t.total * η) := by
  have k0 := mul_nonneg h.total_nonneg hf.nonneg_slope
  have pw : ∀ d j, |(t.occ d j - t.later dw d j) - ((t.reage g).occ d j - (t.reage g).later dw d j)| +
      |t.later dw d j - (t.reage g).later dw d j| ≤ |t.occ d j - (t.reage g).occ d j| := by
    intro d j
    change |((t.age d j).elim 0 (t.law j) - (t.age d j).elim 0 fun a => t.law j (a + dw)) -
        ((g d j).elim 0 (t.law j) - (g d j).elim 0 fun a => t.law j (a + dw))| +
      |((t.age d j).elim 0 fun a => t.law j (a + dw)) - (g d j).elim 0 fun a => t.law j (a + dw)| ≤
      |(t.age d j).elim 0 (t.law j) - (g d j).elim 0 (t.law j)|
    have key : ∀ x X y Y : ℝ, x - X ≤ y - Y → X ≤ Y → |x - X - (y - Y)| + |X - Y| ≤ |x - y| := by
      intro x X y Y a b
      rw [abs_of_nonpos (by linarith), abs_of_nonpos (by linarith), abs_of_nonpos (by linarith)]
      linarith
    have key' : ∀ x X y Y : ℝ, y - Y ≤ x - X → Y ≤ X → |x - X - (y - Y)| + |X - Y| ≤ |x - y| := by
      intro x X y Y a b
      rw [abs_sub_comm (x - X), abs_sub_comm X, abs_sub_comm x]
      exact key y Y x X a b
    cases e : t.age d j with
    | none =>
      cases e' : g d j with
      | none => simp
      | some b =>
        have hb := h'.age d j b e'
        refine key _ _ _ _ ?_ ?_
        · simp only [Option.elim_none, Option.elim_some]
          linarith [h.anti j b (b + dw) hb (by linarith)]
        · simp only [Option.elim_none, Option.elim_some]
          exact (h.law j _ (add_nonneg hb hd)).1
    | some a =>
      have ha := h.age d j a e
      cases e' : g d j with
      | none =>
        refine key' _ _ _ _ ?_ ?_
        · simp only [Option.elim_none, Option.elim_some]
          linarith [h.anti j a (a + dw) ha (by linarith)]
        · simp only [Option.elim_none, Option.elim_some]
          exact (h.law j _ (add_nonneg ha hd)).1
      | some b =>
        have hb := h'.age d j b e'
        simp only [Option.elim_some]
        rcases le_total a b with hab | hab
        · exact key' _ _ _ _ (h.slower j a b dw ha hab hd) (h.anti j _ _ (by linarith) (by linarith))
        · exact key _ _ _ _ (h.slower j b a dw hb hab hd) (h.anti j _ _ (by linarith) (by linarith))
  have r := held_wait_lip h.dens h.occ h'.occ (h.parts hd) (h'.parts hd) pw
  have u := zones_lip h.dens (fun _ => fracMap_full) (fun _ => fracMap_id) (h.parts hd) (h'.parts hd)
    (z := f (t.cloud dw n)) (z' := f' ((t.reage g).cloud dw n')) ⟨hf.nonneg _, hf.le_one _⟩ ⟨hg.fill.nonneg _, hg.fill.le_one _⟩
  have e2 : @Eq (ℝ → Fin t.s → ℝ) _ _ := h'.next_occ hd f' n'
  have e1 : @Eq (ℝ → Fin t.s → ℝ) _ _ := h.next_occ hd f n
  have u := (congrArg₂ (fun X Y : ℝ → Fin t.s → ℝ => |(held t.dens (t.later dw) - held t.dens X) -
      (held t.dens ((t.reage g).later dw) - held t.dens Y)| + heldGap t.dens X Y) e1 e2).le.trans u
  change |(held t.dens (t.later dw) - held t.dens (t.next f dw n).occ) -
      (held t.dens ((t.reage g).later dw) - held t.dens ((t.reage g).next f' dw n').occ)| +
    heldGap t.dens (t.next f dw n).occ ((t.reage g).next f' dw n').occ ≤
      heldGap t.dens (t.later dw) ((t.reage g).later dw) +
        2 * t.total * |f (t.cloud dw n) - f' ((t.reage g).cloud dw n')| at u
  have l2 := mul_le_mul_of_nonneg_left (hg.near (t.cloud dw n) ((t.reage g).cloud dw n')) h.total_nonneg
  have cl : |t.cloud dw n - (t.reage g).cloud dw n'| ≤ |n - n'| +
      |(held t.dens t.occ - held t.dens (t.later dw)) - (held t.dens (t.reage g).occ - held t.dens ((t.reage g).later dw))| := by
    have e : t.cloud dw n - (t.reage g).cloud dw n' = (n - n') +
      ((held t.dens t.occ - held t.dens (t.later dw)) -
        (held t.dens (t.reage g).occ - held t.dens ((t.reage g).later dw))) := by
      unfold Ref.Clocks.cloud
      change n + _ - (n' + (held t.dens (t.reage g).occ - held t.dens ((t.reage g).later dw))) = _
      ring
    rw [e]
    exact abs_add_le _ _
  have l3 := mul_le_mul_of_nonneg_left cl k0
  have tr := abs_add_le
    ((held t.dens t.occ - held t.dens (t.later dw)) - (held t.dens (t.reage g).occ - held t.dens ((t.reage g).later dw)))
    ((held t.dens (t.later dw) - held t.dens (t.next f dw n).occ) -
      (held t.dens ((t.reage g).later dw) - held t.dens ((t.reage g).next f' dw n').occ))
  rw [show ∀ a b c d e f : ℝ, (a - b - (c - d)) + (b - e - (d - f)) = (a - e) - (c - f) by intros; ring] at tr
  set P := |held t.dens t.occ - held t.dens (t.later dw) - (held t.dens (t.reage g).occ - held t.dens ((t.reage g).later dw))|
  set Q := |held t.dens (t.later dw) - held t.dens (t.next f dw n).occ -
      (held t.dens ((t.reage g).later dw) - held t.dens ((t.reage g).next f' dw n').occ)|
  set G := |held t.dens t.occ - held t.dens (t.next f dw n).occ -
          (held t.dens (t.reage g).occ - held t.dens ((t.reage g).next f' dw n').occ)|
  have hQ : 0 ≤ Q := abs_nonneg _
  have hP : 0 ≤ P := abs_nonneg _
  have hG : 0 ≤ G := abs_nonneg _
  set κ := t.total * L
  have l5 : t.total * (L * |t.cloud dw n - (t.reage g).cloud dw n'| + η) =
    κ * |t.cloud dw n - (t.reage g).cloud dw n'| + t.total * η := by ring
  rw [l5] at l2
  have k2 := mul_nonneg k0 hG
  have k3 := mul_le_mul_of_nonneg_left tr (by linarith : 0 ≤ 1 - 2 * κ)
  have k4 := mul_nonneg k0 hQ
  have k5 := mul_nonneg k0 (abs_nonneg (n - n'))
  have k6 := mul_nonneg h.total_nonneg hg.gap_nonneg
  nlinarith

/-! ### groups -/

section groups
variable {dw L L' η T : ℝ} {f f' : ℝ → ℝ}

theorem Ref.MixNear.laws {t t' : Ref.MixTraps} {g : ℝ} (hf : LipFill f L) (hf' : LipFill f' L') (hg : LawsNear f f' L η)
    (h : Ref.MixNear dw t t' g) (ht : t.Reg dw) (hL : 4 * (t.total * L) ≤ 1) (hL' : t.total * L' ≤ 1) (n n' : ℝ) :
    ∃ g1, Ref.MixNear dw (Ref.MixTraps.transfer f dw t n).2 (Ref.MixTraps.transfer f' dw t' n').2 g1 ∧
      (1 - 4 * (t.total * L)) * |(Ref.MixTraps.transfer f dw t n).1 - (Ref.MixTraps.transfer f' dw t' n').1| + g1 ≤
        g + 4 * (t.total * L) * |n - n'| + 4 * (t.total * η) := by
  have k0 := mul_nonneg ht.total_nonneg hf.nonneg_slope
  have k1 := mul_nonneg ht.total_nonneg hg.gap_nonneg
  cases h with
  | inl t o h =>
    have hh : t.Reg dw := ht
    have hL1 : t.total * L ≤ 1 := by change 4 * (t.total * L) ≤ 1 at hL; change 0 ≤ t.total * L at k0; linarith
    have e1 := hh.transfer_plain hf hL1 n
    have e2 := h.transfer_plain hf' (t := t.refill o) hL' n'
    unfold Ref.MixTraps.transfer
    simp only [e1, e2]
    refine ⟨_, .inl (t.plain f dw n).2 ((t.refill o).plain f' dw n').2.occ (h.plain f' n'), ?_⟩
    change 0 ≤ t.total * L at k0
    change 0 ≤ t.total * η at k1
    change 4 * (t.total * L) ≤ 1 at hL
    have j := plain_laws hh h hf hg (by linarith) n n'
    change (1 - 4 * (t.total * L)) * |(t.plain f dw n).1 - ((t.refill o).plain f' dw n').1| + _ ≤
      _ + 4 * (t.total * L) * |n - n'| + 4 * (t.total * η)
    have a1 := mul_nonneg k0 (abs_nonneg ((t.plain f dw n).1 - ((t.refill o).plain f' dw n').1))
    have a2 := mul_nonneg k0 (abs_nonneg (n - n'))
    nlinarith
  | inr t o h =>
    have hh : t.Reg dw := ht
    unfold Ref.MixTraps.transfer
    simp only [Ref.Slow.transfer_eq]
    exact ⟨_, .inr (t.refill (t.second f dw n)) ((t.refill o).second f' dw n') (h.step f' n'), slow_laws hh h hf hg hL n n'⟩

theorem Ref.FullNear.laws {t t' : Ref.FullTraps} {g : ℝ} (hf : LipFill f L) (hf' : LipFill f' L') (hg : LawsNear f f' L η)
    (h : Ref.FullNear dw t t' g) (ht : t.Reg dw) (hL : 4 * (t.total * L) ≤ 1) (hL' : t.total * L' ≤ 1) (n n' : ℝ) :
    ∃ g1, Ref.FullNear dw (Ref.FullTraps.transfer f dw t n).2 (Ref.FullTraps.transfer f' dw t' n').2 g1 ∧
      (1 - 4 * (t.total * L)) * |(Ref.FullTraps.transfer f dw t n).1 - (Ref.FullTraps.transfer f' dw t' n').1| + g1 ≤
        g + 4 * (t.total * L) * |n - n'| + 4 * (t.total * η) := by
  cases h with
  | inl h =>
    obtain ⟨g1, a1, a2⟩ := h.laws hf hf' hg ht hL hL' n n'
    exact ⟨g1, .inl a1, a2⟩
  | inr t a h =>
    rw [Ref.FullTraps.transfer_inr t ht.1 ht.2 hf n, Ref.FullTraps.transfer_inr (t.reage a) h ht.2 hf' n']
    exact ⟨_, .inr (t.next f dw n) ((t.reage a).next f' dw n').age (h.next ht.2 f' n'),
      clock_laws ht.1 h ht.2 hf hg hL n n'⟩

theorem Ref.FullTwins.laws {ts ts' : List Ref.FullTraps} {g : ℝ} (hf : LipFill f L) (hf' : LipFill f' L')
    (hg : LawsNear f f' L η) (h : Ref.FullTwins dw ts ts' g) (hts : Ref.FullFew dw T ts) (hL : 4 * (T * L) ≤ 1)
    (hL' : T * L' ≤ 1) (n n' : ℝ) :
    ∃ g1, Ref.FullTwins dw (Ref.fullStep f dw ts n).2 (Ref.fullStep f' dw ts' n').2 g1 ∧
      (1 - 4 * (T * L)) * |(Ref.fullStep f dw ts n).1 - (Ref.fullStep f' dw ts' n').1| + g1 ≤
        g + 4 * (T * L) * |n - n'| + 4 * (T * η) := by
  induction h generalizing T with
  | nil =>
    have hT : T = 0 := by rw [← hts.total]; rfl
    exact ⟨0, .nil, by rw [hT]; simp [Ref.fullStep]⟩
  | @cons t t' ts ts' g g' h hs ih =>
    obtain ⟨h1, h2, h3⟩ := hts.split
    have k1 := mul_nonneg h1.total_nonneg hf.nonneg_slope
    have k2 := mul_nonneg (Ref.fullTotal_nonneg h2.reg) hf.nonneg_slope
    have k3 := mul_nonneg h1.total_nonneg hf'.nonneg_slope
    have k4 := mul_nonneg (Ref.fullTotal_nonneg h2.reg) hf'.nonneg_slope
    rw [← h3, add_mul] at hL hL'
    obtain ⟨g1, i1, i2⟩ := ih h2 (by linarith) (by linarith)
    obtain ⟨g2, j1, j2⟩ := h.laws hf hf' hg h1 (by linarith) (by linarith) n n'
    rw [Ref.fullStep_cons, Ref.fullStep_cons]
    refine ⟨g2 + g1, .cons j1 i1, ?_⟩
    rw [← h3, add_mul, add_mul]
    simp only
    have a2 := abs_add_le ((Ref.FullTraps.transfer f dw t n).1 - (Ref.FullTraps.transfer f' dw t' n').1)
      ((Ref.fullStep f dw ts n).1 - (Ref.fullStep f' dw ts' n').1)
    rw [show ∀ a b c d : ℝ, a - b + (c - d) = a + c - (b + d) by intros; ring] at a2
    have a3 := mul_le_mul_of_nonneg_left a2 (sub_nonneg.2 hL)
    have a4 := mul_nonneg k2 (abs_nonneg ((Ref.FullTraps.transfer f dw t n).1 - (Ref.FullTraps.transfer f' dw t' n').1))
    have a5 := mul_nonneg k1 (abs_nonneg ((Ref.fullStep f dw ts n).1 - (Ref.fullStep f' dw ts' n').1))
    nlinarith

end groups

/-! ### readouts -/

open Ref (stepRow stepPass stepReadout)

/-- Two ways of transfer that differ by `e` electrons, apart from what differences of the cloud and of the filling of the traps
account for. -/
structure Sway {σ : Type} (step step' : σ → ℝ → ℝ × σ) (Inv : σ → Prop) (near : σ → σ → ℝ → Prop) (l e : ℝ) : Prop where
  step : ∀ s s' g n n', Inv s → Inv s' → near s s' g → 0 ≤ n → 0 ≤ n' →
    ∃ g1, near (step s n).2 (step' s' n').2 g1 ∧ (1 - l) * |(step s n).1 - (step' s' n').1| + g1 ≤ g + l * |n - n'| + e

section sway
variable {σ : Type} {step step' : σ → ℝ → ℝ × σ} {Inv : σ → Prop} {near : σ → σ → ℝ → Prop} {mass : σ → ℝ}
  {l e l₁ l₂ T : ℝ}

theorem Sway.pass (D : Sway step step' Inv near l e) (h : Gentle step Inv near mass l₁ T)
    (h' : Gentle step' Inv near mass l₂ T) (hl1 : l ≤ 1) (R : ℕ) (todo : List (ℕ × ℝ)) :
    ∀ (x y : ℕ → ℝ) (s s' : σ) (g : ℝ), Inv s → Inv s' → near s s' g → (todo.map Prod.fst).Nodup →
      (∀ p ∈ todo, p.1 < R ∧ p.2 = 1) → (∀ r < R, 0 ≤ x r) → (∀ r < R, 0 ≤ y r) →
      (1 - l) * ∑ r ∈ Finset.range R, |((todo.foldl (stepRow step) (x, s)).1 r - x r) -
          ((todo.foldl (stepRow step') (y, s')).1 r - y r)| ≤
        g + l * (todo.map fun p => |x p.1 - y p.1|).sum + e * todo.length := by
  induction todo with
  | nil =>
    intro x y s s' g hs hs' hn _ _ hx hy
    simp only [List.foldl_nil, sub_self, abs_zero, Finset.sum_const_zero, List.map_nil, List.sum_nil, mul_zero, add_zero,
      List.length_nil, Nat.cast_zero]
    exact h.near_nonneg s s' g hs hn
  | cons p todo ih =>
    intro x y s s' g hs hs' hn hnd hp hx hy
    obtain ⟨p1, p2⟩ := hp p List.mem_cons_self
    have ex := h.row hs x (hx _ p1) p2
    have ey := h'.row hs' y (hy _ p1) p2
    obtain ⟨g1, n1, hg1⟩ := D.step s s' g (x p.1) (y p.1) hs hs' hn (hx _ p1) (hy _ p1)
    rw [List.map_cons, List.nodup_cons] at hnd
    rw [List.foldl_cons, List.foldl_cons, ex, ey]
    have hu0 := h.update_nonneg hs hx p1
    have hv0 := h'.update_nonneg hs' hy p1
    set u := Function.update x p.1 (x p.1 + (step s (x p.1)).1) with hu
    set v := Function.update y p.1 (y p.1 + (step' s' (y p.1)).1) with hv
    have i2 := ih u v _ _ g1 (h.inv s _ hs (hx _ p1)) (h'.inv s' _ hs' (hy _ p1)) n1 hnd.2
      (fun q hq => hp q (List.mem_cons_of_mem _ hq)) hu0 hv0
    have hne : ∀ q ∈ todo, q.1 ≠ p.1 := fun q hq h => hnd.1 (h ▸ List.mem_map_of_mem hq)
    have e1 : (todo.map fun q => |u q.1 - v q.1|) = todo.map fun q => |x q.1 - y q.1| :=
      List.map_congr_left fun q hq => by
        rw [hu, hv, Function.update_of_ne (hne q hq), Function.update_of_ne (hne q hq)]
    rw [e1] at i2
    have e2 : ∑ r ∈ Finset.range R, |(u r - x r) - (v r - y r)| = |(step s (x p.1)).1 - (step' s' (y p.1)).1| := by
      rw [Finset.sum_eq_single p.1]
      · rw [hu, hv, Function.update_self, Function.update_self, add_sub_cancel_left, add_sub_cancel_left]
      · intro r _ h
        rw [hu, hv, Function.update_of_ne h, Function.update_of_ne h]; simp
      · intro h; exact absurd (Finset.mem_range.2 p1) h
    have e3 : ∀ X Y : ℕ → ℝ, ∑ r ∈ Finset.range R, |(X r - x r) - (Y r - y r)| ≤
        ∑ r ∈ Finset.range R, |(X r - u r) - (Y r - v r)| + ∑ r ∈ Finset.range R, |(u r - x r) - (v r - y r)| := by
      intro X Y
      rw [← Finset.sum_add_distrib]
      refine Finset.sum_le_sum fun r _ => ?_
      rw [show (X r - x r) - (Y r - y r) = ((X r - u r) - (Y r - v r)) + ((u r - x r) - (v r - y r)) by ring]
      exact abs_add_le _ _
    refine (mul_le_mul_of_nonneg_left (e3 _ _) (sub_nonneg.2 hl1)).trans ?_
    rw [e2, mul_add, List.map_cons, List.sum_cons, List.length_cons, Nat.cast_add, Nat.cast_one]
    linarith

theorem Sway.readout (D : Sway step step' Inv near l e) (h : Gentle step Inv near mass l₁ T)
    (h' : Gentle step' Inv near mass l₂ T) (hl : 0 ≤ l) (hl1 : l < 1) (he : 0 ≤ e) (h₁ : 0 ≤ l₁) (h₁' : l₁ ≤ 1) (h₂ : 0 ≤ l₂)
    (h₂' : l₂ ≤ 1) (R : ℕ) {s : σ} (hs : Inv s) (passes : List (List (ℕ × ℝ)))
    (hnd : ∀ todo ∈ passes, (todo.map Prod.fst).Nodup) (hp : OnePasses R passes) :
    ∀ x y : ℕ → ℝ, (∀ r < R, 0 ≤ x r) → (∀ r < R, 0 ≤ y r) →
    colDist R (stepReadout step s passes x) (stepReadout step' s passes y) ≤
      (1 / (1 - l)) ^ passes.length * (colDist R x y + passes.length * (e * R)) := by
  have hc : 0 < 1 - l := by linarith
  have ha : 1 ≤ 1 / (1 - l) := by rw [le_div_iff₀ hc]; linarith
  induction passes with
  | nil => intro x y hx hy; simp [stepReadout]
  | cons todo passes ih =>
    intro x y hx hy
    have n1 := hnd todo List.mem_cons_self
    have p1 := hp todo List.mem_cons_self
    have a1 := (h.pass h₁ h₁' R todo x x s s 0 hs hs (h.near_refl s hs) n1 p1 hx hx).1
    have b1 := (h'.pass h₂ h₂' R todo y y s s 0 hs hs (h.near_refl s hs) n1 p1 hy hy).1
    have a2 := D.pass h h' hl1.le R todo x y s s 0 hs hs (h.near_refl s hs) n1 p1 hx hy
    have hT := todo_sum_le x y todo n1 fun p hp => (p1 p hp).1
    have hlen : (todo.length : ℝ) ≤ R := by
      have : (todo.map Prod.fst).length ≤ (List.range R).length :=
        (List.subperm_of_subset n1 fun r hr => by
          obtain ⟨p, hp, rfl⟩ := List.mem_map.1 hr
          exact List.mem_range.2 (p1 p hp).1).length_le
      rw [List.length_map, List.length_range] at this
      exact_mod_cast this
    have i := ih (fun t ht => hnd t (List.mem_cons_of_mem _ ht)) (fun t ht => hp t (List.mem_cons_of_mem _ ht))
      (stepPass step s x todo) (stepPass step' s y todo) a1 b1
    change colDist R (stepReadout step s passes (stepPass step s x todo)) (stepReadout step' s passes (stepPass step' s y todo)) ≤ _
    refine i.trans ?_
    change (1 - l) * ∑ r ∈ Finset.range R, |(stepPass step s x todo r - x r) - (stepPass step' s y todo r - y r)| ≤ _ at a2
    set u := stepPass step s x todo
    set v := stepPass step' s y todo
    have d1 : colDist R u v ≤ 1 / (1 - l) * (colDist R x y + e * R) := by
      have t1 : colDist R u v ≤ ∑ r ∈ Finset.range R, |(u r - x r) - (v r - y r)| + colDist R x y := by
        unfold colDist
        rw [← Finset.sum_add_distrib]
        refine Finset.sum_le_sum fun r _ => ?_
        rw [show u r - v r = ((u r - x r) - (v r - y r)) + (x r - y r) by ring]
        exact abs_add_le _ _
      rw [one_div, inv_mul_eq_div, le_div_iff₀ hc]
      have t2 := mul_le_mul_of_nonneg_right t1 hc.le
      have t3 := mul_le_mul_of_nonneg_left hT hl
      have t4 := mul_le_mul_of_nonneg_left hlen he
      nlinarith
    have hN : 0 ≤ (passes.length : ℝ) * (e * R) := mul_nonneg (Nat.cast_nonneg _) (mul_nonneg he (Nat.cast_nonneg _))
    have d2 := le_mul_of_one_le_left hN ha
    rw [List.length_cons, pow_succ, Nat.cast_add, Nat.cast_one, mul_assoc]
    refine mul_le_mul_of_nonneg_left ?_ (pow_nonneg (by linarith) _)
    linarith

end sway

/-- Two laws of filling, the same traps. -/
theorem full_sway {dw L L' η T l : ℝ} {f f' : ℝ → ℝ} (hf : LipFill f L) (hf' : LipFill f' L') (hg : LawsNear f f' L η)
    (hl : 4 * (T * L) ≤ l) (hl' : T * L' ≤ 1) (hl1 : l ≤ 1) :
    Sway (Ref.fullStep f dw) (Ref.fullStep f' dw) (Ref.FullFew dw T) (Ref.FullTwins dw) l (4 * (T * η)) :=
  ⟨fun s s' g n n' hs _ hn _ _ => by
    obtain ⟨g1, a1, a2⟩ := hn.laws hf hf' hg hs (hl.trans hl1) hl' n n'
    refine ⟨g1, a1, ?_⟩
    have b1 := mul_le_mul_of_nonneg_right hl (abs_nonneg ((Ref.fullStep f dw s n).1 - (Ref.fullStep f' dw s' n').1))
    have b2 := mul_le_mul_of_nonneg_right hl (abs_nonneg (n - n'))
    linarith⟩

/-- Laws that are close from `b` electrons on, made linear below. -/
theorem lift_near {f f' : ℝ → ℝ} {b L L' η : ℝ} (h : LawFrom f b L) (h' : LawFrom f' b L')
    (hη : ∀ n, b ≤ n → |f n - f' n| ≤ η) : LawsNear (liftFill f b) (liftFill f' b) L η := by
  have key : ∀ y, |liftFill f b y - liftFill f' b y| ≤ η := by
    intro y
    unfold liftFill
    by_cases hy : b ≤ y
    · rw [if_pos hy, if_pos hy]; exact hη y hy
    · rw [if_neg hy, if_neg hy]
      have hb := h.background
      have e : f b / b * max 0 y - f' b / b * max 0 y = (f b - f' b) * (max 0 y / b) := by ring
      have m1 : 0 ≤ max 0 y / b := div_nonneg (le_max_left _ _) hb.le
      have m2 : max 0 y / b ≤ 1 := (div_le_one hb).2 (max_le hb.le (not_le.1 hy).le)
      rw [e, abs_mul, abs_of_nonneg m1]
      exact (mul_le_of_le_one_right (abs_nonneg _) m2).trans (hη b le_rfl)
  refine ⟨h'.lip.toFillModel, fun x y => ?_⟩
  have := abs_add_le (liftFill f b x - liftFill f b y) (liftFill f b y - liftFill f' b y)
  rw [sub_add_sub_cancel] at this
  linarith [h.lip.abs_sub x y, key y]

end Arctic
