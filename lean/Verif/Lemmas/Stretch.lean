import Verif.Lemmas.WellFill
import Verif.Spec.Units
import Mathlib.MeasureTheory.Integral.IntervalIntegral.Basic

/-!
# Depths and charges on other scales

If all depths are multiplied by `ν`, all numbers of electrons by `s`, and the densities of traps per depth accordingly, the
reference simulation gives the same result up to the factor `s`. This needs no more from the filling law than
`f' (s n) = ν f n` for the clouds that occur.
-/

set_option linter.unusedSectionVars false
set_option linter.unusedVariables false

namespace Arctic
open MeasureTheory

namespace Ref

/-- The traps with depths times `ν` and `s / ν` times as many per pixel. -/
noncomputable def Traps.stretch (s ν : ℝ) (t : Traps) : Traps :=
  { t with dens := fun j => s / ν * t.dens j, occ := fun d j => t.occ (d / ν) j }

/-- No trap below the bottom of the pixel is filled. -/
def Traps.Shallow (t : Traps) : Prop := ∀ d j, 1 < d → t.occ d j = 0

/-- What holds of the traps during a readout. -/
structure Traps.Fit (dw : ℝ) (t : Traps) : Prop extends t.Reg dw where
  shallow : t.Shallow

section step
variable {s ν dw : ℝ} {t : Traps}

theorem Traps.Fit.integrable (h : t.Fit dw) (j : Fin t.s) (a b : ℝ) : IntervalIntegrable (fun d => t.occ d j) volume a b :=
  integrable_bdd 1 (h.meas j) (fun d => abs_le.2 ⟨by linarith [(h.frac d j).1], (h.frac d j).2⟩) a b

theorem Traps.Fit.release (h : t.Fit dw) : (t.release dw).Fit dw :=
  ⟨h.toReg.release, fun d j hd => by
    change t.occ d j * t.keep dw j = 0
    rw [h.shallow d j hd, zero_mul]⟩

theorem Traps.Fit.filled_stretch (h : t.Fit dw) (hν : 0 < ν) (hν1 : ν ≤ 1) : (t.stretch s ν).filled = s * t.filled := by
  unfold Traps.filled Traps.stretch
  rw [Finset.mul_sum]
  refine Finset.sum_congr rfl fun j _ => ?_
  simp only
  rw [intervalIntegral.integral_comp_div (fun d => t.occ d j) hν.ne', zero_div, smul_eq_mul]
  have h1 : 1 ≤ 1 / ν := by rw [le_div_iff₀ hν]; linarith
  have z : ∫ d in (1 : ℝ)..(1 / ν), t.occ d j = 0 := by
    refine intervalIntegral.integral_zero_ae (Filter.Eventually.of_forall fun d hd => ?_)
    rw [Set.uIoc_of_le h1] at hd
    exact h.shallow d j hd.1
  rw [← intervalIntegral.integral_add_adjacent_intervals (h.integrable j 0 1) (h.integrable j 1 (1 / ν)), z, add_zero]
  field_simp

theorem Traps.vacant_stretch (t : Traps) (hν : 0 < ν) (h : ℝ) : (t.stretch s ν).vacant (ν * h) = s * t.vacant h := by
  unfold Traps.vacant Traps.stretch
  rw [Finset.mul_sum]
  refine Finset.sum_congr rfl fun j _ => ?_
  simp only
  rw [intervalIntegral.integral_comp_div (fun d => 1 - t.occ d j) hν.ne', zero_div, smul_eq_mul, mul_div_cancel_left₀ _ hν.ne']
  field_simp

theorem Traps.capture_stretch (t : Traps) (hs : 0 < s) (hν : 0 < ν) (h a : ℝ) :
    (t.stretch s ν).capture (ν * h) (s * a) = (s * (t.capture h a).1, (t.capture h a).2.stretch s ν) := by
  have hd : ∀ d, d ≤ ν * h ↔ d / ν ≤ h := fun d => by rw [div_le_iff₀ hν, mul_comm]
  unfold Traps.capture
  simp only [t.vacant_stretch hν, mul_le_mul_iff_right₀ hs, mul_div_mul_left _ _ hs.ne']
  split
  · refine Prod.ext rfl ?_
    simp only [Traps.stretch, hd]
  · refine Prod.ext rfl ?_
    simp only [Traps.stretch, hd]
    congr 1
    funext d j
    rw [intervalIntegral.integral_comp_div (fun d => t.occ d j) hν.ne', zero_div, smul_eq_mul,
      mul_div_cancel_left₀ _ hν.ne', mul_div_mul_left _ _ hν.ne']

theorem Traps.Fit.transfer_stretch (ht : t.Fit dw) (hs : 0 < s) (hν : 0 < ν) (hν1 : ν ≤ 1) {f f' : ℝ → ℝ} {n : ℝ}
    (hf : f' (s * (n + t.outflow dw)) = ν * f (n + t.outflow dw)) :
    (t.stretch s ν).transfer f' dw (s * n) = (s * (t.transfer f dw n).1, (t.transfer f dw n).2.stretch s ν) := by
  have e1 : (t.stretch s ν).release dw = (t.release dw).stretch s ν := rfl
  have e2 : (t.stretch s ν).filled - ((t.stretch s ν).release dw).filled = s * t.outflow dw := by
    rw [e1, ht.filled_stretch hν hν1, ht.release.filled_stretch hν hν1]
    unfold Traps.outflow
    ring
  have e3 : max 0 (s * (n + t.outflow dw)) = s * max 0 (n + t.outflow dw) := by
    rw [mul_max_of_nonneg _ _ hs.le, mul_zero]
  unfold Traps.transfer
  simp only
  rw [e2, ← mul_add, hf, e3, e1, Traps.capture_stretch _ hs hν]
  refine Prod.ext ?_ rfl
  simp only
  unfold Traps.outflow
  ring

theorem Traps.Fit.mean (ht : t.Fit dw) {h : ℝ} (h0 : 0 ≤ h) (j : Fin t.s) :
    0 ≤ (∫ x in (0 : ℝ)..h, t.occ x j) / h ∧ (∫ x in (0 : ℝ)..h, t.occ x j) / h ≤ 1 := by
  have h1 : 0 ≤ ∫ x in (0 : ℝ)..h, t.occ x j := intervalIntegral.integral_nonneg h0 fun d _ => (ht.frac d j).1
  refine ⟨div_nonneg h1 h0, div_le_one_of_le₀ ?_ h0⟩
  have := intervalIntegral.integral_mono_on h0 (ht.integrable j 0 h) intervalIntegrable_const fun d _ => (ht.frac d j).2
  simpa using this

theorem Traps.Fit.capture (ht : t.Fit dw) {h a : ℝ} (h0 : 0 ≤ h) (h1 : h ≤ 1) (ha : 0 ≤ a) :
    (t.capture h a).2.Fit dw ∧ 0 ≤ (t.capture h a).1 ∧ (t.capture h a).1 ≤ t.total := by
  have hw0 : 0 ≤ t.vacant h := Finset.sum_nonneg fun j _ => mul_nonneg (ht.dens j)
    (intervalIntegral.integral_nonneg h0 fun d _ => sub_nonneg.2 (ht.frac d j).2)
  have hw1 : t.vacant h ≤ t.total := (ht.toReg.vacant_le h0).trans
    (mul_le_of_le_one_right ht.toReg.total_nonneg h1)
  have hmeas : ∀ (g : Fin t.s → ℝ) (j : Fin t.s), Measurable fun d => if d ≤ h then g j else t.occ d j := fun g j =>
    Measurable.ite measurableSet_Iic measurable_const (ht.meas j)
  unfold Traps.capture
  simp only
  split
  · refine ⟨⟨⟨ht.dens, ht.keep, fun d j => ?_, hmeas fun _ => 1⟩, fun d j hd => ?_⟩, hw0, hw1⟩
    · change 0 ≤ (if d ≤ h then (1 : ℝ) else t.occ d j) ∧ (if d ≤ h then (1 : ℝ) else t.occ d j) ≤ 1
      split
      · exact ⟨zero_le_one, le_rfl⟩
      · exact ht.frac d j
    · change (if d ≤ h then (1 : ℝ) else t.occ d j) = 0
      rw [if_neg (by linarith)]
      exact ht.shallow d j hd
  · rename_i hlt
    have hlt := not_le.1 hlt
    have hw : 0 < t.vacant h := ha.trans_lt hlt
    have q0 : 0 ≤ a / t.vacant h := div_nonneg ha hw.le
    have q1 : a / t.vacant h ≤ 1 := div_le_one_of_le₀ hlt.le hw.le
    refine ⟨⟨⟨ht.dens, ht.keep, fun d j => ?_, hmeas _⟩, fun d j hd => ?_⟩, ha, hlt.le.trans hw1⟩
    · obtain ⟨m0, m1⟩ := ht.mean h0 j
      change 0 ≤ (if d ≤ h then _ else t.occ d j : ℝ) ∧ (if d ≤ h then _ else t.occ d j : ℝ) ≤ 1
      split
      · constructor
        · have := mul_nonneg (sub_nonneg.2 q1) m0
          linarith
        · have := mul_le_mul_of_nonneg_left m1 (sub_nonneg.2 q1)
          linarith
      · exact ht.frac d j
    · change (if d ≤ h then _ else t.occ d j : ℝ) = 0
      rw [if_neg (by linarith)]
      exact ht.shallow d j hd

theorem Traps.Fit.outflow_le (ht : t.Fit dw) : t.outflow dw ≤ t.total := by
  rw [Traps.outflow_eq]
  refine Finset.sum_le_sum fun j _ => ?_
  have h1 : 0 ≤ ∫ x in (0 : ℝ)..1, t.occ x j := intervalIntegral.integral_nonneg zero_le_one fun d _ => (ht.frac d j).1
  have h2 : ∫ x in (0 : ℝ)..1, t.occ x j ≤ 1 := by
    have := (ht.mean zero_le_one j).2
    rwa [div_one] at this
  have hk := ht.keep j
  have : (1 - t.keep dw j) * ∫ x in (0 : ℝ)..1, t.occ x j ≤ 1 := by nlinarith
  calc t.dens j * (1 - t.keep dw j) * ∫ x in (0 : ℝ)..1, t.occ x j
      = t.dens j * ((1 - t.keep dw j) * ∫ x in (0 : ℝ)..1, t.occ x j) := by ring
    _ ≤ t.dens j * 1 := mul_le_mul_of_nonneg_left this (ht.dens j)
    _ = t.dens j := mul_one _

/-- A transfer keeps the traps in order and moves no more electrons than there are traps. -/
theorem Traps.Fit.transfer (ht : t.Fit dw) {f : ℝ → ℝ} (hf : FillModel f) (n : ℝ) :
    (t.transfer f dw n).2.Fit dw ∧ (t.transfer f dw n).2.total = t.total ∧ (t.transfer f dw n).1 ≤ t.total ∧
      -t.total ≤ (t.transfer f dw n).1 := by
  have ho := ht.toReg.outflow_nonneg
  have ho' := ht.outflow_le
  obtain ⟨c1, c2, c3⟩ := ht.release.capture (hf.nonneg (n + t.outflow dw)) (hf.le_one _)
    (le_max_left 0 (n + t.outflow dw))
  have c3' : ((t.release dw).capture (f (n + t.outflow dw)) (max 0 (n + t.outflow dw))).1 ≤ t.total := c3
  refine ⟨c1, ?_, ?_, ?_⟩
  · change ((t.release dw).capture _ _).2.total = t.total
    unfold Traps.capture
    simp only
    split <;> rfl
  · change t.outflow dw - ((t.release dw).capture (f (n + t.outflow dw)) (max 0 (n + t.outflow dw))).1 ≤ t.total
    linarith
  · change -t.total ≤ t.outflow dw - ((t.release dw).capture (f (n + t.outflow dw)) (max 0 (n + t.outflow dw))).1
    linarith

end step

/-! ### a column -/

section column
variable {s ν dw : ℝ} {f f' : ℝ → ℝ}

/-- The groups after a transfer. -/
theorem fits_after {ts : List Traps} (hts : ∀ t ∈ ts, t.Fit dw) (hf : FillModel f) (n : ℝ) :
    (∀ t ∈ (ts.map fun t => t.transfer f dw n).map Prod.snd, t.Fit dw) ∧
      totals ((ts.map fun t => t.transfer f dw n).map Prod.snd) = totals ts ∧
      ((ts.map fun t => t.transfer f dw n).map Prod.fst).sum ≤ totals ts ∧
      -totals ts ≤ ((ts.map fun t => t.transfer f dw n).map Prod.fst).sum := by
  induction ts with
  | nil => simp [totals]
  | cons t ts ih =>
    obtain ⟨i1, i2, i3, i4⟩ := ih fun t ht => hts t (List.mem_cons_of_mem _ ht)
    obtain ⟨j1, j2, j3, j4⟩ := (hts t List.mem_cons_self).transfer hf n
    unfold totals at i2 i3 i4 ⊢
    simp only [List.map_cons, List.sum_cons, List.mem_cons, forall_eq_or_imp]
    refine ⟨⟨j1, i1⟩, by rw [j2, i2], by linarith, by linarith⟩

theorem fits_stretch {ts : List Traps} (hts : ∀ t ∈ ts, t.Fit dw) (hs : 0 < s) (hν : 0 < ν) (hν1 : ν ≤ 1) {top : ℝ}
    (hff : ∀ n ≤ top, f' (s * n) = ν * f n) {n : ℝ} (hn : n + totals ts ≤ top) :
    (ts.map (Traps.stretch s ν)).map (fun t => t.transfer f' dw (s * n)) =
      ts.map fun t => (s * (t.transfer f dw n).1, (t.transfer f dw n).2.stretch s ν) := by
  rw [List.map_map]
  refine List.map_congr_left fun t ht => ?_
  refine (hts t ht).transfer_stretch hs hν hν1 (hff _ ?_)
  have h1 := (hts t ht).outflow_le
  have h2 : t.total ≤ totals ts := List.single_le_sum
    (fun x hx => by obtain ⟨u, hu, rfl⟩ := List.mem_map.1 hx; exact (hts u hu).toReg.total_nonneg) _ (List.mem_map_of_mem ht)
  linarith

theorem foldl_row_other (f : ℝ → ℝ) (dw : ℝ) (todo : List (ℕ × ℝ)) (r : ℕ) (h : ∀ q ∈ todo, r ≠ q.1) :
    ∀ st : (ℕ → ℝ) × List Traps, (todo.foldl (row f dw) st).1 r = st.1 r := by
  induction todo with
  | nil => intro st; rfl
  | cons p todo ih =>
    intro st
    rw [List.foldl_cons, ih fun q hq => h q (List.mem_cons_of_mem _ hq)]
    unfold row
    simp only
    split
    · rfl
    · rw [Function.update_of_ne (h p List.mem_cons_self)]

/-- One pass: the same for the stretched traps, and no pixel gains more than `M` times all traps. -/
theorem foldl_stretch (hs : 0 < s) (hν : 0 < ν) (hν1 : ν ≤ 1) (hf : FillModel f) {top T M : ℝ} (hM : 0 ≤ M)
    (hff : ∀ n ≤ top, f' (s * n) = ν * f n) (todo : List (ℕ × ℝ)) (hnd : (todo.map Prod.fst).Nodup)
    (hm : ∀ p ∈ todo, 0 ≤ p.2 ∧ p.2 ≤ M) :
    ∀ (x : ℕ → ℝ) (ts : List Traps), (∀ t ∈ ts, t.Fit dw) → totals ts = T → 0 ≤ T → (∀ p ∈ todo, max 0 (x p.1) + T ≤ top) →
      (todo.foldl (row f' dw) (fun r => s * x r, ts.map (Traps.stretch s ν))).1 =
          (fun r => s * (todo.foldl (row f dw) (x, ts)).1 r) ∧
        (∀ r, max 0 ((todo.foldl (row f dw) (x, ts)).1 r) ≤ max 0 (x r) + M * T) ∧
        ∀ r, x r - M * T ≤ (todo.foldl (row f dw) (x, ts)).1 r := by
  induction todo with
  | nil =>
    intro x ts _ _ hT _
    have := mul_nonneg hM hT
    exact ⟨rfl, fun r => by simp only [List.foldl_nil]; linarith, fun r => by simp only [List.foldl_nil]; linarith⟩
  | cons p todo ih =>
    intro x ts hts hT hT0 htop
    obtain ⟨a1, a2, a3, a4⟩ := fits_after hts hf (x p.1)
    have hp := hm p List.mem_cons_self
    have hxp : x p.1 ≤ max 0 (x p.1) := le_max_right _ _
    have hst := fits_stretch (dw := dw) (f := f) hts hs hν hν1 hff (n := x p.1)
      (by rw [hT]; linarith [htop p List.mem_cons_self])
    set g := ((ts.map fun t => t.transfer f dw (x p.1)).map Prod.fst).sum with hg
    set ts' := (ts.map fun t => t.transfer f dw (x p.1)).map Prod.snd with hts'
    set x' : ℕ → ℝ := if p.2 = 0 then x else Function.update x p.1 (max 0 (x p.1 + g * p.2)) with hx'
    have r1 : row f dw (x, ts) p = (x', ts') := rfl
    have r2 : row f' dw (fun r => s * x r, ts.map (Traps.stretch s ν)) p =
        (fun r => s * x' r, ts'.map (Traps.stretch s ν)) := by
      unfold row
      simp only
      rw [hst, List.map_map, List.map_map]
      have e1 : (ts.map (Prod.fst ∘ fun t => (s * (t.transfer f dw (x p.1)).1, (t.transfer f dw (x p.1)).2.stretch s ν))).sum =
          s * g := by
        rw [hg, List.map_map, ← List.sum_map_mul_left]
        rfl
      have e2 : ts.map (Prod.snd ∘ fun t => (s * (t.transfer f dw (x p.1)).1, (t.transfer f dw (x p.1)).2.stretch s ν)) =
          ts'.map (Traps.stretch s ν) := by
        rw [hts', List.map_map, List.map_map]
        rfl
      rw [e1, e2]
      refine Prod.ext ?_ rfl
      simp only
      rw [hx']
      split
      · rfl
      · funext r
        by_cases hr : r = p.1
        · subst hr
          rw [Function.update_self, Function.update_self, mul_max_of_nonneg _ _ hs.le, mul_zero]
          congr 1
          ring
        · rw [Function.update_of_ne hr, Function.update_of_ne hr]
    have hMT := mul_nonneg hM hT0
    have gM : g * p.2 ≤ M * T ∧ -(M * T) ≤ g * p.2 := by
      rw [← hT] at hMT ⊢
      have hT0' : 0 ≤ totals ts := by rw [hT]; exact hT0
      constructor
      · calc g * p.2 ≤ totals ts * p.2 := mul_le_mul_of_nonneg_right a3 hp.1
          _ ≤ totals ts * M := mul_le_mul_of_nonneg_left hp.2 hT0'
          _ = M * totals ts := mul_comm _ _
      · have h1 := mul_le_mul_of_nonneg_right a4 hp.1
        have h2 := mul_le_mul_of_nonneg_left hp.2 hT0'
        linarith
    have bound : ∀ r, max 0 (x' r) ≤ max 0 (x r) + M * T := by
      intro r
      rw [hx']
      split
      · linarith
      · by_cases hr : r = p.1
        · subst hr
          rw [Function.update_self, max_eq_right (le_max_left _ _)]
          refine max_le (by linarith [le_max_left 0 (x p.1)]) (by linarith [gM.1])
        · rw [Function.update_of_ne hr]
          linarith
    have low : ∀ r, x r - M * T ≤ x' r := by
      intro r
      rw [hx']
      split
      · linarith
      · by_cases hr : r = p.1
        · subst hr
          rw [Function.update_self]
          exact le_trans (by linarith [gM.2]) (le_max_right _ _)
        · rw [Function.update_of_ne hr]
          linarith
    have other : ∀ r, r ≠ p.1 → x' r = x r := by
      intro r hr
      rw [hx']
      split
      · rfl
      · rw [Function.update_of_ne hr]
    rw [List.map_cons, List.nodup_cons] at hnd
    have hmem : ∀ q ∈ todo, q.1 ≠ p.1 := fun q hq e => hnd.1 (by rw [← e]; exact List.mem_map_of_mem hq)
    have keep : ∀ r, r = p.1 → (todo.foldl (row f dw) (x', ts')).1 r = x' r := by
      intro r hr
      exact foldl_row_other f dw todo r (fun q hq e => hmem q hq (e.symm.trans hr)) (x', ts')
    obtain ⟨i1, i2, i3⟩ := ih hnd.2 (fun q hq => hm q (List.mem_cons_of_mem _ hq)) x' ts' a1 (a2.trans hT) hT0
      (fun q hq => by rw [other q.1 (hmem q hq)]; exact htop q (List.mem_cons_of_mem _ hq))
    rw [List.foldl_cons, List.foldl_cons, r1, r2]
    refine ⟨i1, fun r => ?_, fun r => ?_⟩
    · by_cases hr : r = p.1
      · rw [keep r hr]; exact bound r
      · have := i2 r
        rwa [other r hr] at this
    · by_cases hr : r = p.1
      · rw [keep r hr]; exact low r
      · have := i3 r
        rwa [other r hr] at this

/-- A readout: stretched traps and charges give the stretched result, and a pixel changes by no more than all traps in every
pass. -/
theorem readout_stretch (hs : 0 < s) (hν : 0 < ν) (hν1 : ν ≤ 1) (hf : FillModel f) {top M : ℝ} (hM : 0 ≤ M)
    (hff : ∀ n ≤ top, f' (s * n) = ν * f n) {ts : List Traps} (hts : ∀ t ∈ ts, t.Fit dw) (R : ℕ)
    (passes : List (List (ℕ × ℝ))) (hp : GoodPasses R M passes) :
    ∀ x : ℕ → ℝ, (∀ r < R, max 0 (x r) + (passes.length * M + 1) * totals ts ≤ top) →
      readout f' dw (ts.map (Traps.stretch s ν)) passes (fun r => s * x r) = (fun r => s * readout f dw ts passes x r) ∧
        (∀ r, max 0 (readout f dw ts passes x r) ≤ max 0 (x r) + passes.length * M * totals ts) ∧
        ∀ r, x r - passes.length * M * totals ts ≤ readout f dw ts passes x r := by
  have hT : 0 ≤ totals ts := totals_nonneg (dw := dw) fun t ht => (hts t ht).toReg
  induction passes with
  | nil =>
    intro x _
    refine ⟨rfl, fun r => ?_, fun r => ?_⟩ <;> simp [readout]
  | cons todo passes ih =>
    intro x hx
    have hMT := mul_nonneg hM hT
    have hlen := mul_nonneg (Nat.cast_nonneg (α := ℝ) passes.length) hMT
    simp only [List.length_cons, Nat.cast_add, Nat.cast_one] at hx ⊢
    obtain ⟨p1, p2, p3⟩ := foldl_stretch (dw := dw) hs hν hν1 hf hM hff todo (hp.nodup todo List.mem_cons_self)
      (fun p hpt => (hp.mult todo List.mem_cons_self p hpt).2) x ts hts rfl hT (fun p hpt => by
        have := hx p.1 (hp.mult todo List.mem_cons_self p hpt).1
        nlinarith)
    have hp' : GoodPasses R M passes :=
      ⟨fun t ht => hp.nodup t (List.mem_cons_of_mem _ ht), fun t ht => hp.mult t (List.mem_cons_of_mem _ ht)⟩
    have cons : ∀ (g : ℝ → ℝ) (us : List Traps) (y : ℕ → ℝ), readout g dw us (todo :: passes) y =
        readout g dw us passes (todo.foldl (row g dw) (y, us)).1 := fun g us y => by
      unfold readout pass; rw [List.foldl_cons]
    obtain ⟨i1, i2, i3⟩ := ih hp' (todo.foldl (row f dw) (x, ts)).1 (fun r hr => by
      have := hx r hr
      have := p2 r
      nlinarith)
    rw [cons, cons, p1]
    refine ⟨i1, fun r => (i2 r).trans ?_, fun r => le_trans ?_ (i3 r)⟩
    · have := p2 r
      nlinarith
    · have := p3 r
      nlinarith

end column

end Ref

end Arctic
