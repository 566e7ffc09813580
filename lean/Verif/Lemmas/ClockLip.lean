import Verif.Lemmas.MixOrder
import Verif.Spec.RefFull

/-!
# Traps with a distribution of lifetimes: Lipschitz bounds and order of a transfer
-/

set_option linter.unusedSectionVars false
set_option linter.unusedVariables false

namespace Arctic
open MeasureTheory

section waiting
variable {s : ℕ}

/-- A change of the occupancy that brings any two fractions closer by what one gives off more than the other. -/
theorem held_wait_lip {dens : Fin s → ℝ} (hd : ∀ j, 0 ≤ dens j) {x y X Y : ℝ → Fin s → ℝ} (hx : FilledParts x)
    (hy : FilledParts y) (hX : FilledParts X) (hY : FilledParts Y)
    (h : ∀ d j, |(x d j - X d j) - (y d j - Y d j)| + |X d j - Y d j| ≤ |x d j - y d j|) :
    |(held dens x - held dens X) - (held dens y - held dens Y)| + heldGap dens X Y ≤ heldGap dens x y := by
  rw [held_sub hx hX, held_sub hy hY, ← Finset.sum_sub_distrib]
  refine (add_le_add_left (Finset.abs_sum_le_sum_abs _ _) _).trans ?_
  unfold heldGap
  rw [← Finset.sum_add_distrib]
  refine Finset.sum_le_sum fun j _ => ?_
  rw [← mul_sub, abs_mul, abs_of_nonneg (hd j), ← mul_add]
  refine mul_le_mul_of_nonneg_left ?_ (hd j)
  have i1 := (hx.integrable j 0 1).sub (hX.integrable j 0 1)
  have i2 := (hy.integrable j 0 1).sub (hY.integrable j 0 1)
  rw [← intervalIntegral.integral_sub i1 i2]
  refine (add_le_add_left (intervalIntegral.abs_integral_le_integral_abs zero_le_one) _).trans ?_
  have i3 := (i1.sub i2).abs
  have i4 := ((hX.integrable j 0 1).sub (hY.integrable j 0 1)).abs
  have i5 := ((hx.integrable j 0 1).sub (hy.integrable j 0 1)).abs
  rw [← intervalIntegral.integral_add i3 i4]
  exact intervalIntegral.integral_mono_on zero_le_one (i3.add i4) i5 fun d _ => h d j

theorem held_wait_mono {dens : Fin s → ℝ} (hd : ∀ j, 0 ≤ dens j) {x y X Y : ℝ → Fin s → ℝ} (hx : FilledParts x)
    (hy : FilledParts y) (hX : FilledParts X) (hY : FilledParts Y) (h : ∀ d j, x d j - X d j ≤ y d j - Y d j) :
    held dens x - held dens X ≤ held dens y - held dens Y := by
  rw [held_sub hx hX, held_sub hy hY]
  exact Finset.sum_le_sum fun j _ => mul_le_mul_of_nonneg_left
    (intervalIntegral.integral_mono_on zero_le_one ((hx.integrable j 0 1).sub (hX.integrable j 0 1))
      ((hy.integrable j 0 1).sub (hY.integrable j 0 1)) fun d _ => h d j) (hd j)

end waiting

/-- Fractions of filled traps after a further time. -/
noncomputable def Ref.Clocks.later (t : Ref.Clocks) (x : ℝ) : ℝ → Fin t.s → ℝ :=
  fun d j => (t.age d j).elim 0 fun a => t.law j (a + x)

/-- Number of traps. -/
noncomputable def Ref.Clocks.total (t : Ref.Clocks) : ℝ := ∑ j, t.dens j

/-- The same traps, filled at other times. -/
def Ref.Clocks.reage (t : Ref.Clocks) (g : ℝ → Fin t.s → Option ℝ) : Ref.Clocks := { t with age := g }

/-- Densities that make sense, and traps that release the slower the longer they have been waiting. -/
structure Ref.Clocks.Reg (t : Ref.Clocks) : Prop where
  dens : ∀ j, 0 ≤ t.dens j
  start : ∀ j, t.law j 0 = 1
  law : ∀ j x, 0 ≤ x → 0 ≤ t.law j x ∧ t.law j x ≤ 1
  anti : ∀ j a b, 0 ≤ a → a ≤ b → t.law j b ≤ t.law j a
  slower : ∀ j a b x, 0 ≤ a → a ≤ b → 0 ≤ x → t.law j b - t.law j (b + x) ≤ t.law j a - t.law j (a + x)
  age : ∀ d j, ∀ a ∈ t.age d j, 0 ≤ a
  meas : ∀ x, 0 ≤ x → ∀ j, Measurable fun d => t.later x d j

section clocks
variable {t : Ref.Clocks} {dw : ℝ}

theorem Ref.Clocks.later_zero (t : Ref.Clocks) : t.later 0 = t.occ := by
  funext d j
  unfold Ref.Clocks.later Ref.Clocks.occ
  simp only [add_zero]

theorem Ref.Clocks.later_wait (t : Ref.Clocks) (dw x : ℝ) : (t.wait dw).later x = t.later (dw + x) := by
  funext d j
  change ((t.age d j).map (· + dw)).elim 0 (fun a => t.law j (a + x)) = (t.age d j).elim 0 fun a => t.law j (a + (dw + x))
  cases t.age d j with
  | none => rfl
  | some a => simp only [Option.map_some, Option.elim_some, add_assoc]

theorem Ref.Clocks.Reg.parts (h : t.Reg) {x : ℝ} (hx : 0 ≤ x) : FilledParts (t.later x) := by
  refine ⟨fun d j => ?_, h.meas x hx⟩
  unfold Ref.Clocks.later
  cases e : t.age d j with
  | none => exact ⟨le_rfl, zero_le_one⟩
  | some a => exact h.law j _ (add_nonneg (h.age d j a e) hx)

theorem Ref.Clocks.Reg.occ (h : t.Reg) : FilledParts t.occ := by
  rw [← t.later_zero]
  exact h.parts le_rfl

theorem Ref.Clocks.Reg.total_nonneg (h : t.Reg) : 0 ≤ t.total := Finset.sum_nonneg fun j _ => h.dens j

theorem Ref.Clocks.Reg.wait (h : t.Reg) (hd : 0 ≤ dw) : (t.wait dw).Reg := by
  refine ⟨h.dens, h.start, h.law, h.anti, h.slower, fun d j a ha => ?_, fun x hx j => ?_⟩
  · have ha' : a ∈ (t.age d j).map (· + dw) := ha
    rw [Option.mem_map] at ha'
    obtain ⟨b, hb, rfl⟩ := ha'
    exact add_nonneg (h.age d j b hb) hd
  · rw [Ref.Clocks.later_wait]
    exact h.meas _ (add_nonneg hd hx) j

theorem Ref.Clocks.Reg.fill (h : t.Reg) (z : ℝ) : (t.fill z).Reg := by
  refine ⟨h.dens, h.start, h.law, h.anti, h.slower, fun d j a ha => ?_, fun x hx j => ?_⟩
  · have ha' : a ∈ (if d ≤ z then some 0 else t.age d j) := ha
    split at ha'
    · simp only [Option.mem_def, Option.some.injEq] at ha'
      exact ha'.le
    · exact h.age d j a ha'
  · have e : (fun d => (t.fill z).later x d j) = fun d => if d ≤ z then t.law j x else t.later x d j := by
      funext d
      change (if d ≤ z then some (0 : ℝ) else t.age d j).elim 0 (fun a => t.law j (a + x)) = _
      split
      · simp
      · rfl
    rw [e]
    exact Measurable.ite measurableSet_Iic measurable_const (h.meas x hx j)

/-- Occupancy after capture. -/
theorem Ref.Clocks.Reg.fill_occ (h : t.Reg) (z : ℝ) :
    (t.fill z).occ = zones (fun _ => 1) (fun _ => 0) (fun _ => 0) (fun _ => 1) t.occ z := by
  funext d j
  change (if d ≤ z then some (0 : ℝ) else t.age d j).elim 0 (t.law j) = if d ≤ z then 1 + 0 * t.occ d j else 0 + 1 * t.occ d j
  split
  · have : t.law j 0 = 1 := h.start j
    simp [this]
  · simp [Ref.Clocks.occ]

theorem fracMap_full : FracMap 1 0 := ⟨zero_le_one, le_rfl, by norm_num⟩

theorem Ref.Clocks.Reg.vacant_eq (h : t.Reg) {z : ℝ} (hz : 0 ≤ z ∧ z ≤ 1) :
    t.vacant z = held t.dens (t.fill z).occ - held t.dens t.occ := by
  refine Eq.trans ?_ (held_sub (h.fill z).occ h.occ).symm
  unfold Ref.Clocks.vacant
  refine Finset.sum_congr rfl fun j _ => ?_
  congr 1
  have e : ∀ d, (t.fill z).occ d j - t.occ d j = if d ≤ z then 1 - t.occ d j else 0 := by
    intro d
    rw [h.fill_occ]
    unfold zones
    split <;> ring
  have i1 := intervalIntegrable_const (μ := volume) (a := (0 : ℝ)) (b := 1) (c := (1 : ℝ)) |>.sub (h.occ.integrable j 0 1)
  have i2 : IntervalIntegrable (fun d => if d ≤ z then 1 - t.occ d j else 0) volume 0 1 := by
    have := ((h.fill z).occ.integrable j 0 1).sub (h.occ.integrable j 0 1)
    simpa only [e] using this
  have := integral_upTo hz.1 hz.2 i1 i2
  simp only [e]
  exact this

/-- A transfer in terms of occupancies. -/
theorem Ref.Clocks.Reg.pass_eq (h : t.Reg) (hd : 0 ≤ dw) {f : ℝ → ℝ} {L : ℝ} (hf : LipFill f L) (n : ℝ) :
    t.pass f dw n = (held t.dens t.occ - held t.dens ((t.wait dw).fill
        (f (n + (held t.dens t.occ - held t.dens (t.later dw))))).occ,
      (t.wait dw).fill (f (n + (held t.dens t.occ - held t.dens (t.later dw))))) := by
  have e1 : (t.wait dw).occ = t.later dw := by
    rw [← Ref.Clocks.later_zero, Ref.Clocks.later_wait, add_zero]
  have e2 : (t.wait dw).filled = held t.dens (t.later dw) := by
    rw [← e1]; rfl
  have e3 : t.filled = held t.dens t.occ := rfl
  unfold Ref.Clocks.pass
  simp only [e2, e3]
  rw [(h.wait hd).vacant_eq ⟨hf.nonneg _, hf.le_one _⟩, e1]
  congr 1
  change _ - (held t.dens _ - held t.dens _) = _
  ring

/-- Cloud after the release. -/
noncomputable def Ref.Clocks.cloud (t : Ref.Clocks) (dw n : ℝ) : ℝ := n + (held t.dens t.occ - held t.dens (t.later dw))

/-- Traps after the capture. -/
noncomputable def Ref.Clocks.next (t : Ref.Clocks) (f : ℝ → ℝ) (dw n : ℝ) : Ref.Clocks := (t.wait dw).fill (f (t.cloud dw n))

theorem Ref.Clocks.Reg.pass_next (h : t.Reg) (hd : 0 ≤ dw) {f : ℝ → ℝ} {L : ℝ} (hf : LipFill f L) (n : ℝ) :
    t.pass f dw n = (held t.dens t.occ - held t.dens (t.next f dw n).occ, t.next f dw n) := h.pass_eq hd hf n

theorem Ref.Clocks.Reg.next (h : t.Reg) (hd : 0 ≤ dw) (f : ℝ → ℝ) (n : ℝ) : (t.next f dw n).Reg := (h.wait hd).fill _

theorem Ref.Clocks.Reg.next_occ (h : t.Reg) (hd : 0 ≤ dw) (f : ℝ → ℝ) (n : ℝ) :
    (t.next f dw n).occ = zones (fun _ => 1) (fun _ => 0) (fun _ => 0) (fun _ => 1) (t.later dw) (f (t.cloud dw n)) := by
  have e := (h.wait hd).fill_occ (f (t.cloud dw n))
  rw [← (t.wait dw).later_zero, Ref.Clocks.later_wait, add_zero] at e
  exact e

theorem Ref.Clocks.Reg.later_le (h : t.Reg) (hd : 0 ≤ dw) (d : ℝ) (j : Fin t.s) : t.later dw d j ≤ t.occ d j := by
  unfold Ref.Clocks.later Ref.Clocks.occ
  cases e : t.age d j with
  | none => exact le_rfl
  | some a => exact h.anti j a (a + dw) (h.age d j a e) (by linarith)

theorem Ref.Clocks.Reg.cloud_ge (h : t.Reg) (hd : 0 ≤ dw) (n : ℝ) : n ≤ t.cloud dw n := by
  have := held_mono h.dens (h.parts hd) h.occ (h.later_le hd)
  unfold Ref.Clocks.cloud
  linarith

/-- A transfer takes at most a fraction `total * L` of the cloud. -/
theorem Ref.Clocks.Reg.loss (h : t.Reg) (hd : 0 ≤ dw) {f : ℝ → ℝ} {L : ℝ} (hf : LipFill f L) (hL : t.total * L ≤ 1) {n : ℝ}
    (hn : 0 ≤ n) : -(t.total * L * n) ≤ held t.dens t.occ - held t.dens (t.next f dw n).occ ∧
      held t.dens (t.next f dw n).occ - held t.dens (t.later dw) ≤ t.cloud dw n := by
  have hc := h.cloud_ge hd n
  have h1 := zones_loss (c' := fun _ => 1) h.dens (fun _ => fracMap_full) (fun _ => fracMap_id) (h.parts hd)
    (z := f (t.cloud dw n)) ⟨hf.nonneg _, hf.le_one _⟩
  rw [← h.next_occ hd] at h1
  have h2 := hf.le_slope (t.cloud dw n)
  rw [max_eq_right (by linarith)] at h2
  have h3 := mul_le_mul_of_nonneg_left h2 h.total_nonneg
  have h4 := mul_le_mul_of_nonneg_right hL (by linarith : 0 ≤ t.cloud dw n - n)
  have h6 := mul_le_mul_of_nonneg_right hL (hn.trans hc)
  have h5 : t.cloud dw n - n = held t.dens t.occ - held t.dens (t.later dw) := by unfold Ref.Clocks.cloud; ring
  change -(t.total * f (t.cloud dw n)) ≤ _ at h1
  constructor
  · nlinarith
  · nlinarith

/-- If there are electrons enough, the transfer that may fail does not. -/
theorem Ref.Clocks.Reg.transfer_ok (h : t.Reg) (hd : 0 ≤ dw) {f : ℝ → ℝ} {L : ℝ} (hf : LipFill f L) (hL : t.total * L ≤ 1)
    {n : ℝ} (hn : 0 ≤ n) : t.transfer n dw f = .ok (t.pass f dw n) := by
  have e1 : (t.wait dw).occ = t.later dw := by
    rw [← Ref.Clocks.later_zero, Ref.Clocks.later_wait, add_zero]
  have e2 : (t.wait dw).filled = held t.dens (t.later dw) := by
    rw [← e1]; rfl
  have e3 : t.filled = held t.dens t.occ := rfl
  have e4 := (h.wait hd).vacant_eq (z := f (t.cloud dw n)) ⟨hf.nonneg _, hf.le_one _⟩
  rw [e1] at e4
  have h2 := (h.loss hd hf hL hn).2
  unfold Ref.Clocks.transfer Ref.Clocks.pass
  simp only [e2, e3]
  rw [if_pos]
  change (t.wait dw).vacant (f (t.cloud dw n)) ≤ max 0 (t.cloud dw n)
  rw [e4]
  exact h2.trans (le_max_right _ _)

/-- A transfer is Lipschitz in the charge and in the filling of the traps. -/
theorem clock_lip {g : ℝ → Fin t.s → Option ℝ} {f : ℝ → ℝ} {L : ℝ} (h : t.Reg) (h' : (t.reage g).Reg) (hd : 0 ≤ dw)
    (hf : LipFill f L) (hL : 4 * (t.total * L) ≤ 1) (n n' : ℝ) :
    (1 - 4 * (t.total * L)) * |(held t.dens t.occ - held t.dens (t.next f dw n).occ) -
          (held t.dens (t.reage g).occ - held t.dens ((t.reage g).next f dw n').occ)| +
        heldGap t.dens (t.next f dw n).occ ((t.reage g).next f dw n').occ ≤
      heldGap t.dens t.occ (t.reage g).occ + 4 * (t.total * L) * |n - n'| := by
  have k0 := mul_nonneg h.total_nonneg hf.nonneg_slope
  have pw : ∀ d j, |(t.occ d j - t.later dw d j) - ((t.reage g).occ d j - (t.reage g).later dw d j)| +
      |t.later dw d j - (t.reage g).later dw d j| ≤ |t.occ d j - (t.reage g).occ d j| := by
    intro d j
    change |((t.age d j).elim 0 (t.law j) - (t.age d j).elim 0 fun a => t.law j (a + dw)) -
        ((g d j).elim 0 (t.law j) - (g d j).elim 0 fun a => t.law j (a + dw))| +
      |((t.age d j).elim 0 fun a => t.law j (a + dw)) - (g d j).elim 0 fun a => t.law j (a + dw)| ≤
      |(t.age d j).elim 0 (t.law j) - (g d j).elim 0 (t.law j)|
    have key : ∀ x X y Y : ℝ, x - X ≤ y - Y → X ≤ Y → |x - X - (y - Y)| + |X - Y| ≤ |x - y| := by
      intro x X y Y a b
      rw [abs_of_nonpos (by linarith), abs_of_nonpos (by linarith), abs_of_nonpos (by linarith)]
      linarith
    have key' : ∀ x X y Y : ℝ, y - Y ≤ x - X → Y ≤ X → |x - X - (y - Y)| + |X - Y| ≤ |x - y| := by
      intro x X y Y a b
      rw [abs_sub_comm (x - X), abs_sub_comm X, abs_sub_comm x]
      exact key y Y x X a b
    cases e : t.age d j with
    | none =>
      cases e' : g d j with
      | none => simp
      | some b =>
        have hb := h'.age d j b e'
        refine key _ _ _ _ ?_ ?_
        · simp only [Option.elim_none, Option.elim_some]
          linarith [h.anti j b (b + dw) hb (by linarith)]
        · simp only [Option.elim_none, Option.elim_some]
          exact (h.law j _ (add_nonneg hb hd)).1
    | some a =>
      have ha := h.age d j a e
      cases e' : g d j with
      | none =>
        refine key' _ _ _ _ ?_ ?_
        · simp only [Option.elim_none, Option.elim_some]
          linarith [h.anti j a (a + dw) ha (by linarith)]
        · simp only [Option.elim_none, Option.elim_some]
          exact (h.law j _ (add_nonneg ha hd)).1
      | some b =>
        have hb := h'.age d j b e'
        simp only [Option.elim_some]
        rcases le_total a b with hab | hab
        · exact key' _ _ _ _ (h.slower j a b dw ha hab hd) (h.anti j _ _ (by linarith) (by linarith))
        · exact key _ _ _ _ (h.slower j b a dw hb hab hd) (h.anti j _ _ (by linarith) (by linarith))
  have r := held_wait_lip h.dens h.occ h'.occ (h.parts hd) (h'.parts hd) pw
  have u := zones_lip h.dens (fun _ => fracMap_full) (fun _ => fracMap_id) (h.parts hd) (h'.parts hd)
    (z := f (t.cloud dw n)) (z' := f ((t.reage g).cloud dw n')) ⟨hf.nonneg _, hf.le_one _⟩ ⟨hf.nonneg _, hf.le_one _⟩
  have e2 : @Eq (ℝ → Fin t.s → ℝ) _ _ := h'.next_occ hd f n'
  have e1 : @Eq (ℝ → Fin t.s → ℝ) _ _ := h.next_occ hd f n
  have u := (congrArg₂ (fun X Y : ℝ → Fin t.s → ℝ => |(held t.dens (t.later dw) - held t.dens X) -
      (held t.dens ((t.reage g).later dw) - held t.dens Y)| + heldGap t.dens X Y) e1 e2).le.trans u
  change |(held t.dens (t.later dw) - held t.dens (t.next f dw n).occ) -
      (held t.dens ((t.reage g).later dw) - held t.dens ((t.reage g).next f dw n').occ)| +
    heldGap t.dens (t.next f dw n).occ ((t.reage g).next f dw n').occ ≤
      heldGap t.dens (t.later dw) ((t.reage g).later dw) +
        2 * t.total * |f (t.cloud dw n) - f ((t.reage g).cloud dw n')| at u
  have l2 := mul_le_mul_of_nonneg_left (hf.abs_sub (t.cloud dw n) ((t.reage g).cloud dw n')) h.total_nonneg
  have cl : |t.cloud dw n - (t.reage g).cloud dw n'| ≤ |n - n'| +
      |(held t.dens t.occ - held t.dens (t.later dw)) - (held t.dens (t.reage g).occ - held t.dens ((t.reage g).later dw))| := by
    have e : t.cloud dw n - (t.reage g).cloud dw n' = (n - n') +
      ((held t.dens t.occ - held t.dens (t.later dw)) -
        (held t.dens (t.reage g).occ - held t.dens ((t.reage g).later dw))) := by
      unfold Ref.Clocks.cloud
      change n + _ - (n' + (held t.dens (t.reage g).occ - held t.dens ((t.reage g).later dw))) = _
      ring
    rw [e]
    exact abs_add_le _ _
  have l3 := mul_le_mul_of_nonneg_left cl k0
  have tr := abs_add_le
    ((held t.dens t.occ - held t.dens (t.later dw)) - (held t.dens (t.reage g).occ - held t.dens ((t.reage g).later dw)))
    ((held t.dens (t.later dw) - held t.dens (t.next f dw n).occ) -
      (held t.dens ((t.reage g).later dw) - held t.dens ((t.reage g).next f dw n').occ))
  rw [show ∀ a b c d e f : ℝ, (a - b - (c - d)) + (b - e - (d - f)) = (a - e) - (c - f) by intros; ring] at tr
  set P := |held t.dens t.occ - held t.dens (t.later dw) - (held t.dens (t.reage g).occ - held t.dens ((t.reage g).later dw))|
  set Q := |held t.dens (t.later dw) - held t.dens (t.next f dw n).occ -
      (held t.dens ((t.reage g).later dw) - held t.dens ((t.reage g).next f dw n').occ)|
  set G := |held t.dens t.occ - held t.dens (t.next f dw n).occ -
          (held t.dens (t.reage g).occ - held t.dens ((t.reage g).next f dw n').occ)|
  have hQ : 0 ≤ Q := abs_nonneg _
  have hP : 0 ≤ P := abs_nonneg _
  have hG : 0 ≤ G := abs_nonneg _
  set κ := t.total * L
  have l5 : t.total * (L * |t.cloud dw n - (t.reage g).cloud dw n'|) = κ * |t.cloud dw n - (t.reage g).cloud dw n'| := by ring
  rw [l5] at l2
  have k2 := mul_nonneg k0 hG
  have k3 := mul_le_mul_of_nonneg_left tr (by linarith : 0 ≤ 1 - 2 * κ)
  have k4 := mul_nonneg k0 hQ
  have k5 := mul_nonneg k0 (abs_nonneg (n - n'))
  nlinarith

/-- Filled later, at every depth. -/
def Ref.Clocks.Younger (t : Ref.Clocks) (g : ℝ → Fin t.s → Option ℝ) : Prop :=
  ∀ d j, ∀ a ∈ t.age d j, ∃ b ∈ g d j, b ≤ a

/-- A brighter cloud over younger traps leaves younger traps behind, and what it gains is not much less. -/
theorem clock_mono {g : ℝ → Fin t.s → Option ℝ} {f : ℝ → ℝ} {L : ℝ} (h : t.Reg) (h' : (t.reage g).Reg) (hd : 0 ≤ dw)
    (hy : t.Younger g) (hf : LipFill f L) (hL : t.total * L ≤ 1) {n n' : ℝ} (hn : n ≤ n') :
    (∀ d j, t.occ d j ≤ (t.reage g).occ d j) ∧ (t.next f dw n).Younger ((t.reage g).next f dw n').age ∧
      -(t.total * L * (n' - n)) ≤ (held t.dens (t.reage g).occ - held t.dens ((t.reage g).next f dw n').occ) -
        (held t.dens t.occ - held t.dens (t.next f dw n).occ) := by
  have k0 := mul_nonneg h.total_nonneg hf.nonneg_slope
  have older : ∀ x, 0 ≤ x → ∀ d j, t.later x d j ≤ (t.reage g).later x d j ∧
      t.occ d j - t.later x d j ≤ (t.reage g).occ d j - (t.reage g).later x d j := by
    intro x hx d j
    change (t.age d j).elim 0 (fun a => t.law j (a + x)) ≤ (g d j).elim 0 (fun a => t.law j (a + x)) ∧
      (t.age d j).elim 0 (t.law j) - (t.age d j).elim 0 (fun a => t.law j (a + x)) ≤
        (g d j).elim 0 (t.law j) - (g d j).elim 0 (fun a => t.law j (a + x))
    cases e : t.age d j with
    | none =>
      cases e' : g d j with
      | none => simp
      | some b =>
        have hb := h'.age d j b e'
        simp only [Option.elim_none, Option.elim_some]
        exact ⟨(h.law j _ (add_nonneg hb hx)).1, by linarith [h.anti j b (b + x) hb (by linarith)]⟩
    | some a =>
      obtain ⟨b, hb, hba⟩ := hy d j a e
      have e' : g d j = some b := hb
      have hb0 := h'.age d j b e'
      rw [e']
      simp only [Option.elim_some]
      exact ⟨h.anti j _ _ (by linarith) (by linarith), h.slower j b a x hb0 hba hx⟩
  have d1 := held_wait_mono h.dens h.occ h'.occ (h.parts hd) (h'.parts hd) fun d j => (older dw hd d j).2
  have hc : t.cloud dw n ≤ (t.reage g).cloud dw n' := by
    unfold Ref.Clocks.cloud
    change _ ≤ n' + (held t.dens (t.reage g).occ - held t.dens ((t.reage g).later dw))
    linarith
  have hm := hf.mono hc
  refine ⟨fun d j => ?_, ?_, ?_⟩
  · have := (older 0 le_rfl d j).1
    rwa [t.later_zero, (t.reage g).later_zero] at this
  · intro d j a ha
    change a ∈ (if d ≤ f (t.cloud dw n) then some (0 : ℝ) else (t.age d j).map (· + dw)) at ha
    change ∃ b ∈ (if d ≤ f ((t.reage g).cloud dw n') then some (0 : ℝ) else (g d j).map (· + dw)), b ≤ a
    have ha0 : 0 ≤ a := (h.next hd f n).age d j a ha
    by_cases h1 : d ≤ f ((t.reage g).cloud dw n')
    · exact ⟨0, by rw [if_pos h1]; rfl, ha0⟩
    · rw [if_neg h1]
      rw [if_neg (fun h2 => h1 (h2.trans hm)), Option.mem_map] at ha
      obtain ⟨c, hc, rfl⟩ := ha
      obtain ⟨b, hb, hbc⟩ := hy d j c hc
      exact ⟨b + dw, Option.mem_map.2 ⟨b, hb, rfl⟩, by linarith⟩
  · have d2 := zones_gain h.dens (fun _ => fracMap_full) (fun _ => fracMap_id) (h.parts hd) (h'.parts hd)
      (fun d j => (older dw hd d j).1) (hf.nonneg (t.cloud dw n)) hm (hf.le_one _)
    have e2 : @Eq (ℝ → Fin t.s → ℝ) _ _ := h'.next_occ hd f n'
    have e1 : @Eq (ℝ → Fin t.s → ℝ) _ _ := h.next_occ hd f n
    have d2 := d2.trans (congrArg₂ (fun X Y : ℝ → Fin t.s → ℝ => (held t.dens ((t.reage g).later dw) - held t.dens Y) -
      (held t.dens (t.later dw) - held t.dens X)) e1 e2).symm.le
    have l := mul_le_mul_of_nonneg_left (hf.lip _ _ hc) h.total_nonneg
    have ec : (t.reage g).cloud dw n' - t.cloud dw n = (n' - n) +
        ((held t.dens (t.reage g).occ - held t.dens ((t.reage g).later dw)) -
          (held t.dens t.occ - held t.dens (t.later dw))) := by
      unfold Ref.Clocks.cloud
      change n' + (held t.dens (t.reage g).occ - held t.dens ((t.reage g).later dw)) - _ = _
      ring
    change -(t.total * (f ((t.reage g).cloud dw n') - f (t.cloud dw n))) ≤ _ at d2
    set D := (held t.dens (t.reage g).occ - held t.dens ((t.reage g).later dw)) -
          (held t.dens t.occ - held t.dens (t.later dw)) with hD
    have hD0 : 0 ≤ D := by rw [hD]; linarith
    have e3 : t.total * (L * ((t.reage g).cloud dw n' - t.cloud dw n)) = t.total * L * (n' - n) + t.total * L * D := by
      rw [ec]; ring
    rw [e3] at l
    have g1 := mul_le_mul_of_nonneg_right hL hD0
    linarith

end clocks

end Arctic
