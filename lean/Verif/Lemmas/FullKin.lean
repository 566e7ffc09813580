import Verif.Lemmas.FullError

/-!
# Groups of slightly different traps of all classes
-/

set_option linter.unusedSectionVars false
set_option linter.unusedVariables false

namespace Arctic
open MeasureTheory

/-- The same fillings with other densities and fractions. -/
def Ref.Slow.vary (t : Ref.Slow) (dens : Fin t.s → ℝ) (take hold keep : ℝ → Fin t.s → ℝ) : Ref.Slow :=
  { t with dens := dens, take := take, hold := hold, keep := keep }

/-- Densities and fractions that are close to those of `t`. -/
structure Ref.Slow.NearTo (t : Ref.Slow) (dw ε : ℝ) (dens : Fin t.s → ℝ) (take hold keep : ℝ → Fin t.s → ℝ) : Prop where
  dens : NearDens ε t.dens dens
  keep : ∀ j, |t.keep dw j - keep dw j| ≤ ε * (1 - keep dw j)
  take : ∀ j, |t.take dw j - take dw j| ≤ 2 * ε
  hold : ∀ j, |t.hold dw j - hold dw j| ≤ 2 * ε

/-- One transfer of slightly different traps with capture timescales, filled equally before. -/
theorem slow_pert {dw ε L n : ℝ} {f : ℝ → ℝ} {t : Ref.Slow} {dens : Fin t.s → ℝ} {take hold keep : ℝ → Fin t.s → ℝ}
    (h : t.Reg dw) (h' : (t.vary dens take hold keep).Reg dw) (hf : LipFill f L) (h0 : 0 ≤ ε) (h1 : ε ≤ 1)
    (hn : t.NearTo dw ε dens take hold keep) (hL : 4 * ((t.vary dens take hold keep).total * L) ≤ 1) (hn0 : 0 ≤ n) :
    |(held t.dens t.occ - held t.dens (t.second f dw n)) -
        (held dens t.occ - held dens ((t.vary dens take hold keep).second f dw n))| +
      heldGap t.dens (t.second f dw n) ((t.vary dens take hold keep).second f dw n) ≤
      20 * ε * (3 * (held dens t.occ - held dens ((t.vary dens take hold keep).second f dw n)) +
        4 * ((t.vary dens take hold keep).total * L) * n) := by
  refine two_stage (x := t.occ) (X := t.first f dw n) (X' := (t.vary dens take hold keep).first f dw n) hf h0 h1 h.dens h'.dens
    hn.dens hL h.occ (h.first f n) (h'.first f n) (fun d j => ?_) (fun d j => ?_) h.swap h'.swap (fun j v v0 v1 => ?_) hn0
  · have q := h.occ.frac d j
    have k := (h'.keep j).2.2
    change (if d ≤ f n then 0 + 1 * t.occ d j else 0 + keep dw j * t.occ d j) ≤ t.occ d j
    have k' : keep dw j ≤ 1 := by
      have : 0 + keep dw j ≤ 1 := k
      linarith
    split
    · linarith
    · have := mul_le_mul_of_nonneg_right k' q.1
      linarith
  · have q := h.occ.frac d j
    change |(if d ≤ f n then 0 + 1 * t.occ d j else 0 + t.keep dw j * t.occ d j) -
      (if d ≤ f n then 0 + 1 * t.occ d j else 0 + keep dw j * t.occ d j)| ≤
      ε * (t.occ d j - if d ≤ f n then 0 + 1 * t.occ d j else 0 + keep dw j * t.occ d j)
    split
    · simp
    · have := mul_le_mul_of_nonneg_right (hn.keep j) q.1
      rw [show 0 + t.keep dw j * t.occ d j - (0 + keep dw j * t.occ d j) = (t.keep dw j - keep dw j) * t.occ d j by ring,
        abs_mul, abs_of_nonneg q.1]
      linarith
  · change |(t.take dw j + (t.hold dw j - t.take dw j) * v) - (take dw j + (hold dw j - take dw j) * v)| ≤ 2 * ε
    rw [show (t.take dw j + (t.hold dw j - t.take dw j) * v) - (take dw j + (hold dw j - take dw j) * v) =
      (t.take dw j - take dw j) * (1 - v) + (t.hold dw j - hold dw j) * v by ring]
    refine (abs_add_le _ _).trans ?_
    rw [abs_mul, abs_mul, abs_of_nonneg v0, abs_of_nonneg (sub_nonneg.2 v1)]
    have a1 := mul_le_mul_of_nonneg_right (hn.take j) (sub_nonneg.2 v1)
    have a2 := mul_le_mul_of_nonneg_right (hn.hold j) v0
    linarith

/-- The same ages with other densities and laws. -/
def Ref.Clocks.vary (t : Ref.Clocks) (dens : Fin t.s → ℝ) (law : Fin t.s → ℝ → ℝ) : Ref.Clocks :=
  { t with dens := dens, law := law }

/-- Laws whose difference changes by no more than `V` falls, which begins at `ε` at most. -/
structure LawGap {s : ℕ} (ε : ℝ) (law law' V : Fin s → ℝ → ℝ) : Prop where
  start : ∀ j, V j 0 ≤ ε
  nonneg : ∀ j x, 0 ≤ x → 0 ≤ V j x
  change : ∀ j x y, 0 ≤ x → x ≤ y → |(law j x - law j y) - (law' j x - law' j y)| ≤ V j x - V j y

theorem LawGap.le {s : ℕ} {ε : ℝ} {law law' V : Fin s → ℝ → ℝ} (h : LawGap ε law law' V) (j : Fin s) {x : ℝ} (hx : 0 ≤ x) :
    V j x ≤ ε := by
  have := (abs_nonneg _).trans (h.change j 0 x le_rfl hx)
  linarith [h.start j]

/-- A function of the time since the traps at a depth were filled. -/
noncomputable def aged {s : ℕ} (V : Fin s → ℝ → ℝ) (age : ℝ → Fin s → Option ℝ) (x : ℝ) : ℝ → Fin s → ℝ :=
  fun d j => (age d j).elim 0 fun a => V j (a + x)

/-- Ages after a transfer that fills traps up to the depth `z`. -/
noncomputable def agedTo {s : ℕ} (age : ℝ → Fin s → Option ℝ) (dw z : ℝ) : ℝ → Fin s → Option ℝ :=
  fun d j => if d ≤ z then some 0 else (age d j).map (· + dw)

theorem aged_to {s : ℕ} (V : Fin s → ℝ → ℝ) (age : ℝ → Fin s → Option ℝ) (dw z x : ℝ) (d : ℝ) (j : Fin s) :
    aged V (agedTo age dw z) x d j = if d ≤ z then V j x else aged V age (dw + x) d j := by
  unfold aged agedTo
  by_cases h : d ≤ z
  · simp [h]
  · simp only [h, if_false]
    cases age d j with
    | none => rfl
    | some a => simp only [Option.map_some, Option.elim_some, add_assoc]

/-- Sensible functions of the age. -/
structure AgedOk {s : ℕ} (V : Fin s → ℝ → ℝ) (age : ℝ → Fin s → Option ℝ) : Prop where
  ages : ∀ d j, ∀ a ∈ age d j, 0 ≤ a
  meas : ∀ x, 0 ≤ x → ∀ j, Measurable fun d => aged V age x d j

theorem AgedOk.next {s : ℕ} {V : Fin s → ℝ → ℝ} {age : ℝ → Fin s → Option ℝ} (h : AgedOk V age) {dw : ℝ} (hd : 0 ≤ dw)
    (z : ℝ) : AgedOk V (agedTo age dw z) := by
  refine ⟨fun d j a ha => ?_, fun x hx j => ?_⟩
  · unfold agedTo at ha
    split at ha
    · simp only [Option.mem_def, Option.some.injEq] at ha
      exact ha.le
    · rw [Option.mem_map] at ha
      obtain ⟨b, hb, rfl⟩ := ha
      exact add_nonneg (h.ages d j b hb) hd
  · simp only [aged_to]
    exact Measurable.ite measurableSet_Iic measurable_const (h.meas _ (add_nonneg hd hx) j)

theorem AgedOk.parts {s : ℕ} {V : Fin s → ℝ → ℝ} {age : ℝ → Fin s → Option ℝ} (h : AgedOk V age)
    (hV : ∀ j x, 0 ≤ x → 0 ≤ V j x ∧ V j x ≤ 1) {x : ℝ} (hx : 0 ≤ x) : FilledParts (aged V age x) := by
  refine ⟨fun d j => ?_, h.meas x hx⟩
  unfold aged
  cases e : age d j with
  | none => exact ⟨le_rfl, zero_le_one⟩
  | some a => exact hV j _ (add_nonneg (h.ages d j a e) hx)

theorem Ref.Clocks.next_age (t : Ref.Clocks) (f : ℝ → ℝ) (dw n : ℝ) :
    (t.next f dw n).age = agedTo t.age dw (f (t.cloud dw n)) := rfl

/-- One transfer of traps with slightly different densities and lifetimes, filled at the same times before. -/
theorem clock_pert {dw ε L n : ℝ} {f : ℝ → ℝ} {t : Ref.Clocks} {dens : Fin t.s → ℝ} {law V : Fin t.s → ℝ → ℝ}
    (h : t.Reg) (h' : (t.vary dens law).Reg) (hd : 0 ≤ dw) (hf : LipFill f L) (h0 : 0 ≤ ε) (h1 : ε ≤ 1)
    (hn : NearDens ε t.dens dens) (hV : LawGap ε t.law law V) (hm : AgedOk V t.age)
    (hL : 4 * ((t.vary dens law).total * L) ≤ 1) (hn0 : 0 ≤ n) :
    |(held t.dens t.occ - held t.dens (t.next f dw n).occ) -
        (held dens (t.vary dens law).occ - held dens ((t.vary dens law).next f dw n).occ)| +
      heldGap t.dens (t.next f dw n).occ (t.reage ((t.vary dens law).next f dw n).age).occ +
      6 * held dens (aged V ((t.vary dens law).next f dw n).age 0) ≤
      6 * held dens (aged V t.age 0) +
        20 * ε * (3 * (held dens (t.vary dens law).occ - held dens ((t.vary dens law).next f dw n).occ) +
          4 * ((t.vary dens law).total * L) * n) := by
  have hp : ∀ x, 0 ≤ x → FilledParts (aged V t.age x) := fun x hx =>
    hm.parts (fun j y hy => ⟨hV.nonneg j y hy, (hV.le j hy).trans h1⟩) hx
  have key := clock_stage (dens' := dens) (n := n) (V := fun j => V j 0) (x := t.occ) (X := t.later dw) (x' := (t.vary dens law).occ)
    (X' := (t.vary dens law).later dw) (v := aged V t.age 0) (vW := aged V t.age dw) hf h0 h1 h.dens h'.dens hn hL h.occ
    (h.parts hd) h'.occ (h'.parts hd) (hp 0 le_rfl) (hp dw hd) (h.later_le hd) (h'.later_le hd)
    (fun j => ⟨hV.nonneg j 0 le_rfl, hV.start j⟩) (fun d j => ?_) (fun d j => ?_) hn0
  · have e1 : @Eq (ℝ → Fin t.s → ℝ) (t.next f dw n).occ
      (zones (fun _ => 1) (fun _ => 0) (fun _ => 0) (fun _ => 1) (t.later dw)
        (f (n + (held t.dens t.occ - held t.dens (t.later dw))))) := h.next_occ hd f n
    have e2 : @Eq (ℝ → Fin t.s → ℝ) ((t.vary dens law).next f dw n).occ
      (zones (fun _ => 1) (fun _ => 0) (fun _ => 0) (fun _ => 1) ((t.vary dens law).later dw)
        (f (n + (held dens (t.vary dens law).occ - held dens ((t.vary dens law).later dw))))) := h'.next_occ hd f n
    have e3 : @Eq (ℝ → Fin t.s → ℝ) (t.reage ((t.vary dens law).next f dw n).age).occ
      (zones (fun _ => 1) (fun _ => 0) (fun _ => 0) (fun _ => 1) (t.later dw)
        (f (n + (held dens (t.vary dens law).occ - held dens ((t.vary dens law).later dw))))) := by
      have e := (h.wait hd).fill_occ (f (n + (held dens (t.vary dens law).occ - held dens ((t.vary dens law).later dw))))
      rw [← (t.wait dw).later_zero, Ref.Clocks.later_wait, add_zero] at e
      exact e
    have e4 : aged V ((t.vary dens law).next f dw n).age 0 =
      zones (fun j => V j 0) (fun _ => 0) (fun _ => 0) (fun _ => 1) (aged V t.age dw)
        (f (n + (held dens (t.vary dens law).occ - held dens ((t.vary dens law).later dw)))) := by
      funext d j
      refine (aged_to V t.age dw _ 0 d j).trans ?_
      unfold zones
      rw [add_zero]
      change (if d ≤ f (n + (held dens (t.vary dens law).occ - held dens ((t.vary dens law).later dw))) then _ else _) = _
      split <;> ring
    rw [← e4] at key
    have a1 := congrArg (held t.dens) e1
    have a2 := congrArg (held dens) e2
    have a3 := congrArg₂ (heldGap t.dens) e1 e3
    rw [← a1, ← a3] at key
    have key2 := key
    rw [← a2] at key2
    exact key2
  · change |((t.age d j).elim 0 (t.law j) - (t.age d j).elim 0 fun a => t.law j (a + dw)) -
      ((t.age d j).elim 0 (law j) - (t.age d j).elim 0 fun a => law j (a + dw))| ≤
      ((t.age d j).elim 0 fun a => V j (a + 0)) - (t.age d j).elim 0 fun a => V j (a + dw)
    cases e : t.age d j with
    | none => simp
    | some a =>
      simp only [Option.elim_some, add_zero]
      exact hV.change j a (a + dw) (h.age d j a e) (by linarith)
  · change |(t.age d j).elim 0 (t.law j) - (t.age d j).elim 0 (law j)| ≤ ε
    cases e : t.age d j with
    | none => simpa using h0
    | some a =>
      have ha := h.age d j a e
      simp only [Option.elim_some]
      have c := hV.change j 0 a le_rfl ha
      have s1 := h.start j
      have s2 : law j 0 = 1 := h'.start j
      rw [s1, s2, show (1 - t.law j a) - (1 - law j a) = -(t.law j a - law j a) by ring, abs_neg] at c
      linarith [hV.start j, hV.nonneg j a ha]

/-! ### groups of any class -/

/-- Slightly different traps, their fillings at distance `g`. -/
inductive Ref.FullKin (dw ε : ℝ) : Ref.FullTraps → Ref.FullTraps → ℝ → Prop
  | instant (t : Ref.Traps) (o : ℝ → Fin t.s → ℝ) (dens : Fin t.s → ℝ) (keep : ℝ → Fin t.s → ℝ)
      (h : ((t.refill o).vary dens keep).Reg dw) (hn : t.NearTo dw ε dens keep) :
      FullKin dw ε (.inl (.inl t)) (.inl (.inl ((t.refill o).vary dens keep))) (t.gap o)
  | slow (t : Ref.Slow) (o : ℝ → Fin t.s → ℝ) (dens : Fin t.s → ℝ) (take hold keep : ℝ → Fin t.s → ℝ)
      (h : ((t.refill o).vary dens take hold keep).Reg dw) (hn : t.NearTo dw ε dens take hold keep) :
      FullKin dw ε (.inl (.inr t)) (.inl (.inr ((t.refill o).vary dens take hold keep))) (heldGap t.dens t.occ o)
  | clock (t : Ref.Clocks) (a : ℝ → Fin t.s → Option ℝ) (dens : Fin t.s → ℝ) (law V : Fin t.s → ℝ → ℝ)
      (h : ((t.reage a).vary dens law).Reg) (hr : (t.reage a).Reg) (hn : NearDens ε t.dens dens)
      (hV : LawGap ε t.law law V) (hm : AgedOk V a) :
      FullKin dw ε (.inr t) (.inr ((t.reage a).vary dens law))
        (heldGap t.dens t.occ (t.reage a).occ + 6 * held dens (aged V a 0))

section kin
variable {dw L ε : ℝ} {f : ℝ → ℝ} {t t' : Ref.FullTraps}

theorem Ref.FullKin.nonneg {g : ℝ} (h : Ref.FullKin dw ε t t' g) (h1 : ε ≤ 1) (ht : t.Reg dw) : 0 ≤ g := by
  cases h with
  | instant t o dens keep h hn =>
    have hh : t.Reg dw := ht
    exact Ref.Traps.gap_nonneg hh o
  | slow t o dens take hold keep h hn =>
    have hh : t.Reg dw := ht
    exact heldGap_nonneg hh.dens _ _
  | clock t a dens law V h hr hn hV hm =>
    have a1 := heldGap_nonneg ht.1.dens t.occ (t.reage a).occ
    have a2 := held_nonneg h.dens (hm.parts (fun j y hy => ⟨hV.nonneg j y hy, (hV.le j hy).trans h1⟩) (le_refl (0 : ℝ)))
    have a3 : 0 ≤ held dens (aged V a 0) := a2
    linarith

/-- A difference of two kinds. -/
theorem kin_join {k X Y g g1 g2 b e : ℝ} (hk : 0 ≤ k) (hk1 : k ≤ 1) (h1 : (1 - k) * |X| + g1 ≤ g + b) (h2 : |Y| + g2 ≤ e) :
    (1 - k) * |X + Y| + (g1 + g2) ≤ g + b + e := by
  have a1 := mul_le_mul_of_nonneg_left (abs_add_le X Y) (sub_nonneg.2 hk1)
  have a2 := mul_nonneg hk (abs_nonneg Y)
  nlinarith

theorem Ref.FullKin.step {g : ℝ} (hf : LipFill f L) (h0 : 0 ≤ ε) (h1 : ε ≤ 1) (h : Ref.FullKin dw ε t t' g) (ht : t.Reg dw)
    (ht' : t'.Reg dw) (hL : 4 * (t.total * L) ≤ 1) (hL' : 4 * (t'.total * L) ≤ 1) (n : ℝ) {n' : ℝ} (hn' : 0 ≤ n') :
    ∃ g1, Ref.FullKin dw ε (Ref.FullTraps.transfer f dw t n).2 (Ref.FullTraps.transfer f dw t' n').2 g1 ∧
      (1 - 4 * (t.total * L)) * |(Ref.FullTraps.transfer f dw t n).1 - (Ref.FullTraps.transfer f dw t' n').1| + g1 ≤
        g + 4 * (t.total * L) * |n - n'| +
          20 * ε * (3 * (t'.filled - (Ref.FullTraps.transfer f dw t' n').2.filled) + 4 * (t'.total * L) * n') := by
  have k0 := mul_nonneg ht.total_nonneg hf.nonneg_slope
  have k0' := mul_nonneg ht'.total_nonneg hf.nonneg_slope
  cases h with
  | instant t o dens keep h hn =>
    have hh : t.Reg dw := ht
    change 0 ≤ t.total * L at k0
    change 4 * (t.total * L) ≤ 1 at hL
    set u := (t.refill o).vary dens keep with hu
    change 0 ≤ u.total * L at k0'
    change 4 * (u.total * L) ≤ 1 at hL'
    have hm := hh.refill h
    have e1 := hh.transfer_plain hf (by linarith) n
    have e2 := h.transfer_plain hf (by linarith) n'
    have j := plain_lip hh hm hf (by linarith) n n'
    have p := plain_pert (t := t.refill o) hm h hf (by change 2 * (t.total * L) ≤ 1; linarith) h0 h1 ⟨hn.dens, hn.keep⟩ n'
    have tri : (t.plain f dw n).2.gap (u.plain f dw n').2.occ ≤
        (t.plain f dw n).2.gap ((t.refill o).plain f dw n').2.occ +
          ((t.refill o).plain f dw n').2.gap (u.plain f dw n').2.occ :=
      Ref.Traps.gap_triangle (t := (t.plain f dw n).2) (o := ((t.refill o).plain f dw n').2.occ)
        (p := (u.plain f dw n').2.occ) (hh.plain f n) (hm.plain f n')
        ⟨hh.dens, hh.keep, (h.plain f n').frac, (h.plain f n').meas⟩
    have fl := h.plain_filled hf n'
    have infl := h.inflow_le hf hn'
    have o0 := h.outflow_nonneg
    have E1 : Ref.FullTraps.transfer f dw (.inl (.inl t)) n = ((t.plain f dw n).1, .inl (.inl (t.plain f dw n).2)) := by
      unfold Ref.FullTraps.transfer Ref.MixTraps.transfer
      simp only [e1]
    have E2 : Ref.FullTraps.transfer f dw (.inl (.inl u)) n' = ((u.plain f dw n').1, .inl (.inl (u.plain f dw n').2)) := by
      unfold Ref.FullTraps.transfer Ref.MixTraps.transfer
      simp only [e2]
    rw [E1, E2]
    refine ⟨_, .instant (t.plain f dw n).2 (u.plain f dw n').2.occ dens keep (h.plain f n') ⟨hn.dens, hn.keep⟩, ?_⟩
    change (1 - 4 * (t.total * L)) * |(t.plain f dw n).1 - (u.plain f dw n').1| + (t.plain f dw n).2.gap (u.plain f dw n').2.occ ≤
      t.gap o + 4 * (t.total * L) * |n - n'| +
        20 * ε * (3 * (u.filled - (u.plain f dw n').2.filled) + 4 * (u.total * L) * n')
    rw [fl]
    have j' : (1 - 4 * (t.total * L)) * |(t.plain f dw n).1 - ((t.refill o).plain f dw n').1| +
        (t.plain f dw n).2.gap ((t.refill o).plain f dw n').2.occ ≤ t.gap o + 4 * (t.total * L) * |n - n'| := by
      have a1 := mul_nonneg k0 (abs_nonneg ((t.plain f dw n).1 - ((t.refill o).plain f dw n').1))
      have a2 := mul_nonneg k0 (abs_nonneg (n - n'))
      nlinarith
    have p' : |((t.refill o).plain f dw n').1 - (u.plain f dw n').1| +
        ((t.refill o).plain f dw n').2.gap (u.plain f dw n').2.occ ≤ 10 * ε * (u.outflow dw + u.inflow f dw n') := p
    have c := kin_join (by linarith) hL j' p'
    rw [sub_add_sub_cancel] at c
    have cost : 10 * ε * (u.outflow dw + u.inflow f dw n') ≤
        20 * ε * (3 * (u.filled - (u.filled - u.outflow dw + u.inflow f dw n')) + 4 * (u.total * L) * n') := by
      have a1 : u.total * L * u.outflow dw ≤ 1 / 4 * u.outflow dw := mul_le_mul_of_nonneg_right (by linarith) o0
      have a2 := mul_nonneg k0' hn'
      have a3 : u.outflow dw + u.inflow f dw n' ≤
          2 * (3 * (u.filled - (u.filled - u.outflow dw + u.inflow f dw n')) + 4 * (u.total * L) * n') := by
        nlinarith
      have a4 := mul_le_mul_of_nonneg_left a3 h0
      linarith
    linarith
  | slow t o dens take hold keep h hn =>
    have hh : t.Reg dw := ht
    change 0 ≤ t.total * L at k0
    change 4 * (t.total * L) ≤ 1 at hL
    set u := (t.refill o).vary dens take hold keep with hu
    change 4 * (u.total * L) ≤ 1 at hL'
    have hm : (t.refill o).Reg dw := ⟨hh.dens, hh.keep, hh.swap, h.occ⟩
    have j := slow_lip hh hm hf hL n n'
    have p := slow_pert (t := t.refill o) hm h hf h0 h1 ⟨hn.dens, hn.keep, hn.take, hn.hold⟩ hL' hn'
    have tri : heldGap t.dens (t.second f dw n) (u.second f dw n') ≤
        heldGap t.dens (t.second f dw n) ((t.refill o).second f dw n') +
          heldGap t.dens ((t.refill o).second f dw n') (u.second f dw n') :=
      heldGap_triangle hh.dens (hh.step f n).occ (hm.step f n').occ (h.step f n').occ
    have E1 : Ref.FullTraps.transfer f dw (.inl (.inr t)) n =
        (held t.dens t.occ - held t.dens (t.second f dw n), .inl (.inr (t.refill (t.second f dw n)))) := by
      unfold Ref.FullTraps.transfer Ref.MixTraps.transfer
      simp only [Ref.Slow.transfer_eq]
    have E2 : Ref.FullTraps.transfer f dw (.inl (.inr u)) n' =
        (held u.dens u.occ - held u.dens (u.second f dw n'), .inl (.inr (u.refill (u.second f dw n')))) := by
      unfold Ref.FullTraps.transfer Ref.MixTraps.transfer
      simp only [Ref.Slow.transfer_eq]
    rw [E1, E2]
    refine ⟨_, .slow (t.refill (t.second f dw n)) (u.second f dw n') dens take hold keep (h.step f n')
      ⟨hn.dens, hn.keep, hn.take, hn.hold⟩, ?_⟩
    have c := kin_join (by linarith) hL j p
    have X : ∀ a b d : ℝ, a - b + (b - d) = a - d := by intros; ring
    have c' : (1 - 4 * (t.total * L)) * |(held t.dens t.occ - held t.dens (t.second f dw n)) -
        (held u.dens u.occ - held u.dens (u.second f dw n'))| +
        (heldGap t.dens (t.second f dw n) ((t.refill o).second f dw n') +
          heldGap t.dens ((t.refill o).second f dw n') (u.second f dw n')) ≤
        heldGap t.dens t.occ o + 4 * (t.total * L) * |n - n'| +
          20 * ε * (3 * (held u.dens u.occ - held u.dens (u.second f dw n')) + 4 * (u.total * L) * n') := by
      rw [← X (held t.dens t.occ - held t.dens (t.second f dw n)) (held t.dens o - held t.dens ((t.refill o).second f dw n'))
        (held u.dens u.occ - held u.dens (u.second f dw n'))]
      exact c
    change (1 - 4 * (t.total * L)) * |(held t.dens t.occ - held t.dens (t.second f dw n)) -
        (held u.dens u.occ - held u.dens (u.second f dw n'))| + heldGap t.dens (t.second f dw n) (u.second f dw n') ≤
        heldGap t.dens t.occ o + 4 * (t.total * L) * |n - n'| +
          20 * ε * (3 * (held u.dens u.occ - held u.dens (u.second f dw n')) + 4 * (u.total * L) * n')
    linarith
  | clock t a dens law V h hr hn hV hm =>
    have hd := ht.2
    have hh : t.Reg := ht.1
    change 0 ≤ t.total * L at k0
    change 4 * (t.total * L) ≤ 1 at hL
    set u := (t.reage a).vary dens law with hu
    change 4 * (u.total * L) ≤ 1 at hL'
    have j := clock_lip hh hr hd hf hL n n'
    have p := clock_pert (t := t.reage a) hr h hd hf h0 h1 hn hV hm hL' hn'
    have hrn : (t.reage (u.next f dw n').age).Reg := by
      refine ⟨hh.dens, hh.start, hh.law, hh.anti, hh.slower, (h.next hd f n').age, ?_⟩
      exact ((hr.wait hd).fill (f (u.cloud dw n'))).meas
    have tri : heldGap t.dens (t.next f dw n).occ (t.reage (u.next f dw n').age).occ ≤
        heldGap t.dens (t.next f dw n).occ ((t.reage a).next f dw n').occ +
          heldGap t.dens ((t.reage a).next f dw n').occ (t.reage (u.next f dw n').age).occ :=
      heldGap_triangle hh.dens (hh.next hd f n).occ (hr.next hd f n').occ hrn.occ
    rw [Ref.FullTraps.transfer_inr t hh hd hf n, Ref.FullTraps.transfer_inr u h hd hf n']
    refine ⟨_, .clock (t.next f dw n) (u.next f dw n').age dens law V (h.next hd f n') hrn hn hV (hm.next hd _), ?_⟩
    have p' : |(held t.dens (t.reage a).occ - held t.dens ((t.reage a).next f dw n').occ) -
        (held u.dens u.occ - held u.dens (u.next f dw n').occ)| +
        (heldGap t.dens ((t.reage a).next f dw n').occ (t.reage (u.next f dw n').age).occ +
          6 * held dens (aged V (u.next f dw n').age 0)) ≤
        6 * held dens (aged V a 0) +
          20 * ε * (3 * (held u.dens u.occ - held u.dens (u.next f dw n').occ) + 4 * (u.total * L) * n') := by
      rw [← add_assoc]
      exact p
    have c := kin_join (by linarith) hL j p'
    have X : ∀ a b d : ℝ, a - b + (b - d) = a - d := by intros; ring
    rw [X] at c
    change (1 - 4 * (t.total * L)) * |(held t.dens t.occ - held t.dens (t.next f dw n).occ) -
        (held u.dens u.occ - held u.dens (u.next f dw n').occ)| +
        (heldGap t.dens (t.next f dw n).occ (t.reage (u.next f dw n').age).occ +
          6 * held dens (aged V (u.next f dw n').age 0)) ≤
        heldGap t.dens t.occ (t.reage a).occ + 6 * held dens (aged V a 0) + 4 * (t.total * L) * |n - n'| +
          20 * ε * (3 * (held u.dens u.occ - held u.dens (u.next f dw n').occ) + 4 * (u.total * L) * n')
    linarith

end kin

/-! ### all groups -/

/-- Slightly different groups, their fillings at distance `g`. -/
inductive Ref.FullKins (dw ε : ℝ) : List Ref.FullTraps → List Ref.FullTraps → ℝ → Prop
  | nil : FullKins dw ε [] [] 0
  | cons {t t' : Ref.FullTraps} {ts ts' : List Ref.FullTraps} {g g' : ℝ} (h : Ref.FullKin dw ε t t' g)
      (hs : FullKins dw ε ts ts' g') : FullKins dw ε (t :: ts) (t' :: ts') (g + g')

section groups
variable {dw L T T' ε : ℝ} {f : ℝ → ℝ} {ts ts' : List Ref.FullTraps}

theorem Ref.FullKins.nonneg {g : ℝ} (h : Ref.FullKins dw ε ts ts' g) (h1 : ε ≤ 1) (hts : ∀ t ∈ ts, t.Reg dw) : 0 ≤ g := by
  induction h with
  | nil => exact le_rfl
  | cons h hs ih =>
    exact add_nonneg (h.nonneg h1 (hts _ List.mem_cons_self)) (ih fun x hx => hts x (List.mem_cons_of_mem _ hx))

theorem Ref.FullKins.step {g : ℝ} (hf : LipFill f L) (h0 : 0 ≤ ε) (h1 : ε ≤ 1) (h : Ref.FullKins dw ε ts ts' g)
    (hts : Ref.FullFew dw T ts) (hts' : Ref.FullFew dw T' ts') (hL : 4 * (T * L) ≤ 1) (hL' : 4 * (T' * L) ≤ 1) (n : ℝ) {n' : ℝ}
    (hn' : 0 ≤ n') :
    ∃ g1, Ref.FullKins dw ε (Ref.fullStep f dw ts n).2 (Ref.fullStep f dw ts' n').2 g1 ∧
      (1 - 4 * (T * L)) * |(Ref.fullStep f dw ts n).1 - (Ref.fullStep f dw ts' n').1| + g1 ≤ g + 4 * (T * L) * |n - n'| +
        20 * ε * (3 * (Ref.fullFilled ts' - Ref.fullFilled (Ref.fullStep f dw ts' n').2) + 4 * (T' * L) * n') := by
  induction h generalizing T T' with
  | nil =>
    have hT : T = 0 := by rw [← hts.total]; rfl
    have hT' : T' = 0 := by rw [← hts'.total]; rfl
    exact ⟨0, .nil, by rw [hT, hT']; simp [Ref.fullStep]⟩
  | @cons t t' ts ts' g g' h hs ih =>
    obtain ⟨a1, a2, a3⟩ := hts.split
    obtain ⟨b1, b2, b3⟩ := hts'.split
    have k1 := mul_nonneg a1.total_nonneg hf.nonneg_slope
    have k2 := mul_nonneg (Ref.fullTotal_nonneg a2.reg) hf.nonneg_slope
    have q1 := mul_nonneg b1.total_nonneg hf.nonneg_slope
    have q2 := mul_nonneg (Ref.fullTotal_nonneg b2.reg) hf.nonneg_slope
    rw [← a3, add_mul] at hL
    rw [← b3, add_mul] at hL'
    obtain ⟨g1, i1, i2⟩ := ih a2 b2 (by linarith) (by linarith)
    obtain ⟨g2, j1, j2⟩ := h.step hf h0 h1 a1 b1 (by linarith) (by linarith) n hn'
    rw [Ref.fullStep_cons, Ref.fullStep_cons]
    refine ⟨g2 + g1, .cons j1 i1, ?_⟩
    rw [← a3, ← b3, add_mul, add_mul]
    simp only [Ref.fullFilled_cons]
    have a2 := abs_add_le ((Ref.FullTraps.transfer f dw t n).1 - (Ref.FullTraps.transfer f dw t' n').1)
      ((Ref.fullStep f dw ts n).1 - (Ref.fullStep f dw ts' n').1)
    rw [show ∀ a b c d : ℝ, a - b + (c - d) = a + c - (b + d) by intros; ring] at a2
    have a3 := mul_le_mul_of_nonneg_left a2 (sub_nonneg.2 hL)
    have a4 := mul_nonneg k2 (abs_nonneg ((Ref.FullTraps.transfer f dw t n).1 - (Ref.FullTraps.transfer f dw t' n').1))
    have a5 := mul_nonneg k1 (abs_nonneg ((Ref.fullStep f dw ts n).1 - (Ref.fullStep f dw ts' n').1))
    nlinarith

/-- Slightly different groups drift apart slowly. -/
theorem full_drift {l : ℝ} (hf : LipFill f L) (h0 : 0 ≤ ε) (h1 : ε ≤ 1) (hl : 4 * (T * L) ≤ l) (hl' : 4 * (T' * L) ≤ l)
    (hl1 : l ≤ 1) : Drift (Ref.fullStep f dw) (Ref.FullFew dw T) (Ref.FullFew dw T') (Ref.FullKins dw ε) Ref.fullFilled l (20 * ε) := by
  refine ⟨fun s s' g hs hk => hk.nonneg h1 hs.reg, fun s s' g n n' hs hs' hk hn hn' => ?_⟩
  obtain ⟨g1, i1, i2⟩ := hk.step hf h0 h1 hs hs' (hl.trans hl1) (hl'.trans hl1) n hn'
  refine ⟨g1, i1, ?_⟩
  have a1 := mul_le_mul_of_nonneg_right hl (abs_nonneg ((Ref.fullStep f dw s n).1 - (Ref.fullStep f dw s' n').1))
  have a2 := mul_le_mul_of_nonneg_right hl (abs_nonneg (n - n'))
  have a3 := mul_le_mul_of_nonneg_left (mul_le_mul_of_nonneg_right hl' hn') (mul_nonneg (by norm_num : (0 : ℝ) ≤ 20) h0)
  linarith

end groups

end Arctic
