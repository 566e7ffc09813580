import Verif.Props.InvertSlow
import Verif.Lemmas.StepColumnOn

/-!
# C103 — CTI from traps of all classes can be undone

`add_cti` with groups of instant-capture traps, of traps with a capture timescale and of traps with a distribution of
lifetimes, against a reference simulation of each column or row, and what follows for `remove_cti`.
-/

set_option linter.unusedSectionVars false
set_option linter.unusedVariables false

namespace Arctic
open MeasureTheory Set

/-- Traps that have been filled for longer release less in a given time. -/
theorem Trap.Sensible.slower {t : Trap} (h : t.Sensible) {a b x : ℝ} (ha : 0 ≤ a) (hab : a ≤ b) (hx : 0 ≤ x) :
    t.fillFraction b - t.fillFraction (b + x) ≤ t.fillFraction a - t.fillFraction (a + x) := by
  have hexp : ∀ τ : ℝ, 0 < τ → Real.exp (-b / τ) - Real.exp (-(b + x) / τ) ≤ Real.exp (-a / τ) - Real.exp (-(a + x) / τ) := by
    intro τ hτ
    have e : ∀ y, Real.exp (-y / τ) - Real.exp (-(y + x) / τ) = Real.exp (-y / τ) * (1 - Real.exp (-x / τ)) := by
      intro y
      rw [show -(y + x) / τ = -y / τ + -x / τ by ring, Real.exp_add]
      ring
    rw [e, e]
    refine mul_le_mul_of_nonneg_right (Real.exp_le_exp.2 ?_) (sub_nonneg.2 (Real.exp_le_one_iff.2 ?_))
    · rw [div_le_div_iff_of_pos_right hτ]; linarith
    · exact div_nonpos_of_nonpos_of_nonneg (by linarith) hτ.le
  cases t with
  | trap d τ c p => exact hexp τ h.2
  | instant d τ p => exact hexp τ h.2
  | continuum d dist mu sigma =>
    have hl := h.2.2
    have hb := ha.trans hab
    simp only [Trap.fillFraction]
    rw [← integral_sub (hl.integrable_exp hb) (hl.integrable_exp (add_nonneg hb hx)),
      ← integral_sub (hl.integrable_exp ha) (hl.integrable_exp (add_nonneg ha hx))]
    refine setIntegral_mono_on ((hl.integrable_exp hb).sub (hl.integrable_exp (add_nonneg hb hx)))
      ((hl.integrable_exp ha).sub (hl.integrable_exp (add_nonneg ha hx))) measurableSet_Ioi fun τ hτ => ?_
    have := mul_le_mul_of_nonneg_left (hexp τ hτ) (hl.nonneg τ hτ)
    linarith

/-- The traps of a group with a distribution of lifetimes, never filled. -/
noncomputable def Ref.clocksOf (l : List Trap) : Ref.Clocks :=
  ⟨l.length, fun j => l[j].density, fun j => l[j].fillFraction, fun _ _ => none⟩

/-- Empty traps: the first trap of the group decides how they are simulated. -/
noncomputable def Ref.fullOf (l : List Trap) : Ref.FullTraps :=
  match l with
  | .continuum .. :: _ => .inr (Ref.clocksOf l)
  | _ => .inl (Ref.mixOf l)

theorem Ref.everyOf_full (l : List Trap) : (Ref.everyOf l).inPhase 1 = (Ref.fullOf l).every := by
  cases l with
  | nil => exact Ref.everyOf_one (l := []) fun d f m s h => by simp at h
  | cons a l =>
    cases a with
    | trap d τ τc b => exact Ref.everyOf_one fun d f m s h => by simp at h
    | instant d τ b => exact Ref.everyOf_one fun d f m s h => by simp at h
    | continuum d f m s =>
      change Sum.inl (Sum.inr (Ref.Clocks.inPhase (Ref.clocksOf (Trap.continuum d f m s :: l)) 1)) =
        Sum.inl (Sum.inr (Ref.clocksOf (Trap.continuum d f m s :: l)))
      unfold Ref.Clocks.inPhase Ref.clocksOf
      simp only [mul_one]

theorem Ref.fullOf_total (l : List Trap) : (Ref.fullOf l).total = (l.map Trap.density).sum := by
  unfold Ref.fullOf
  split
  · change (Ref.clocksOf _).total = _
    unfold Ref.Clocks.total Ref.clocksOf
    simp only [Fin.getElem_fin]
    rw [← Fin.sum_univ_fun_getElem]
  · exact Ref.mixOf_total _

theorem Ref.fullOf_filled (l : List Trap) : (Ref.fullOf l).filled = 0 := by
  unfold Ref.fullOf
  split
  · simp [Ref.FullTraps.filled, held, Ref.clocksOf, Ref.Clocks.occ]
  · exact Ref.mixOf_filled _

theorem Ref.fullOf_vacate (l : List Trap) : (Ref.fullOf l).vacate = Ref.fullOf l := by
  unfold Ref.fullOf
  split
  · rfl
  · exact congrArg Sum.inl (Ref.mixOf_vacate _)

theorem EveryGroup.clocks_reg {l : List Trap} (h : EveryGroup l) : (Ref.clocksOf l).Reg := by
  have hall : ∀ j : Fin l.length, l[j].Sensible := fun j => (h.all _ (List.getElem_mem _)).1
  refine ⟨fun j => (hall j).density, fun j => (hall j).law.1, fun j => (hall j).law.2, fun j => (hall j).anti,
    fun j a b x ha hab hx => (hall j).slower ha hab hx, fun d j a ha => ?_, fun x hx j => ?_⟩
  · simp [Ref.clocksOf] at ha
  · exact measurable_const

theorem EveryGroup.full_reg {l : List Trap} (h : EveryGroup l) {dw : ℝ} (hd : 0 < dw) : (Ref.fullOf l).Reg dw := by
  unfold Ref.fullOf
  split
  · exact ⟨h.clocks_reg, hd.le⟩
  · exact h.mix_reg hd

/-- Python objects of one direction: one phase without a notch, `well_fill_power` at least 1, standard readout emptying the
traps between columns and for first transfers, groups of traps of all classes. -/
structure FullObjects (full power dw : ℝ) (gs : List (List Trap)) (i : Bool) (c : CCD) (o : ℕ) (d : PyDirection) :
    Prop where
  eq : d = ⟨some c, some (.standard [dw] true true true i), some (.list (gs.map .group)), 0, o⟩
  phase : c.fractions = [1] ∧ c.HasPhase 0 0 full power
  full : 0 < full
  power : 1 ≤ power
  dwell : 0 < dw
  groups : gs ≠ [] ∧ ∀ l ∈ gs, EveryGroup l

section one
variable {full power dw : ℝ} {gs : List (List Trap)} {i : Bool} {c : CCD} {o : ℕ} {d : PyDirection}

theorem FullObjects.count_le (h : FullObjects full power dw gs i c o d) :
    ∀ l ∈ gs, (l.map Trap.density).sum ≤ trapCount gs := by
  intro l hl
  unfold trapCount
  refine List.single_le_sum (fun x hx => ?_) _ (List.mem_map_of_mem hl)
  obtain ⟨k, hk, rfl⟩ := List.mem_map.1 hx
  refine List.sum_nonneg fun x hx => ?_
  obtain ⟨t, ht, rfl⟩ := List.mem_map.1 hx
  exact ((h.groups.2 k hk).all t ht).1.density

theorem FullObjects.count_nonneg (h : FullObjects full power dw gs i c o d) : 0 ≤ trapCount gs := by
  unfold trapCount
  refine List.sum_nonneg fun x hx => ?_
  obtain ⟨k, hk, rfl⟩ := List.mem_map.1 hx
  refine List.sum_nonneg fun x hx => ?_
  obtain ⟨t, ht, rfl⟩ := List.mem_map.1 hx
  exact ((h.groups.2 k hk).all t ht).1.density

theorem FullObjects.slow (h : FullObjects full power dw gs i c o d) (hfew : trapCount gs * (power / full) ≤ 1) :
    SlowObjects (trapCount gs) c [dw] i gs where
  fractions := by rw [h.phase.1]; simp
  wells ph hph := by
    rw [h.phase.1] at hph
    obtain rfl : ph = 0 := by simpa using hph
    refine ⟨full, power, h.phase.2, h.full, h.power, ?_⟩
    rwa [← mul_div_assoc, div_le_one h.full] at hfew
  phases := by rw [h.phase.1]; simp
  groups := ⟨h.groups.1, fun l hl => (h.groups.2 l hl)⟩
  count l hl d τ τc b _ x hx := by
    rw [h.phase.1, List.mem_singleton] at hx
    rw [hx, mul_one]
    exact h.count_le l hl
  bound := h.count_nonneg

theorem FullObjects.few (h : FullObjects full power dw gs i c o d) :
    Ref.FullFew dw (trapCount gs) (gs.map Ref.fullOf) ∧ Ref.fullFilled (gs.map Ref.fullOf) = 0 := by
  refine ⟨⟨fun t ht => ?_, ?_⟩, ?_⟩
  · obtain ⟨l, hl, rfl⟩ := List.mem_map.1 ht
    exact (h.groups.2 l hl).full_reg h.dwell
  · unfold Ref.fullTotal trapCount
    rw [List.map_map]
    congr 1
    exact List.map_congr_left fun l _ => Ref.fullOf_total l
  · unfold Ref.fullFilled
    rw [List.map_map]
    refine List.sum_eq_zero fun x hx => ?_
    obtain ⟨l, -, rfl⟩ := List.mem_map.1 hx
    exact Ref.fullOf_filled l

/-- Clocking in one direction follows the reference column by column. -/
theorem FullObjects.run (h : FullObjects full power dw gs i c o d) (hfew : trapCount gs * (power / full) ≤ 1)
    (img : Image ℝ) (himg : img.NonNeg) (hnr : 0 < img.nr) (tw : Option (List ℕ))
    (hcov : Covering o (List.range img.nr) tw) :
    ∃ out, clockChargePy img (some c) (.standard [dw] true true true i) (.list (gs.map .group)) 0 o
        (List.range img.nr) (List.range img.nc) tw = .ok (out, .standard [dw] true true true i) ∧
      out.nr = img.nr ∧ out.nc = img.nc ∧ out.NonNeg ∧ ∀ r < img.nr, ∀ c < img.nc, out.px r c =
        Ref.stepReadout (Ref.fullStep (wellFill full power) dw) (gs.map Ref.fullOf) (Ref.allPasses img.nr o)
          (fun r => img.px r c) r := by
  obtain ⟨m, mon, hm⟩ := express_full i img.nr o hnr tw hcov
  obtain ⟨a, ha, -, q, -, hm1, hm2⟩ := roeExpress_ok hm
  have hfill : c.view.fill 0 = wellFill full power := CCD.view_fill h.phase.2 h.full (by linarith [h.power])
  have hcfg : clockCfg (.standard [dw] true true true i) c.view 0 o (List.range img.nr) tw =
      .ok (onePhaseCfg (List.range img.nr) dw m mon, .standard [dw] true true true i) := by
    have hfr : c.view.fractions = [1] := h.phase.1
    have hdw := h.dwell
    unfold clockCfg onePhaseCfg
    simp only [hfr, Roe.express, hm, bind, Except.bind, Roe.save, roeSave, if_true, Roe.clockSequence, Roe.nSteps,
      Roe.nPhases, Roe.dwell, Roe.force, Roe.emptyBetween, List.length_singleton, one_phase_sequence]
    simp [positiveIndices, hdw]
  have hacc : (Roe.standard [dw] true true true i).accessed = [0, 0, 0] := by
    unfold Roe.accessed Roe.clockSequence
    simp only [Roe.nSteps, Roe.nPhases, Roe.dwell, Roe.force, List.length_singleton, one_phase_sequence]
    simp [pixelsAccessed]
  have hpad : nPadding (Roe.standard [dw] true true true i).accessed = 0 := by rw [hacc]; rfl
  have hmon : mon.nc = (List.range img.nr).length := by rw [hm2]
  have hstate : SpecState.new Ref.EveryTraps.inPhase (gs.map Ref.everyOf) c.fractions =
      ⟨[(gs.map Ref.fullOf).map Ref.FullTraps.every], [(gs.map Ref.fullOf).map Ref.FullTraps.every]⟩ := by
    unfold SpecState.new
    rw [h.phase.1]
    simp only [List.map_cons, List.map_nil, List.map_map]
    have e : gs.map ((fun g => Ref.EveryTraps.inPhase g 1) ∘ Ref.everyOf) =
        gs.map (Ref.FullTraps.every ∘ Ref.fullOf) :=
      List.map_congr_left fun l hl => Ref.everyOf_full l
    rw [e]
  obtain ⟨out', g3, g4, g5, g6⟩ := (full_stepSys c.view.fill (by rw [hfill]; exact wellFill_lip h.full h.power) hfew).columns
    (cfg := onePhaseCfg (List.range img.nr) dw m mon) ⟨rfl, rfl, rfl, rfl, fun _ _ => rfl, rfl⟩ hmon.le
    (gs.map Ref.fullOf) h.few.1 (by rw [List.map_map]; exact List.map_congr_left fun l _ => Ref.fullOf_vacate l)
    (List.range img.nc) (img.pad 0) List.nodup_range (fun c hc => List.mem_range.1 hc)
    (fun w hw => by
      have : w < img.nr := List.mem_range.1 hw
      simpa [Image.pad] using this)
    (fun c hc r => by
      have hc' := List.mem_range.1 hc
      simp only [Image.pad]
      split
      · next hr => exact himg r (by simpa using hr) c hc'
      · exact le_rfl)
  have hclock := (C62_objects (h.slow hfew) img himg 0 o (List.range img.nr) (List.range img.nc) tw
    (fun w hw => List.mem_range.1 hw) (fun c hc => List.mem_range.1 hc)).1
  have href : Ref.clockEvery c [dw] i gs img 0 o (List.range img.nr) (List.range img.nc) tw =
      .ok (out'.unpad 0, .standard [dw] true true true i) := by
    unfold Ref.clockEvery TrapSpec.clock
    rw [hcfg, hstate]
    simp only [bind, Except.bind, hpad]
    rw [g3]
  rw [href] at hclock
  have hnn : (out'.unpad 0).NonNeg := by
    have e := hclock
    rw [clockChargePy_groups img c _ gs h.groups.1 (fun l hl => (h.groups.2 l hl).ne_nil)
      (by rw [h.phase.1]; simp)] at e
    exact clockCharge_nonneg _ _ _ _ _ _ _ _ _ _ _ e himg
  refine ⟨_, hclock, by simp [Image.unpad, g5, Image.pad], by simp [Image.unpad, g6, Image.pad], hnn, fun r hr c hc => ?_⟩
  change out'.px r c = _
  rw [g4, if_pos (List.mem_range.2 hc)]
  have hpasses : (List.range (onePhaseCfg (List.range img.nr) dw m mon).expr.nr).map
      (todo (onePhaseCfg (List.range img.nr) dw m mon)) = Ref.allPasses img.nr o := by
    rw [← fullPasses hnr hcov hm]
    unfold matrixPasses todo monitoredRows onePhaseCfg
    simp only [hmon]
  rw [hpasses, hfill]
  refine stepReadout_congr _ img.nr _ ?_ _ _ (fun r hr => by simp [Image.pad, hr]) r hr
  intro p hp x hx
  exact (allPasses_one img.nr o p hp x hx).1

theorem FullObjects.mild (h : FullObjects full power dw gs i c o d) (hfew : 4 * (trapCount gs * (power / full)) < 1)
    (n : ℕ) : Mild n 0 0 (lossSlope (4 * (trapCount gs * (power / full))) (n + o))
      (Ref.stepReadout (Ref.fullStep (wellFill full power) dw) (gs.map Ref.fullOf) (Ref.allPasses n o)) :=
  (full_gentle (wellFill_lip h.full h.power) h.count_nonneg hfew.le).mild
    (mul_nonneg (by norm_num) (mul_nonneg h.count_nonneg (div_nonneg (by linarith [h.power]) h.full.le))) hfew h.few.1
    h.few.2 n o

theorem FullObjects.rise (h : FullObjects full power dw gs i c o d) (hfew : 4 * (trapCount gs * (power / full)) ≤ 1)
    (n : ℕ) (x : ℕ → ℝ) (hx : ∀ r < n, 0 ≤ x r) :
    ∀ r < n, Ref.stepReadout (Ref.fullStep (wellFill full power) dw) (gs.map Ref.fullOf) (Ref.allPasses n o) x r ≤
      x r + trapCount gs * ((r + o + 1 : ℕ) : ℝ) := by
  intro r hr
  have := (full_gentle (wellFill_lip h.full h.power) h.count_nonneg hfew (dw := dw)).rise n h.few.1 _
    (allPasses_good n o).nodup (allPasses_one n o) x hx r hr
  rwa [passCount_all n o r hr] at this

end one

section main
variable {fp fs pp ps dp ds : ℝ} {gp gs : List (List Trap)} {ip is : Bool} {cp cs : CCD} {op os : ℕ}
  {par ser : PyDirection}

/-- **C103**, reference: `add_cti` in both directions with groups of traps of all classes, at most
`full_well_depth / well_fill_power` traps per pixel, of an image without negative pixels. -/
theorem C103_add_cti (hp : FullObjects fp pp dp gp ip cp op par) (hs : FullObjects fs ps ds gs is cs os ser)
    (hfp : trapCount gp * (pp / fp) ≤ 1) (hfs : trapCount gs * (ps / fs) ≤ 1) (img : Image ℝ) (himg : img.NonNeg)
    (hnr : 0 < img.nr) (hnc : 0 < img.nc) :
    ∃ out, addCtiPy img par .all ser .all none =
        .ok (out, .standard [dp] true true true ip, .standard [ds] true true true is) ∧
      out.nr = img.nr ∧ out.nc = img.nc ∧
      ∀ r < img.nr, ∀ c < img.nc, out.px r c =
        Ref.stepReadout (Ref.fullStep (wellFill fs ps) ds) (gs.map Ref.fullOf) (Ref.allPasses img.nc os)
          (fun c => Ref.stepReadout (Ref.fullStep (wellFill fp pp) dp) (gp.map Ref.fullOf) (Ref.allPasses img.nr op)
            (fun r => img.px r c) r) c := by
  obtain ⟨mid, g1, g2, g3, g0, g4⟩ := hp.run hfp img himg hnr (some (List.range (img.nr + op)))
    (Or.inr ⟨img.nr, rfl, fun x hx => List.mem_range.1 hx⟩)
  have e1 : mid.transpose.nr = img.nc := g3
  have e2 : mid.transpose.nc = img.nr := g2
  obtain ⟨out, q1, q2, q3, -, q4⟩ := hs.run hfs mid.transpose (fun r hr c hc => g0 c hc r hr) (by rw [e1]; exact hnc) none
    (Or.inl rfl)
  rw [e1, e2] at q1
  refine ⟨out.transpose, ?_, q3.trans e2, q2.trans e1, ?_⟩
  · rw [hp.eq, hs.eq]
    unfold addCtiPy
    simp only [Window.resolve, bind, Except.bind, Option.getD_none, Option.getD_some]
    rw [g1]
    simp only
    rw [q1]
  · intro r hr c hc
    change out.px c r = _
    rw [q4 c (by rw [e1]; exact hc) r (by rw [e2]; exact hr), e1]
    refine stepReadout_congr _ img.nc _ ?_ _ _ (fun c hc => ?_) c hc
    · intro p hp x hx
      exact (allPasses_one img.nc os p hp x hx).1
    · exact g4 r hr c hc

/-- **C103**, reference for parallel clocking. -/
theorem C103_parallel (hp : FullObjects fp pp dp gp ip cp op par) (hfp : trapCount gp * (pp / fp) ≤ 1) (img : Image ℝ)
    (himg : img.NonNeg) (hnr : 0 < img.nr) :
    ∃ out, addCtiPy img par .all .absent .all none = .ok (out, .standard [dp] true true true ip, Roe.default) ∧
      out.nr = img.nr ∧ out.nc = img.nc ∧ ∀ r < img.nr, ∀ c < img.nc, out.px r c =
        Ref.stepReadout (Ref.fullStep (wellFill fp pp) dp) (gp.map Ref.fullOf) (Ref.allPasses img.nr op)
          (fun r => img.px r c) r := by
  obtain ⟨out, g1, g2, g3, -, g4⟩ := hp.run hfp img himg hnr (some (List.range (img.nr + op)))
    (Or.inr ⟨img.nr, rfl, fun x hx => List.mem_range.1 hx⟩)
  refine ⟨out, ?_, g2, g3, g4⟩
  rw [hp.eq]
  unfold addCtiPy PyDirection.absent
  simp only [Window.resolve, bind, Except.bind, Option.getD_none, Option.getD_some]
  rw [g1]

theorem full_mild (hp : FullObjects fp pp dp gp ip cp op par) (hs : FullObjects fs ps ds gs is cs os ser)
    (nr nc : ℕ) (lp ls q : ℝ)
    (hlp : lp = 4 * (trapCount gp * (pp / fp))) (hls : ls = 4 * (trapCount gs * (ps / fs))) (hlp1 : lp < 1) (hls1 : ls < 1)
    (hq : q = (1 / (1 - lp)) ^ (nr + op) * (1 / (1 - ls)) ^ (nc + os) - 1) :
    0 ≤ q ∧ MildMap nr nc 0 q
      (fun r c => trapCount gp * ((r + op + 1 : ℕ) : ℝ) + trapCount gs * ((c + os + 1 : ℕ) : ℝ)) fun x r c =>
        Ref.stepReadout (Ref.fullStep (wellFill fs ps) ds) (gs.map Ref.fullOf) (Ref.allPasses nc os)
          (fun c => Ref.stepReadout (Ref.fullStep (wellFill fp pp) dp) (gp.map Ref.fullOf) (Ref.allPasses nr op)
            (fun r => x r c) r) c := by
  have hlp0 : 0 ≤ trapCount gp * (pp / fp) :=
    mul_nonneg hp.count_nonneg (div_nonneg (by linarith [hp.power]) hp.full.le)
  have hls0 : 0 ≤ trapCount gs * (ps / fs) :=
    mul_nonneg hs.count_nonneg (div_nonneg (by linarith [hs.power]) hs.full.le)
  have hP := hp.mild (by rw [← hlp]; exact hlp1) nr
  have hS := hs.mild (by rw [← hls]; exact hls1) nc
  rw [← hlp] at hP
  rw [← hls] at hS
  have hqP := lossSlope_nonneg (l := lp) (by linarith) hlp1 (nr + op)
  have hqS := lossSlope_nonneg (l := ls) (by linarith) hls1 (nc + os)
  have hqe : (1 + lossSlope lp (nr + op)) * (1 + lossSlope ls (nc + os)) - 1 = q := by
    rw [hq]; unfold lossSlope; ring
  refine ⟨by rw [← hqe]; nlinarith, ?_⟩
  have := mildMap_both hP hS hqS (up := fun r => trapCount gp * ((r + op + 1 : ℕ) : ℝ))
    (us := fun c => trapCount gs * ((c + os + 1 : ℕ) : ℝ))
    (fun x hx r hr => hp.rise (by linarith) nr x hx r hr) (fun x hx r hr => hs.rise (by linarith) nc x hx r hr)
  rw [hqe] at this
  exact this

theorem full_again (hp : FullObjects fp pp dp gp ip cp op par) (hs : FullObjects fs ps ds gs is cs os ser)
    (x y : Image ℝ) (h : addCtiPy x par .all ser .all none =
        .ok (y, .standard [dp] true true true ip, .standard [ds] true true true is)) :
    addAgain par ser x (par.roe, ser.roe) = .ok (y, par.roe, ser.roe) := by
  have hroe : par.roe = some (.standard [dp] true true true ip) ∧ ser.roe = some (.standard [ds] true true true is) := by
    rw [hp.eq, hs.eq]; exact ⟨rfl, rfl⟩
  unfold addAgain
  simp only [bind, Except.bind]
  rw [h]
  simp only [hroe.1, hroe.2, Option.map_some]

theorem full_again_parallel (hp : FullObjects fp pp dp gp ip cp op par) (x y : Image ℝ)
    (h : addCtiPy x par .all .absent .all none = .ok (y, .standard [dp] true true true ip, Roe.default)) :
    addAgain par .absent x (par.roe, none) = .ok (y, par.roe, none) := by
  have hroe : par.roe = some (.standard [dp] true true true ip) := by rw [hp.eq]
  have e2 : addCtiPy x { par with roe := par.roe } .all { PyDirection.absent with roe := none } .all none =
      .ok (y, .standard [dp] true true true ip, Roe.default) := h
  unfold addAgain
  simp only [bind, Except.bind]
  rw [e2]
  simp only [hroe, Option.map_some, Option.map_none]

/-- The three statements for both directions. -/
theorem invert_full (hp : FullObjects fp pp dp gp ip cp op par) (hs : FullObjects fs ps ds gs is cs os ser)
    {nr nc : ℕ} (hnr : 0 < nr) (hnc : 0 < nc) (lp ls q : ℝ)
    (hlp : lp = 4 * (trapCount gp * (pp / fp))) (hls : ls = 4 * (trapCount gs * (ps / fs))) (hlp1 : lp < 1) (hls1 : ls < 1)
    (hq : q = (1 / (1 - lp)) ^ (nr + op) * (1 / (1 - ls)) ^ (nc + os) - 1) (hq1 : q < 1) :
    Inverts (addAgain par ser) (par.roe, ser.roe) nr nc 0 q
      fun r c => trapCount gp * ((r + op + 1 : ℕ) : ℝ) + trapCount gs * ((c + os + 1 : ℕ) : ℝ) :=
  have hlp0 : 0 ≤ trapCount gp * (pp / fp) :=
    mul_nonneg hp.count_nonneg (div_nonneg (by linarith [hp.power]) hp.full.le)
  have hls0 : 0 ≤ trapCount gs * (ps / fs) :=
    mul_nonneg hs.count_nonneg (div_nonneg (by linarith [hs.power]) hs.full.le)
  invert_above (addAgain par ser) (par.roe, ser.roe) (full_mild hp hs nr nc lp ls q hlp hls hlp1 hls1 hq).2
    (full_mild hp hs nr nc lp ls q hlp hls hlp1 hls1 hq).1 hq1
    (fun r _ c _ => add_nonneg (mul_nonneg hp.count_nonneg (Nat.cast_nonneg _))
      (mul_nonneg hs.count_nonneg (Nat.cast_nonneg _))) (fun x h1 h2 h3 => by
      obtain ⟨y, y1, y2, y3, y4⟩ := C103_add_cti hp hs (by linarith) (by linarith) x h3 (by rw [h1]; exact hnr)
        (by rw [h2]; exact hnc)
      rw [h1, h2] at y4
      exact ⟨y, full_again hp hs x y y1, y2.trans h1, y3.trans h2, y4⟩)

/-- The three statements for parallel clocking. -/
theorem invert_full_parallel (hp : FullObjects fp pp dp gp ip cp op par) {nr nc : ℕ} (hnr : 0 < nr) (lp q : ℝ)
    (hlp : lp = 4 * (trapCount gp * (pp / fp))) (hlp1 : lp < 1)
    (hq : q = (1 / (1 - lp)) ^ (nr + op) - 1) (hq1 : q < 1) :
    Inverts (addAgain par .absent) (par.roe, none) nr nc 0 q fun r _ => trapCount gp * ((r + op + 1 : ℕ) : ℝ) :=
  have hlp0 : 0 ≤ trapCount gp * (pp / fp) :=
    mul_nonneg hp.count_nonneg (div_nonneg (by linarith [hp.power]) hp.full.le)
  have hqq : lossSlope lp (nr + op) = q := by rw [hq]; rfl
  have hP : Mild nr 0 0 q
      (Ref.stepReadout (Ref.fullStep (wellFill fp pp) dp) (gp.map Ref.fullOf) (Ref.allPasses nr op)) := by
    have := hp.mild (by rw [← hlp]; exact hlp1) nr
    rwa [← hlp, hqq] at this
  have hq0 : 0 ≤ q := by rw [← hqq]; exact lossSlope_nonneg (by linarith) hlp1 _
  invert_above (addAgain par .absent) (par.roe, none)
    (mildMap_parallel (nc := nc) hP (up := fun r => trapCount gp * ((r + op + 1 : ℕ) : ℝ))
      (fun x hx r hr => hp.rise (by linarith) nr x hx r hr)) hq0 hq1
    (fun r _ c _ => mul_nonneg hp.count_nonneg (Nat.cast_nonneg _)) (fun x h1 h2 h3 => by
      obtain ⟨y, g1, g2, g3, g4⟩ := C103_parallel hp (by linarith) x h3 (by rw [h1]; exact hnr)
      rw [h1] at g4
      exact ⟨y, full_again_parallel hp x y g1, g2.trans h1, g3.trans h2, fun r hr c hc => g4 r hr c (by rw [h2]; exact hc)⟩)

/-- **C103**, both directions. Let `λ` be four times the number of traps per pixel times `power / full_well_depth`, and
`q = (1-λ_p)^-(rows+offset_p) · (1-λ_s)^-(columns+offset_s) - 1 < 1`. Let every pixel of an image hold at least one electron
per trap and transfer. Then there is an image without negative pixels from which `add_cti` makes this image, it is the only
one, and the image that `remove_cti` returns after `n` iterations differs from it by at most `q^(n+1) / (1-q)` times the
total charge, summed over all pixels. -/
theorem C103_inverse (hp : FullObjects fp pp dp gp ip cp op par) (hs : FullObjects fs ps ds gs is cs os ser)
    (img : Image ℝ) (hnr : 0 < img.nr) (hnc : 0 < img.nc) (lp ls q : ℝ)
    (hlp : lp = 4 * (trapCount gp * (pp / fp))) (hls : ls = 4 * (trapCount gs * (ps / fs))) (hlp1 : lp < 1) (hls1 : ls < 1)
    (hq : q = (1 / (1 - lp)) ^ (img.nr + op) * (1 / (1 - ls)) ^ (img.nc + os) - 1) (hq1 : q < 1)
    (himg : ∀ r < img.nr, ∀ c < img.nc,
      trapCount gp * ((r + op + 1 : ℕ) : ℝ) + trapCount gs * ((c + os + 1 : ℕ) : ℝ) ≤ img.px r c) :
    ∃ truth back, truth.SameShape img ∧ truth.AtLeast 0 ∧ addCtiPy truth par .all ser .all none =
        .ok (back, .standard [dp] true true true ip, .standard [ds] true true true is) ∧ back.Same img ∧
      (∀ other out roes, other.SameShape img → other.AtLeast 0 → addCtiPy other par .all ser .all none = .ok (out, roes) →
        out.Same img → other.Same truth) ∧
      ∀ n, ∃ out, removeCtiPy img n par .all ser .all none = .ok (out, par.roe, ser.roe) ∧ out.SameShape img ∧
        out.dist truth ≤ q ^ (n + 1) / (1 - q) * img.total := by
  have hlp0 : 0 ≤ trapCount gp * (pp / fp) :=
    mul_nonneg hp.count_nonneg (div_nonneg (by linarith [hp.power]) hp.full.le)
  have hls0 : 0 ≤ trapCount gs * (ps / fs) :=
    mul_nonneg hs.count_nonneg (div_nonneg (by linarith [hs.power]) hs.full.le)
  obtain ⟨-, G, -⟩ := invert_full hp hs hnr hnc lp ls q hlp hls hlp1 hls1 hq hq1
  obtain ⟨truth, back, t1, t2, t3, t4, t5, t6⟩ := G img rfl rfl (fun r hr c hc => by rw [zero_add]; exact himg r hr c hc)
  obtain ⟨back', b1, b2, b3, -⟩ := C103_add_cti hp hs (by linarith) (by linarith) truth t2 (by rw [t1.1]; exact hnr)
    (by rw [t1.2]; exact hnc)
  obtain rfl : back' = back := by
    rw [full_again hp hs truth back' b1] at t3
    injection t3 with t3
    injection t3
  refine ⟨truth, back', t1, t2, b1, t4, fun other out roes o1 o2 o3 o4 => ?_, t6⟩
  obtain ⟨out', c1, -⟩ := C103_add_cti hp hs (by linarith) (by linarith) other o2 (by rw [o1.1]; exact hnr)
    (by rw [o1.2]; exact hnc)
  rw [o3] at c1
  injection c1 with c1
  injection c1 with c1 c5
  rw [c5] at o3
  exact t5 other out o1 o2 (full_again hp hs other out o3) o4

/-- **C103**, both directions, noise: different images without negative pixels stay different by at least `1 - q` times
their distance when CTI is added, and `remove_cti` increases the distance between two images at most
`1 + q + … + q^n ≤ 1 / (1 - q)` times. -/
theorem C103_noise (hp : FullObjects fp pp dp gp ip cp op par) (hs : FullObjects fs ps ds gs is cs os ser)
    (img img' : Image ℝ) (hsh : img'.SameShape img) (hnr : 0 < img.nr) (hnc : 0 < img.nc) (lp ls q : ℝ)
    (hlp : lp = 4 * (trapCount gp * (pp / fp))) (hls : ls = 4 * (trapCount gs * (ps / fs))) (hlp1 : lp < 1) (hls1 : ls < 1)
    (hq : q = (1 / (1 - lp)) ^ (img.nr + op) * (1 / (1 - ls)) ^ (img.nc + os) - 1) (hq1 : q < 1) :
    (img.AtLeast 0 → img'.AtLeast 0 → ∃ out out' roes, addCtiPy img par .all ser .all none = .ok (out, roes) ∧
      addCtiPy img' par .all ser .all none = .ok (out', roes) ∧ (1 - q) * img'.dist img ≤ out'.dist out) ∧
    ((∀ r < img.nr, ∀ c < img.nc,
        trapCount gp * ((r + op + 1 : ℕ) : ℝ) + trapCount gs * ((c + os + 1 : ℕ) : ℝ) ≤ min (img.px r c) (img'.px r c)) →
      ∀ n, ∃ out out', removeCtiPy img n par .all ser .all none = .ok (out, par.roe, ser.roe) ∧
        removeCtiPy img' n par .all ser .all none = .ok (out', par.roe, ser.roe) ∧
        out'.dist out ≤ (∑ k ∈ Finset.range (n + 1), q ^ k) * img'.dist img) := by
  have hlp0 : 0 ≤ trapCount gp * (pp / fp) :=
    mul_nonneg hp.count_nonneg (div_nonneg (by linarith [hp.power]) hp.full.le)
  have hls0 : 0 ≤ trapCount gs * (ps / fs) :=
    mul_nonneg hs.count_nonneg (div_nonneg (by linarith [hs.power]) hs.full.le)
  obtain ⟨G1, -, G3⟩ := invert_full hp hs hnr hnc lp ls q hlp hls hlp1 hls1 hq hq1
  refine ⟨fun h h' => ?_, fun h n => ?_⟩
  · obtain ⟨out, b1, -⟩ := C103_add_cti hp hs (by linarith) (by linarith) img h hnr hnc
    obtain ⟨out', c1, -⟩ := C103_add_cti hp hs (by linarith) (by linarith) img' h' (by rw [hsh.1]; exact hnr)
      (by rw [hsh.2]; exact hnc)
    exact ⟨out, out', _, b1, c1, G1 img' img out' out hsh.1 hsh.2 rfl rfl h' h (full_again hp hs _ _ c1)
      (full_again hp hs _ _ b1)⟩
  · obtain ⟨u, v, h1, h2, h3⟩ := G3 img' img hsh.1 hsh.2 rfl rfl
      (fun r hr c hc => by rw [zero_add]; exact (h r hr c hc).trans (min_le_right _ _))
      (fun r hr c hc => by rw [zero_add]; exact (h r hr c hc).trans (min_le_left _ _)) n
    exact ⟨v, u, h2, h1, h3⟩

/-- **C103**, parallel clocking: existence, uniqueness and convergence. -/
theorem C103_inverse_parallel (hp : FullObjects fp pp dp gp ip cp op par) (img : Image ℝ) (hnr : 0 < img.nr) (lp q : ℝ)
    (hlp : lp = 4 * (trapCount gp * (pp / fp))) (hlp1 : lp < 1)
    (hq : q = (1 / (1 - lp)) ^ (img.nr + op) - 1) (hq1 : q < 1)
    (himg : ∀ r < img.nr, ∀ c < img.nc, trapCount gp * ((r + op + 1 : ℕ) : ℝ) ≤ img.px r c) :
    ∃ truth back, truth.SameShape img ∧ truth.AtLeast 0 ∧ addCtiPy truth par .all .absent .all none =
        .ok (back, .standard [dp] true true true ip, Roe.default) ∧ back.Same img ∧
      (∀ other out roes, other.SameShape img → other.AtLeast 0 →
        addCtiPy other par .all .absent .all none = .ok (out, roes) → out.Same img → other.Same truth) ∧
      ∀ n, ∃ out, removeCtiPy img n par .all .absent .all none = .ok (out, par.roe, none) ∧ out.SameShape img ∧
        out.dist truth ≤ q ^ (n + 1) / (1 - q) * img.total := by
  have hlp0 : 0 ≤ trapCount gp * (pp / fp) :=
    mul_nonneg hp.count_nonneg (div_nonneg (by linarith [hp.power]) hp.full.le)
  obtain ⟨-, G, -⟩ := invert_full_parallel (nc := img.nc) hp hnr lp q hlp hlp1 hq hq1
  obtain ⟨truth, back, t1, t2, t3, t4, t5, t6⟩ := G img rfl rfl (fun r hr c hc => by rw [zero_add]; exact himg r hr c hc)
  obtain ⟨back', b1, b2, b3, -⟩ := C103_parallel hp (by linarith) truth t2 (by rw [t1.1]; exact hnr)
  obtain rfl : back' = back := by
    rw [full_again_parallel hp truth back' b1] at t3
    injection t3 with t3
    injection t3
  refine ⟨truth, back', t1, t2, b1, t4, fun other out roes o1 o2 o3 o4 => ?_, t6⟩
  obtain ⟨out', c1, -⟩ := C103_parallel hp (by linarith) other o2 (by rw [o1.1]; exact hnr)
  rw [o3] at c1
  injection c1 with c1
  injection c1 with c1 c5
  rw [c5] at o3
  exact t5 other out o1 o2 (full_again_parallel hp other out o3) o4

end main

/-! ### examples -/

/-- A tenth of a trap per pixel with a log-normal distribution of lifetimes, as many with a capture timescale, and as many
with instant capture, in a well for 1000 electrons. -/
theorem exFull : FullObjects 1000 1 1
    [[.logNormalTrap 0.1 3 (1 / 2)], [.trap 0.1 2 0.1 false], [.instant 0.1 5 false]] false
    ⟨[1], [1000], [1], [0], [.num 1000]⟩ 2
    ⟨some ⟨[1], [1000], [1], [0], [.num 1000]⟩, some (.standard [1] true true true false),
      some (.list ([[.logNormalTrap 0.1 3 (1 / 2)], [.trap 0.1 2 0.1 false], [.instant 0.1 5 false]].map .group)), 0, 2⟩ := by
  refine ⟨rfl, ⟨rfl, ⟨rfl, rfl, rfl⟩⟩, by norm_num, le_rfl, one_pos, by simp, fun l hl => ?_⟩
  simp only [List.mem_cons, List.not_mem_nil, or_false] at hl
  rcases hl with rfl | rfl | rfl
  · refine ⟨by simp, fun t ht => ?_⟩
    simp only [List.mem_cons, List.not_mem_nil, or_false] at ht
    subst ht
    exact ⟨⟨by norm_num, by norm_num, C45_logNormal (by norm_num) (by norm_num)⟩, le_rfl⟩
  · refine ⟨by simp, fun t ht => ?_⟩
    simp only [List.mem_cons, List.not_mem_nil, or_false] at ht
    subst ht
    exact ⟨⟨by norm_num, by norm_num⟩, by simp only [Trap.captureTimescale]; norm_num⟩
  · refine ⟨by simp, fun t ht => ?_⟩
    simp only [List.mem_cons, List.not_mem_nil, or_false] at ht
    subst ht
    exact ⟨⟨by norm_num, by norm_num⟩, le_rfl⟩

theorem exFull_count : trapCount [[.logNormalTrap 0.1 3 (1 / 2)], [.trap 0.1 2 0.1 false], [.instant 0.1 5 false]] = 0.3 := by
  simp [trapCount, Trap.density, Trap.logNormalTrap]; norm_num

/-- Three rows and two columns of 100 electrons: there is an image that gives this one, and `remove_cti` with three
iterations differs from it by less than a thousandth of an electron. -/
example (d : PyDirection) (hd : d = ⟨some ⟨[1], [1000], [1], [0], [.num 1000]⟩, some (.standard [1] true true true false),
      some (.list ([[.logNormalTrap 0.1 3 (1 / 2)], [.trap 0.1 2 0.1 false], [.instant 0.1 5 false]].map .group)), 0, 2⟩) :
    ∃ truth out, truth.AtLeast 0 ∧ removeCtiPy ⟨3, 2, fun _ _ => 100⟩ 3 d .all d .all none = .ok (out, d.roe, d.roe) ∧
      out.dist truth ≤ 1 / 1000 := by
  have h := exFull
  rw [← hd] at h
  have hc := exFull_count
  obtain ⟨q, hq⟩ : ∃ q : ℝ, q = (1 / (1 - 0.0012)) ^ (3 + 2) * (1 / (1 - 0.0012)) ^ (2 + 2) - 1 := ⟨_, rfl⟩
  have hq0 : 0 ≤ q := by rw [hq]; norm_num
  have hq1 : q ≤ 0.011 := by rw [hq]; norm_num
  obtain ⟨truth, -, t1, t2, -, -, -, G⟩ := C103_inverse h h (⟨3, 2, fun _ _ => 100⟩ : Image ℝ) (by norm_num) (by norm_num)
    0.0012 0.0012 q (by rw [hc]; norm_num) (by rw [hc]; norm_num) (by norm_num) (by norm_num) hq (by linarith)
    (fun r hr c hc' => by
      rw [hc]
      have e1 : ((r + 2 + 1 : ℕ) : ℝ) ≤ 5 := by
        have : r + 2 + 1 ≤ 5 := by simp only at hr; omega
        exact_mod_cast this
      have e2 : ((c + 2 + 1 : ℕ) : ℝ) ≤ 4 := by
        have : c + 2 + 1 ≤ 4 := by simp only at hc'; omega
        exact_mod_cast this
      simp only
      linarith)
  obtain ⟨out, g1, g2, g3⟩ := G 3
  refine ⟨truth, out, t2, g1, g3.trans ?_⟩
  have ht : Image.total (⟨3, 2, fun _ _ => 100⟩ : Image ℝ) = 600 := by
    simp [Image.total]; norm_num
  rw [ht]
  have e : q ^ (3 + 1) ≤ 0.011 ^ (3 + 1) := pow_le_pow_left₀ hq0 hq1 _
  have e2 : q ^ (3 + 1) / (1 - q) ≤ 0.011 ^ (3 + 1) / (1 - 0.011) :=
    div_le_div₀ (by norm_num) e (by norm_num) (by linarith)
  have := mul_le_mul_of_nonneg_right e2 (by norm_num : (0 : ℝ) ≤ 600)
  refine this.trans (by norm_num)

end Arctic
