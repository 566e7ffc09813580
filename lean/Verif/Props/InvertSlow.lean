import Verif.Props.Invert
import Verif.Props.RefSlow
import Verif.Props.CaptureTime
import Verif.Lemmas.MixGentle
import Verif.Lemmas.StepColumn

/-!
# C101: CTI from slow capture can be undone

`add_cti` with groups of instant-capture traps and of traps with a capture timescale against a reference simulation of
each column or row, and what follows for `remove_cti`.
-/

set_option linter.unusedSectionVars false
set_option linter.unusedVariables false

namespace Arctic

/-- Empty traps: the first trap of the group decides how they are simulated. -/
noncomputable def Ref.mixOf (l : List Trap) : Ref.MixTraps :=
  match l with
  | .trap .. :: _ => .inr (Ref.slowOf l)
  | _ => .inl (Ref.ofTraps l)

/-- The first trap of a group is not one with a distribution of release times. -/
def Plain (l : List Trap) : Prop := ∀ d f m s, Trap.continuum d f m s ∉ l.head?

theorem Ref.mixOf_every {l : List Trap} (h : Plain l) : (Ref.mixOf l).every = Ref.everyOf l := by
  unfold Ref.mixOf Ref.everyOf
  cases l with
  | nil => rfl
  | cons a l =>
    cases a with
    | trap d τ τc b => rfl
    | instant d τ b => rfl
    | continuum d f m s => exact absurd rfl (h d f m s)

theorem Ref.everyOf_one {l : List Trap} (h : Plain l) : (Ref.everyOf l).inPhase 1 = (Ref.mixOf l).every := by
  have e1 : (Ref.slowOf l).inPhase 1 = Ref.slowOf l := by
    unfold Ref.Slow.inPhase Ref.slowOf
    simp only [mul_one]
  have e2 : (Ref.ofTraps l).inPhase 1 = Ref.ofTraps l := by
    unfold Ref.Traps.inPhase Ref.ofTraps
    simp only [mul_one]
  unfold Ref.mixOf Ref.everyOf
  cases l with
  | nil => exact congrArg (fun t => Sum.inl (Sum.inl t)) e2
  | cons a l =>
    cases a with
    | trap d τ τc b => exact congrArg Sum.inr e1
    | instant d τ b => exact congrArg (fun t => Sum.inl (Sum.inl t)) e2
    | continuum d f m s => exact absurd rfl (h d f m s)

theorem Ref.mixOf_total (l : List Trap) : (Ref.mixOf l).total = (l.map Trap.density).sum := by
  unfold Ref.mixOf
  split
  · exact Ref.slowOf_total _
  · exact Ref.ofTraps_total _

theorem Ref.mixOf_filled (l : List Trap) : (Ref.mixOf l).filled = 0 := by
  unfold Ref.mixOf
  split
  · simp [Ref.MixTraps.filled, held, Ref.slowOf]
  · simp [Ref.MixTraps.filled, Ref.Traps.filled, Ref.ofTraps]

theorem Ref.mixOf_vacate (l : List Trap) : (Ref.mixOf l).vacate = Ref.mixOf l := by
  unfold Ref.mixOf
  split <;> rfl

theorem EveryGroup.mix_reg {l : List Trap} (h : EveryGroup l) {dw : ℝ} (hd : 0 < dw) : (Ref.mixOf l).Reg dw := by
  unfold Ref.mixOf
  split
  · next d τ τc b l =>
    have hok := h.slow_ok
    have hall : ∀ j : Fin (Trap.trap d τ τc b :: l).length, (Trap.trap d τ τc b :: l)[j].Physical := fun j =>
      ⟨(h.all _ (List.getElem_mem _)).1.timescale, (h.all _ (List.getElem_mem _)).2⟩
    refine ⟨hok.dens, fun j => ⟨le_rfl, (hok.fractions dw hd j).2.2.1, ?_⟩, fun j => ?_,
      ⟨fun _ _ => ⟨le_rfl, zero_le_one⟩, fun _ => measurable_const⟩⟩
    · have := (hok.fractions dw hd j).2.2.2
      linarith
    · have p := C25_fillProbs (fun j : Fin (Trap.trap d τ τc b :: l).length => (Trap.trap d τ τc b :: l)[j]) hall hd j
      rw [slowOf_probs h hd] at p
      obtain ⟨p1, p2, p3, -⟩ := p
      exact ⟨p1, sub_nonneg.2 p2, by simpa using p3⟩
  · have hall : ∀ j : Fin l.length, l[j].Sensible := fun j => (h.all _ (List.getElem_mem _)).1
    have hok : (Ref.ofTraps l).Ok := by
      refine ⟨fun j => (hall j).density, fun x hx j => ⟨(Real.exp_pos _).le, Real.exp_lt_one_iff.2 ?_⟩⟩
      exact div_neg_of_neg_of_pos (by linarith) (hall j).timescale
    exact hok.reg hd

/-- Python objects of one direction: one phase without a notch, `well_fill_power` at least 1, standard readout emptying the
traps between columns and for first transfers, groups of instant-capture traps and of traps with capture timescales. -/
structure MixedObjects (full power dw : ℝ) (gs : List (List Trap)) (i : Bool) (c : CCD) (o : ℕ) (d : PyDirection) :
    Prop where
  eq : d = ⟨some c, some (.standard [dw] true true true i), some (.list (gs.map .group)), 0, o⟩
  phase : c.fractions = [1] ∧ c.HasPhase 0 0 full power
  full : 0 < full
  power : 1 ≤ power
  dwell : 0 < dw
  groups : gs ≠ [] ∧ ∀ l ∈ gs, EveryGroup l ∧ Plain l

section one
variable {full power dw : ℝ} {gs : List (List Trap)} {i : Bool} {c : CCD} {o : ℕ} {d : PyDirection}

theorem MixedObjects.count_le (h : MixedObjects full power dw gs i c o d) :
    ∀ l ∈ gs, (l.map Trap.density).sum ≤ trapCount gs := by
  intro l hl
  unfold trapCount
  refine List.single_le_sum (fun x hx => ?_) _ (List.mem_map_of_mem hl)
  obtain ⟨k, hk, rfl⟩ := List.mem_map.1 hx
  refine List.sum_nonneg fun x hx => ?_
  obtain ⟨t, ht, rfl⟩ := List.mem_map.1 hx
  exact (((h.groups.2 k hk).1.all t ht).1).density

theorem MixedObjects.count_nonneg (h : MixedObjects full power dw gs i c o d) : 0 ≤ trapCount gs := by
  unfold trapCount
  refine List.sum_nonneg fun x hx => ?_
  obtain ⟨k, hk, rfl⟩ := List.mem_map.1 hx
  refine List.sum_nonneg fun x hx => ?_
  obtain ⟨t, ht, rfl⟩ := List.mem_map.1 hx
  exact (((h.groups.2 k hk).1.all t ht).1).density

theorem MixedObjects.slow (h : MixedObjects full power dw gs i c o d) (hfew : trapCount gs * (power / full) ≤ 1) :
    SlowObjects (trapCount gs) c [dw] i gs where
  fractions := by rw [h.phase.1]; simp
  wells ph hph := by
    rw [h.phase.1] at hph
    obtain rfl : ph = 0 := by simpa using hph
    refine ⟨full, power, h.phase.2, h.full, h.power, ?_⟩
    rwa [← mul_div_assoc, div_le_one h.full] at hfew
  phases := by rw [h.phase.1]; simp
  groups := ⟨h.groups.1, fun l hl => (h.groups.2 l hl).1⟩
  count l hl d τ τc b _ x hx := by
    rw [h.phase.1, List.mem_singleton] at hx
    rw [hx, mul_one]
    exact h.count_le l hl
  bound := h.count_nonneg

theorem MixedObjects.few (h : MixedObjects full power dw gs i c o d) :
    Ref.MixFew dw (trapCount gs) (gs.map Ref.mixOf) ∧ Ref.mixFilled (gs.map Ref.mixOf) = 0 := by
  refine ⟨⟨fun t ht => ?_, ?_⟩, ?_⟩
  · obtain ⟨l, hl, rfl⟩ := List.mem_map.1 ht
    exact (h.groups.2 l hl).1.mix_reg h.dwell
  · unfold Ref.mixTotal trapCount
    rw [List.map_map]
    congr 1
    exact List.map_congr_left fun l _ => Ref.mixOf_total l
  · unfold Ref.mixFilled
    rw [List.map_map]
    refine List.sum_eq_zero fun x hx => ?_
    obtain ⟨l, -, rfl⟩ := List.mem_map.1 hx
    exact Ref.mixOf_filled l

/-- Clocking in one direction follows the reference column by column. -/
theorem MixedObjects.run (h : MixedObjects full power dw gs i c o d) (hfew : trapCount gs * (power / full) ≤ 1)
    (img : Image ℝ) (himg : img.NonNeg) (hnr : 0 < img.nr) (tw : Option (List ℕ))
    (hcov : Covering o (List.range img.nr) tw) :
    ∃ out, clockChargePy img (some c) (.standard [dw] true true true i) (.list (gs.map .group)) 0 o
        (List.range img.nr) (List.range img.nc) tw = .ok (out, .standard [dw] true true true i) ∧
      out.nr = img.nr ∧ out.nc = img.nc ∧ out.NonNeg ∧ ∀ r < img.nr, ∀ c < img.nc, out.px r c =
        Ref.stepReadout (Ref.mixStep (wellFill full power) dw) (gs.map Ref.mixOf) (Ref.allPasses img.nr o)
          (fun r => img.px r c) r := by
  obtain ⟨m, mon, hm⟩ := express_full i img.nr o hnr tw hcov
  obtain ⟨a, ha, -, q, -, hm1, hm2⟩ := roeExpress_ok hm
  have hfill : c.view.fill 0 = wellFill full power := CCD.view_fill h.phase.2 h.full (by linarith [h.power])
  have hcfg : clockCfg (.standard [dw] true true true i) c.view 0 o (List.range img.nr) tw =
      .ok (onePhaseCfg (List.range img.nr) dw m mon, .standard [dw] true true true i) := by
    have hfr : c.view.fractions = [1] := h.phase.1
    have hdw := h.dwell
    unfold clockCfg onePhaseCfg
    simp only [hfr, Roe.express, hm, bind, Except.bind, Roe.save, roeSave, if_true, Roe.clockSequence, Roe.nSteps,
      Roe.nPhases, Roe.dwell, Roe.force, Roe.emptyBetween, List.length_singleton, one_phase_sequence]
    simp [positiveIndices, hdw]
  have hacc : (Roe.standard [dw] true true true i).accessed = [0, 0, 0] := by
    unfold Roe.accessed Roe.clockSequence
    simp only [Roe.nSteps, Roe.nPhases, Roe.dwell, Roe.force, List.length_singleton, one_phase_sequence]
    simp [pixelsAccessed]
  have hpad : nPadding (Roe.standard [dw] true true true i).accessed = 0 := by rw [hacc]; rfl
  have hmon : mon.nc = (List.range img.nr).length := by rw [hm2]
  have hstate : SpecState.new Ref.EveryTraps.inPhase (gs.map Ref.everyOf) c.fractions =
      ⟨[(gs.map Ref.mixOf).map Ref.MixTraps.every], [(gs.map Ref.mixOf).map Ref.MixTraps.every]⟩ := by
    unfold SpecState.new
    rw [h.phase.1]
    simp only [List.map_cons, List.map_nil, List.map_map]
    have e : gs.map ((fun g => Ref.EveryTraps.inPhase g 1) ∘ Ref.everyOf) =
        gs.map (Ref.MixTraps.every ∘ Ref.mixOf) :=
      List.map_congr_left fun l hl => Ref.everyOf_one (h.groups.2 l hl).2
    rw [e]
  obtain ⟨out', g3, g4, g5, g6⟩ := (mix_stepSys c.view.fill dw).columns
    (cfg := onePhaseCfg (List.range img.nr) dw m mon) ⟨rfl, rfl, rfl, rfl, fun _ _ => rfl, rfl⟩ hmon.le
    (gs.map Ref.mixOf) (by rw [List.map_map]; exact List.map_congr_left fun l _ => Ref.mixOf_vacate l)
    (List.range img.nc) (img.pad 0) List.nodup_range (fun c hc => List.mem_range.1 hc)
    (fun w hw => by
      have : w < img.nr := List.mem_range.1 hw
      simpa [Image.pad] using this)
  have hclock := (C62_objects (h.slow hfew) img himg 0 o (List.range img.nr) (List.range img.nc) tw
    (fun w hw => List.mem_range.1 hw) (fun c hc => List.mem_range.1 hc)).1
  have href : Ref.clockEvery c [dw] i gs img 0 o (List.range img.nr) (List.range img.nc) tw =
      .ok (out'.unpad 0, .standard [dw] true true true i) := by
    unfold Ref.clockEvery TrapSpec.clock
    rw [hcfg, hstate]
    simp only [bind, Except.bind, hpad]
    rw [g3]
  rw [href] at hclock
  have hnn : (out'.unpad 0).NonNeg := by
    have e := hclock
    rw [clockChargePy_groups img c _ gs h.groups.1 (fun l hl => (h.groups.2 l hl).1.ne_nil)
      (by rw [h.phase.1]; simp)] at e
    exact clockCharge_nonneg _ _ _ _ _ _ _ _ _ _ _ e himg
  refine ⟨_, hclock, by simp [Image.unpad, g5, Image.pad], by simp [Image.unpad, g6, Image.pad], hnn, fun r hr c hc => ?_⟩
  change out'.px r c = _
  rw [g4, if_pos (List.mem_range.2 hc)]
  have hpasses : (List.range (onePhaseCfg (List.range img.nr) dw m mon).expr.nr).map
      (todo (onePhaseCfg (List.range img.nr) dw m mon)) = Ref.allPasses img.nr o := by
    rw [← fullPasses hnr hcov hm]
    unfold matrixPasses todo monitoredRows onePhaseCfg
    simp only [hmon]
  rw [hpasses, hfill]
  refine stepReadout_congr _ img.nr _ ?_ _ _ (fun r hr => by simp [Image.pad, hr]) r hr
  intro p hp x hx
  exact (allPasses_one img.nr o p hp x hx).1

theorem MixedObjects.mild (h : MixedObjects full power dw gs i c o d) (hfew : 4 * (trapCount gs * (power / full)) < 1)
    (n : ℕ) : Mild n 0 0 (lossSlope (4 * (trapCount gs * (power / full))) (n + o))
      (Ref.stepReadout (Ref.mixStep (wellFill full power) dw) (gs.map Ref.mixOf) (Ref.allPasses n o)) :=
  (mix_gentle (wellFill_lip h.full h.power) h.count_nonneg hfew.le).mild
    (mul_nonneg (by norm_num) (mul_nonneg h.count_nonneg (div_nonneg (by linarith [h.power]) h.full.le))) hfew h.few.1
    h.few.2 n o

theorem MixedObjects.rise (h : MixedObjects full power dw gs i c o d) (hfew : 4 * (trapCount gs * (power / full)) ≤ 1)
    (n : ℕ) (x : ℕ → ℝ) (hx : ∀ r < n, 0 ≤ x r) :
    ∀ r < n, Ref.stepReadout (Ref.mixStep (wellFill full power) dw) (gs.map Ref.mixOf) (Ref.allPasses n o) x r ≤
      x r + trapCount gs * ((r + o + 1 : ℕ) : ℝ) := by
  intro r hr
  have := (mix_gentle (wellFill_lip h.full h.power) h.count_nonneg hfew (dw := dw)).rise n h.few.1 _
    (allPasses_good n o).nodup (allPasses_one n o) x hx r hr
  rwa [passCount_all n o r hr] at this

end one

section main
variable {fp fs pp ps dp ds : ℝ} {gp gs : List (List Trap)} {ip is : Bool} {cp cs : CCD} {op os : ℕ}
  {par ser : PyDirection}

/-- **C101**, reference: `add_cti` in both directions with groups of instant-capture traps and of traps with capture
timescales, at most `full_well_depth / well_fill_power` traps per pixel, of an image without negative pixels. -/
theorem C101_add_cti (hp : MixedObjects fp pp dp gp ip cp op par) (hs : MixedObjects fs ps ds gs is cs os ser)
    (hfp : trapCount gp * (pp / fp) ≤ 1) (hfs : trapCount gs * (ps / fs) ≤ 1) (img : Image ℝ) (himg : img.NonNeg)
    (hnr : 0 < img.nr) (hnc : 0 < img.nc) :
    ∃ out, addCtiPy img par .all ser .all none =
        .ok (out, .standard [dp] true true true ip, .standard [ds] true true true is) ∧
      out.nr = img.nr ∧ out.nc = img.nc ∧
      ∀ r < img.nr, ∀ c < img.nc, out.px r c =
        Ref.stepReadout (Ref.mixStep (wellFill fs ps) ds) (gs.map Ref.mixOf) (Ref.allPasses img.nc os)
          (fun c => Ref.stepReadout (Ref.mixStep (wellFill fp pp) dp) (gp.map Ref.mixOf) (Ref.allPasses img.nr op)
            (fun r => img.px r c) r) c := by
  obtain ⟨mid, g1, g2, g3, g0, g4⟩ := hp.run hfp img himg hnr (some (List.range (img.nr + op)))
    (Or.inr ⟨img.nr, rfl, fun x hx => List.mem_range.1 hx⟩)
  have e1 : mid.transpose.nr = img.nc := g3
  have e2 : mid.transpose.nc = img.nr := g2
  obtain ⟨out, q1, q2, q3, -, q4⟩ := hs.run hfs mid.transpose (fun r hr c hc => g0 c hc r hr) (by rw [e1]; exact hnc) none
    (Or.inl rfl)
  rw [e1, e2] at q1
  refine ⟨out.transpose, ?_, q3.trans e2, q2.trans e1, ?_⟩
  · rw [hp.eq, hs.eq]
    unfold addCtiPy
    simp only [Window.resolve, bind, Except.bind, Option.getD_none, Option.getD_some]
    rw [g1]
    simp only
    rw [q1]
  · intro r hr c hc
    change out.px c r = _
    rw [q4 c (by rw [e1]; exact hc) r (by rw [e2]; exact hr), e1]
    refine stepReadout_congr _ img.nc _ ?_ _ _ (fun c hc => ?_) c hc
    · intro p hp x hx
      exact (allPasses_one img.nc os p hp x hx).1
    · exact g4 r hr c hc

/-- **C101**, reference for parallel clocking. -/
theorem C101_parallel (hp : MixedObjects fp pp dp gp ip cp op par) (hfp : trapCount gp * (pp / fp) ≤ 1) (img : Image ℝ)
    (himg : img.NonNeg) (hnr : 0 < img.nr) :
    ∃ out, addCtiPy img par .all .absent .all none = .ok (out, .standard [dp] true true true ip, Roe.default) ∧
      out.nr = img.nr ∧ out.nc = img.nc ∧ ∀ r < img.nr, ∀ c < img.nc, out.px r c =
        Ref.stepReadout (Ref.mixStep (wellFill fp pp) dp) (gp.map Ref.mixOf) (Ref.allPasses img.nr op)
          (fun r => img.px r c) r := by
  obtain ⟨out, g1, g2, g3, -, g4⟩ := hp.run hfp img himg hnr (some (List.range (img.nr + op)))
    (Or.inr ⟨img.nr, rfl, fun x hx => List.mem_range.1 hx⟩)
  refine ⟨out, ?_, g2, g3, g4⟩
  rw [hp.eq]
  unfold addCtiPy PyDirection.absent
  simp only [Window.resolve, bind, Except.bind, Option.getD_none, Option.getD_some]
  rw [g1]

theorem mixed_mild (hp : MixedObjects fp pp dp gp ip cp op par) (hs : MixedObjects fs ps ds gs is cs os ser)
    (nr nc : ℕ) (lp ls q : ℝ)
    (hlp : lp = 4 * (trapCount gp * (pp / fp))) (hls : ls = 4 * (trapCount gs * (ps / fs))) (hlp1 : lp < 1) (hls1 : ls < 1)
    (hq : q = (1 / (1 - lp)) ^ (nr + op) * (1 / (1 - ls)) ^ (nc + os) - 1) :
    0 ≤ q ∧ MildMap nr nc 0 q
      (fun r c => trapCount gp * ((r + op + 1 : ℕ) : ℝ) + trapCount gs * ((c + os + 1 : ℕ) : ℝ)) fun x r c =>
        Ref.stepReadout (Ref.mixStep (wellFill fs ps) ds) (gs.map Ref.mixOf) (Ref.allPasses nc os)
          (fun c => Ref.stepReadout (Ref.mixStep (wellFill fp pp) dp) (gp.map Ref.mixOf) (Ref.allPasses nr op)
            (fun r => x r c) r) c := by
  have hlp0 : 0 ≤ trapCount gp * (pp / fp) :=
    mul_nonneg hp.count_nonneg (div_nonneg (by linarith [hp.power]) hp.full.le)
  have hls0 : 0 ≤ trapCount gs * (ps / fs) :=
    mul_nonneg hs.count_nonneg (div_nonneg (by linarith [hs.power]) hs.full.le)
  have hP := hp.mild (by rw [← hlp]; exact hlp1) nr
  have hS := hs.mild (by rw [← hls]; exact hls1) nc
  rw [← hlp] at hP
  rw [← hls] at hS
  have hqP := lossSlope_nonneg (l := lp) (by linarith) hlp1 (nr + op)
  have hqS := lossSlope_nonneg (l := ls) (by linarith) hls1 (nc + os)
  have hqe : (1 + lossSlope lp (nr + op)) * (1 + lossSlope ls (nc + os)) - 1 = q := by
    rw [hq]; unfold lossSlope; ring
  refine ⟨by rw [← hqe]; nlinarith, ?_⟩
  have := mildMap_both hP hS hqS (up := fun r => trapCount gp * ((r + op + 1 : ℕ) : ℝ))
    (us := fun c => trapCount gs * ((c + os + 1 : ℕ) : ℝ))
    (fun x hx r hr => hp.rise (by linarith) nr x hx r hr) (fun x hx r hr => hs.rise (by linarith) nc x hx r hr)
  rw [hqe] at this
  exact this

theorem mixed_again (hp : MixedObjects fp pp dp gp ip cp op par) (hs : MixedObjects fs ps ds gs is cs os ser)
    (x y : Image ℝ) (h : addCtiPy x par .all ser .all none =
        .ok (y, .standard [dp] true true true ip, .standard [ds] true true true is)) :
    addAgain par ser x (par.roe, ser.roe) = .ok (y, par.roe, ser.roe) := by
  have hroe : par.roe = some (.standard [dp] true true true ip) ∧ ser.roe = some (.standard [ds] true true true is) := by
    rw [hp.eq, hs.eq]; exact ⟨rfl, rfl⟩
  unfold addAgain
  simp only [bind, Except.bind]
  rw [h]
  simp only [hroe.1, hroe.2, Option.map_some]

theorem mixed_again_parallel (hp : MixedObjects fp pp dp gp ip cp op par) (x y : Image ℝ)
    (h : addCtiPy x par .all .absent .all none = .ok (y, .standard [dp] true true true ip, Roe.default)) :
    addAgain par .absent x (par.roe, none) = .ok (y, par.roe, none) := by
  have hroe : par.roe = some (.standard [dp] true true true ip) := by rw [hp.eq]
  have e2 : addCtiPy x { par with roe := par.roe } .all { PyDirection.absent with roe := none } .all none =
      .ok (y, .standard [dp] true true true ip, Roe.default) := h
  unfold addAgain
  simp only [bind, Except.bind]
  rw [e2]
  simp only [hroe, Option.map_some, Option.map_none]

/-- The three statements for both directions. -/
theorem invert_mixed (hp : MixedObjects fp pp dp gp ip cp op par) (hs : MixedObjects fs ps ds gs is cs os ser)
    {nr nc : ℕ} (hnr : 0 < nr) (hnc : 0 < nc) (lp ls q : ℝ)
    (hlp : lp = 4 * (trapCount gp * (pp / fp))) (hls : ls = 4 * (trapCount gs * (ps / fs))) (hlp1 : lp < 1) (hls1 : ls < 1)
    (hq : q = (1 / (1 - lp)) ^ (nr + op) * (1 / (1 - ls)) ^ (nc + os) - 1) (hq1 : q < 1) :
    Inverts (addAgain par ser) (par.roe, ser.roe) nr nc 0 q
      fun r c => trapCount gp * ((r + op + 1 : ℕ) : ℝ) + trapCount gs * ((c + os + 1 : ℕ) : ℝ) :=
  have hlp0 : 0 ≤ trapCount gp * (pp / fp) :=
    mul_nonneg hp.count_nonneg (div_nonneg (by linarith [hp.power]) hp.full.le)
  have hls0 : 0 ≤ trapCount gs * (ps / fs) :=
    mul_nonneg hs.count_nonneg (div_nonneg (by linarith [hs.power]) hs.full.le)
  invert_above (addAgain par ser) (par.roe, ser.roe) (mixed_mild hp hs nr nc lp ls q hlp hls hlp1 hls1 hq).2
    (mixed_mild hp hs nr nc lp ls q hlp hls hlp1 hls1 hq).1 hq1
    (fun r _ c _ => add_nonneg (mul_nonneg hp.count_nonneg (Nat.cast_nonneg _))
      (mul_nonneg hs.count_nonneg (Nat.cast_nonneg _))) (fun x h1 h2 h3 => by
      obtain ⟨y, y1, y2, y3, y4⟩ := C101_add_cti hp hs (by linarith) (by linarith) x h3 (by rw [h1]; exact hnr)
        (by rw [h2]; exact hnc)
      rw [h1, h2] at y4
      exact ⟨y, mixed_again hp hs x y y1, y2.trans h1, y3.trans h2, y4⟩)

/-- The three statements for parallel clocking. -/
theorem invert_mixed_parallel (hp : MixedObjects fp pp dp gp ip cp op par) {nr nc : ℕ} (hnr : 0 < nr) (lp q : ℝ)
    (hlp : lp = 4 * (trapCount gp * (pp / fp))) (hlp1 : lp < 1)
    (hq : q = (1 / (1 - lp)) ^ (nr + op) - 1) (hq1 : q < 1) :
    Inverts (addAgain par .absent) (par.roe, none) nr nc 0 q fun r _ => trapCount gp * ((r + op + 1 : ℕ) : ℝ) :=
  have hlp0 : 0 ≤ trapCount gp * (pp / fp) :=
    mul_nonneg hp.count_nonneg (div_nonneg (by linarith [hp.power]) hp.full.le)
  have hqq : lossSlope lp (nr + op) = q := by rw [hq]; rfl
  have hP : Mild nr 0 0 q
      (Ref.stepReadout (Ref.mixStep (wellFill fp pp) dp) (gp.map Ref.mixOf) (Ref.allPasses nr op)) := by
    have := hp.mild (by rw [← hlp]; exact hlp1) nr
    rwa [← hlp, hqq] at this
  have hq0 : 0 ≤ q := by rw [← hqq]; exact lossSlope_nonneg (by linarith) hlp1 _
  invert_above (addAgain par .absent) (par.roe, none)
    (mildMap_parallel (nc := nc) hP (up := fun r => trapCount gp * ((r + op + 1 : ℕ) : ℝ))
      (fun x hx r hr => hp.rise (by linarith) nr x hx r hr)) hq0 hq1
    (fun r _ c _ => mul_nonneg hp.count_nonneg (Nat.cast_nonneg _)) (fun x h1 h2 h3 => by
      obtain ⟨y, g1, g2, g3, g4⟩ := C101_parallel hp (by linarith) x h3 (by rw [h1]; exact hnr)
      rw [h1] at g4
      exact ⟨y, mixed_again_parallel hp x y g1, g2.trans h1, g3.trans h2, fun r hr c hc => g4 r hr c (by rw [h2]; exact hc)⟩)

/-- **C101**, both directions. Let `λ` be four times the number of traps per pixel times `power / full_well_depth`, and
`q = (1-λ_p)^-(rows+offset_p) · (1-λ_s)^-(columns+offset_s) - 1 < 1`. Let every pixel of an image hold at least one electron
per trap and transfer. Then there is an image without negative pixels from which `add_cti` makes this image, it is the only
one, and the image that `remove_cti` returns after `n` iterations differs from it by at most `q^(n+1) / (1-q)` times the
total charge, summed over all pixels. -/
theorem C101_inverse (hp : MixedObjects fp pp dp gp ip cp op par) (hs : MixedObjects fs ps ds gs is cs os ser)
    (img : Image ℝ) (hnr : 0 < img.nr) (hnc : 0 < img.nc) (lp ls q : ℝ)
    (hlp : lp = 4 * (trapCount gp * (pp / fp))) (hls : ls = 4 * (trapCount gs * (ps / fs))) (hlp1 : lp < 1) (hls1 : ls < 1)
    (hq : q = (1 / (1 - lp)) ^ (img.nr + op) * (1 / (1 - ls)) ^ (img.nc + os) - 1) (hq1 : q < 1)
    (himg : ∀ r < img.nr, ∀ c < img.nc,
      trapCount gp * ((r + op + 1 : ℕ) : ℝ) + trapCount gs * ((c + os + 1 : ℕ) : ℝ) ≤ img.px r c) :
    ∃ truth back, truth.SameShape img ∧ truth.AtLeast 0 ∧ addCtiPy truth par .all ser .all none =
        .ok (back, .standard [dp] true true true ip, .standard [ds] true true true is) ∧ back.Same img ∧
      (∀ other out roes, other.SameShape img → other.AtLeast 0 → addCtiPy other par .all ser .all none = .ok (out, roes) →
        out.Same img → other.Same truth) ∧
      ∀ n, ∃ out, removeCtiPy img n par .all ser .all none = .ok (out, par.roe, ser.roe) ∧ out.SameShape img ∧
        out.dist truth ≤ q ^ (n + 1) / (1 - q) * img.total := by
  have hlp0 : 0 ≤ trapCount gp * (pp / fp) :=
    mul_nonneg hp.count_nonneg (div_nonneg (by linarith [hp.power]) hp.full.le)
  have hls0 : 0 ≤ trapCount gs * (ps / fs) :=
    mul_nonneg hs.count_nonneg (div_nonneg (by linarith [hs.power]) hs.full.le)
  obtain ⟨-, G, -⟩ := invert_mixed hp hs hnr hnc lp ls q hlp hls hlp1 hls1 hq hq1
  obtain ⟨truth, back, t1, t2, t3, t4, t5, t6⟩ := G img rfl rfl (fun r hr c hc => by rw [zero_add]; exact himg r hr c hc)
  obtain ⟨back', b1, b2, b3, -⟩ := C101_add_cti hp hs (by linarith) (by linarith) truth t2 (by rw [t1.1]; exact hnr)
    (by rw [t1.2]; exact hnc)
  obtain rfl : back' = back := by
    rw [mixed_again hp hs truth back' b1] at t3
    injection t3 with t3
    injection t3
  refine ⟨truth, back', t1, t2, b1, t4, fun other out roes o1 o2 o3 o4 => ?_, t6⟩
  obtain ⟨out', c1, -⟩ := C101_add_cti hp hs (by linarith) (by linarith) other o2 (by rw [o1.1]; exact hnr)
    (by rw [o1.2]; exact hnc)
  rw [o3] at c1
  injection c1 with c1
  injection c1 with c1 c5
  rw [c5] at o3
  exact t5 other out o1 o2 (mixed_again hp hs other out o3) o4

/-- **C101**, both directions, noise: different images without negative pixels stay different by at least `1 - q` times
their distance when CTI is added, and `remove_cti` increases the distance between two images at most
`1 + q + … + q^n ≤ 1 / (1 - q)` times. -/
theorem C101_noise (hp : MixedObjects fp pp dp gp ip cp op par) (hs : MixedObjects fs ps ds gs is cs os ser)
    (img img' : Image ℝ) (hsh : img'.SameShape img) (hnr : 0 < img.nr) (hnc : 0 < img.nc) (lp ls q : ℝ)
    (hlp : lp = 4 * (trapCount gp * (pp / fp))) (hls : ls = 4 * (trapCount gs * (ps / fs))) (hlp1 : lp < 1) (hls1 : ls < 1)
    (hq : q = (1 / (1 - lp)) ^ (img.nr + op) * (1 / (1 - ls)) ^ (img.nc + os) - 1) (hq1 : q < 1) :
    (img.AtLeast 0 → img'.AtLeast 0 → ∃ out out' roes, addCtiPy img par .all ser .all none = .ok (out, roes) ∧
      addCtiPy img' par .all ser .all none = .ok (out', roes) ∧ (1 - q) * img'.dist img ≤ out'.dist out) ∧
    ((∀ r < img.nr, ∀ c < img.nc,
        trapCount gp * ((r + op + 1 : ℕ) : ℝ) + trapCount gs * ((c + os + 1 : ℕ) : ℝ) ≤ min (img.px r c) (img'.px r c)) →
      ∀ n, ∃ out out', removeCtiPy img n par .all ser .all none = .ok (out, par.roe, ser.roe) ∧
        removeCtiPy img' n par .all ser .all none = .ok (out', par.roe, ser.roe) ∧
        out'.dist out ≤ (∑ k ∈ Finset.range (n + 1), q ^ k) * img'.dist img) := by
  have hlp0 : 0 ≤ trapCount gp * (pp / fp) :=
    mul_nonneg hp.count_nonneg (div_nonneg (by linarith [hp.power]) hp.full.le)
  have hls0 : 0 ≤ trapCount gs * (ps / fs) :=
    mul_nonneg hs.count_nonneg (div_nonneg (by linarith [hs.power]) hs.full.le)
  obtain ⟨G1, -, G3⟩ := invert_mixed hp hs hnr hnc lp ls q hlp hls hlp1 hls1 hq hq1
  refine ⟨fun h h' => ?_, fun h n => ?_⟩
  · obtain ⟨out, b1, -⟩ := C101_add_cti hp hs (by linarith) (by linarith) img h hnr hnc
    obtain ⟨out', c1, -⟩ := C101_add_cti hp hs (by linarith) (by linarith) img' h' (by rw [hsh.1]; exact hnr)
      (by rw [hsh.2]; exact hnc)
    exact ⟨out, out', _, b1, c1, G1 img' img out' out hsh.1 hsh.2 rfl rfl h' h (mixed_again hp hs _ _ c1)
      (mixed_again hp hs _ _ b1)⟩
  · obtain ⟨u, v, h1, h2, h3⟩ := G3 img' img hsh.1 hsh.2 rfl rfl
      (fun r hr c hc => by rw [zero_add]; exact (h r hr c hc).trans (min_le_right _ _))
      (fun r hr c hc => by rw [zero_add]; exact (h r hr c hc).trans (min_le_left _ _)) n
    exact ⟨v, u, h2, h1, h3⟩

/-- **C101**, parallel clocking: existence, uniqueness and convergence. -/
theorem C101_inverse_parallel (hp : MixedObjects fp pp dp gp ip cp op par) (img : Image ℝ) (hnr : 0 < img.nr) (lp q : ℝ)
    (hlp : lp = 4 * (trapCount gp * (pp / fp))) (hlp1 : lp < 1)
    (hq : q = (1 / (1 - lp)) ^ (img.nr + op) - 1) (hq1 : q < 1)
    (himg : ∀ r < img.nr, ∀ c < img.nc, trapCount gp * ((r + op + 1 : ℕ) : ℝ) ≤ img.px r c) :
    ∃ truth back, truth.SameShape img ∧ truth.AtLeast 0 ∧ addCtiPy truth par .all .absent .all none =
        .ok (back, .standard [dp] true true true ip, Roe.default) ∧ back.Same img ∧
      (∀ other out roes, other.SameShape img → other.AtLeast 0 →
        addCtiPy other par .all .absent .all none = .ok (out, roes) → out.Same img → other.Same truth) ∧
      ∀ n, ∃ out, removeCtiPy img n par .all .absent .all none = .ok (out, par.roe, none) ∧ out.SameShape img ∧
        out.dist truth ≤ q ^ (n + 1) / (1 - q) * img.total := by
  have hlp0 : 0 ≤ trapCount gp * (pp / fp) :=
    mul_nonneg hp.count_nonneg (div_nonneg (by linarith [hp.power]) hp.full.le)
  obtain ⟨-, G, -⟩ := invert_mixed_parallel (nc := img.nc) hp hnr lp q hlp hlp1 hq hq1
  obtain ⟨truth, back, t1, t2, t3, t4, t5, t6⟩ := G img rfl rfl (fun r hr c hc => by rw [zero_add]; exact himg r hr c hc)
  obtain ⟨back', b1, b2, b3, -⟩ := C101_parallel hp (by linarith) truth t2 (by rw [t1.1]; exact hnr)
  obtain rfl : back' = back := by
    rw [mixed_again_parallel hp truth back' b1] at t3
    injection t3 with t3
    injection t3
  refine ⟨truth, back', t1, t2, b1, t4, fun other out roes o1 o2 o3 o4 => ?_, t6⟩
  obtain ⟨out', c1, -⟩ := C101_parallel hp (by linarith) other o2 (by rw [o1.1]; exact hnr)
  rw [o3] at c1
  injection c1 with c1
  injection c1 with c1 c5
  rw [c5] at o3
  exact t5 other out o1 o2 (mixed_again_parallel hp other out o3) o4

end main

/-! ### where it fails -/

/-- **C101** needs the condition on the pixels: `remove_cti` makes the empty pixel behind a pixel of 100 electrons negative
if half of the vacant traps capture in a dwell time. -/
theorem C101_dark_false :
    (removeCti (exImg 2 1 [[100], [0]]) 1 (some ⟨exCcd, .standard [1] true true true false, [exHalf], 0, 0⟩) 0 .all none .all
      none).map (fun x => (x.1.px 0 0, decide (x.1.px 1 0 < 0))) = .ok (105, true) := by
  decide +kernel

/-! ### examples -/

/-- A tenth of a trap per pixel with capture and release timescales, and as many with instant capture, in a well for 1000
electrons. -/
theorem exMixed : MixedObjects 1000 1 1 [[.trap 0.05 2 0.1 false, .trap 0.05 3 0 false], [.instant 0.1 5 false]] false
    ⟨[1], [1000], [1], [0], [.num 1000]⟩ 2
    ⟨some ⟨[1], [1000], [1], [0], [.num 1000]⟩, some (.standard [1] true true true false),
      some (.list ([[.trap 0.05 2 0.1 false, .trap 0.05 3 0 false], [.instant 0.1 5 false]].map .group)), 0, 2⟩ := by
  refine ⟨rfl, ⟨rfl, ⟨rfl, rfl, rfl⟩⟩, by norm_num, le_rfl, one_pos, by simp, fun l hl => ?_⟩
  simp only [List.mem_cons, List.not_mem_nil, or_false] at hl
  rcases hl with rfl | rfl
  · refine ⟨⟨by simp, fun t ht => ?_⟩, fun d f m s h => by simp at h⟩
    simp only [List.mem_cons, List.not_mem_nil, or_false] at ht
    rcases ht with rfl | rfl
    · exact ⟨⟨by norm_num, by norm_num⟩, by simp only [Trap.captureTimescale]; norm_num⟩
    · exact ⟨⟨by norm_num, by norm_num⟩, by simp only [Trap.captureTimescale]; norm_num⟩
  · refine ⟨⟨by simp, fun t ht => ?_⟩, fun d f m s h => by simp at h⟩
    simp only [List.mem_cons, List.not_mem_nil, or_false] at ht
    subst ht
    exact ⟨⟨by norm_num, by norm_num⟩, le_rfl⟩

/-- Three rows and two columns of 100 electrons: there is an image that gives this one, and `remove_cti` with three
iterations differs from it by less than a thousandth of an electron. -/
example (d : PyDirection) (hd : d = ⟨some ⟨[1], [1000], [1], [0], [.num 1000]⟩, some (.standard [1] true true true false),
      some (.list ([[.trap 0.05 2 0.1 false, .trap 0.05 3 0 false], [.instant 0.1 5 false]].map .group)), 0, 2⟩) :
    ∃ truth out, truth.AtLeast 0 ∧ removeCtiPy ⟨3, 2, fun _ _ => 100⟩ 3 d .all d .all none = .ok (out, d.roe, d.roe) ∧
      out.dist truth ≤ 1 / 1000 := by
  have h := exMixed
  rw [← hd] at h
  have hc : trapCount [[.trap 0.05 2 0.1 false, .trap 0.05 3 0 false], [.instant 0.1 5 false]] = 0.2 := by
    simp [trapCount, Trap.density]; norm_num
  obtain ⟨q, hq⟩ : ∃ q : ℝ, q = (1 / (1 - 0.0008)) ^ (3 + 2) * (1 / (1 - 0.0008)) ^ (2 + 2) - 1 := ⟨_, rfl⟩
  have hq0 : 0 ≤ q := by rw [hq]; norm_num
  have hq1 : q ≤ 0.008 := by rw [hq]; norm_num
  obtain ⟨truth, -, t1, t2, -, -, -, G⟩ := C101_inverse h h (⟨3, 2, fun _ _ => 100⟩ : Image ℝ) (by norm_num) (by norm_num)
    0.0008 0.0008 q (by rw [hc]; norm_num) (by rw [hc]; norm_num) (by norm_num) (by norm_num) hq (by linarith)
    (fun r hr c hc' => by
      rw [hc]
      have e1 : ((r + 2 + 1 : ℕ) : ℝ) ≤ 5 := by
        have : r + 2 + 1 ≤ 5 := by simp only at hr; omega
        exact_mod_cast this
      have e2 : ((c + 2 + 1 : ℕ) : ℝ) ≤ 4 := by
        have : c + 2 + 1 ≤ 4 := by simp only at hc'; omega
        exact_mod_cast this
      simp only
      linarith)
  obtain ⟨out, g1, g2, g3⟩ := G 3
  refine ⟨truth, out, t2, g1, g3.trans ?_⟩
  have ht : Image.total (⟨3, 2, fun _ _ => 100⟩ : Image ℝ) = 600 := by
    simp [Image.total]; norm_num
  rw [ht]
  have e : q ^ (3 + 1) ≤ 0.008 ^ (3 + 1) := pow_le_pow_left₀ hq0 hq1 _
  have e2 : q ^ (3 + 1) / (1 - q) ≤ 0.008 ^ (3 + 1) / (1 - 0.008) :=
    div_le_div₀ (by norm_num) e (by norm_num) (by linarith)
  have := mul_le_mul_of_nonneg_right e2 (by norm_num : (0 : ℝ) ≤ 600)
  refine this.trans (by norm_num)

end Arctic
