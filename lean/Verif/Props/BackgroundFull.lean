import Verif.Props.InvertFull
import Verif.Props.Background
import Verif.Lemmas.BackFull

/-!
# C111 — traps of all classes with well_fill_power ≤ 1 over a background

`add_cti` with groups of instant-capture traps, of traps with a capture timescale and of traps with a distribution of
lifetimes against the reference simulation, if the clouds never get smaller than a background, and what follows for
`remove_cti`.
-/

set_option linter.unusedSectionVars false
set_option linter.unusedVariables false

namespace Arctic

/-- Python objects of one direction: one phase without a notch, standard readout emptying the traps between columns and for
first transfers, groups of traps of all classes. -/
structure AllObjects (full power dw : ℝ) (gs : List (List Trap)) (i : Bool) (c : CCD) (o : ℕ) (d : PyDirection) :
    Prop where
  eq : d = ⟨some c, some (.standard [dw] true true true i), some (.list (gs.map .group)), 0, o⟩
  phase : c.fractions = [1] ∧ c.HasPhase 0 0 full power
  full : 0 < full
  power : 0 < power
  dwell : 0 < dw
  groups : gs ≠ [] ∧ ∀ l ∈ gs, EveryGroup l

section one
variable {full power dw : ℝ} {gs : List (List Trap)} {i : Bool} {c : CCD} {o : ℕ} {d : PyDirection} {n : ℕ}
  {b low left k : ℝ}

theorem AllObjects.count_le (h : AllObjects full power dw gs i c o d) :
    ∀ l ∈ gs, (l.map Trap.density).sum ≤ trapCount gs := by
  intro l hl
  unfold trapCount
  refine List.single_le_sum (fun x hx => ?_) _ (List.mem_map_of_mem hl)
  obtain ⟨k, hk, rfl⟩ := List.mem_map.1 hx
  refine List.sum_nonneg fun x hx => ?_
  obtain ⟨t, ht, rfl⟩ := List.mem_map.1 hx
  exact ((h.groups.2 k hk).all t ht).1.density

theorem AllObjects.count_nonneg (h : AllObjects full power dw gs i c o d) : 0 ≤ trapCount gs := by
  unfold trapCount
  refine List.sum_nonneg fun x hx => ?_
  obtain ⟨k, hk, rfl⟩ := List.mem_map.1 hx
  refine List.sum_nonneg fun x hx => ?_
  obtain ⟨t, ht, rfl⟩ := List.mem_map.1 hx
  exact ((h.groups.2 k hk).all t ht).1.density

theorem AllObjects.few (h : AllObjects full power dw gs i c o d) :
    Ref.FullFew dw (trapCount gs) (gs.map Ref.fullOf) ∧ Ref.fullFilled (gs.map Ref.fullOf) = 0 := by
  refine ⟨⟨fun t ht => ?_, ?_⟩, ?_⟩
  · obtain ⟨l, hl, rfl⟩ := List.mem_map.1 ht
    exact (h.groups.2 l hl).full_reg h.dwell
  · unfold Ref.fullTotal trapCount
    rw [List.map_map]
    congr 1
    exact List.map_congr_left fun l _ => Ref.fullOf_total l
  · unfold Ref.fullFilled
    rw [List.map_map]
    refine List.sum_eq_zero fun x hx => ?_
    obtain ⟨l, -, rfl⟩ := List.mem_map.1 hx
    exact Ref.fullOf_filled l

theorem AllObjects.law (h : AllObjects full power dw gs i c o d) (hpw : power ≤ 1) (hb : 0 < b) :
    LawFrom (wellFill full power) b (wellFill full power b / b) := by
  have hcv := wellFill_concave h.full h.power hpw
  have hx := wellFill_exact h.full h.power
  refine ⟨hb, hx.1, hcv.lift hb, fun n hn => ?_⟩
  unfold liftFill
  split
  · exact hx.2 n hn
  · rw [max_eq_right hn.le]
    exact mul_pos (div_pos (hx.2 b hb) hb) hn

/-- The managers of empty traps. -/
theorem AllObjects.managers (h : AllObjects full power dw gs i c o d) (M : ℕ) :
    List.Forall₂ (EveryRef (trapCount gs) False M 0)
      ((gs.map groupOf).map fun g => Mgr.new (fun j => g.dens j * 1) g.kind M)
      ((gs.map Ref.fullOf).map Ref.FullTraps.every) := by
  have hone : ∀ l ∈ gs, EveryRef (trapCount gs) False M 0
      (Mgr.new (fun j => (groupOf l).dens j * 1) (groupOf l).kind M) (Ref.fullOf l).every := by
    intro l hl
    rw [← Ref.everyOf_full]
    have hg := h.groups.2 l hl
    have hle := h.count_le l hl
    have hany : SensibleGroup l → groupOf l = (Ref.anyOf l).group := SensibleGroup.group
    cases l with
    | nil => exact absurd rfl hg.ne_nil
    | cons a l =>
      cases a with
      | trap d τ τc b =>
        exact slowRef_new (Ref.slowOf (.trap d τ τc b :: l)) M 1 hg.slow_ok zero_le_one
          (by rw [Ref.slowOf_total, mul_one]; exact hle) (fun y => fillProbs _ y) fun y hy => slowOf_probs hg hy
      | instant d τ b =>
        have hs : SensibleGroup (.instant d τ b :: l) := ⟨⟨_, rfl, trivial⟩, fun t ht => (hg.all t ht).1⟩
        rw [hany hs]
        have hok := hs.ok
        exact mgrRef_new (fun j => (Ref.ofTraps (.instant d τ b :: l)).dens j * 1) _ M
          (fun j => mul_nonneg (hok.dens j) zero_le_one) hok.keep
      | continuum d f m s =>
        have hs : SensibleGroup (.continuum d f m s :: l) := ⟨⟨_, rfl, trivial⟩, fun t ht => (hg.all t ht).1⟩
        rw [hany hs]
        have hok := hs.ok
        refine ⟨Or.inr ⟨⟨hok.start, hok.law, fun j => (hs.all _ (List.getElem_mem _)).anti⟩, ?_⟩,
          clkRef_new _ _ M (fun j => mul_nonneg (hok.dens j) zero_le_one) hok.start hok.law⟩
        rw [← mul_one ((Trap.continuum d f m s :: l).map Trap.density).sum, ← Fin.sum_univ_fun_getElem, Finset.sum_mul] at hle
        exact hle
  have hlist : ∀ l : List (List Trap), (∀ x ∈ l, x ∈ gs) → List.Forall₂ (EveryRef (trapCount gs) False M 0)
      ((l.map groupOf).map fun g => Mgr.new (fun j => g.dens j * 1) g.kind M) ((l.map Ref.fullOf).map Ref.FullTraps.every) := by
    intro l
    induction l with
    | nil => intro _; exact .nil
    | cons a l ih =>
      intro hl
      exact .cons (hone a (hl a List.mem_cons_self)) (ih fun x hx => hl x (List.mem_cons_of_mem _ hx))
  exact hlist gs fun x hx => hx

theorem OverBackground.above (hb : OverBackground full power gs n b low left k) {x : ℕ → ℝ} {R : ℕ}
    (hx : ∀ r < R, low ≤ x r) :
    (∀ r < R, 0 ≤ x r) ∧ ∀ r < R, b ≤ (1 - trapCount gs * (wellFill full power b / b)) ^ n * x r := by
  have hc : 0 ≤ (1 - trapCount gs * (wellFill full power b / b)) ^ n := pow_nonneg (by linarith [hb.slope, hb.slope_le]) _
  exact ⟨fun r hr => hb.low_nonneg.trans (hx r hr), fun r hr =>
    (hb.keeps.trans (mul_le_mul_of_nonneg_right hb.le_pow hb.low_nonneg)).trans (mul_le_mul_of_nonneg_left (hx r hr) hc)⟩

/-- Clocking in one direction follows the reference column by column. -/
theorem AllObjects.run (h : AllObjects full power dw gs i c o d) (img : Image ℝ)
    (hb : OverBackground full power gs (img.nr + o) b low left k) (himg : img.AtLeast low) (hnr : 0 < img.nr)
    (tw : Option (List ℕ)) (hcov : Covering o (List.range img.nr) tw) :
    ∃ out, clockChargePy img (some c) (.standard [dw] true true true i) (.list (gs.map .group)) 0 o
        (List.range img.nr) (List.range img.nc) tw = .ok (out, .standard [dw] true true true i) ∧
      out.nr = img.nr ∧ out.nc = img.nc ∧ out.AtLeast left ∧ ∀ r < img.nr, ∀ c < img.nc, out.px r c =
        Ref.stepReadout (Ref.fullStep (wellFill full power) dw) (gs.map Ref.fullOf) (Ref.allPasses img.nr o)
          (fun r => img.px r c) r := by
  obtain ⟨m, mon, hm⟩ := express_full i img.nr o hnr tw hcov
  obtain ⟨a, ha, -, q, -, hm1, hm2⟩ := roeExpress_ok hm
  have hfill : c.view.fill 0 = wellFill full power := CCD.view_fill h.phase.2 h.full h.power
  have hfr : c.view.fractions = [1] := h.phase.1
  have hcfg : clockCfg (.standard [dw] true true true i) c.view 0 o (List.range img.nr) tw =
      .ok (onePhaseCfg (List.range img.nr) dw m mon, .standard [dw] true true true i) := by
    have hdw := h.dwell
    unfold clockCfg onePhaseCfg
    simp only [hfr, Roe.express, hm, bind, Except.bind, Roe.save, roeSave, if_true, Roe.clockSequence, Roe.nSteps,
      Roe.nPhases, Roe.dwell, Roe.force, Roe.emptyBetween, List.length_singleton, one_phase_sequence]
    simp [positiveIndices, hdw]
  have hacc : (Roe.standard [dw] true true true i).accessed = [0, 0, 0] := by
    unfold Roe.accessed Roe.clockSequence
    simp only [Roe.nSteps, Roe.nPhases, Roe.dwell, Roe.force, List.length_singleton, one_phase_sequence]
    simp [pixelsAccessed]
  have hpad : nPadding (Roe.standard [dw] true true true i).accessed = 0 := by rw [hacc]; rfl
  have hmon : mon.nc = (List.range img.nr).length := by rw [hm2]
  have hnc : m.nc = img.nr := by rw [hm1, List.length_range]
  set cfg := onePhaseCfg (List.range img.nr) dw m mon with hcfg'
  have hN : maxNTransfers (.standard [dw] true true true i) cfg = img.nr := by
    rw [hcfg']
    unfold maxNTransfers onePhaseCfg Roe.isPumping
    simp [hnc]
  have hpasses : (List.range cfg.expr.nr).map (todo cfg) = Ref.allPasses img.nr o := by
    rw [← fullPasses hnr hcov hm]
    unfold matrixPasses todo monitoredRows
    rw [hcfg']
    unfold onePhaseCfg
    simp only [hmon]
  have hrows : ∀ k, (todo cfg k).map Prod.fst = monitoredRows cfg k := by
    intro k
    unfold todo
    rw [List.map_map]
    conv_rhs => rw [← List.map_id (monitoredRows cfg k)]
    refine List.map_congr_left fun j hj => ?_
    have hlt : j < img.nr := by
      have := monitoredRows_lt hj
      rw [hcfg'] at this
      have e : (onePhaseCfg (List.range img.nr) dw m mon).monitor.nc = img.nr := hmon.trans List.length_range
      omega
    rw [hcfg']
    simp [onePhaseCfg, hlt]
  have hmr : ∀ k, (monitoredRows cfg k).length ≤ img.nr := by
    intro k
    unfold monitoredRows
    refine (List.length_filter_le _ _).trans ?_
    rw [List.length_range]
    exact (hmon.trans List.length_range).le
  have hlaw := h.law hb.concave hb.pos
  have hκ : trapCount gs * (wellFill full power b / b) ≤ 1 := hb.slope.trans hb.slope_le
  set ms := (gs.map groupOf).map fun g => Mgr.new (fun j => g.dens j * 1) g.kind img.nr with hms
  have habove : ∀ c < img.nc, (∀ r < img.nr, 0 ≤ (img.pad 0).px r c) ∧
      ∀ r < img.nr, b ≤ (1 - trapCount gs * (wellFill full power b / b)) ^ (img.nr + o) * (img.pad 0).px r c :=
    fun c hc => hb.above fun r hr => by simpa [Image.pad, hr] using himg r hr c hc
  have hread := fun c hc => hlaw.readout h.count_nonneg hκ h.few.1 img.nr o (fun r => (img.pad 0).px r c) (habove c hc).2
    (habove c hc).1
  obtain ⟨out', g3, g4, g5, g6⟩ := (both_sys c.view.fill (by rw [hfill]; exact hlaw) h.count_nonneg hκ h.dwell img.nr).columns
    (cfg := cfg) ⟨rfl, rfl, rfl, rfl, fun _ _ => rfl, rfl⟩ hmon.le
    (fun k => by rw [hrows]; exact List.nodup_range.filter _)
    (fun k => by rw [← List.length_map (f := Prod.fst), hrows]; exact hmr k)
    (ms, gs.map Ref.fullOf) ⟨h.managers img.nr, h.few.1⟩
    (by
      refine Prod.ext ?_ ?_
      · simp only [hms, List.map_map]
        refine List.map_congr_left fun g _ => ?_
        simp only [Function.comp, Mgr.new, Mgr.empty, List.map_replicate]
      · simp only [List.map_map]
        exact List.map_congr_left fun l _ => Ref.fullOf_vacate l)
    (List.range img.nc) (img.pad 0) List.nodup_range (fun c hc => List.mem_range.1 hc)
    (fun w hw => by
      have : w < img.nr := List.mem_range.1 hw
      simpa [Image.pad] using this)
    (fun c hc => by
      rw [hpasses, hfill]
      exact stays_proj (step' := Ref.fullStep (wellFill full power) dw) (g := Prod.snd) (fun s n => rfl) _ _ _
        (hread c (List.mem_range.1 hc)).1)
  have hstart : (fun a : ATM ℝ => (⟨a.data, a.eff⟩ : SpecState (Mgr ℝ))) (ATM.new (gs.map groupOf) [1] img.nr) =
      ⟨[ms], [ms]⟩ := by
    have e1 : (ATM.new (gs.map groupOf) [(1 : ℝ)] img.nr).data = [ms] := rfl
    have e2 : (ATM.new (gs.map groupOf) [(1 : ℝ)] img.nr).eff = [ms] := by
      rw [ATM.eff_none rfl, emptied_new, e1]
    simp only [e1, e2]
  have hproj := (atm_plain c.view.fill).clockLoops cfg (List.range img.nc)
    (img.pad 0, ATM.new (gs.map groupOf) [1] img.nr)
  simp only at hproj hstart
  rw [hstart, g3] at hproj
  obtain ⟨fin, hfin⟩ : ∃ fin, clockLoops (atmSys c.view.fill) cfg (List.range img.nc)
      (img.pad 0, ATM.new (gs.map groupOf) [1] img.nr) = .ok (out', fin) := by
    cases hr : clockLoops (atmSys c.view.fill) cfg (List.range img.nc) (img.pad 0, ATM.new (gs.map groupOf) [1] img.nr) with
    | ok x =>
      rw [hr] at hproj
      simp only [Proj] at hproj
      injection hproj with e
      injection e with e1 e2
      exact ⟨x.2, by rw [e1]⟩
    | error err =>
      rw [hr] at hproj
      exact absurd (hproj trivial) (by simp)
  have hclock : clockChargePy img (some c) (.standard [dw] true true true i) (.list (gs.map .group)) 0 o
      (List.range img.nr) (List.range img.nc) tw = .ok (out'.unpad 0, .standard [dw] true true true i) := by
    rw [clockChargePy_groups img c _ gs h.groups.1 (fun l hl => (h.groups.2 l hl).ne_nil) (by rw [h.phase.1]; simp)]
    unfold clockCharge
    rw [hcfg]
    simp only [bind, Except.bind, hpad, hN, hfr]
    rw [hfin]
  have hpx : ∀ r < img.nr, ∀ c < img.nc, out'.px r c =
      Ref.stepReadout (Ref.fullStep (wellFill full power) dw) (gs.map Ref.fullOf) (Ref.allPasses img.nr o)
        (fun r => (img.pad 0).px r c) r := by
    intro r hr c hc
    rw [g4, if_pos (List.mem_range.2 hc), hpasses, hfill]
    exact congrFun (stepReadout_proj (step := bothStep (wellFill full power) dw)
      (step' := Ref.fullStep (wellFill full power) dw) (g := Prod.snd) (fun s n => rfl) (ms, gs.map Ref.fullOf) _ _).symm r
  refine ⟨_, hclock, by simp [Image.unpad, g5, Image.pad], by simp [Image.unpad, g6, Image.pad], fun r hr c hc => ?_,
    fun r hr c hc => ?_⟩
  · have hr' : r < img.nr := by simpa [Image.unpad, g5, Image.pad] using hr
    have hc' : c < img.nc := by simpa [Image.unpad, g6, Image.pad] using hc
    change left ≤ out'.px r c
    rw [hpx r hr' c hc']
    refine le_trans ?_ ((hread c hc').2.2 r hr')
    refine (hb.leaves.trans (mul_le_mul_of_nonneg_right hb.le_pow hb.low_nonneg)).trans
      (mul_le_mul_of_nonneg_left ?_ (pow_nonneg (by linarith) _))
    simpa [Image.pad, hr'] using himg r hr' c hc'
  · change out'.px r c = _
    rw [hpx r hr c hc]
    refine stepReadout_congr _ img.nr _ ?_ _ _ (fun r hr => by simp [Image.pad, hr]) r hr
    intro p hp x hx
    exact (allPasses_one img.nr o p hp x hx).1

/-- Readout over a background changes columns little. -/
theorem AllObjects.mild (h : AllObjects full power dw gs i c o d)
    (hb : OverBackground full power gs (n + o) b low left k) (hk : 4 * k < 1) :
    0 ≤ lossSlope (4 * k) (n + o) ∧ Mild n low left (lossSlope (4 * k) (n + o))
      (Ref.stepReadout (Ref.fullStep (wellFill full power) dw) (gs.map Ref.fullOf) (Ref.allPasses n o)) := by
  have hlaw := h.law hb.concave hb.pos
  have hs := hb.slope
  have hk0 : 0 ≤ trapCount gs * (wellFill full power b / b) := mul_nonneg h.count_nonneg hlaw.lip.nonneg_slope
  have hlow0 := hb.low_nonneg
  have hread := fun (x : ℕ → ℝ) (hx : ∀ r < n, low ≤ x r) => hlaw.readout (dw := dw) h.count_nonneg (by linarith [hb.slope_le]) h.few.1 n o x
    (hb.above hx).2 (hb.above hx).1
  have hG := (full_gentle (dw := dw) hlaw.lip h.count_nonneg (by linarith)).mild (by linarith) (by linarith) h.few.1 h.few.2 n o
  have hqq : lossSlope (4 * (trapCount gs * (wellFill full power b / b))) (n + o) ≤ lossSlope (4 * k) (n + o) := by
    unfold lossSlope
    have : 1 / (1 - 4 * (trapCount gs * (wellFill full power b / b))) ≤ 1 / (1 - 4 * k) :=
      one_div_le_one_div_of_le (by linarith) (by linarith)
    have := pow_le_pow_left₀ (one_div_nonneg.2 (by linarith)) this (n + o)
    linarith
  refine ⟨(lossSlope_nonneg (by linarith) (by linarith) _).trans hqq, fun x hx r hr => ?_, fun x hx => ?_, fun x y hx hy => ?_⟩
  · refine ((hb.leaves.trans (mul_le_mul_of_nonneg_right hb.le_pow hlow0)).trans
      (mul_le_mul_of_nonneg_left (hx r hr) (pow_nonneg (by linarith [hb.slope_le]) _))).trans ((hread x hx).2.2 r hr)
  · rw [(hread x hx).2.1]
    exact (hG.small x (hb.above hx).1).trans (mul_le_mul_of_nonneg_right hqq
      (Finset.sum_nonneg fun r hr => hlow0.trans (hx r (Finset.mem_range.1 hr))))
  · rw [(hread x hx).2.1, (hread y hy).2.1]
    exact (hG.lip x y (hb.above hx).1 (hb.above hy).1).trans
      (mul_le_mul_of_nonneg_right hqq (Finset.sum_nonneg fun _ _ => abs_nonneg _))

theorem AllObjects.rise (h : AllObjects full power dw gs i c o d)
    (hb : OverBackground full power gs (n + o) b low left k) (hk : 4 * k < 1) (x : ℕ → ℝ) (hx : ∀ r < n, low ≤ x r) :
    ∀ r < n, Ref.stepReadout (Ref.fullStep (wellFill full power) dw) (gs.map Ref.fullOf) (Ref.allPasses n o) x r ≤
      x r + trapCount gs * ((r + o + 1 : ℕ) : ℝ) := by
  intro r hr
  have hlaw := h.law hb.concave hb.pos
  have hs := hb.slope
  have hread := hlaw.readout (dw := dw) h.count_nonneg (by linarith [hb.slope_le]) h.few.1 n o x (hb.above hx).2 (hb.above hx).1
  rw [hread.2.1]
  have := (full_gentle (dw := dw) hlaw.lip h.count_nonneg (by linarith)).rise n h.few.1 _
    (allPasses_good n o).nodup (allPasses_one n o) x (hb.above hx).1 r hr
  rwa [passCount_all n o r hr] at this

end one

section main
variable {fp fs pp ps dp ds : ℝ} {gp gs : List (List Trap)} {ip is : Bool} {cp cs : CCD} {op os : ℕ}
  {par ser : PyDirection} {bp bs lp ls left kp ks : ℝ}

/-- **C111**, reference: `add_cti` in both directions with groups of traps of all classes and `well_fill_power ≤ 1`. Pixels
of `lp` electrons keep `ls` electrons in parallel clocking and `left` electrons in serial clocking. Then `add_cti` of an
image with `lp` electrons in every pixel is the readout of each column, then of each row, one transfer after the other. -/
theorem C111_add_cti (hp : AllObjects fp pp dp gp ip cp op par) (hs : AllObjects fs ps ds gs is cs os ser)
    (img : Image ℝ) (hnr : 0 < img.nr) (hnc : 0 < img.nc)
    (hbp : OverBackground fp pp gp (img.nr + op) bp lp ls kp) (hbs : OverBackground fs ps gs (img.nc + os) bs ls left ks)
    (himg : img.AtLeast lp) :
    ∃ out, addCtiPy img par .all ser .all none =
        .ok (out, .standard [dp] true true true ip, .standard [ds] true true true is) ∧
      out.nr = img.nr ∧ out.nc = img.nc ∧ out.AtLeast left ∧
      ∀ r < img.nr, ∀ c < img.nc, out.px r c =
        Ref.stepReadout (Ref.fullStep (wellFill fs ps) ds) (gs.map Ref.fullOf) (Ref.allPasses img.nc os)
          (fun c => Ref.stepReadout (Ref.fullStep (wellFill fp pp) dp) (gp.map Ref.fullOf) (Ref.allPasses img.nr op)
            (fun r => img.px r c) r) c := by
  obtain ⟨mid, g1, g2, g3, g0, g4⟩ := hp.run img hbp himg hnr (some (List.range (img.nr + op)))
    (Or.inr ⟨img.nr, rfl, fun x hx => List.mem_range.1 hx⟩)
  have e1 : mid.transpose.nr = img.nc := g3
  have e2 : mid.transpose.nc = img.nr := g2
  obtain ⟨out, q1, q2, q3, q0, q4⟩ := hs.run mid.transpose (by rw [e1]; exact hbs) (fun r hr c hc => g0 c hc r hr)
    (by rw [e1]; exact hnc) none (Or.inl rfl)
  rw [e1, e2] at q1
  refine ⟨out.transpose, ?_, q3.trans e2, q2.trans e1, fun r hr c hc => q0 c hc r hr, ?_⟩
  · rw [hp.eq, hs.eq]
    unfold addCtiPy
    simp only [Window.resolve, bind, Except.bind, Option.getD_none, Option.getD_some]
    rw [g1]
    simp only
    rw [q1]
  · intro r hr c hc
    change out.px c r = _
    rw [q4 c (by rw [e1]; exact hc) r (by rw [e2]; exact hr), e1]
    refine stepReadout_congr _ img.nc _ ?_ _ _ (fun c hc => ?_) c hc
    · intro p hp x hx
      exact (allPasses_one img.nc os p hp x hx).1
    · exact g4 r hr c hc

/-- **C111**, reference for parallel clocking. -/
theorem C111_parallel (hp : AllObjects fp pp dp gp ip cp op par) (img : Image ℝ) (hnr : 0 < img.nr)
    (hbp : OverBackground fp pp gp (img.nr + op) bp lp left kp) (himg : img.AtLeast lp) :
    ∃ out, addCtiPy img par .all .absent .all none = .ok (out, .standard [dp] true true true ip, Roe.default) ∧
      out.nr = img.nr ∧ out.nc = img.nc ∧ out.AtLeast left ∧ ∀ r < img.nr, ∀ c < img.nc, out.px r c =
        Ref.stepReadout (Ref.fullStep (wellFill fp pp) dp) (gp.map Ref.fullOf) (Ref.allPasses img.nr op)
          (fun r => img.px r c) r := by
  obtain ⟨out, g1, g2, g3, g0, g4⟩ := hp.run img hbp himg hnr (some (List.range (img.nr + op)))
    (Or.inr ⟨img.nr, rfl, fun x hx => List.mem_range.1 hx⟩)
  refine ⟨out, ?_, g2, g3, g0, g4⟩
  rw [hp.eq]
  unfold addCtiPy PyDirection.absent
  simp only [Window.resolve, bind, Except.bind, Option.getD_none, Option.getD_some]
  rw [g1]

theorem all_again (hp : AllObjects fp pp dp gp ip cp op par) (hs : AllObjects fs ps ds gs is cs os ser)
    (x y : Image ℝ) (h : addCtiPy x par .all ser .all none =
        .ok (y, .standard [dp] true true true ip, .standard [ds] true true true is)) :
    addAgain par ser x (par.roe, ser.roe) = .ok (y, par.roe, ser.roe) := by
  have hroe : par.roe = some (.standard [dp] true true true ip) ∧ ser.roe = some (.standard [ds] true true true is) := by
    rw [hp.eq, hs.eq]; exact ⟨rfl, rfl⟩
  unfold addAgain
  simp only [bind, Except.bind]
  rw [h]
  simp only [hroe.1, hroe.2, Option.map_some]

theorem all_again_parallel (hp : AllObjects fp pp dp gp ip cp op par) (x y : Image ℝ)
    (h : addCtiPy x par .all .absent .all none = .ok (y, .standard [dp] true true true ip, Roe.default)) :
    addAgain par .absent x (par.roe, none) = .ok (y, par.roe, none) := by
  have hroe : par.roe = some (.standard [dp] true true true ip) := by rw [hp.eq]
  have e2 : addCtiPy x { par with roe := par.roe } .all { PyDirection.absent with roe := none } .all none =
      .ok (y, .standard [dp] true true true ip, Roe.default) := h
  unfold addAgain
  simp only [bind, Except.bind]
  rw [e2]
  simp only [hroe, Option.map_some, Option.map_none]

/-- The three statements for both directions. -/
theorem invert_all (hp : AllObjects fp pp dp gp ip cp op par) (hs : AllObjects fs ps ds gs is cs os ser)
    {nr nc : ℕ} (hnr : 0 < nr) (hnc : 0 < nc) {q : ℝ}
    (hbp : OverBackground fp pp gp (nr + op) bp lp ls kp) (hbs : OverBackground fs ps gs (nc + os) bs ls left ks)
    (hkp : 4 * kp < 1) (hks : 4 * ks < 1)
    (hq : q = (1 / (1 - 4 * kp)) ^ (nr + op) * (1 / (1 - 4 * ks)) ^ (nc + os) - 1) (hq1 : q < 1) :
    Inverts (addAgain par ser) (par.roe, ser.roe) nr nc lp q
      fun r c => trapCount gp * ((r + op + 1 : ℕ) : ℝ) + trapCount gs * ((c + os + 1 : ℕ) : ℝ) := by
  obtain ⟨p0, hP⟩ := hp.mild hbp hkp
  obtain ⟨s0, hS⟩ := hs.mild hbs hks
  have M := mildMap_both hP hS s0 (up := fun r => trapCount gp * ((r + op + 1 : ℕ) : ℝ))
    (us := fun c => trapCount gs * ((c + os + 1 : ℕ) : ℝ)) (hp.rise hbp hkp) (hs.rise hbs hks)
  have hqe : (1 + lossSlope (4 * kp) (nr + op)) * (1 + lossSlope (4 * ks) (nc + os)) - 1 = q := by
    rw [hq]; unfold lossSlope; ring
  rw [hqe] at M
  refine invert_above (addAgain par ser) (par.roe, ser.roe) M (by rw [← hqe]; nlinarith) hq1
    (fun r _ c _ => add_nonneg (mul_nonneg hp.count_nonneg (Nat.cast_nonneg _))
      (mul_nonneg hs.count_nonneg (Nat.cast_nonneg _))) (fun x h1 h2 h3 => ?_)
  obtain ⟨y, y1, y2, y3, -, y4⟩ := C111_add_cti hp hs x (by rw [h1]; exact hnr) (by rw [h2]; exact hnc)
    (by rw [h1]; exact hbp) (by rw [h2]; exact hbs) h3
  rw [h1, h2] at y4
  exact ⟨y, all_again hp hs x y y1, y2.trans h1, y3.trans h2, y4⟩

/-- **C111**, both directions. With `q = (1-4k_p)^-(rows+offset_p) (1-4k_s)^-(columns+offset_s) - 1 < 1`, an image in which
every pixel holds `lp` electrons and another one per trap and transfer comes from exactly one image with `lp` electrons in
every pixel, and the image that `remove_cti` returns after `n` iterations differs from it by at most `q^(n+1) / (1-q)` times
the total charge, summed over all pixels. -/
theorem C111_inverse (hp : AllObjects fp pp dp gp ip cp op par) (hs : AllObjects fs ps ds gs is cs os ser)
    (img : Image ℝ) (hnr : 0 < img.nr) (hnc : 0 < img.nc) {q : ℝ}
    (hbp : OverBackground fp pp gp (img.nr + op) bp lp ls kp) (hbs : OverBackground fs ps gs (img.nc + os) bs ls left ks)
    (hkp : 4 * kp < 1) (hks : 4 * ks < 1)
    (hq : q = (1 / (1 - 4 * kp)) ^ (img.nr + op) * (1 / (1 - 4 * ks)) ^ (img.nc + os) - 1) (hq1 : q < 1)
    (himg : ∀ r < img.nr, ∀ c < img.nc,
      lp + (trapCount gp * ((r + op + 1 : ℕ) : ℝ) + trapCount gs * ((c + os + 1 : ℕ) : ℝ)) ≤ img.px r c) :
    ∃ truth back, truth.SameShape img ∧ truth.AtLeast lp ∧ addCtiPy truth par .all ser .all none =
        .ok (back, .standard [dp] true true true ip, .standard [ds] true true true is) ∧ back.Same img ∧
      (∀ other out roes, other.SameShape img → other.AtLeast lp → addCtiPy other par .all ser .all none = .ok (out, roes) →
        out.Same img → other.Same truth) ∧
      ∀ n, ∃ out, removeCtiPy img n par .all ser .all none = .ok (out, par.roe, ser.roe) ∧ out.SameShape img ∧
        out.dist truth ≤ q ^ (n + 1) / (1 - q) * img.total := by
  obtain ⟨-, G, -⟩ := invert_all hp hs hnr hnc hbp hbs hkp hks hq hq1
  obtain ⟨truth, back, t1, t2, t3, t4, t5, t6⟩ := G img rfl rfl himg
  have run := fun (x : Image ℝ) (hx : x.SameShape img) (hl : x.AtLeast lp) => C111_add_cti hp hs x (by rw [hx.1]; exact hnr)
    (by rw [hx.2]; exact hnc) (by rw [hx.1]; exact hbp) (by rw [hx.2]; exact hbs) hl
  obtain ⟨back', b1, b2, b3, -⟩ := run truth t1 t2
  obtain rfl : back' = back := by
    rw [all_again hp hs truth back' b1] at t3
    injection t3 with t3
    injection t3
  refine ⟨truth, back', t1, t2, b1, t4, fun other out roes o1 o2 o3 o4 => ?_, t6⟩
  obtain ⟨out', c1, -⟩ := run other o1 o2
  rw [o3] at c1
  injection c1 with c1
  injection c1 with c1 c5
  rw [c5] at o3
  exact t5 other out o1 o2 (all_again hp hs other out o3) o4

/-- **C111**, both directions, noise: images with `lp` electrons in every pixel stay apart by at least `1 - q` times their
distance when CTI is added, and `remove_cti` increases the distance between two images at most `1 + q + … + q^n` times. -/
theorem C111_noise (hp : AllObjects fp pp dp gp ip cp op par)
    (hs : AllObjects fs ps ds gs is cs os ser) (img img' : Image ℝ) (hsh : img'.SameShape img) (hnr : 0 < img.nr)
    (hnc : 0 < img.nc) {q : ℝ}
    (hbp : OverBackground fp pp gp (img.nr + op) bp lp ls kp) (hbs : OverBackground fs ps gs (img.nc + os) bs ls left ks)
    (hkp : 4 * kp < 1) (hks : 4 * ks < 1)
    (hq : q = (1 / (1 - 4 * kp)) ^ (img.nr + op) * (1 / (1 - 4 * ks)) ^ (img.nc + os) - 1) (hq1 : q < 1) :
    (img.AtLeast lp → img'.AtLeast lp → ∃ out out' roes, addCtiPy img par .all ser .all none = .ok (out, roes) ∧
      addCtiPy img' par .all ser .all none = .ok (out', roes) ∧ (1 - q) * img'.dist img ≤ out'.dist out) ∧
    ((∀ r < img.nr, ∀ c < img.nc, lp + (trapCount gp * ((r + op + 1 : ℕ) : ℝ) +
        trapCount gs * ((c + os + 1 : ℕ) : ℝ)) ≤ min (img.px r c) (img'.px r c)) →
      ∀ n, ∃ out out', removeCtiPy img n par .all ser .all none = .ok (out, par.roe, ser.roe) ∧
        removeCtiPy img' n par .all ser .all none = .ok (out', par.roe, ser.roe) ∧
        out'.dist out ≤ (∑ k ∈ Finset.range (n + 1), q ^ k) * img'.dist img) := by
  obtain ⟨G1, -, G3⟩ := invert_all hp hs hnr hnc hbp hbs hkp hks hq hq1
  refine ⟨fun h h' => ?_, fun h n => ?_⟩
  · obtain ⟨out, b1, -⟩ := C111_add_cti hp hs img hnr hnc hbp hbs h
    obtain ⟨out', c1, -⟩ := C111_add_cti hp hs img' (by rw [hsh.1]; exact hnr) (by rw [hsh.2]; exact hnc)
      (by rw [hsh.1]; exact hbp) (by rw [hsh.2]; exact hbs) h'
    exact ⟨out, out', _, b1, c1, G1 img' img out' out hsh.1 hsh.2 rfl rfl h' h (all_again hp hs _ _ c1)
      (all_again hp hs _ _ b1)⟩
  · obtain ⟨u, v, h1, h2, h3⟩ := G3 img' img hsh.1 hsh.2 rfl rfl
      (fun r hr c hc => (h r hr c hc).trans (min_le_right _ _))
      (fun r hr c hc => (h r hr c hc).trans (min_le_left _ _)) n
    exact ⟨v, u, h2, h1, h3⟩

/-- **C111**, parallel clocking: existence, uniqueness and convergence. -/
theorem C111_inverse_parallel (hp : AllObjects fp pp dp gp ip cp op par) (img : Image ℝ) (hnr : 0 < img.nr) {q : ℝ}
    (hbp : OverBackground fp pp gp (img.nr + op) bp lp left kp) (hkp : 4 * kp < 1)
    (hq : q = (1 / (1 - 4 * kp)) ^ (img.nr + op) - 1) (hq1 : q < 1)
    (himg : ∀ r < img.nr, ∀ c < img.nc, lp + trapCount gp * ((r + op + 1 : ℕ) : ℝ) ≤ img.px r c) :
    ∃ truth back, truth.SameShape img ∧ truth.AtLeast lp ∧ addCtiPy truth par .all .absent .all none =
        .ok (back, .standard [dp] true true true ip, Roe.default) ∧ back.Same img ∧
      (∀ other out roes, other.SameShape img → other.AtLeast lp →
        addCtiPy other par .all .absent .all none = .ok (out, roes) → out.Same img → other.Same truth) ∧
      ∀ n, ∃ out, removeCtiPy img n par .all .absent .all none = .ok (out, par.roe, none) ∧ out.SameShape img ∧
        out.dist truth ≤ q ^ (n + 1) / (1 - q) * img.total := by
  obtain ⟨p0, hP⟩ := hp.mild hbp hkp
  have hqq : lossSlope (4 * kp) (img.nr + op) = q := by rw [hq]; rfl
  rw [hqq] at p0 hP
  have run := fun (x : Image ℝ) (hx : x.nr = img.nr) (hl : x.AtLeast lp) => C111_parallel hp x (by rw [hx]; exact hnr)
    (by rw [hx]; exact hbp) hl
  obtain ⟨-, G, -⟩ := invert_above (addAgain par .absent) (par.roe, none)
    (mildMap_parallel (nc := img.nc) hP (up := fun r => trapCount gp * ((r + op + 1 : ℕ) : ℝ)) (hp.rise hbp hkp)) p0 hq1
    (fun r _ c _ => mul_nonneg hp.count_nonneg (Nat.cast_nonneg _)) (fun x h1 h2 h3 => by
      obtain ⟨y, g1, g2, g3, -, g4⟩ := run x h1 h3
      rw [h1] at g4
      exact ⟨y, all_again_parallel hp x y g1, g2.trans h1, g3.trans h2, fun r hr c hc => g4 r hr c (by rw [h2]; exact hc)⟩)
  obtain ⟨truth, back, t1, t2, t3, t4, t5, t6⟩ := G img rfl rfl himg
  obtain ⟨back', b1, b2, b3, -⟩ := run truth t1.1 t2
  obtain rfl : back' = back := by
    rw [all_again_parallel hp truth back' b1] at t3
    injection t3 with t3
    injection t3
  refine ⟨truth, back', t1, t2, b1, t4, fun other out roes o1 o2 o3 o4 => ?_, t6⟩
  obtain ⟨out', c1, -⟩ := run other o1.1 o2
  rw [o3] at c1
  injection c1 with c1
  injection c1 with c1 c5
  rw [c5] at o3
  exact t5 other out o1 o2 (all_again_parallel hp other out o3) o4

end main

/-! ### examples -/

/-- As `exFull`, with `well_fill_power = 1/2`. -/
theorem exAll : AllObjects 1000 (1 / 2) 1
    [[.logNormalTrap 0.1 3 (1 / 2)], [.trap 0.1 2 0.1 false], [.instant 0.1 5 false]] false
    ⟨[1], [1000], [1 / 2], [0], [.num 1000]⟩ 2
    ⟨some ⟨[1], [1000], [1 / 2], [0], [.num 1000]⟩, some (.standard [1] true true true false),
      some (.list ([[.logNormalTrap 0.1 3 (1 / 2)], [.trap 0.1 2 0.1 false], [.instant 0.1 5 false]].map .group)), 0, 2⟩ :=
  ⟨rfl, ⟨rfl, ⟨rfl, rfl, rfl⟩⟩, by norm_num, by norm_num, one_pos, exFull.groups⟩

theorem exAll_fill : wellFill 1000 (1 / 2) 62.5 = 1 / 4 := by
  have e : min 1 (max 0 ((62.5 : ℝ) / 1000)) = (1 / 4) ^ 2 := by norm_num
  rw [wellFill_level]
  unfold wellLevel
  rw [e, ← Real.sqrt_eq_rpow, Real.sqrt_sq (by norm_num)]

/-- Three rows and two columns of 100 electrons: there is an image that gives this one, and `remove_cti` with three
iterations differs from it by less than a hundredth of an electron. -/
example (d : PyDirection) (hd : d = ⟨some ⟨[1], [1000], [1 / 2], [0], [.num 1000]⟩,
      some (.standard [1] true true true false),
      some (.list ([[.logNormalTrap 0.1 3 (1 / 2)], [.trap 0.1 2 0.1 false], [.instant 0.1 5 false]].map .group)), 0, 2⟩) :
    ∃ truth out, truth.AtLeast 70 ∧ removeCtiPy ⟨3, 2, fun _ _ => 100⟩ 3 d .all d .all none = .ok (out, d.roe, d.roe) ∧
      out.dist truth ≤ 1 / 100 := by
  have h := exAll
  rw [← hd] at h
  have hc := exFull_count
  obtain ⟨q, hq⟩ : ∃ q : ℝ, q = (1 / (1 - 4 * 0.0012)) ^ (3 + 2) * (1 / (1 - 4 * 0.0012)) ^ (2 + 2) - 1 := ⟨_, rfl⟩
  have hq0 : 0 ≤ q := by rw [hq]; norm_num
  have hq1 : q ≤ 0.045 := by rw [hq]; norm_num
  obtain ⟨truth, -, t1, t2, -, -, -, G⟩ := C111_inverse (bp := 62.5) (bs := 62.5) (lp := 70) (ls := 65) (left := 62.5)
    (kp := 0.0012) (ks := 0.0012) h h (⟨3, 2, fun _ _ => 100⟩ : Image ℝ) (by norm_num) (by norm_num)
    ⟨by norm_num, by norm_num, by rw [hc, exAll_fill]; norm_num, by norm_num, by norm_num, by norm_num⟩
    ⟨by norm_num, by norm_num, by rw [hc, exAll_fill]; norm_num, by norm_num, by norm_num, by norm_num⟩
    (by norm_num) (by norm_num) hq (by linarith)
    (fun r hr c hc' => by
      rw [hc]
      have e1 : ((r + 2 + 1 : ℕ) : ℝ) ≤ 5 := by
        have : r + 2 + 1 ≤ 5 := by simp only at hr; omega
        exact_mod_cast this
      have e2 : ((c + 2 + 1 : ℕ) : ℝ) ≤ 4 := by
        have : c + 2 + 1 ≤ 4 := by simp only at hc'; omega
        exact_mod_cast this
      simp only
      linarith)
  obtain ⟨out, g1, g2, g3⟩ := G 3
  refine ⟨truth, out, t2, g1, g3.trans ?_⟩
  have ht : Image.total (⟨3, 2, fun _ _ => 100⟩ : Image ℝ) = 600 := by
    simp [Image.total]; norm_num
  rw [ht]
  have e : q ^ (3 + 1) ≤ 0.045 ^ (3 + 1) := pow_le_pow_left₀ hq0 hq1 _
  have e2 : q ^ (3 + 1) / (1 - q) ≤ 0.045 ^ (3 + 1) / (1 - 0.045) :=
    div_le_div₀ (by norm_num) e (by norm_num) (by linarith)
  have := mul_le_mul_of_nonneg_right e2 (by norm_num : (0 : ℝ) ≤ 600)
  refine this.trans (by norm_num)

end Arctic
