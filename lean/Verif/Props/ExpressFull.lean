import Verif.Props.InvertFull
import Verif.Lemmas.StepExpress

/-!
# C105 — `express` with traps of all classes

What `express` costs, and what it leaves of the correction, when the traps of the groups have a capture timescale or a
distribution of lifetimes. C82 and C99 are about instant-capture traps.
-/

set_option linter.unusedSectionVars false
set_option linter.unusedVariables false

namespace Arctic
open MeasureTheory Set

/-- Filled traps differ from empty ones by what they hold. -/
theorem heldGap_zero {s : ℕ} {dens : Fin s → ℝ} {x y : ℝ → Fin s → ℝ} (hx : FilledParts x) (hy : ∀ d j, y d j = 0) :
    heldGap dens x y = held dens x := by
  unfold heldGap held
  refine Finset.sum_congr rfl fun j _ => ?_
  congr 1
  refine intervalIntegral.integral_congr fun d _ => ?_
  simp only [hy, sub_zero]
  exact abs_of_nonneg (hx.frac d j).1

theorem Ref.FullTraps.Reg.near_vacate {dw : ℝ} {t : Ref.FullTraps} (h : t.Reg dw) (h0 : t.vacate.Reg dw) :
    Ref.FullNear dw t t.vacate t.filled := by
  rcases t with (t | t) | t
  · have hh : t.Reg dw := h
    have hh0 : (t.refill fun _ _ => 0).Reg dw := h0
    have := Ref.FullNear.inl (Ref.MixNear.inl t (fun _ _ => 0) hh0)
    have e : t.gap (fun _ _ => 0) = t.filled := by
      unfold Ref.Traps.gap Ref.Traps.filled
      refine Finset.sum_congr rfl fun j _ => ?_
      congr 1
      refine intervalIntegral.integral_congr fun d _ => ?_
      simp only [sub_zero]
      exact abs_of_nonneg (hh.frac d j).1
    rw [e] at this
    exact this
  · have hh : t.Reg dw := h
    have hh0 : (t.refill fun _ _ => 0).Reg dw := h0
    have := Ref.FullNear.inl (Ref.MixNear.inr t (fun _ _ => 0) hh0)
    rw [heldGap_zero hh.occ fun _ _ => rfl] at this
    exact this
  · have hh : t.Reg := h.1
    have hh0 : (t.reage fun _ _ => none).Reg := h0.1
    have := Ref.FullNear.inr (dw := dw) t (fun _ _ => none) hh0
    have e : heldGap t.dens t.occ (t.reage fun _ _ => none).occ = held t.dens t.occ := heldGap_zero hh.occ fun _ _ => rfl
    rw [e] at this
    exact this

theorem full_near_vacate {dw : ℝ} (s : List Ref.FullTraps) (h : ∀ t ∈ s, t.Reg dw) (h0 : ∀ t ∈ s, t.vacate.Reg dw) :
    Ref.FullTwins dw s (s.map Ref.FullTraps.vacate) (Ref.fullFilled s) := by
  induction s with
  | nil => exact .nil
  | cons t s ih =>
    have := Ref.FullTwins.cons ((h t List.mem_cons_self).near_vacate (h0 t List.mem_cons_self))
      (ih (fun x hx => h x (List.mem_cons_of_mem _ hx)) fun x hx => h0 x (List.mem_cons_of_mem _ hx))
    exact this

theorem full_emptyStart {f : ℝ → ℝ} {dw L T : ℝ} (hf : LipFill f L) (hT : 0 ≤ T) (hL : T * L ≤ 1) {s0 : List Ref.FullTraps}
    (h0 : Ref.FullFew dw T s0) (hv : s0.map Ref.FullTraps.vacate = s0) (he : Ref.fullFilled s0 = 0) :
    EmptyStart (Ref.fullStep f dw) (Ref.FullFew dw T) (Ref.FullTwins dw) Ref.fullFilled (T * L) s0
      fun s => s.map Ref.FullTraps.vacate = s0 where
  inv := h0
  empty := he
  start := hv
  after s n _ _ hs := ((full_stepSys (dw := dw) (fun _ => f) hf hL).emp s n).trans hs
  near s hs hsp := by
    have := full_near_vacate s hs.reg fun t ht => h0.reg _ (by rw [← hsp]; exact List.mem_map_of_mem ht)
    rwa [hsp] at this
  slope := mul_nonneg hT hf.nonneg_slope
  low s n hs hn := (full_step hf hs hL n).2.2 hn

/-- A column read out with `express`, traps of all classes. -/
noncomputable def expressFullReadout (full power dw : ℝ) (gs : List (List Trap)) (i : Bool) (n e o : ℕ) :
    (ℕ → ℝ) → ℕ → ℝ :=
  Ref.stepExpress (Ref.fullStep (wellFill full power) dw) (gs.map Ref.fullOf) i n e o

section one
variable {full power dw : ℝ} {gs : List (List Trap)} {i : Bool} {c : CCD} {o : ℕ} {d : PyDirection}

/-- Clocking in one direction with `express` follows the reference column by column. -/
theorem FullObjects.run_express (h : FullObjects full power dw gs i c o d) (hfew : trapCount gs * (power / full) ≤ 1)
    (e : ℕ) (img : Image ℝ) (himg : img.NonNeg) (hnr : 0 < img.nr) (he : e = 0 ∨ e + 1 ≠ img.nr) (tw : Option (List ℕ))
    (hcov : Covering o (List.range img.nr) tw) :
    ∃ out, clockChargePy img (some c) (.standard [dw] true true true i) (.list (gs.map .group)) e o
        (List.range img.nr) (List.range img.nc) tw = .ok (out, .standard [dw] true true true i) ∧
      out.nr = img.nr ∧ out.nc = img.nc ∧ out.NonNeg ∧ ∀ r < img.nr, ∀ c < img.nc, out.px r c =
        expressFullReadout full power dw gs i img.nr e o (fun r => img.px r c) r := by
  have hmax : ∀ a, (List.range img.nr).max? = some a → a + 1 = img.nr := by
    intro a ha
    have q := List.max?_eq_some_iff.1 ha
    have q1 := List.mem_range.1 q.1
    have q2 := q.2 (img.nr - 1) (List.mem_range.2 (by omega))
    omega
  obtain ⟨m, mon, hm⟩ : ∃ m mon, roeExpress (K := ℝ) true i (List.range img.nr) e o tw = .ok (m, mon) := by
    obtain ⟨x, hx⟩ := standard_cfg (K := ℝ) [1] i ⟨[1], fun _ x => x⟩ e o (List.range img.nr) tw
      (by rw [Ne, List.range_eq_nil]; omega) (by
        rintro ⟨-, hz, hmx⟩
        have := hmax e hmx
        omega) (by
        rintro t rfl
        rcases hcov with h | ⟨N, h, hN⟩
        · cases h
        · injection h with h
          subst h
          rw [Ne, List.range_eq_nil]
          have := hN 0 (List.mem_range.2 hnr)
          omega)
    obtain ⟨h1, -⟩ := clockCfg_fields (cfg := x.1) (roe' := x.2) hx
    simp only [Roe.express] at h1
    obtain ⟨⟨m, mon⟩, g1, -⟩ := bind_eq_ok h1
    exact ⟨m, mon, g1⟩
  obtain ⟨a, ha, -, q, -, hm1, hm2⟩ := roeExpress_ok hm
  have hfill : c.view.fill 0 = wellFill full power := CCD.view_fill h.phase.2 h.full (by linarith [h.power])
  have hcfg : clockCfg (.standard [dw] true true true i) c.view e o (List.range img.nr) tw =
      .ok (onePhaseCfg (List.range img.nr) dw m mon, .standard [dw] true true true i) := by
    have hfr : c.view.fractions = [1] := h.phase.1
    have hdw := h.dwell
    unfold clockCfg onePhaseCfg
    simp only [hfr, Roe.express, hm, bind, Except.bind, Roe.save, roeSave, if_true, Roe.clockSequence, Roe.nSteps,
      Roe.nPhases, Roe.dwell, Roe.force, Roe.emptyBetween, List.length_singleton, one_phase_sequence]
    simp [positiveIndices, hdw]
  have hacc : (Roe.standard [dw] true true true i).accessed = [0, 0, 0] := by
    unfold Roe.accessed Roe.clockSequence
    simp only [Roe.nSteps, Roe.nPhases, Roe.dwell, Roe.force, List.length_singleton, one_phase_sequence]
    simp [pixelsAccessed]
  have hpad : nPadding (Roe.standard [dw] true true true i).accessed = 0 := by rw [hacc]; rfl
  have hmon : mon.nc = (List.range img.nr).length := by rw [hm2]
  have hstate : SpecState.new Ref.EveryTraps.inPhase (gs.map Ref.everyOf) c.fractions =
      ⟨[(gs.map Ref.fullOf).map Ref.FullTraps.every], [(gs.map Ref.fullOf).map Ref.FullTraps.every]⟩ := by
    unfold SpecState.new
    rw [h.phase.1]
    simp only [List.map_cons, List.map_nil, List.map_map]
    have e : gs.map ((fun g => Ref.EveryTraps.inPhase g 1) ∘ Ref.everyOf) =
        gs.map (Ref.FullTraps.every ∘ Ref.fullOf) :=
      List.map_congr_left fun l hl => Ref.everyOf_full l
    rw [e]
  obtain ⟨out', g3, g4, g5, g6⟩ := (full_stepSys c.view.fill (by rw [hfill]; exact wellFill_lip h.full h.power) hfew).columns
    (cfg := onePhaseCfg (List.range img.nr) dw m mon) ⟨rfl, rfl, rfl, rfl, fun _ _ => rfl, rfl⟩ hmon.le
    (gs.map Ref.fullOf) h.few.1 (by rw [List.map_map]; exact List.map_congr_left fun l _ => Ref.fullOf_vacate l)
    (List.range img.nc) (img.pad 0) List.nodup_range (fun c hc => List.mem_range.1 hc)
    (fun w hw => by
      have : w < img.nr := List.mem_range.1 hw
      simpa [Image.pad] using this)
    (fun c hc r => by
      have hc' := List.mem_range.1 hc
      simp only [Image.pad]
      split
      · next hr => exact himg r (by simpa using hr) c hc'
      · exact le_rfl)
  have hclock := (C62_objects (h.slow hfew) img himg e o (List.range img.nr) (List.range img.nc) tw
    (fun w hw => List.mem_range.1 hw) (fun c hc => List.mem_range.1 hc)).1
  have href : Ref.clockEvery c [dw] i gs img e o (List.range img.nr) (List.range img.nc) tw =
      .ok (out'.unpad 0, .standard [dw] true true true i) := by
    unfold Ref.clockEvery TrapSpec.clock
    rw [hcfg, hstate]
    simp only [bind, Except.bind, hpad]
    rw [g3]
  rw [href] at hclock
  have hnn : (out'.unpad 0).NonNeg := by
    have e := hclock
    rw [clockChargePy_groups img c _ gs h.groups.1 (fun l hl => (h.groups.2 l hl).ne_nil)
      (by rw [h.phase.1]; simp)] at e
    exact clockCharge_nonneg _ _ _ _ _ _ _ _ _ _ _ e himg
  refine ⟨_, hclock, by simp [Image.unpad, g5, Image.pad], by simp [Image.unpad, g6, Image.pad], hnn, fun r hr c hc => ?_⟩
  change out'.px r c = _
  rw [g4, if_pos (List.mem_range.2 hc)]
  have hpasses : (List.range (onePhaseCfg (List.range img.nr) dw m mon).expr.nr).map
      (todo (onePhaseCfg (List.range img.nr) dw m mon)) =
      (List.range (expressFull (K := ℝ) true i img.nr e o).nr).map (matTodo (expressFull true i img.nr e o) img.nr o) := by
    rw [← express_passes hnr hcov hm]
    unfold matrixPasses todo monitoredRows onePhaseCfg
    simp only [hmon]
  rw [hpasses, hfill]
  refine stepReadout_congr _ img.nr _ ?_ _ _ (fun r hr => by simp [Image.pad, hr]) r hr
  intro p hp x hx
  obtain ⟨k, -, rfl⟩ := List.mem_map.1 hp
  obtain ⟨j, hj, rfl⟩ := List.mem_map.1 hx
  exact List.mem_range.1 (List.mem_filter.1 hj).1

theorem FullObjects.emptyStart (h : FullObjects full power dw gs i c o d) (hfew : trapCount gs * (power / full) ≤ 1) :
    EmptyStart (Ref.fullStep (wellFill full power) dw) (Ref.FullFew dw (trapCount gs)) (Ref.FullTwins dw) Ref.fullFilled
      (trapCount gs * (power / full)) (gs.map Ref.fullOf) fun s => s.map Ref.FullTraps.vacate = gs.map Ref.fullOf :=
  full_emptyStart (wellFill_lip h.full h.power) h.count_nonneg hfew h.few.1
    (by rw [List.map_map]; exact List.map_congr_left fun l _ => Ref.fullOf_vacate l) h.few.2

theorem FullObjects.slope_nonneg (h : FullObjects full power dw gs i c o d) : 0 ≤ trapCount gs * (power / full) :=
  mul_nonneg h.count_nonneg (div_nonneg (by linarith [h.power]) h.full.le)

theorem FullObjects.mild_express (h : FullObjects full power dw gs i c o d) (n e : ℕ) (hn : 0 < n)
    (he : e = 0 ∨ e + 1 ≠ n) (l : ℝ) (hl : l = 4 * (trapCount gs * (power / full))) (hl1 : l < 1)
    (h3 : 3 * ((n + o : ℕ) * (l / (1 - l))) ≤ 1) :
    Mild n 0 0 (Real.exp (3 * ((n + o : ℕ) * (l / (1 - l)))) - 1) (expressFullReadout full power dw gs i n e o) ∧
    ∀ x, (∀ r < n, 0 ≤ x r) → ∀ r < n,
      expressFullReadout full power dw gs i n e o x r ≤ x r + trapCount gs * ((r + o + 1 : ℕ) : ℝ) := by
  have k := h.slope_nonneg
  have hG := full_gentle (dw := dw) (wellFill_lip h.full h.power) h.count_nonneg (by rw [← hl]; exact hl1.le)
  rw [← hl] at hG
  exact (h.emptyStart (by linarith)).mild_express hG h.count_nonneg (by linarith) hl1 i n e o hn
    (by unfold effectiveExpress; split <;> omega) h3

theorem FullObjects.expressed (h : FullObjects full power dw gs i c o d) (n e : ℕ) (hn : 0 < n)
    (he : e = 0 ∨ e + 1 ≠ n) (l : ℝ) (hl : l = 4 * (trapCount gs * (power / full))) (hl1 : l < 1)
    (h3 : 3 * ((n + o : ℕ) * (l / (1 - l))) ≤ 1) :
    Expressed n 0 0 (expressError i n e o (l / (1 - l))) (expressFullReadout full power dw gs i n e o)
      (Ref.stepReadout (Ref.fullStep (wellFill full power) dw) (gs.map Ref.fullOf) (Ref.allPasses n o)) := by
  have k := h.slope_nonneg
  have hG := full_gentle (dw := dw) (wellFill_lip h.full h.power) h.count_nonneg (by rw [← hl]; exact hl1.le)
  rw [← hl] at hG
  exact (h.emptyStart (by linarith)).expressed hG (by linarith) hl1 i n e o hn
    (by unfold effectiveExpress; split <;> omega) h3

end one

section main
variable {fp fs pp ps dp ds : ℝ} {gp gs : List (List Trap)} {ip is : Bool} {cp cs : CCD} {op os : ℕ}
  {par ser : PyDirection}

/-- **C105**, reference: `add_cti` with `express` in both directions, groups of traps of all classes. -/
theorem C105_add_cti (hp : FullObjects fp pp dp gp ip cp op par) (hs : FullObjects fs ps ds gs is cs os ser)
    (hfp : trapCount gp * (pp / fp) ≤ 1) (hfs : trapCount gs * (ps / fs) ≤ 1) (img : Image ℝ) (himg : img.NonNeg)
    (hnr : 0 < img.nr) (hnc : 0 < img.nc) (ep es : ℕ) (hep : ep = 0 ∨ ep + 1 ≠ img.nr) (hes : es = 0 ∨ es + 1 ≠ img.nc) :
    ∃ out, addCtiPy img { par with express := ep } .all { ser with express := es } .all none =
        .ok (out, .standard [dp] true true true ip, .standard [ds] true true true is) ∧
      out.nr = img.nr ∧ out.nc = img.nc ∧
      ∀ r < img.nr, ∀ c < img.nc, out.px r c =
        expressFullReadout fs ps ds gs is img.nc es os
          (fun c => expressFullReadout fp pp dp gp ip img.nr ep op (fun r => img.px r c) r) c := by
  obtain ⟨mid, g1, g2, g3, g0, g4⟩ := hp.run_express hfp ep img himg hnr hep (some (List.range (img.nr + op)))
    (Or.inr ⟨img.nr, rfl, fun x hx => List.mem_range.1 hx⟩)
  have e1 : mid.transpose.nr = img.nc := g3
  have e2 : mid.transpose.nc = img.nr := g2
  obtain ⟨out, q1, q2, q3, -, q4⟩ := hs.run_express hfs es mid.transpose (fun r hr c hc => g0 c hc r hr)
    (by rw [e1]; exact hnc) (by rw [e1]; exact hes) none (Or.inl rfl)
  rw [e1, e2] at q1
  refine ⟨out.transpose, ?_, q3.trans e2, q2.trans e1, ?_⟩
  · rw [hp.eq, hs.eq]
    unfold addCtiPy
    simp only [Window.resolve, bind, Except.bind, Option.getD_none, Option.getD_some]
    rw [g1]
    simp only
    rw [q1]
  · intro r hr c hc
    change out.px c r = _
    rw [q4 c (by rw [e1]; exact hc) r (by rw [e2]; exact hr), e1]
    unfold expressFullReadout Ref.stepExpress
    refine stepReadout_congr _ img.nc _ ?_ _ _ (fun c hc => ?_) c hc
    · intro p hp x hx
      obtain ⟨k, -, rfl⟩ := List.mem_map.1 hp
      obtain ⟨j, hj, rfl⟩ := List.mem_map.1 hx
      exact List.mem_range.1 (List.mem_filter.1 hj).1
    · exact g4 r hr c hc

/-- **C105**, accuracy: `add_cti` with `express` against `add_cti` that follows every transfer, groups of traps of all classes.
`l` is four times the number of traps per pixel and electron of well depth (times the power of the filling law). If all
transfers together cost at most a third, the images differ by at most `2 ep + 3 es` times the charge of the image, with the
errors `ep` and `es` of C82 for the slopes `l / (1 - l)`. -/
theorem C105_accuracy (hp : FullObjects fp pp dp gp ip cp op par) (hs : FullObjects fs ps ds gs is cs os ser)
    (img : Image ℝ) (hnr : 0 < img.nr) (hnc : 0 < img.nc) (himg : img.NonNeg) (ep es : ℕ) (hep : ep = 0 ∨ ep + 1 ≠ img.nr)
    (hes : es = 0 ∨ es + 1 ≠ img.nc) (lp ls : ℝ) (hlp : lp = 4 * (trapCount gp * (pp / fp)))
    (hls : ls = 4 * (trapCount gs * (ps / fs))) (hlp1 : lp < 1) (hls1 : ls < 1)
    (h3p : 3 * ((img.nr + op : ℕ) * (lp / (1 - lp))) ≤ 1) (h3s : 3 * ((img.nc + os : ℕ) * (ls / (1 - ls))) ≤ 1) :
    ∃ a b roes roes', addCtiPy img { par with express := ep } .all { ser with express := es } .all none = .ok (a, roes) ∧
      addCtiPy img par .all ser .all none = .ok (b, roes') ∧ a.SameShape img ∧ b.SameShape img ∧
      a.dist b ≤ (2 * expressError ip img.nr ep op (lp / (1 - lp)) + 3 * expressError is img.nc es os (ls / (1 - ls))) *
        img.total := by
  have kp := hp.slope_nonneg
  have ks := hs.slope_nonneg
  obtain ⟨a, a1, a2, a3, a4⟩ := C105_add_cti hp hs (by linarith) (by linarith) img himg hnr hnc ep es hep hes
  obtain ⟨b, b1, b2, b3, b4⟩ := C103_add_cti hp hs (by linarith) (by linarith) img himg hnr hnc
  refine ⟨a, b, _, _, a1, b1, ⟨a2, a3⟩, ⟨b2, b3⟩, ?_⟩
  have s0p : 0 ≤ lp / (1 - lp) := div_nonneg (by linarith) (by linarith)
  have s0s : 0 ≤ ls / (1 - ls) := div_nonneg (by linarith) (by linarith)
  have key := expressed_image (hp.expressed img.nr ep hnr hep lp hlp hlp1 h3p)
    (hs.expressed img.nc es hnc hes ls hls hls1 h3s) le_rfl (expressError_le ip img.nr ep op hnr s0p h3p)
    (expressError_le is img.nc es os hnc s0s h3s).1 img.px himg
  refine le_trans (le_of_eq ?_) key
  unfold Image.dist
  rw [a2, a3]
  refine Finset.sum_congr rfl fun r hr => Finset.sum_congr rfl fun c hc => ?_
  rw [a4 r (Finset.mem_range.1 hr) c (Finset.mem_range.1 hc), b4 r (Finset.mem_range.1 hr) c (Finset.mem_range.1 hc)]

/-- **C105**, correction: an image made by following every transfer, corrected with `express`, groups of traps of all classes. The result approaches the true image up to a
fraction `E / (1 - q - E)` of its charge, `E` being the error of one simulation (`C105_accuracy`) and `q` the charge that the traps
displace (C103). -/
theorem C105_remove_cti (hp : FullObjects fp pp dp gp ip cp op par) (hs : FullObjects fs ps ds gs is cs os ser)
    (truth : Image ℝ) (hnr : 0 < truth.nr) (hnc : 0 < truth.nc) (ep es : ℕ)
    (hep : ep = 0 ∨ ep + 1 ≠ truth.nr) (hes : es = 0 ∨ es + 1 ≠ truth.nc) (lp ls q E : ℝ)
    (hlp : lp = 4 * (trapCount gp * (pp / fp))) (hls : ls = 4 * (trapCount gs * (ps / fs))) (hlp1 : lp < 1) (hls1 : ls < 1)
    (h3p : 3 * ((truth.nr + op : ℕ) * (lp / (1 - lp))) ≤ 1) (h3s : 3 * ((truth.nc + os : ℕ) * (ls / (1 - ls))) ≤ 1)
    (hq : q = (1 / (1 - lp)) ^ (truth.nr + op) * (1 / (1 - ls)) ^ (truth.nc + os) - 1)
    (hE : E = 2 * expressError ip truth.nr ep op (lp / (1 - lp)) + 3 * expressError is truth.nc es os (ls / (1 - ls)))
    (hq1 : q + E < 1) (hpos : 0 ≤ truth.total)
    (htruth : ∀ r < truth.nr, ∀ c < truth.nc, (q + E / (1 - (q + E))) * truth.total ≤ truth.px r c) :
    ∃ img roes, addCtiPy truth par .all ser .all none = .ok (img, roes) ∧
      ∀ n, ∃ out, removeCtiPy img n { par with express := ep } .all { ser with express := es } .all none =
          .ok (out, par.roe, ser.roe) ∧ out.SameShape truth ∧
        out.dist truth ≤ ((q + E) ^ n * q + E / (1 - (q + E))) * truth.total := by
  have kp := hp.slope_nonneg
  have ks := hs.slope_nonneg
  have mP := (hp.mild (by linarith) truth.nr).mono le_rfl (lossSlope_mono hlp.symm.le hlp1 (truth.nr + op))
  have mS := (hs.mild (by linarith) truth.nc).mono le_rfl (lossSlope_mono hls.symm.le hls1 (truth.nc + os))
  have s0p : 0 ≤ lp / (1 - lp) := div_nonneg (by linarith) (by linarith)
  have s0s : 0 ≤ ls / (1 - ls) := div_nonneg (by linarith) (by linarith)
  have ebp := expressError_le ip truth.nr ep op hnr s0p h3p
  have ebs := expressError_le is truth.nc es os hnc s0s h3s
  have hE0 : 0 ≤ E := by rw [hE]; linarith [ebp.1, ebs.1]
  have q0p := lossSlope_nonneg (by linarith : 0 ≤ lp) hlp1 (truth.nr + op)
  have q0s := lossSlope_nonneg (by linarith : 0 ≤ ls) hls1 (truth.nc + os)
  have qe : (1 + lossSlope lp (truth.nr + op)) * (1 + lossSlope ls (truth.nc + os)) - 1 = q := by
    rw [hq]; unfold lossSlope; ring
  have hq0 : 0 ≤ q := by rw [← qe]; nlinarith
  have hd : 0 ≤ E / (1 - (q + E)) := div_nonneg hE0 (by linarith)
  have ht0 : ∀ r < truth.nr, ∀ c < truth.nc, 0 ≤ truth.px r c := fun r hr c hc =>
    (mul_nonneg (by linarith) hpos).trans (htruth r hr c hc)
  obtain ⟨img, b1, b2, b3, b4⟩ := C103_add_cti hp hs (by linarith) (by linarith) truth ht0 hnr hnc
  have small := mild_image_small mP mS q0s truth.px ht0
  rw [qe] at small
  change _ ≤ q * truth.total at small
  have hdist : img.dist truth ≤ q * truth.total := by
    refine le_trans (le_of_eq ?_) small
    unfold Image.dist
    rw [b2, b3]
    refine Finset.sum_congr rfl fun r hr => Finset.sum_congr rfl fun c hc => ?_
    rw [b4 r (Finset.mem_range.1 hr) c (Finset.mem_range.1 hc)]
  have hroe : par.roe = some (.standard [dp] true true true ip) ∧ ser.roe = some (.standard [ds] true true true is) := by
    rw [hp.eq, hs.eq]; exact ⟨rfl, rfl⟩
  refine ⟨img, _, b1, fun n => ?_⟩
  have sp : (q + E / (1 - (q + E))) * truth.total = q * truth.total + E * truth.total / (1 - (q + E)) := by ring
  have main := removeIter_near (fun x (roes : Option (Roe ℝ) × Option (Roe ℝ)) => do
      let (y, rp, rs) ← addCtiPy x { { par with express := ep } with roe := roes.1 } .all
        { { ser with express := es } with roe := roes.2 } .all none
      pure (y, roes.1.map fun _ => rp, roes.2.map fun _ => rs)) (par.roe, ser.roe) truth img 0 (q + E)
    (E * truth.total) (q * truth.total) (by linarith) hq1 (mul_nonneg hE0 hpos) ⟨b2, b3⟩ hdist
    (fun r hr c hc => by rw [zero_add, ← sp]; exact htruth r hr c hc) (fun x hx hlow => ?_) n
  · obtain ⟨out, o1, o2, o3⟩ := main
    refine ⟨out, o1, o2, o3.trans (le_of_eq ?_)⟩
    ring
  · obtain ⟨y, g1, g2, g3, g4⟩ := C105_add_cti hp hs (by linarith) (by linarith) x
      (fun r hr c hc => hlow r (by rw [← hx.1]; exact hr) c (by rw [← hx.2]; exact hc)) (by rw [hx.1]; exact hnr) (by rw [hx.2]; exact hnc) ep es
      (by rw [hx.1]; exact hep) (by rw [hx.2]; exact hes)
    rw [hx.1, hx.2] at g4
    refine ⟨y, ?_, ⟨g2.trans hx.1, g3.trans hx.2⟩, ?_⟩
    · simp only [bind, Except.bind]
      rw [g1]
      simp only [hroe.1, hroe.2, Option.map_some]
      rfl
    · have lip := mild_image mP mS q0s x.px truth.px hlow ht0
      have near := expressed_image (hp.expressed truth.nr ep hnr hep lp hlp hlp1 h3p)
        (hs.expressed truth.nc es hnc hes ls hls hls1 h3s) le_rfl ebp ebs.1 x.px hlow
      rw [qe] at lip
      rw [← hE] at near
      have e : x.dist truth = ∑ r ∈ Finset.range truth.nr, ∑ c ∈ Finset.range truth.nc, |x.px r c - truth.px r c| := by
        unfold Image.dist
        rw [hx.1, hx.2]
      have tot : ∑ r ∈ Finset.range truth.nr, ∑ c ∈ Finset.range truth.nc, x.px r c ≤ x.dist truth + truth.total := by
        rw [e]
        unfold Image.total
        rw [← Finset.sum_add_distrib]
        refine Finset.sum_le_sum fun r _ => ?_
        rw [← Finset.sum_add_distrib]
        exact Finset.sum_le_sum fun c _ => by linarith [le_abs_self (x.px r c - truth.px r c)]
      have tot' := mul_le_mul_of_nonneg_left tot hE0
      rw [← e] at lip
      have both := add_le_add near lip
      rw [← Finset.sum_add_distrib] at both
      refine le_trans ?_ (both.trans (by linarith))
      refine Finset.sum_le_sum fun r hr => ?_
      rw [← Finset.sum_add_distrib]
      refine Finset.sum_le_sum fun c hc => ?_
      rw [g4 r (Finset.mem_range.1 hr) c (Finset.mem_range.1 hc), b4 r (Finset.mem_range.1 hr) c (Finset.mem_range.1 hc)]
      refine le_trans (le_of_eq ?_) (abs_add_le _ _)
      congr 1
      ring

theorem full_again_express (hp : FullObjects fp pp dp gp ip cp op par) (hs : FullObjects fs ps ds gs is cs os ser)
    (ep es : ℕ) (x y : Image ℝ) (h : addCtiPy x { par with express := ep } .all { ser with express := es } .all none =
        .ok (y, .standard [dp] true true true ip, .standard [ds] true true true is)) :
    addAgain { par with express := ep } { ser with express := es } x (par.roe, ser.roe) = .ok (y, par.roe, ser.roe) := by
  have hroe : par.roe = some (.standard [dp] true true true ip) ∧ ser.roe = some (.standard [ds] true true true is) := by
    rw [hp.eq, hs.eq]; exact ⟨rfl, rfl⟩
  unfold addAgain
  simp only [bind, Except.bind]
  rw [h]
  simp only [hroe.1, hroe.2, Option.map_some]

/-- The three statements for both directions. -/
theorem invert_express_full (hp : FullObjects fp pp dp gp ip cp op par) (hs : FullObjects fs ps ds gs is cs os ser)
    {nr nc : ℕ} (hnr : 0 < nr) (hnc : 0 < nc) (ep es : ℕ) (hep : ep = 0 ∨ ep + 1 ≠ nr)
    (hes : es = 0 ∨ es + 1 ≠ nc) (lp ls t q : ℝ)
    (hlp : lp = 4 * (trapCount gp * (pp / fp))) (hls : ls = 4 * (trapCount gs * (ps / fs))) (hlp1 : lp < 1) (hls1 : ls < 1)
    (ht : t = (nr + op : ℕ) * (lp / (1 - lp)) + (nc + os : ℕ) * (ls / (1 - ls))) (ht1 : 3 * t ≤ 1)
    (hq : q = Real.exp (3 * t) - 1) (hq1 : q < 1) :
    Inverts (addAgain { par with express := ep } { ser with express := es }) (par.roe, ser.roe) nr nc 0 q
      fun r c => trapCount gp * ((r + op + 1 : ℕ) : ℝ) + trapCount gs * ((c + os + 1 : ℕ) : ℝ) := by
  have kp := hp.slope_nonneg
  have ks := hs.slope_nonneg
  have hlp0 : 0 ≤ lp := by linarith
  have hls0 : 0 ≤ ls := by linarith
  have tp : 0 ≤ (nr + op : ℕ) * (lp / (1 - lp)) := mul_nonneg (Nat.cast_nonneg _) (div_nonneg hlp0 (by linarith))
  have ts : 0 ≤ (nc + os : ℕ) * (ls / (1 - ls)) := mul_nonneg (Nat.cast_nonneg _) (div_nonneg hls0 (by linarith))
  obtain ⟨hP, uP⟩ := hp.mild_express nr ep hnr hep lp hlp hlp1 (by linarith)
  obtain ⟨hS, uS⟩ := hs.mild_express nc es hnc hes ls hls hls1 (by linarith)
  have hqS : 0 ≤ Real.exp (3 * ((nc + os : ℕ) * (ls / (1 - ls)))) - 1 := by
    have := Real.one_le_exp (by linarith : 0 ≤ 3 * ((nc + os : ℕ) * (ls / (1 - ls))))
    linarith
  have key := mildMap_both hP hS hqS (up := fun r => trapCount gp * ((r + op + 1 : ℕ) : ℝ))
    (us := fun c => trapCount gs * ((c + os + 1 : ℕ) : ℝ)) uP uS
  have e : (1 + (Real.exp (3 * ((nr + op : ℕ) * (lp / (1 - lp)))) - 1)) *
      (1 + (Real.exp (3 * ((nc + os : ℕ) * (ls / (1 - ls)))) - 1)) - 1 = q := by
    rw [add_sub_cancel, add_sub_cancel, ← Real.exp_add, ← mul_add, ← ht, hq]
  rw [e] at key
  have hq0 : 0 ≤ q := by
    have := Real.one_le_exp (by linarith : 0 ≤ 3 * t)
    linarith
  refine invert_above _ _ key hq0 hq1 (fun r _ c _ => add_nonneg (mul_nonneg hp.count_nonneg (Nat.cast_nonneg _))
      (mul_nonneg hs.count_nonneg (Nat.cast_nonneg _))) fun x h1 h2 h3 => ?_
  subst h1 h2
  obtain ⟨y, y1, y2, y3, y4⟩ := C105_add_cti hp hs (by linarith) (by linarith) x h3 hnr hnc ep es hep hes
  exact ⟨y, full_again_express hp hs ep es x y y1, y2, y3, y4⟩

/-- **C105**, inverse: groups of traps of all classes, `express` the same when adding and removing. Let `λ` be four times the
number of traps per pixel times `power / full_well_depth`, `t` the sum over both directions of `(rows + offset) λ / (1 - λ)`,
and `q = exp (3 t) - 1 < 1`. Let every pixel of an image hold at least one electron per trap and transfer. Then there is
exactly one image without negative pixels from which `add_cti` with `express` makes this image, and the image that
`remove_cti` with the same `express` returns after `n` iterations differs from it by at most `q^(n+1) / (1-q)` times the total
charge, summed over all pixels. -/
theorem C105_inverse (hp : FullObjects fp pp dp gp ip cp op par) (hs : FullObjects fs ps ds gs is cs os ser)
    (img : Image ℝ) (hnr : 0 < img.nr) (hnc : 0 < img.nc) (ep es : ℕ)
    (hep : ep = 0 ∨ ep + 1 ≠ img.nr) (hes : es = 0 ∨ es + 1 ≠ img.nc) (lp ls t q : ℝ)
    (hlp : lp = 4 * (trapCount gp * (pp / fp))) (hls : ls = 4 * (trapCount gs * (ps / fs))) (hlp1 : lp < 1) (hls1 : ls < 1)
    (ht : t = (img.nr + op : ℕ) * (lp / (1 - lp)) + (img.nc + os : ℕ) * (ls / (1 - ls))) (ht1 : 3 * t ≤ 1)
    (hq : q = Real.exp (3 * t) - 1) (hq1 : q < 1)
    (himg : ∀ r < img.nr, ∀ c < img.nc,
      trapCount gp * ((r + op + 1 : ℕ) : ℝ) + trapCount gs * ((c + os + 1 : ℕ) : ℝ) ≤ img.px r c) :
    ∃ truth back, truth.SameShape img ∧ truth.AtLeast 0 ∧
      addCtiPy truth { par with express := ep } .all { ser with express := es } .all none =
        .ok (back, .standard [dp] true true true ip, .standard [ds] true true true is) ∧ back.Same img ∧
      (∀ other out roes, other.SameShape img → other.AtLeast 0 →
        addCtiPy other { par with express := ep } .all { ser with express := es } .all none = .ok (out, roes) →
        out.Same img → other.Same truth) ∧
      ∀ n, ∃ out, removeCtiPy img n { par with express := ep } .all { ser with express := es } .all none =
          .ok (out, par.roe, ser.roe) ∧ out.SameShape img ∧ out.dist truth ≤ q ^ (n + 1) / (1 - q) * img.total := by
  have kp := hp.slope_nonneg
  have ks := hs.slope_nonneg
  obtain ⟨-, G, -⟩ := invert_express_full hp hs hnr hnc ep es hep hes lp ls t q hlp hls hlp1 hls1 ht ht1 hq hq1
  obtain ⟨truth, back, t1, t2, t3, t4, t5, t6⟩ := G img rfl rfl (fun r hr c hc => by rw [zero_add]; exact himg r hr c hc)
  have run : ∀ x : Image ℝ, x.SameShape img → x.AtLeast 0 → ∃ y,
      addCtiPy x { par with express := ep } .all { ser with express := es } .all none =
      .ok (y, .standard [dp] true true true ip, .standard [ds] true true true is) := fun x hx hx0 => by
    obtain ⟨y, y1, -⟩ := C105_add_cti hp hs (by linarith) (by linarith) x hx0 (by rw [hx.1]; exact hnr)
      (by rw [hx.2]; exact hnc) ep es (by rw [hx.1]; exact hep) (by rw [hx.2]; exact hes)
    exact ⟨y, y1⟩
  obtain ⟨back', b1⟩ := run truth t1 t2
  obtain rfl : back' = back := by
    rw [full_again_express hp hs ep es truth back' b1] at t3
    injection t3 with t3
    injection t3
  refine ⟨truth, back', t1, t2, b1, t4, fun other out roes o1 o2 o3 o4 => ?_, t6⟩
  obtain ⟨out', c1⟩ := run other o1 o2
  rw [o3] at c1
  injection c1 with c1
  injection c1 with c1 c5
  rw [c5] at o3
  exact t5 other out o1 o2 (full_again_express hp hs ep es other out o3) o4

/-- **C105**, noise: images without negative pixels stay apart when CTI is added with `express`, and `remove_cti` with
`express` increases the distance between two images at most `1 + q + … + q^n` times. -/
theorem C105_noise (hp : FullObjects fp pp dp gp ip cp op par) (hs : FullObjects fs ps ds gs is cs os ser)
    (img img' : Image ℝ) (hsh : img'.SameShape img) (hnr : 0 < img.nr) (hnc : 0 < img.nc)
    (ep es : ℕ) (hep : ep = 0 ∨ ep + 1 ≠ img.nr) (hes : es = 0 ∨ es + 1 ≠ img.nc) (lp ls t q : ℝ)
    (hlp : lp = 4 * (trapCount gp * (pp / fp))) (hls : ls = 4 * (trapCount gs * (ps / fs))) (hlp1 : lp < 1) (hls1 : ls < 1)
    (ht : t = (img.nr + op : ℕ) * (lp / (1 - lp)) + (img.nc + os : ℕ) * (ls / (1 - ls))) (ht1 : 3 * t ≤ 1)
    (hq : q = Real.exp (3 * t) - 1) (hq1 : q < 1) :
    (img.AtLeast 0 → img'.AtLeast 0 → ∃ out out' roes,
      addCtiPy img { par with express := ep } .all { ser with express := es } .all none = .ok (out, roes) ∧
      addCtiPy img' { par with express := ep } .all { ser with express := es } .all none = .ok (out', roes) ∧
      (1 - q) * img'.dist img ≤ out'.dist out) ∧
    ((∀ r < img.nr, ∀ c < img.nc,
        trapCount gp * ((r + op + 1 : ℕ) : ℝ) + trapCount gs * ((c + os + 1 : ℕ) : ℝ) ≤ min (img.px r c) (img'.px r c)) →
      ∀ n, ∃ out out',
        removeCtiPy img n { par with express := ep } .all { ser with express := es } .all none = .ok (out, par.roe, ser.roe) ∧
        removeCtiPy img' n { par with express := ep } .all { ser with express := es } .all none =
          .ok (out', par.roe, ser.roe) ∧
        out'.dist out ≤ (∑ k ∈ Finset.range (n + 1), q ^ k) * img'.dist img) := by
  have kp := hp.slope_nonneg
  have ks := hs.slope_nonneg
  obtain ⟨G1, -, G3⟩ := invert_express_full hp hs hnr hnc ep es hep hes lp ls t q hlp hls hlp1 hls1 ht ht1 hq hq1
  refine ⟨fun h h' => ?_, fun h n => ?_⟩
  · obtain ⟨out, b1, -⟩ := C105_add_cti hp hs (by linarith) (by linarith) img h hnr hnc ep es hep hes
    obtain ⟨out', c1, -⟩ := C105_add_cti hp hs (by linarith) (by linarith) img' h' (by rw [hsh.1]; exact hnr)
      (by rw [hsh.2]; exact hnc) ep es (by rw [hsh.1]; exact hep) (by rw [hsh.2]; exact hes)
    exact ⟨out, out', _, b1, c1, G1 img' img out' out hsh.1 hsh.2 rfl rfl h' h (full_again_express hp hs ep es _ _ c1)
      (full_again_express hp hs ep es _ _ b1)⟩
  · obtain ⟨u, v, h1, h2, h3⟩ := G3 img' img hsh.1 hsh.2 rfl rfl
      (fun r hr c hc => by rw [zero_add]; exact (h r hr c hc).trans (min_le_right _ _))
      (fun r hr c hc => by rw [zero_add]; exact (h r hr c hc).trans (min_le_left _ _)) n
    exact ⟨v, u, h2, h1, h3⟩

end main

/-! ### examples -/

/-- Ten rows and two columns of 100 electrons, the traps of `exFull`: `express = 2` changes the image by less than a fiftieth
of its 2000 electrons. -/
example (d : PyDirection) (hd : d = ⟨some ⟨[1], [1000], [1], [0], [.num 1000]⟩, some (.standard [1] true true true false),
      some (.list ([[.logNormalTrap 0.1 3 (1 / 2)], [.trap 0.1 2 0.1 false], [.instant 0.1 5 false]].map .group)), 0, 2⟩) :
    ∃ a b roes roes', addCtiPy ⟨10, 2, fun _ _ => 100⟩ { d with express := 2 } .all { d with express := 2 } .all none =
        .ok (a, roes) ∧ addCtiPy ⟨10, 2, fun _ _ => 100⟩ d .all d .all none = .ok (b, roes') ∧ a.dist b ≤ 40 := by
  have h := exFull
  rw [← hd] at h
  have hc := exFull_count
  obtain ⟨a, b, roes, roes', g1, g2, -, -, g3⟩ := C105_accuracy h h (⟨10, 2, fun _ _ => 100⟩ : Image ℝ) (by norm_num)
    (by norm_num) (fun r _ c _ => by norm_num) 2 2 (Or.inr (by norm_num)) (Or.inr (by norm_num)) 0.0012 0.0012
    (by rw [hc]; norm_num) (by rw [hc]; norm_num) (by norm_num) (by norm_num) (by norm_num) (by norm_num)
  refine ⟨a, b, roes, roes', g1, g2, g3.trans ?_⟩
  have htot : Image.total (⟨10, 2, fun _ _ => 100⟩ : Image ℝ) = 2000 := by
    simp [Image.total]; norm_num
  have hW1 : ((10 + 2) ⌈/⌉ (if (2 : ℕ) = 0 then 10 + 2 else min 2 (10 + 2)) - (if false = true then 1 else 0) : ℕ) = 6 := by
    decide
  have hW2 : ((2 + 2) ⌈/⌉ (if (2 : ℕ) = 0 then 2 + 2 else min 2 (2 + 2)) - (if false = true then 1 else 0) : ℕ) = 2 := by
    decide
  rw [htot]
  unfold expressError
  simp only
  rw [hW1, hW2]
  norm_num

/-- Four rows and five columns of 100 electrons: there is an image that gives this one with `express = 1`, and `remove_cti`
with `express = 1` and three iterations differs from it by less than a fiftieth of an electron. -/
example (d : PyDirection) (hd : d = ⟨some ⟨[1], [1000], [1], [0], [.num 1000]⟩, some (.standard [1] true true true false),
      some (.list ([[.logNormalTrap 0.1 3 (1 / 2)], [.trap 0.1 2 0.1 false], [.instant 0.1 5 false]].map .group)), 0, 2⟩) :
    ∃ truth out, truth.AtLeast 0 ∧ removeCtiPy ⟨4, 5, fun _ _ => 100⟩ 3 { d with express := 1 } .all
        { d with express := 1 } .all none = .ok (out, d.roe, d.roe) ∧ out.dist truth ≤ 1 / 50 := by
  have h := exFull
  rw [← hd] at h
  have hc := exFull_count
  have hb : Real.exp (3 * (13 * (0.0012 / (1 - 0.0012)))) - 1 ≤ 0.05 := by
    have := Real.abs_exp_sub_one_sub_id_le (x := 3 * (13 * (0.0012 / (1 - 0.0012)))) (by
      rw [abs_of_nonneg (by norm_num)]; norm_num)
    have := (abs_le.1 this).2
    norm_num at this ⊢
    linarith
  have h0 : 0 ≤ Real.exp (3 * (13 * (0.0012 / (1 - 0.0012)))) - 1 := by
    have := Real.one_le_exp (by norm_num : (0 : ℝ) ≤ 3 * (13 * (0.0012 / (1 - 0.0012))))
    linarith
  obtain ⟨truth, -, -, t2, -, -, -, G⟩ := C105_inverse h h (⟨4, 5, fun _ _ => 100⟩ : Image ℝ) (by norm_num) (by norm_num)
    1 1 (Or.inr (by norm_num)) (Or.inr (by norm_num)) 0.0012 0.0012 (13 * (0.0012 / (1 - 0.0012))) _
    (by rw [hc]; norm_num) (by rw [hc]; norm_num) (by norm_num) (by norm_num) (by norm_num) (by norm_num) rfl (by linarith)
    (fun r hr c' hc' => by
      rw [hc]
      have e1 : ((r + 2 + 1 : ℕ) : ℝ) ≤ 6 := by
        have : r + 2 + 1 ≤ 6 := by simp only at hr; omega
        exact_mod_cast this
      have e2 : ((c' + 2 + 1 : ℕ) : ℝ) ≤ 7 := by
        have : c' + 2 + 1 ≤ 7 := by simp only at hc'; omega
        exact_mod_cast this
      simp only
      linarith)
  obtain ⟨out, o1, -, o2⟩ := G 3
  refine ⟨truth, out, t2, o1, o2.trans ?_⟩
  have htot : Image.total (⟨4, 5, fun _ _ => 100⟩ : Image ℝ) = 2000 := by
    simp [Image.total]; norm_num
  rw [htot]
  generalize Real.exp (3 * (13 * (0.0012 / (1 - 0.0012)))) - 1 = q at *
  have := div_le_div₀ (by positivity) (pow_le_pow_left₀ h0 hb (3 + 1)) (by norm_num : (0:ℝ) < 0.95)
    (by linarith : 0.95 ≤ 1 - q)
  refine (mul_le_mul_of_nonneg_right this (by norm_num)).trans (by norm_num)

end Arctic
