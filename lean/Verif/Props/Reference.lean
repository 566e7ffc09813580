import Verif.Lemmas.RefColumn
import Verif.Props.Total

/-!
# C53 — what `add_cti` computes; C54 — watermarks are an exact representation
-/

set_option linter.unusedSectionVars false
set_option linter.unusedVariables false

namespace Arctic

/-- Instant-capture traps as given to the code: non-negative densities, and for every positive dwell time a fraction of
the filled traps in `[0, 1)` that stays filled. -/
structure Ref.Traps.Ok (t : Ref.Traps) : Prop where
  dens : ∀ j, 0 ≤ t.dens j
  keep : ∀ x, 0 < x → ∀ j, 0 ≤ t.keep x j ∧ t.keep x j < 1

/-! ## C54 -/

/-- **C54**: clocking in one direction with instant-capture traps gives exactly the image obtained by following, for
every pixel visited, the full occupancy-by-depth profile of every species in the same order of transfers: representing
the profile by watermarks loses nothing. Any readout that raises nothing (C51), any number of phases, groups, species;
any express value, window and offset; any pixel values. -/
theorem C54_refinement (img : Image ℝ) (ccd : CcdView ℝ) (roe roe' : Roe ℝ) (traps : List Ref.Traps) (e o : ℕ)
    (rows columns : List ℕ) (tw : Option (List ℕ)) (cfg : ClockCfg ℝ)
    (hm : clockCfg roe ccd e o rows tw = .ok (cfg, roe'))
    (hk : NoSaves roe ∨ roe.isPumping = true ∨ (e = 0 ∧ FullReadout o rows tw roe)) (hb : roe.emptyBetween = true)
    (hr : RowsFound rows roe) (hrows : ∀ w ∈ rows, w < img.nr) (hcols : ∀ c ∈ columns, c < img.nc)
    (hlow : ∀ w ∈ rows, ∀ z ∈ roe.accessed, 0 ≤ (w : ℤ) + z)
    (hlen : ccd.fractions.length ≤ roe.nPhases) (hccd : GoodFill ccd) (ht : ∀ t ∈ traps, t.Ok) :
    ∃ out st, clockLoops (refSys ccd.fill) cfg columns
        (img.pad (nPadding roe.accessed), RefState.new traps ccd.fractions) = .ok (out, st) ∧
      clockCharge img ccd roe (traps.map Ref.Traps.group) e o rows columns tw =
        .ok (out.unpad (nPadding roe.accessed), roe') := by
  obtain ⟨N, pos, h1, h2⟩ := schedule_of hm hk
  have h3 := runCfg_of hm (fun ph h => (hccd.2 ph h).1) hlen hr img.nr hrows hlow
  have h4 : cfg.emptyBetween = true := (clockCfg_fields hm).2.2.2.2.2.2.2.trans hb
  obtain ⟨out, a, r, g1, g2, -⟩ := bothRef_loops (C := img.nc) h3 (fun ph hp => (hccd.2 ph (h3.phases ph hp)).2) h1 h4
    columns hcols (img.pad (nPadding roe.accessed), (ATM.new (traps.map Ref.Traps.group) ccd.fractions
      (N * cfg.steps.length), RefState.new traps ccd.fractions))
    ⟨rfl, rfl, stateRef_new traps ccd.fractions hccd.1 (fun t h => (ht t h).dens) (fun t h => (ht t h).keep)⟩
  refine ⟨out, r, g2, ?_⟩
  unfold clockCharge
  rw [hm]
  simp only [bind, Except.bind]
  rw [h2]
  simp only at g1
  rw [g1]

/-! ## C53 -/

theorem one_phase_sequence : genClockSequence (K := ℝ) 1 1 true = [[⟨true, 0, [(0, 1)]⟩]] := by
  have h1 : highPhase 1 0 = 0 := by decide
  have h2 : stepPrime 1 0 = 0 := by decide
  have h3 : splitReleasePhase 1 0 = none := by decide
  simp [genClockSequence, genPhase, h1, h2, h3]

theorem row_congr (f : ℝ → ℝ) (dw : ℝ) (R : ℕ) (x : ℕ × ℝ) (hx : x.1 < R) (st st' : (ℕ → ℝ) × List Ref.Traps)
    (h : (∀ r < R, st.1 r = st'.1 r) ∧ st.2 = st'.2) :
    (∀ r < R, (Ref.row f dw st x).1 r = (Ref.row f dw st' x).1 r) ∧ (Ref.row f dw st x).2 = (Ref.row f dw st' x).2 := by
  obtain ⟨h1, h2⟩ := h
  unfold Ref.row
  simp only [h1 _ hx, h2]
  refine ⟨fun r hr => ?_, trivial⟩
  split
  · exact h1 r hr
  · by_cases hrx : r = x.1
    · subst hrx; simp
    · simp [Function.update_of_ne hrx, h1 r hr]

theorem readout_congr (f : ℝ → ℝ) (dw : ℝ) (traps : List Ref.Traps) (R : ℕ) (passes : List (List (ℕ × ℝ))) :
    (∀ p ∈ passes, ∀ x ∈ p, x.1 < R) → ∀ col col' : ℕ → ℝ, (∀ r < R, col r = col' r) →
    ∀ r < R, Ref.readout f dw traps passes col r = Ref.readout f dw traps passes col' r := by
  induction passes with
  | nil => intro _ col col' h r hr; exact h r hr
  | cons p ps ih =>
    intro hp col col' h
    have key : ∀ (l : List (ℕ × ℝ)), (∀ x ∈ l, x.1 < R) → ∀ st st' : (ℕ → ℝ) × List Ref.Traps,
        (∀ r < R, st.1 r = st'.1 r) ∧ st.2 = st'.2 →
        ∀ r < R, (l.foldl (Ref.row f dw) st).1 r = (l.foldl (Ref.row f dw) st').1 r := by
      intro l
      induction l with
      | nil => intro _ st st' h r hr; exact h.1 r hr
      | cons x l ih =>
        intro hl st st' h
        exact ih (fun y hy => hl y (List.mem_cons_of_mem _ hy)) _ _ (row_congr f dw R x (hl x List.mem_cons_self) _ _ h)
    exact ih (fun q hq => hp q (List.mem_cons_of_mem _ hq)) _ _
      (key p (hp p List.mem_cons_self) (col, traps) (col', traps) ⟨h, rfl⟩)

/-- The passes given by the express matrix and the matrix of monitored transfers. -/
noncomputable def matrixPasses (rows : List ℕ) (m : Mat ℝ) (mon : Mat Bool) : List (List (ℕ × ℝ)) :=
  (List.range m.nr).map fun k =>
    ((List.range rows.length).filter fun j => mon.e k j).map fun j => (rows.getD j 0, m.e k j)

/-- The configuration of a readout with one phase. -/
noncomputable def onePhaseCfg (rows : List ℕ) (dw : ℝ) (m : Mat ℝ) (mon : Mat Bool) : ClockCfg ℝ where
  expr := m
  monitor := mon
  saveMat := ⟨m.nr, m.nc, fun _ _ => false⟩
  clockSeq := [[⟨true, 0, [(0, 1)]⟩]]
  dwell := [dw]
  steps := [0]
  phases := [0]
  rowWindow := rows
  emptyBetween := true

/-- **C53** for one direction with a single phase, any express value, row window, offset and time window: every column
of the column window is read out as in the reference simulation, in the passes and with the multipliers of the express
matrix; all other columns are unchanged. -/
theorem C53_clock (img : Image ℝ) (fill : ℕ → ℝ → ℝ) (frac dw : ℝ) (i : Bool) (traps : List Ref.Traps) (e o : ℕ)
    (rows columns : List ℕ) (tw : Option (List ℕ)) (m : Mat ℝ) (mon : Mat Bool)
    (hm : roeExpress true i rows e o tw = .ok (m, mon)) (hdw : 0 < dw) (hfrac : 0 < frac) (hf : FillModel (fill 0))
    (hpos : ∀ n, 0 < n → 0 < fill 0 n) (ht : ∀ t ∈ traps, t.Ok) (hrows : ∀ w ∈ rows, w < img.nr)
    (hcols : ∀ c ∈ columns, c < img.nc) (hnd : columns.Nodup) :
    ∃ out, clockCharge img ⟨[frac], fill⟩ (.standard [dw] true true true i) (traps.map Ref.Traps.group) e o rows
        columns tw = .ok (out, .standard [dw] true true true i) ∧ out.nr = img.nr ∧ out.nc = img.nc ∧
      ∀ r < img.nr, ∀ c, out.px r c = if c ∈ columns then
        Ref.readout (fill 0) dw (traps.map fun t => t.inPhase frac) (matrixPasses rows m mon) (fun r => img.px r c) r
        else img.px r c := by
  obtain ⟨a, ha, -, q, -, hm1, hm2⟩ := roeExpress_ok hm
  have hcfg : clockCfg (.standard [dw] true true true i) ⟨[frac], fill⟩ e o rows tw =
      .ok (onePhaseCfg rows dw m mon, .standard [dw] true true true i) := by
    unfold clockCfg onePhaseCfg
    simp only [Roe.express, hm, bind, Except.bind, Roe.save, roeSave, if_true, Roe.clockSequence, Roe.nSteps,
      Roe.nPhases, Roe.dwell, Roe.force, Roe.emptyBetween, List.length_singleton, one_phase_sequence]
    simp [positiveIndices, hdw, hfrac]
  have hacc : (Roe.standard [dw] true true true i).accessed = [0, 0, 0] := by
    unfold Roe.accessed Roe.clockSequence
    simp only [Roe.nSteps, Roe.nPhases, Roe.dwell, Roe.force, List.length_singleton, one_phase_sequence]
    simp [pixelsAccessed]
  have hpad : nPadding (Roe.standard [dw] true true true i).accessed = 0 := by rw [hacc]; rfl
  obtain ⟨out, st, g1, g2⟩ := C54_refinement img ⟨[frac], fill⟩ (.standard [dw] true true true i) _ traps e o rows
    columns tw _ hcfg (Or.inl rfl) rfl trivial hrows hcols
    (fun w _ z hz => by rw [hacc] at hz; simp at hz; omega) (by simp [Roe.nPhases])
    ⟨by simp [hfrac.le], fun ph hph => by
      obtain rfl : ph = 0 := by simpa using hph
      exact ⟨hf, hpos⟩⟩ ht
  rw [hpad] at g1 g2
  have hmon : mon.nc = rows.length := by rw [hm2]
  obtain ⟨out', g3, g4, g5, g6⟩ := refSys_columns (fill := fill) (dw := dw)
    (cfg := onePhaseCfg rows dw m mon)
    ⟨rfl, rfl, rfl, rfl, fun _ _ => rfl, rfl⟩ hmon.le (traps.map fun t => t.inPhase frac)
    (by rw [List.map_map]; rfl) columns (img.pad 0) hnd hcols (fun w hw => by simpa [Image.pad] using hrows w hw)
  have e1 : RefState.new traps [frac] = ⟨[traps.map fun t => t.inPhase frac], [traps.map fun t => t.inPhase frac]⟩ := rfl
  simp only [e1] at g1
  rw [g3] at g1
  injection g1 with g1
  injection g1 with g1 _
  subst g1
  refine ⟨_, g2, by simp [Image.unpad, g5, Image.pad], by simp [Image.unpad, g6, Image.pad], fun r hr c => ?_⟩
  change out'.px r c = _
  rw [g4]
  have hpasses : (List.range (onePhaseCfg rows dw m mon).expr.nr).map (todo (onePhaseCfg rows dw m mon)) =
      matrixPasses rows m mon := by
    unfold matrixPasses todo monitoredRows onePhaseCfg
    simp only [hmon]
  split
  · simp only [hpasses]
    refine readout_congr (fill 0) dw _ img.nr _ ?_ _ _ (fun r hr => by simp [Image.pad, hr]) r hr
    intro p hp x hx
    unfold matrixPasses at hp
    obtain ⟨k, -, rfl⟩ := List.mem_map.1 hp
    obtain ⟨j, hj, rfl⟩ := List.mem_map.1 hx
    have hj' := List.mem_range.1 (List.mem_filter.1 hj).1
    simp only
    rw [List.getD_eq_getElem _ _ hj']
    exact hrows _ (List.getElem_mem hj')
  · simp [Image.pad, hr]

/-- Full readout follows every transfer of every row. -/
theorem fullPasses {i : Bool} {n o : ℕ} (hn : 0 < n) {tw : Option (List ℕ)} {m : Mat ℝ} {mon : Mat Bool}
    (hcov : Covering o (List.range n) tw) (h : roeExpress true i (List.range n) 0 o tw = .ok (m, mon)) :
    matrixPasses (List.range n) m mon = Ref.allPasses n o := by
  obtain ⟨a, ha, h1, h2, h3, h4⟩ := standard_full hcov h
  have han : a + 1 = n := by
    have q := List.max?_eq_some_iff.1 ha
    have q1 := List.mem_range.1 q.1
    have q2 := q.2 (n - 1) (List.mem_range.2 (by omega))
    omega
  have hnr : m.nr = n + o := by omega
  unfold matrixPasses Ref.allPasses
  rw [hnr, List.length_range]
  refine List.map_congr_left fun k hk => ?_
  have hk' : k < m.nr := by rw [hnr]; exact List.mem_range.1 hk
  have e1 : ∀ j < n, (List.range n).getD j 0 = j := by
    intro j hj
    rw [List.getD_eq_getElem _ _ (by simpa using hj), List.getElem_range]
  have e2 : ((List.range n).filter fun j => mon.e k j) = (List.range n).filter fun r => decide (k ≤ r + o) := by
    refine List.filter_congr fun j hj => ?_
    have hj' := List.mem_range.1 hj
    have := (h4 k hk' j (by simpa using hj')).2
    rw [e1 j hj'] at this
    rw [Bool.eq_iff_iff, decide_eq_true_eq]
    exact this
  rw [e2]
  refine List.map_congr_left fun j hj => ?_
  obtain ⟨q1, q2⟩ := List.mem_filter.1 hj
  have hj' := List.mem_range.1 q1
  have := (h4 k hk' j (by simpa using hj')).1
  rw [e1 j hj'] at this ⊢
  rw [this, if_pos (by simpa using q2)]

theorem inPhase_one (t : Ref.Traps) : t.inPhase 1 = t.empty := by
  unfold Ref.Traps.inPhase Ref.Traps.empty
  simp only [mul_one]

/-- The time window covers all rows. -/
theorem express_full (i : Bool) (n o : ℕ) (hn : 0 < n) (tw : Option (List ℕ)) (hcov : Covering o (List.range n) tw) :
    ∃ m mon, roeExpress (K := ℝ) true i (List.range n) 0 o tw = .ok (m, mon) := by
  obtain ⟨x, hx⟩ := standard_cfg (K := ℝ) [1] i ⟨[1], fun _ x => x⟩ 0 o (List.range n) tw
    (by rw [Ne, List.range_eq_nil]; omega) (by rintro ⟨-, h, -⟩; exact h rfl) (by
      rintro t rfl
      rcases hcov with h | ⟨N, h, hN⟩
      · cases h
      · injection h with h
        subst h
        rw [Ne, List.range_eq_nil]
        have := hN 0 (List.mem_range.2 hn)
        omega)
  obtain ⟨h1, -⟩ := clockCfg_fields (cfg := x.1) (roe' := x.2) hx
  simp only [Roe.express] at h1
  obtain ⟨⟨m, mon⟩, g1, -⟩ := bind_eq_ok h1
  exact ⟨m, mon, g1⟩

/-- One direction of clocking that is followed exactly. -/
structure ExactDirection (f : ℝ → ℝ) (dw : ℝ) (traps : List Ref.Traps) : Prop where
  dwell : 0 < dw
  fill : FillModel f
  fillPos : ∀ n, 0 < n → 0 < f n
  traps : ∀ t ∈ traps, t.Ok

/-- The arguments of `add_cti` for one direction. -/
noncomputable def exactDirection (fill : ℕ → ℝ → ℝ) (dw : ℝ) (traps : List Ref.Traps) (i : Bool) (offset : ℕ) : Direction ℝ :=
  ⟨⟨[1], fill⟩, .standard [dw] true true true i, traps.map Ref.Traps.group, 0, offset⟩

theorem ExactDirection.run {fill : ℕ → ℝ → ℝ} {dw : ℝ} {traps : List Ref.Traps} (h : ExactDirection (fill 0) dw traps)
    (img : Image ℝ) (hnr : 0 < img.nr) (i : Bool) (o : ℕ) (tw : Option (List ℕ))
    (hcov : Covering o (List.range img.nr) tw) :
    ∃ out, clockCharge img ⟨[1], fill⟩ (.standard [dw] true true true i) (traps.map Ref.Traps.group) 0 o
        (List.range img.nr) (List.range img.nc) tw = .ok (out, .standard [dw] true true true i) ∧
      out.nr = img.nr ∧ out.nc = img.nc ∧ ∀ r < img.nr, ∀ c < img.nc, out.px r c =
        Ref.readout (fill 0) dw (traps.map Ref.Traps.empty) (Ref.allPasses img.nr o) (fun r => img.px r c) r := by
  obtain ⟨m, mon, hm⟩ := express_full i img.nr o hnr tw hcov
  obtain ⟨out, g1, g2, g3, g4⟩ := C53_clock img fill 1 dw i traps 0 o (List.range img.nr) (List.range img.nc) tw m mon hm
    h.dwell one_pos h.fill h.fillPos h.traps (fun w hw => List.mem_range.1 hw) (fun c hc => List.mem_range.1 hc)
    List.nodup_range
  refine ⟨out, g1, g2, g3, fun r hr c hc => ?_⟩
  rw [g4 r hr c, if_pos (List.mem_range.2 hc), fullPasses hnr hcov hm]
  simp only [inPhase_one]

/-- **C53**: `add_cti` with `express = 0`, single-phase standard readout in both directions, emptied traps for first
transfers, any number of groups of instant-capture traps: each pixel of the result is the reference simulation of the
serial readout of its row, applied to the reference simulation of the parallel readout of the columns. -/
theorem C53_add_cti (img : Image ℝ) (hnr : 0 < img.nr) (hnc : 0 < img.nc) (fp fs : ℕ → ℝ → ℝ) (dp ds : ℝ)
    (tp ts : List Ref.Traps) (hp : ExactDirection (fp 0) dp tp) (hs : ExactDirection (fs 0) ds ts) (ip is : Bool)
    (o op os : ℕ) :
    ∃ out, addCti img (some (exactDirection fp dp tp ip op)) o .all (some (exactDirection fs ds ts is os)) .all none =
        .ok (out, some (exactDirection fp dp tp ip op), some (exactDirection fs ds ts is os)) ∧
      out.nr = img.nr ∧ out.nc = img.nc ∧
      ∀ r < img.nr, ∀ c < img.nc, out.px r c =
        Ref.readout (fs 0) ds (ts.map Ref.Traps.empty) (Ref.allPasses img.nc os)
          (fun c => Ref.readout (fp 0) dp (tp.map Ref.Traps.empty) (Ref.allPasses img.nr o) (fun r => img.px r c) r) c := by
  obtain ⟨mid, g1, g2, g3, g4⟩ := hp.run img hnr ip o (some (List.range (img.nr + o)))
    (Or.inr ⟨img.nr, rfl, fun x hx => List.mem_range.1 hx⟩)
  obtain ⟨out, q1, q2, q3, q4⟩ := hs.run mid.transpose (by rw [show mid.transpose.nr = mid.nc from rfl, g3]; exact hnc) is os
    none (Or.inl rfl)
  have e1 : mid.transpose.nr = img.nc := g3
  have e2 : mid.transpose.nc = img.nr := g2
  rw [e1, e2] at q1
  refine ⟨out.transpose, ?_, ?_, ?_, ?_⟩
  · unfold addCti exactDirection
    simp only [Window.resolve, bind, Except.bind, Option.getD_none]
    rw [g1]
    simp only
    rw [q1]
  · exact q3.trans e2
  · exact q2.trans e1
  · intro r hr c hc
    change out.px c r = _
    rw [q4 c (by rw [e1]; exact hc) r (by rw [e2]; exact hr), e1]
    refine readout_congr (fs 0) ds _ img.nc _ ?_ _ _ (fun c hc => ?_) c hc
    · intro p hp x hx
      unfold Ref.allPasses at hp
      obtain ⟨k, -, rfl⟩ := List.mem_map.1 hp
      obtain ⟨j, hj, rfl⟩ := List.mem_map.1 hx
      exact List.mem_range.1 (List.mem_filter.1 hj).1
    · change mid.px r c = _
      exact g4 r hr c hc

/-! ### an example -/

/-- A full well of 100 electrons. -/
noncomputable def refFill (n : ℝ) : ℝ := if n ≤ 0 then 0 else if 100 ≤ n then 1 else n / 100

/-- Ten traps of one species, half of which release in any dwell time. -/
noncomputable def refTraps : Ref.Traps := ⟨1, fun _ => 10, fun _ _ => 1 / 2, fun _ _ => 0⟩

theorem refExact : ExactDirection refFill 1 [refTraps] := by
  refine ⟨one_pos, ⟨fun n => ?_, fun n => ?_, fun n hn => ?_⟩, fun n hn => ?_, ?_⟩
  · unfold refFill; split
    · exact le_rfl
    · split
      · exact zero_le_one
      · rename_i h _; exact div_nonneg (not_le.1 h).le (by norm_num)
  · unfold refFill; split
    · exact zero_le_one
    · split
      · exact le_rfl
      · rename_i h; rw [div_le_one (by norm_num)]; exact (not_le.1 h).le
  · unfold refFill; rw [if_pos hn]
  · unfold refFill; rw [if_neg (not_le.2 hn)]; split
    · exact one_pos
    · positivity
  · intro t ht
    rcases List.mem_singleton.1 ht with rfl
    exact ⟨fun _ => by change (0 : ℝ) ≤ 10; norm_num, fun _ _ _ => by
      change (0 : ℝ) ≤ 1 / 2 ∧ (1 / 2 : ℝ) < 1; norm_num⟩

/-- The reference simulation of a single pixel of 80 electrons: 8 of the ten traps are inside the cloud. -/
example : Ref.readout refFill 1 [refTraps.empty] (Ref.allPasses 1 0) (fun _ => 80) 0 = 72 := by
  have h80 : refFill 80 = 4 / 5 := by norm_num [refFill]
  have ht : (refTraps.empty.transfer refFill 1 80).1 = -8 := by
    unfold Ref.Traps.transfer Ref.Traps.capture Ref.Traps.vacant Ref.Traps.filled Ref.Traps.release Ref.Traps.empty
      refTraps
    simp [h80]
    norm_num
  unfold Ref.readout Ref.allPasses Ref.pass
  simp [Ref.row, ht]
  norm_num

end Arctic
