import Verif.Lemmas.ClockCongr
import Verif.Lemmas.SkipPhases
import Verif.Props.ClockExamples

/-!
# The clocking loops: C15 (memory safety), C34 (serial and parallel), C48 (skipped phases)
-/

set_option linter.unusedSectionVars false
set_option linter.unusedVariables false

namespace Arctic

variable {K : Type} [Field K] [LinearOrder K] [IsStrictOrderedRing K]

/-! ## C15 — the image buffer is accessed in range -/

theorem accessed_le_padding (l : List ℤ) (h0 : (0 : ℤ) ∈ l) (z : ℤ) (hz : z ∈ l) : z ≤ nPadding l := by
  unfold nPadding
  have hne : l ≠ [] := by rintro rfl; cases h0
  cases hmx : l.max? with
  | none => exact absurd (List.max?_eq_none_iff.1 hmx) hne
  | some a =>
    cases hmn : l.min? with
    | none => exact absurd (List.min?_eq_none_iff.1 hmn) hne
    | some b =>
      have h1 := (List.max?_eq_some_iff.1 hmx).2 z hz
      have h2 := (List.min?_eq_some_iff.1 hmn).2 0 h0
      simp only [Option.getD_some]
      omega

theorem zero_mem_accessed (roe : Roe K) : (0 : ℤ) ∈ roe.accessed := by
  unfold Roe.accessed pixelsAccessed
  exact List.mem_cons_self

/-- Offsets read or written by a phase of the clock sequence are accessed pixels. -/
theorem mem_accessed (roe : Roe K) {step phase : ℕ} {ph : Phase K}
    (h : (roe.clockSequence[step]?.bind fun l => l[phase]?) = some ph) :
    ph.captureFrom ∈ roe.accessed ∧ ∀ o ∈ ph.release, o.1 ∈ roe.accessed := by
  cases h1 : roe.clockSequence[step]? with
  | none => rw [h1] at h; cases h
  | some l =>
    rw [h1] at h
    have h2 : l[phase]? = some ph := h
    have hl := List.mem_of_getElem? h1
    have hp := List.mem_of_getElem? h2
    have key : ∀ z ∈ ph.captureFrom :: ph.release.map Prod.fst, z ∈ roe.accessed := by
      intro z hz
      unfold Roe.accessed pixelsAccessed
      refine List.mem_cons_of_mem _ ?_
      rw [List.mem_flatMap]
      refine ⟨l, hl, ?_⟩
      rw [List.mem_flatMap]
      exact ⟨ph, hp, hz⟩
    exact ⟨key _ List.mem_cons_self, fun o ho => key _ (List.mem_cons_of_mem _ (List.mem_map_of_mem ho))⟩

theorem writeAll_inRange {img : Image K} {row0 : ℤ} {c : ℕ} {net mult : K} {rel : List (ℤ × K)} (hc : c < img.nc)
    (h : ∀ o ∈ rel, 0 ≤ row0 + o.1 ∧ row0 + o.1 < img.nr) :
    ∃ i, writeAll img row0 c net mult rel = .ok i ∧ i.nr = img.nr ∧ i.nc = img.nc := by
  induction rel generalizing img with
  | nil => exact ⟨img, rfl, rfl, rfl⟩
  | cons o rel ih =>
    obtain ⟨off, frac⟩ := o
    obtain ⟨h1, h2⟩ := h _ List.mem_cons_self
    unfold writeAll writeBack Image.read
    rw [if_pos ⟨h1, h2, hc⟩]
    exact ih (img := img.set _ _ _) hc (fun o ho => h o (List.mem_cons_of_mem _ ho))

/-- A phase of the clock sequence exists for every step and phase. -/
theorem clockSequence_look (roe : Roe K) {step phase : ℕ} (hs : step < roe.nSteps) (hp : phase < roe.nPhases) :
    ∃ ph, (roe.clockSequence[step]?.bind fun l => l[phase]?) = some ph := by
  unfold Roe.clockSequence genClockSequence
  rw [List.getElem?_map, List.getElem?_range hs]
  simp only [Option.map_some, Option.bind_some]
  rw [List.getElem?_map, List.getElem?_range hp]
  exact ⟨_, rfl⟩

/-- **C15**: for every readout, whatever the trap system does, the loops access the padded image and the clock sequence
only in range if the window lies in the image, no row of it reaches below row 0 by the pixels accessed during clocking,
and the phases with traps are phases of the readout. -/
theorem C15_in_range {S : Type} (sys : TrapSys K S) (hsys : ∀ s ph n t, sys.react s ph n t ≠ .error .outOfBounds)
    (img : Image K) (ccd : CcdView K) (roe roe' : Roe K) (e o : ℕ) (rows columns : List ℕ) (tw : Option (List ℕ))
    (cfg : ClockCfg K) (hcfg : clockCfg roe ccd e o rows tw = .ok (cfg, roe')) (s0 : S)
    (hrows : ∀ w ∈ rows, w < img.nr) (hcols : ∀ c ∈ columns, c < img.nc)
    (hlow : ∀ w ∈ rows, ∀ z ∈ roe.accessed, 0 ≤ (w : ℤ) + z)
    (hph : ∀ p, 0 < ccd.fractions.getD p 0 → p < roe.nPhases) :
    clockLoops sys cfg columns (img.pad (nPadding roe.accessed), s0) ≠ .error .outOfBounds := by
  obtain ⟨-, -, hseq, -, hst, hphs, hrw, -⟩ := clockCfg_fields hcfg
  have key := clockLoops_sat (E := fun e => e ≠ Err.outOfBounds) (sys := sys) (cfg := cfg) (columns := columns)
    (fun st => st.1.nr = img.nr + nPadding roe.accessed ∧ st.1.nc = img.nc) (by
      rintro c hc k _ j _ step hstep phase hphase ⟨i, s⟩ ⟨h1, h2⟩
      simp only at h1 h2
      unfold phaseBody
      split
      · rename_i ph row0 dwell e1 e2 e3
        rw [hseq] at e1
        obtain ⟨a1, a2⟩ := mem_accessed roe e1
        have hmem : row0 ∈ rows := hrw ▸ List.mem_of_getElem? e2
        have hb : ∀ z ∈ roe.accessed, 0 ≤ (row0 : ℤ) + z ∧ (row0 : ℤ) + z < i.nr := by
          intro z hz
          refine ⟨hlow row0 hmem z hz, ?_⟩
          have := accessed_le_padding _ (zero_mem_accessed roe) z hz
          have := hrows row0 hmem
          rw [h1]; push_cast; omega
        have hc' : c < i.nc := h2 ▸ hcols c hc
        unfold Image.read
        rw [if_pos ⟨(hb _ a1).1, (hb _ a1).2, hc'⟩]
        refine Sat.bind (Q := fun _ => True) (by exact trivial) ?_
        intro v _
        refine Sat.bind (Q := fun _ => True) ?_ ?_
        · cases hx : sys.react s phase (v * if ph.isHigh then 1 else 0) dwell with
          | error e => exact fun h => hsys s phase _ dwell (h ▸ hx)
          | ok _ => trivial
        · rintro ⟨net, s'⟩ _
          simp only
          split
          · exact ⟨h1, h2⟩
          · obtain ⟨i', g1, g2, g3⟩ := writeAll_inRange (img := i) (row0 := row0) (c := c) (net := net)
              (mult := cfg.expr.e k j) (rel := ph.release) hc' (fun o ho => hb _ (a2 o ho))
            rw [g1]
            exact ⟨g2.trans h1, g3.trans h2⟩
      · obtain ⟨ph, q⟩ := clockSequence_look roe (step := step) (mem_positiveIndices.1 (hst ▸ hstep)).1
          (hph phase (mem_positiveIndices.1 (hphs ▸ hphase)).2)
        rw [hseq, q]
        exact fun h => by cases h)
    (fun _ h => h) (fun _ h => h) (fun _ h => h) (img.pad (nPadding roe.accessed), s0) ⟨rfl, rfl⟩
  intro h
  exact key.err h rfl

/-- **C15** for forced release: any window inside the image, traps in phases of the readout. -/
theorem C15_forced {S : Type} (sys : TrapSys K S) (hsys : ∀ s ph n t, sys.react s ph n t ≠ .error .outOfBounds)
    (img : Image K) (ccd : CcdView K) (roe roe' : Roe K) (hf : roe.force = true) (e o : ℕ) (rows columns : List ℕ)
    (tw : Option (List ℕ)) (cfg : ClockCfg K) (hcfg : clockCfg roe ccd e o rows tw = .ok (cfg, roe')) (s0 : S)
    (hrows : ∀ w ∈ rows, w < img.nr) (hcols : ∀ c ∈ columns, c < img.nc)
    (hph : ∀ p, 0 < ccd.fractions.getD p 0 → p < roe.nPhases) :
    clockLoops sys cfg columns (img.pad (nPadding roe.accessed), s0) ≠ .error .outOfBounds :=
  C15_in_range sys hsys img ccd roe roe' e o rows columns tw cfg hcfg s0 hrows hcols (fun w _ z hz => by
    have := (C14_accessed roe z hz).1 hf
    omega) hph

/-- In step 0 without forced release, the last of several phases captures from the pixel before. -/
theorem genPhase_last_capture (n : ℕ) (hn : 2 ≤ n) : (genPhase (K := K) n false 0 (n - 1)).captureFrom = -1 := by
  have hsp := stepPrime_eq n 0 (by omega) (by omega)
  rw [if_pos (by omega)] at hsp
  unfold genPhase
  simp only [hsp, Bool.false_eq_true, false_and, if_false, add_zero]
  have hb := capture_bounds n (((0 : ℕ) : ℤ) - ((n - 1 : ℕ) : ℤ)) (by omega)
  simp only at hb
  generalize (((0 : ℕ) : ℤ) - ((n - 1 : ℕ) : ℤ) + ((n - 1) / 2 : ℕ)).fdiv n = c at hb ⊢
  obtain ⟨h1, h2⟩ := hb
  have hn' : (2 : ℤ) ≤ n := by exact_mod_cast hn
  have e1 : ((n - 1 : ℕ) : ℤ) = (n : ℤ) - 1 := by omega
  rw [e1] at h1 h2
  have e2 : (0 : ℤ) ≤ (((n - 1) / 2 : ℕ) : ℤ) ∧ (((n - 1) / 2 : ℕ) : ℤ) < n - 1 := by omega
  by_contra hne
  rcases lt_or_gt_of_ne hne with h | h
  · have : c * n ≤ (-2) * n := mul_le_mul_of_nonneg_right (by omega) (by omega)
    push_cast at h2
    omega
  · have : 0 * (n : ℤ) ≤ c * n := mul_le_mul_of_nonneg_right (by omega) (by omega)
    push_cast at h1
    omega

/-- **C15** is false without forced release: with two or more phases, traps in the last phase and time spent in the
first step, no call that processes row 0 completes in range — for any image, traps, express value and offset. -/
theorem C15_unforced_false (img : Image K) (ccd : CcdView K) (dwell : List K) (ef eb i : Bool)
    (groups : List (Group K)) (e o : ℕ) (rows columns : List ℕ) (tw : Option (List ℕ))
    (hn : 2 ≤ dwell.length) (hd : 0 < dwell.getD 0 0) (hfr : 0 < ccd.fractions.getD (dwell.length - 1) 0)
    (hlen : dwell.length ≤ ccd.fractions.length) (h0 : 0 ∈ rows) (hcol : columns ≠ []) (r : Image K × Roe K) :
    clockCharge img ccd (.standard dwell ef eb false i) groups e o rows columns tw ≠ .ok r := by
  intro h
  obtain ⟨cfg, st, h1, h2, -⟩ := clockCharge_ok (out := r.1) (roe' := r.2) h
  obtain ⟨f1, f2, f3, f4, f5, f6, f7, f8⟩ := clockCfg_fields h1
  simp only [Roe.express] at f1
  obtain ⟨⟨m, mon⟩, g1, g2⟩ := bind_eq_ok f1
  injection g2 with g2
  injection g2 with g3 g4
  injection g4 with g4 _
  obtain ⟨a, hw, hs, full, hr, hm, hmon⟩ := roeExpress_ok g1
  have hx := fun hc => hs ((short_iff (o := o) hw).1 hc)
  have hsum := sum_expressFull (K := K) ef i (a + 1) e o (0 + o) (by omega) (by omega) hx
  -- a pass that monitors row 0
  obtain ⟨k, hk, hpos⟩ : ∃ k ∈ Finset.range (expressFull (K := K) ef i (a + 1) e o).nr,
      0 < (expressFull (K := K) ef i (a + 1) e o).e k (0 + o) := by
    by_contra hcon
    have hle : ∀ k ∈ Finset.range (expressFull (K := K) ef i (a + 1) e o).nr,
        (expressFull (K := K) ef i (a + 1) e o).e k (0 + o) ≤ 0 := by
      intro k hk
      by_contra hlt
      exact hcon ⟨k, hk, not_le.1 hlt⟩
    have := Finset.sum_nonpos hle
    rw [hsum] at this
    have : (0 : K) < ((0 + o : ℕ) : K) + 1 := by positivity
    linarith
  obtain ⟨j, hj⟩ := List.getElem?_of_mem h0
  obtain ⟨hjl, hj'⟩ := List.getElem?_eq_some_iff.1 hj
  have hjm : j ∈ monitoredRows cfg k := by
    unfold monitoredRows
    rw [← g4, hmon]
    simp only [List.mem_filter, List.mem_range, decide_eq_true_eq]
    refine ⟨hjl, ?_⟩
    rw [List.getD_eq_getElem _ _ hjl, hj']
    exact hpos
  have hkr : k ∈ List.range cfg.expr.nr := by
    rw [List.mem_range, ← g3, hm]
    have : full.nr = (expressFull (K := K) ef i (a + 1) e o).nr := by
      cases tw with
      | none => simp only [restrictTimeSpan] at hr; cases hr; rfl
      | some l =>
        simp only [restrictTimeSpan] at hr
        split at hr
        · cases hr; rfl
        · cases hr
    simp only [this]
    exact Finset.mem_range.1 hk
  obtain ⟨c, cs, rfl⟩ := List.exists_cons_of_ne_nil hcol
  unfold clockLoops at h2
  obtain ⟨s1, s2, q1⟩ := foldlM_ok_mem h2 c List.mem_cons_self
  unfold columnBody at q1
  obtain ⟨s3, q2, -⟩ := bind_eq_ok q1
  obtain ⟨s4, s5, q3⟩ := foldlM_ok_mem q2 k hkr
  unfold expressBody at q3
  obtain ⟨s6, s7, q4⟩ := foldlM_ok_mem q3 j hjm
  unfold rowBody at q4
  obtain ⟨s8, q5, -⟩ := bind_eq_ok q4
  have hstep : 0 ∈ cfg.steps := by
    rw [f5]
    unfold positiveIndices Roe.dwell
    simp only [List.mem_filter, List.mem_range, decide_eq_true_eq]
    exact ⟨by omega, hd⟩
  obtain ⟨s9, s10, q6⟩ := foldlM_ok_mem q5 0 hstep
  unfold stepBody at q6
  have hphase : dwell.length - 1 ∈ cfg.phases := by
    rw [f6]
    unfold positiveIndices
    simp only [List.mem_filter, List.mem_range, decide_eq_true_eq]
    exact ⟨by omega, hfr⟩
  obtain ⟨s11, s12, q7⟩ := foldlM_ok_mem q6 _ hphase
  unfold phaseBody at q7
  split at q7
  · rename_i ph row0 dw e1 e2 e3
    obtain ⟨v, q8, -⟩ := bind_eq_ok q7
    obtain ⟨b1, -⟩ := read_ok q8
    rw [f7, hj] at e2
    injection e2 with e2
    rw [f3] at e1
    have : ph = genPhase dwell.length false 0 (dwell.length - 1) := by
      unfold Roe.clockSequence genClockSequence at e1
      simp only [Roe.nSteps, Roe.nPhases, Roe.dwell, Roe.force] at e1
      rw [List.getElem?_map, List.getElem?_range (by omega)] at e1
      simp only [Option.map_some, Option.bind_some] at e1
      rw [List.getElem?_map, List.getElem?_range (by omega)] at e1
      simp only [Option.map_some] at e1
      injection e1 with e1
      exact e1.symm
    rw [this, genPhase_last_capture _ hn, ← e2] at b1
    omega
  · cases q7

/-- The three-phase readout without forced release does access row `-1`; with forced release the same call
returns. -/
example : (clockCharge (exImg 2 1 [[40], [80]]) exCcd3 (.standard [1, 1, 1] true true false false) [exGroup] 0 0 [0, 1] [0]
      none).map (fun x => x.1.rows) = .error .outOfBounds ∧
    ((clockCharge (exImg 2 1 [[40], [80]]) exCcd3 exRoe3 [exGroup] 0 0 [0, 1] [0] none).map
      fun x => x.1.nr) = .ok 2 := by decide +kernel

/-! ## C06 — the default time window -/

/-- **C06** for `add_cti`: with a standard readout, a call without `time_window_range` clocks the parallel direction as if
there were no time window at all, whatever the offset, windows and express value, and then clocks the result in the serial
direction. -/
theorem C06_add_cti (img : Image K) (ccd : CcdView K) (dw : List K) (ef eb f i : Bool) (groups : List (Group K))
    (e o : ℕ) (pw sw : Window) (ser : Option (Direction K)) (hpw : ∀ x ∈ pw.resolve img.nr, x < img.nr) (o' : ℕ) :
    addCti img (some ⟨ccd, .standard dw ef eb f i, groups, e, o'⟩) o pw ser sw none =
      clockCharge img ccd (.standard dw ef eb f i) groups e o (pw.resolve img.nr) (sw.resolve img.nc) none >>= fun x =>
        match ser with
        | none => .ok (x.1, some ⟨ccd, x.2, groups, e, o'⟩, none)
        | some d => (clockCharge x.1.transpose d.ccd d.roe d.groups d.express d.offset (sw.resolve img.nc)
            (pw.resolve img.nr) none).map fun y => (y.1.transpose, some ⟨ccd, x.2, groups, e, o'⟩, some { d with roe := y.2 }) := by
  rw [← clockCharge_default_time img ccd dw ef eb f i groups e o _ _ img.nr hpw]
  unfold addCti
  simp only [bind, Except.bind, Option.getD_none]
  generalize clockCharge img ccd (.standard dw ef eb f i) groups e o (pw.resolve img.nr) (sw.resolve img.nc) _ = x
  rcases x with er | x
  · rfl
  · simp only
    rcases ser with - | d
    · rfl
    · simp only
      generalize clockCharge x.1.transpose d.ccd d.roe d.groups d.express d.offset (sw.resolve img.nc)
        (pw.resolve img.nr) none = y
      cases y <;> rfl

/-- With an offset, where a time window of only the rows would cut the readout short. -/
example : ((addCti (exImg 2 1 [[40], [80]]) (some ⟨exCcd, exRoe, [exGroup], 0, 1⟩) 1 .all none .all none).map
      fun x => x.1.rows) = (clockCharge (exImg 2 1 [[40], [80]]) exCcd exRoe [exGroup] 0 1 [0, 1] [0] none).map
      (fun x => x.1.rows) ∧
    ((addCti (exImg 2 1 [[40], [80]]) (some ⟨exCcd, exRoe, [exGroup], 0, 1⟩) 1 .all none .all (some [0, 1])).map
      fun x => x.1.rows) ≠ (clockCharge (exImg 2 1 [[40], [80]]) exCcd exRoe [exGroup] 0 1 [0, 1] [0] none).map
      (fun x => x.1.rows) := by decide +kernel

/-! ## C34 — serial clocking is parallel clocking of the transposed image -/

/-- **C34**: for the standard readout and trap pumping, whatever the image, traps, express value, offset and windows
inside the image; also when the call raises. -/
theorem C34_serial (img : Image K) (d : Direction K) (o : ℕ) (pw sw : Window)
    (hroe : ∀ dw n b f i, d.roe ≠ .injection dw n b f i) (hsw : ∀ x ∈ sw.resolve img.nc, x < img.nc) :
    addCti img none o pw (some d) sw none =
      (addCti img.transpose (some d) d.offset sw none pw none).map fun x => (x.1.transpose, none, x.2.1) := by
  rw [addCti_ser, addCti_par]
  have key : clockCharge img.transpose d.ccd d.roe d.groups d.express d.offset (sw.resolve img.nc) (pw.resolve img.nr)
      (some (List.range (img.nc + d.offset))) =
      clockCharge img.transpose d.ccd d.roe d.groups d.express d.offset (sw.resolve img.nc) (pw.resolve img.nr)
      none := by
    cases hr : d.roe with
    | standard dw ef eb f i => exact clockCharge_default_time _ _ _ _ _ _ _ _ _ _ _ _ _ hsw
    | injection dw n b f i => exact absurd hr (hroe _ _ _ _ _)
    | pumping dw n ef i => rfl
  change _ = ((clockCharge img.transpose d.ccd d.roe d.groups d.express d.offset (sw.resolve img.nc)
    (pw.resolve img.nr) (some (List.range (img.nc + d.offset)))).map _).map _
  rw [key]
  cases clockCharge img.transpose d.ccd d.roe d.groups d.express d.offset (sw.resolve img.nc) (pw.resolve img.nr)
      none <;> rfl

/-- Serial clocking that does change the image. -/
example : ((addCti (exImg 1 3 [[0, 80, 0]]) none 0 .all (some ⟨exCcd, exRoe, [exGroup], 0, 0⟩) .all none).map
    fun x => x.1.rows) = .ok [[0, 324 / 5, 20197 / 2000]] := by decide +kernel

/-- **C34** fails for charge injection: the parallel call truncates the transfers to its default time window, the
serial call does not. -/
theorem C34_injection_false :
    let d : Direction ℚ := ⟨exCcd, .injection [1] (some 3) true true false, [exGroup], 0, 0⟩
    let img := exImg 1 2 [[80, 0]]
    ((addCti img none 0 .all (some d) .all none).map fun x => x.1.rows) ≠
      (addCti img.transpose (some d) 0 .all none .all none).map fun x => x.1.transpose.rows := by decide +kernel

/-! ## C48 — skipping phases without traps is sound -/

/-- **C48**: `phases_with_traps` may as well be all phases: if processing every phase returns, processing only
those with a positive fraction of traps returns the same image. -/
theorem C48_skip (img : Image K) (ccd : CcdView K) (roe roe' : Roe K) (groups : List (Group K)) (e o N : ℕ)
    (rows columns : List ℕ) (tw : Option (List ℕ)) (cfg : ClockCfg K)
    (hcfg : clockCfg roe ccd e o rows tw = .ok (cfg, roe')) (hfr : ∀ x ∈ ccd.fractions, 0 ≤ x)
    (h0 : ∀ r c, 0 ≤ img.px r c) (st : Image K × ATM K)
    (h : clockLoops (atmSys ccd.fill) { cfg with phases := List.range ccd.fractions.length } columns
      (img, ATM.new groups ccd.fractions N) = .ok st) :
    ∃ st', clockLoops (atmSys ccd.fill) cfg columns (img, ATM.new groups ccd.fractions N) = .ok st' ∧
      st'.1 = st.1 := by
  obtain ⟨-, -, -, -, -, hph, -, -⟩ := clockCfg_fields hcfg
  have hrel : SkipSt (fun i => decide (0 < ccd.fractions.getD i 0)) (img, ATM.new groups ccd.fractions N)
      (img, ATM.new groups ccd.fractions N) := by
    have hz : ∀ ph, decide (0 < ccd.fractions.getD ph 0) = false →
        ZeroDens (ATM.new groups ccd.fractions N).data[ph]? := by
      intro ph hp l hl m hm j
      simp only [decide_eq_false_iff_not, not_lt] at hp
      unfold ATM.new at hl
      simp only at hl
      rw [List.getElem?_map] at hl
      cases hf : ccd.fractions[ph]? with
      | none => rw [hf] at hl; cases hl
      | some x =>
        rw [hf] at hl
        injection hl with hl
        subst hl
        rw [List.mem_map] at hm
        obtain ⟨g, -, rfl⟩ := hm
        have hx : x = 0 := by
          refine le_antisymm ?_ (hfr x (List.mem_of_getElem? hf))
          rw [List.getD_eq_getElem?_getD, hf] at hp
          exact hp
        exact (congrArg (g.dens j * ·) hx).trans (mul_zero _)
    refine ⟨rfl, h0, fun _ _ => rfl, fun _ _ => rfl, hz, fun ph hp => ?_⟩
    rw [(fresh_new groups ccd.fractions N).2.1]
    exact hz ph hp
  have := clockLoops_skip ccd.fill { cfg with phases := List.range ccd.fractions.length } _ columns _ _ hrel
  obtain ⟨st', g1, g2⟩ := this st h
  refine ⟨st', ?_, g2.1.symm⟩
  have hc : cfg = { cfg with phases := positiveIndices ccd.fractions } := by rw [← hph]
  rw [hc]
  exact g1

/-- A three-phase CCD with traps in the middle phase only, where skipping the other two gives the same image as not
skipping them. -/
def exCfg48 : Except Err (ClockCfg ℚ × Roe ℚ) := clockCfg exRoe3 ⟨[0, 1, 0], fun _ => fill100⟩ 0 0 [0, 1] none

example : (do
    let (cfg, _) ← exCfg48
    let x ← clockLoops (atmSys fun _ => fill100) { cfg with phases := [0, 1, 2] } [0]
      ((exImg 2 1 [[40], [80]]).pad 1, ATM.new [exGroup] [0, 1, 0] 6)
    let y ← clockLoops (atmSys fun _ => fill100) cfg [0]
      ((exImg 2 1 [[40], [80]]).pad 1, ATM.new [exGroup] [0, 1, 0] 6)
    .ok (cfg.phases, decide (x.1.rows = y.1.rows), decide (x.1.rows = [[40], [80], [0]]))) =
    (.ok ([1], true, false) : Except Err _) := by decide +kernel

end Arctic
