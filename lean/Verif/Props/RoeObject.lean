import Verif.Model.RoeObject
import Verif.Props.Work
import Verif.Props.Total

/-!
# C59 — assigning to attributes of readout objects; C60 — sharing and reusing readout objects; C15 — too many phases
-/

set_option linter.unusedSectionVars false
set_option linter.unusedVariables false

namespace Arctic

variable {K : Type} [Field K] [LinearOrder K] [IsStrictOrderedRing K]

/-! ## what a returned image tells about the lookups -/

/-- If the loops return, every lookup they made was in range. -/
theorem clockLoops_lookups {S : Type} {sys : TrapSys K S} {cfg : ClockCfg K} {columns : List ℕ} {st st' : Image K × S}
    (h : clockLoops sys cfg columns st = .ok st') {c : ℕ} (hc : c ∈ columns) {k : ℕ} (hk : k < cfg.expr.nr) {j : ℕ}
    (hj : j ∈ monitoredRows cfg k) {step : ℕ} (hs : step ∈ cfg.steps) {phase : ℕ} (hp : phase ∈ cfg.phases) :
    ∃ ph row dw, (cfg.clockSeq[step]?.bind fun l => l[phase]?) = some ph ∧ cfg.rowWindow[j]? = some row ∧
      cfg.dwell[step]? = some dw := by
  unfold clockLoops at h
  obtain ⟨s1, s2, q1⟩ := foldlM_ok_mem h c hc
  unfold columnBody at q1
  obtain ⟨s3, q2, -⟩ := bind_eq_ok q1
  obtain ⟨s4, s5, q3⟩ := foldlM_ok_mem q2 k (List.mem_range.2 hk)
  unfold expressBody at q3
  obtain ⟨s6, s7, q4⟩ := foldlM_ok_mem q3 _ hj
  unfold rowBody at q4
  obtain ⟨s8, q5, -⟩ := bind_eq_ok q4
  obtain ⟨s9, s10, q6⟩ := foldlM_ok_mem q5 step hs
  unfold stepBody at q6
  obtain ⟨s11, s12, q7⟩ := foldlM_ok_mem q6 phase hp
  unfold phaseBody at q7
  split at q7
  · rename_i ph row0 dw e1 e2 e3
    exact ⟨ph, row0, dw, e1, e2, e3⟩
  · cases q7

/-- In every readout of at least one row some row is monitored in some pass. -/
theorem express_monitors (roe roe' : Roe K) (rows : List ℕ) (e o : ℕ) (tw : Option (List ℕ)) (m : Mat K) (mon : Mat Bool)
    (h : roe.express rows e o tw = .ok (m, mon, roe')) (hrows : rows ≠ []) :
    ∃ k < m.nr, ∃ j < mon.nc, mon.e k j = true := by
  have hnr := express_nr roe rows e o tw m mon roe' h
  have hlen : 0 < rows.length := List.length_pos_iff.2 hrows
  cases roe with
  | standard d ef eb f i =>
    unfold Roe.express at h
    obtain ⟨⟨m1, mon1⟩, h1, h⟩ := bind_eq_ok h
    simp only [Except.ok.injEq, Prod.mk.injEq] at h
    obtain ⟨rfl, rfl, -⟩ := h
    obtain ⟨a, hw, hs, r, hr, e1, e2⟩ := roeExpress_ok h1
    have := (C56_passes ef i rows e o a tw m1 mon1 h1 hw 0 hlen).1
    unfold Mat.timesComputed at this
    obtain ⟨k, hk⟩ := Finset.card_pos.1 this
    rw [Finset.mem_filter, Finset.mem_range] at hk
    exact ⟨k, hnr ▸ hk.1, 0, by rw [e2]; exact hlen, hk.2⟩
  | injection d n eb f i =>
    unfold Roe.express at h
    obtain ⟨⟨⟨m1, mon1⟩, n'⟩, h1, h⟩ := bind_eq_ok h
    simp only [Except.ok.injEq, Prod.mk.injEq] at h
    obtain ⟨rfl, rfl, -⟩ := h
    unfold injectionExpress at h1
    obtain ⟨np, hnp, h1⟩ := bind_eq_ok h1
    simp only at h1
    split at h1
    · cases h1
    rename_i hE
    split at h1
    · cases h1
    obtain ⟨r, hr, h1⟩ := bind_eq_ok h1
    simp only [Except.ok.injEq, Prod.mk.injEq] at h1
    obtain ⟨⟨rfl, rfl⟩, -⟩ := h1
    have hE' := Nat.pos_of_ne_zero hE
    have hn : 0 < n.getD (np + o) := by
      by_contra hc
      have h0 : n.getD (np + o) = 0 := by omega
      rw [h0] at hE
      apply hE
      unfold effectiveExpress
      split <;> omega
    have hpos : 0 < np := by
      unfold nPixelsOfWindow at hnp
      split at hnp
      · injection hnp with hnp; omega
      · cases hnp
    refine ⟨0, by rw [restrict_nr hr]; exact hE', 0, hpos, ?_⟩
    simp only [gt_iff_lt, decide_eq_true_eq]
    exact div_pos (by exact_mod_cast hn) (by exact_mod_cast hE')
  | pumping d n ef i =>
    unfold Roe.express at h
    obtain ⟨⟨m1, mon1⟩, h1, h⟩ := bind_eq_ok h
    simp only [Except.ok.injEq, Prod.mk.injEq] at h
    obtain ⟨rfl, rfl, -⟩ := h
    have htot := C11_total ef i n rows.length e m1 mon1 h1 0 hlen
    unfold pumpingExpress at h1
    obtain ⟨mult, hm, h1⟩ := bind_eq_ok h1
    simp only [Except.ok.injEq, Prod.mk.injEq] at h1
    obtain ⟨rfl, rfl⟩ := h1
    have hn : 0 < n := by
      rcases Nat.eq_zero_or_pos n with rfl | hn
      · unfold pumpMultipliers effectiveExpress at hm
        simp at hm
      · exact hn
    have hsum : (0 : K) < n := by exact_mod_cast hn
    rw [← htot] at hsum
    obtain ⟨k, hk, hpos⟩ := Finset.exists_lt_of_sum_lt (s := Finset.range (mult.length * rows.length)) (f := fun _ => (0 : K))
      (by simpa using hsum)
    exact ⟨k, Finset.mem_range.1 hk, 0, hlen, by simpa using hpos⟩

/-! ## C15 — more CCD phases with traps than the readout has -/

/-- **C15** is *false* if the CCD has traps in a phase that the readout does not have (`len(dwell_times)` phases, half as
many for trap pumping): the clock sequence, a Python list indexed without a bounds check, is read beyond its end. For
every readout class, image, trap list and window; no such call has a defined result. -/
theorem C15_extra_phase_false (img : Image K) (ccd : CcdView K) (roe : Roe K) (groups : List (Group K)) (e o : ℕ)
    (rows columns : List ℕ) (tw : Option (List ℕ)) (hrows : rows ≠ []) (hcol : columns ≠ [])
    (hstep : ∃ s, 0 < roe.dwell.getD s 0) (hphase : ∃ p, roe.nPhases ≤ p ∧ 0 < ccd.fractions.getD p 0)
    (r : Image K × Roe K) : clockCharge img ccd roe groups e o rows columns tw ≠ .ok r := by
  intro h
  obtain ⟨cfg, st, h1, h2, -⟩ := clockCharge_ok (out := r.1) (roe' := r.2) h
  obtain ⟨f1, f2, f3, f4, f5, f6, f7, f8⟩ := clockCfg_fields h1
  obtain ⟨k, hk, j, hj, hmon⟩ := express_monitors roe _ rows e o tw _ _ f1 hrows
  obtain ⟨c, hc⟩ := List.exists_mem_of_ne_nil _ hcol
  have pos : ∀ {l : List K} {i : ℕ}, 0 < l.getD i 0 → i ∈ positiveIndices l := by
    intro l i hi
    rw [mem_positiveIndices]
    refine ⟨?_, hi⟩
    by_contra hge
    rw [List.getD_eq_default _ _ (by omega)] at hi
    exact lt_irrefl _ hi
  obtain ⟨s, hs⟩ := hstep
  obtain ⟨p, hp1, hp2⟩ := hphase
  obtain ⟨ph, -, -, e1, -, -⟩ := clockLoops_lookups h2 hc hk (mem_monitoredRows.2 ⟨hj, hmon⟩) (f5 ▸ pos hs)
    (f6 ▸ pos hp2)
  rw [f3] at e1
  unfold Roe.clockSequence genClockSequence at e1
  rw [List.getElem?_map] at e1
  cases hx : (List.range roe.nSteps)[s]? with
  | none => rw [hx] at e1; cases e1
  | some y =>
    rw [hx] at e1
    simp only [Option.map_some, Option.bind_some] at e1
    rw [List.getElem?_eq_none (by simpa using hp1)] at e1
    cases e1

/-- Three phases of traps read out in one step: an out-of-range access. One phase of traps read out in three steps is
accepted. -/
example : ((clockCharge (exImg 2 1 [[40], [80]]) exCcd3 exRoe [exGroup] 0 0 [0, 1] [0] none).map fun x => x.1.rows) =
      .error .outOfBounds ∧
    ((clockCharge (exImg 2 1 [[40], [80]]) exCcd exRoe3 [exGroup] 0 0 [0, 1] [0] none).map fun x => x.1.nr) = .ok 2 := by
  decide +kernel

/-! ## C59 -/

/-- Each constructor succeeds exactly for the types `int` and `float` (and an even number of steps for pumping); a
number as `dwell_times` is the list of this number. -/
theorem C59_constructors (d : DwellArg K) (ef eb f : Bool) (n : Option ℕ) (np : ℕ) :
    (RoeObj.newStandard d ef eb f .int = .ok (.init (.standard d.toList ef eb f true)) ∧
      RoeObj.newStandard d ef eb f .float = .ok (.init (.standard d.toList ef eb f false)) ∧
      RoeObj.newStandard d ef eb f .other = .error .valueError) ∧
    (RoeObj.newInjection d n eb f .int = .ok (.init (.injection d.toList n eb f true)) ∧
      RoeObj.newInjection d n eb f .float = .ok (.init (.injection d.toList n eb f false)) ∧
      RoeObj.newInjection d n eb f .other = .error .valueError) ∧
    (d.toList.length % 2 = 0 →
      RoeObj.newPumping d np ef .int = .ok (.init (.pumping d.toList np ef true)) ∧
      RoeObj.newPumping d np ef .float = .ok (.init (.pumping d.toList np ef false)) ∧
      RoeObj.newPumping d np ef .other = .error .valueError) ∧
    (d.toList.length % 2 = 1 → ∀ t, RoeObj.newPumping d np ef t = .error .exception) ∧
    ∀ x t, RoeObj.newStandard (.scalar x) ef eb f t = RoeObj.newStandard (K := K) (.list [x]) ef eb f t := by
  refine ⟨⟨rfl, rfl, rfl⟩, ⟨rfl, rfl, rfl⟩, fun h => ?_, fun h t => ?_, fun x t => rfl⟩
  · have h' : ¬ d.toList.length % 2 = 1 := by omega
    unfold RoeObj.newPumping
    simp only [if_neg h']
    exact ⟨rfl, rfl, rfl⟩
  · unfold RoeObj.newPumping
    rw [if_pos h]

/-- The stored sequence depends only on the number of steps and the release direction. -/
theorem init_eq (r r' : Roe K) (h1 : r'.nSteps = r.nSteps) (h2 : r'.nPhases = r.nPhases) (h3 : r'.force = r.force) :
    (⟨r', r'.emptyBetween, r.clockSequence, r.accessed⟩ : RoeObj K) = .init r' := by
  have : r'.clockSequence = r.clockSequence := by unfold Roe.clockSequence; rw [h1, h2, h3]
  unfold RoeObj.init Roe.accessed
  rw [this]

/-- The constructor argument that an assignment changes: `r` with this argument given instead, written out for each class.
Charge injection has no `empty_traps_for_first_transfers`, trap pumping no `empty_traps_between_columns` and no
`force_release_away_from_readout`, and so on; these are left alone. -/
def Roe.constructedWith : Roe K → Assign K → Roe K
  | .standard _ ef eb f i, .dwellTimes d => .standard d.toList ef eb f i
  | .standard d ef eb f _, .dtype t => .standard d ef eb f (t = .int)
  | .standard d _ eb f i, .emptyFirst b => .standard d b eb f i
  | .standard d ef _ f i, .emptyBetween b => .standard d ef b f i
  | .standard d ef eb _ i, .force b => .standard d ef eb b i
  | .standard d ef eb f i, .nPumps _ => .standard d ef eb f i
  | .standard d ef eb f i, .nPixelTransfers _ => .standard d ef eb f i
  | .injection _ n eb f i, .dwellTimes d => .injection d.toList n eb f i
  | .injection d n eb f _, .dtype t => .injection d n eb f (t = .int)
  | .injection d n eb f i, .emptyFirst _ => .injection d n eb f i
  | .injection d n _ f i, .emptyBetween b => .injection d n b f i
  | .injection d n eb _ i, .force b => .injection d n eb b i
  | .injection d n eb f i, .nPumps _ => .injection d n eb f i
  | .injection d _ eb f i, .nPixelTransfers n => .injection d n eb f i
  | .pumping _ n ef i, .dwellTimes d => .pumping d.toList n ef i
  | .pumping d n ef _, .dtype t => .pumping d n ef (t = .int)
  | .pumping d n _ i, .emptyFirst b => .pumping d n b i
  | .pumping d n ef i, .emptyBetween _ => .pumping d n ef i
  | .pumping d n ef i, .force _ => .pumping d n ef i
  | .pumping d _ ef i, .nPumps n => .pumping d n ef i
  | .pumping d n ef i, .nPixelTransfers _ => .pumping d n ef i

theorem constructedWith_set (r : Roe K) (a : Assign K) : r.constructedWith a = (match a with
  | .dwellTimes d => r.setDwell d.toList
  | .dtype t => r.setInt (t = .int)
  | .emptyFirst b => r.setEmptyFirst b
  | .emptyBetween b => r.setEmptyBetween b
  | .force b => r.setForce b
  | .nPumps n => r.setNPumps n
  | .nPixelTransfers n => r.setNPixelTransfers n) := by
  cases r <;> cases a <;> rfl

/-- The assignments after which an object is as if it had been constructed so. -/
def Assign.Sound (r : Roe K) : Assign K → Prop
  | .dwellTimes d => d.toList.length = r.nSteps ∧ r.valid = .ok ()
  | .dtype t => t ≠ .other
  | .emptyBetween b => r.isPumping = false
  | .force b => r.isPumping = true ∨ b = r.force
  | _ => True

/-- **C59**: after assigning one of `empty_traps_for_first_transfers`, `empty_traps_between_columns`,
`express_matrix_dtype`, `n_pumps`, `n_pixel_transfers` or a `dwell_times` with the same number of steps, the object is the
one that the constructor would have made with this value, and no exception is raised. -/
theorem C59_assign (r : Roe K) (a : Assign K) (ha : a.Sound r) :
    (RoeObj.init r).assign a = (RoeObj.init (r.constructedWith a), .ok ()) := by
  rw [constructedWith_set]
  cases a with
  | dwellTimes d =>
    obtain ⟨h1, h2⟩ := ha
    unfold RoeObj.assign
    simp only [Prod.mk.injEq]
    constructor
    · have := init_eq r (r.setDwell d.toList) (by cases r <;> exact h1)
        (by
          cases r with
          | standard d ef eb f i => exact h1
          | injection d n eb f i => exact h1
          | pumping d n ef i => exact congrArg (· / 2) h1)
        (by cases r <;> rfl)
      rw [← this]
      cases r <;> rfl
    · rw [if_neg]
      rintro ⟨h3, h4⟩
      cases r with
      | standard d ef eb f i => cases h3
      | injection d n eb f i => cases h3
      | pumping d n ef i =>
        unfold Roe.valid at h2
        have : d.length % 2 = 1 := by rw [h1] at h4; exact h4
        simp only [if_pos this] at h2
        cases h2
  | dtype t =>
    have := init_eq r (r.setInt (t = .int)) (by cases r <;> rfl) (by cases r <;> rfl) (by cases r <;> rfl)
    unfold RoeObj.assign
    rw [← this]
    cases t with
    | other => exact absurd rfl ha
    | int => cases r <;> rfl
    | float => cases r <;> rfl
  | emptyFirst b =>
    have := init_eq r (r.setEmptyFirst b) (by cases r <;> rfl) (by cases r <;> rfl) (by cases r <;> rfl)
    unfold RoeObj.assign
    rw [← this]
    cases r <;> rfl
  | emptyBetween b =>
    have := init_eq r (r.setEmptyBetween b) (by cases r <;> rfl) (by cases r <;> rfl) (by cases r <;> rfl)
    unfold RoeObj.assign
    rw [← this]
    cases r with
    | standard d ef eb f i => rfl
    | injection d n eb f i => rfl
    | pumping d n ef i => cases ha
  | force b =>
    have := init_eq r (r.setForce b) (by cases r <;> rfl) (by cases r <;> rfl)
      (by cases r <;> rcases ha with ha | ha <;> first | rfl | exact ha | cases ha)
    unfold RoeObj.assign
    rw [← this]
    cases r <;> rfl
  | nPumps n =>
    have := init_eq r (r.setNPumps n) (by cases r <;> rfl) (by cases r <;> rfl) (by cases r <;> rfl)
    unfold RoeObj.assign
    rw [← this]
    cases r <;> rfl
  | nPixelTransfers n =>
    have := init_eq r (r.setNPixelTransfers n) (by cases r <;> rfl) (by cases r <;> rfl) (by cases r <;> rfl)
    unfold RoeObj.assign
    rw [← this]
    cases r <;> rfl

/-- A type other than `int` or `float` is refused and leaves the object as it was. -/
theorem C59_dtype_refused (o : RoeObj K) : o.assign (.dtype .other) = (o, .error .valueError) := rfl

theorem express_attrs (r r' : Roe K) (rows : List ℕ) (e o : ℕ) (tw : Option (List ℕ)) (m : Mat K) (mon : Mat Bool)
    (h : r.express rows e o tw = .ok (m, mon, r')) :
    r'.nSteps = r.nSteps ∧ r'.nPhases = r.nPhases ∧ r'.force = r.force ∧ r'.emptyBetween = r.emptyBetween ∧
      (r' = r ∨ ∃ d eb f i n, r = .injection d none eb f i ∧ r' = .injection d (some n) eb f i) := by
  cases r with
  | standard d ef eb f i =>
    unfold Roe.express at h
    obtain ⟨⟨m1, mon1⟩, h1, h⟩ := bind_eq_ok h
    simp only [Except.ok.injEq, Prod.mk.injEq] at h
    obtain ⟨-, -, rfl⟩ := h
    exact ⟨rfl, rfl, rfl, rfl, Or.inl rfl⟩
  | injection d n eb f i =>
    unfold Roe.express at h
    obtain ⟨⟨⟨m1, mon1⟩, n'⟩, h1, h⟩ := bind_eq_ok h
    simp only [Except.ok.injEq, Prod.mk.injEq] at h
    obtain ⟨-, -, rfl⟩ := h
    refine ⟨rfl, rfl, rfl, rfl, ?_⟩
    cases n with
    | none => exact Or.inr ⟨d, eb, f, i, n', rfl, rfl⟩
    | some n =>
      left
      unfold injectionExpress at h1
      obtain ⟨np, hnp, h1⟩ := bind_eq_ok h1
      simp only at h1
      split at h1
      · cases h1
      split at h1
      · cases h1
      obtain ⟨q, hq, h1⟩ := bind_eq_ok h1
      simp only [Except.ok.injEq, Prod.mk.injEq] at h1
      obtain ⟨-, rfl⟩ := h1
      rfl
  | pumping d n ef i =>
    unfold Roe.express at h
    obtain ⟨⟨m1, mon1⟩, h1, h⟩ := bind_eq_ok h
    simp only [Except.ok.injEq, Prod.mk.injEq] at h
    obtain ⟨-, -, rfl⟩ := h
    exact ⟨rfl, rfl, rfl, rfl, Or.inl rfl⟩

/-- A newly constructed object clocks as `clockCharge` says, and is again as if newly constructed. -/
theorem clockChargeObj_init (img : Image K) (ccd : CcdView K) (r : Roe K) (groups : List (Group K)) (e o : ℕ)
    (rows columns : List ℕ) (tw : Option (List ℕ)) :
    clockChargeObj img ccd (.init r) groups e o rows columns tw =
      (clockCharge img ccd r groups e o rows columns tw).map fun x => (x.1, .init x.2) := by
  unfold clockChargeObj clockCharge clockCfgObj clockCfg RoeObj.init
  simp only [bind, Except.bind]
  cases h : r.express rows e o tw with
  | error er => rfl
  | ok x =>
    obtain ⟨m, mon, r'⟩ := x
    obtain ⟨a1, a2, a3, a4, -⟩ := express_attrs r r' rows e o tw m mon h
    simp only
    cases hs : r.save m with
    | error er => rfl
    | ok sv =>
      simp only
      generalize clockLoops (atmSys ccd.fill) _ columns _ = y
      cases y with
      | error er => rfl
      | ok y =>
        simp only [Except.map]
        rw [← a4]
        have := init_eq r r' a1 a2 a3
        unfold RoeObj.init at this
        rw [this]

/-- **C59** is *false* for `force_release_away_from_readout`: assigning it after construction changes nothing. The call
returns the same image, or fails in the same way, as if it had not been assigned. -/
theorem C59_force_ignored (img : Image K) (ccd : CcdView K) (obj : RoeObj K) (b : Bool) (groups : List (Group K)) (e o : ℕ)
    (rows columns : List ℕ) (tw : Option (List ℕ)) :
    (clockChargeObj img ccd (obj.assign (.force b)).1 groups e o rows columns tw).map Prod.fst =
      (clockChargeObj img ccd obj groups e o rows columns tw).map Prod.fst := by
  obtain ⟨r, eb, seq, acc⟩ := obj
  have h1 : (r.setForce b).express rows e o tw =
      (r.express rows e o tw).map fun x => (x.1, x.2.1, x.2.2.setForce b) := by
    cases r with
    | standard d ef eb f i =>
      unfold Roe.express Roe.setForce
      simp only [bind, Except.bind]
      cases roeExpress (K := K) ef i rows e o tw <;> rfl
    | injection d n eb f i =>
      unfold Roe.express Roe.setForce
      simp only [bind, Except.bind]
      cases injectionExpress (K := K) i n rows e o tw <;> rfl
    | pumping d n ef i =>
      unfold Roe.express Roe.setForce
      simp only [bind, Except.bind]
      cases pumpingExpress (K := K) ef i n rows.length e <;> rfl
  have h2 : ∀ m, (r.setForce b).save m = r.save m := by cases r <;> intro m <;> rfl
  have h3 : (r.setForce b).dwell = r.dwell := by cases r <;> rfl
  have h4 : (r.setForce b).isPumping = r.isPumping := by cases r <;> rfl
  unfold clockChargeObj clockCfgObj RoeObj.assign
  simp only [bind, Except.bind, h1, h2, h3, maxNTransfers, h4]
  cases r.express rows e o tw with
  | error er => rfl
  | ok x =>
    simp only [Except.map]
    cases r.save x.1 with
    | error er => rfl
    | ok sv =>
      simp only
      generalize clockLoops (atmSys ccd.fill) _ columns _ = y
      cases y <;> rfl

/-- **C59** is *false* for a longer `dwell_times`: the stored clock sequence has no entry for the new steps. If one of
them has a positive dwell time, no call has a defined result. -/
theorem C59_longer_false (img : Image K) (ccd : CcdView K) (r : Roe K) (d : DwellArg K) (groups : List (Group K)) (e o : ℕ)
    (rows columns : List ℕ) (tw : Option (List ℕ)) (hrows : rows ≠ []) (hcol : columns ≠ [])
    (hstep : ∃ s, r.nSteps ≤ s ∧ 0 < d.toList.getD s 0) (hphase : ∃ p, 0 < ccd.fractions.getD p 0)
    (x : Image K × RoeObj K) :
    clockChargeObj img ccd ((RoeObj.init r).assign (.dwellTimes d)).1 groups e o rows columns tw ≠ .ok x := by
  intro h
  unfold clockChargeObj at h
  obtain ⟨⟨cfg, o'⟩, h1, h⟩ := bind_eq_ok h
  simp only at h
  obtain ⟨st, h2, -⟩ := bind_eq_ok h
  unfold clockCfgObj at h1
  obtain ⟨⟨m, mon, r'⟩, f1, h1⟩ := bind_eq_ok h1
  simp only at h1
  obtain ⟨sv, f2, h1⟩ := bind_eq_ok h1
  simp only [Except.ok.injEq, Prod.mk.injEq] at h1
  obtain ⟨rfl, -⟩ := h1
  obtain ⟨k, hk, j, hj, hmon⟩ := express_monitors _ _ rows e o tw _ _ f1 hrows
  obtain ⟨c, hc⟩ := List.exists_mem_of_ne_nil _ hcol
  have pos : ∀ {l : List K} {i : ℕ}, 0 < l.getD i 0 → i ∈ positiveIndices l := by
    intro l i hi
    rw [mem_positiveIndices]
    refine ⟨?_, hi⟩
    by_contra hge
    rw [List.getD_eq_default _ _ (by omega)] at hi
    exact lt_irrefl _ hi
  obtain ⟨s, hs1, hs2⟩ := hstep
  obtain ⟨p, hp⟩ := hphase
  obtain ⟨ph, -, -, e1, -, -⟩ := clockLoops_lookups h2 hc hk (j := j) (mem_monitoredRows.2 ⟨hj, hmon⟩) (step := s)
    (pos (by
      have : ((RoeObj.init r).assign (.dwellTimes d)).1.attrs.dwell = d.toList := by cases r <;> rfl
      rw [this]; exact hs2)) (pos hp)
  have : ((RoeObj.init r).assign (.dwellTimes d)).1.clockSeq = r.clockSequence := rfl
  simp only [this] at e1
  unfold Roe.clockSequence genClockSequence at e1
  rw [List.getElem?_eq_none (by simpa using hs1)] at e1
  cases e1

/-- From one to two steps: an out-of-range access, where a new object with two steps returns. -/
example : ((clockChargeObj (exImg 2 1 [[40], [80]]) exCcd ((RoeObj.init exRoe).assign (.dwellTimes (.list [1, 1]))).1
      [exGroup] 0 0 [0, 1] [0] none).map fun x => x.1.rows) = .error .outOfBounds ∧
    ((clockChargeObj (exImg 2 1 [[40], [80]]) exCcd (RoeObj.init (exRoe.setDwell [1, 1])) [exGroup] 0 0 [0, 1] [0]
      none).map fun x => x.1.nr) = .ok 2 := by decide +kernel

/-- **C59**, a shorter `dwell_times` is *silently* read with the first steps of the old clock sequence: no exception, but
not the image of an object constructed with these dwell times. -/
theorem C59_shorter_false :
    let obj := (RoeObj.init exRoe3).assign (.dwellTimes (.list [1, 1]))
    obj.2 = .ok () ∧
    ((clockChargeObj (exImg 2 1 [[40], [80]]) exCcd obj.1 [exGroup] 0 0 [0, 1] [0] none).map fun x => x.1.rows) =
      .ok [[379 / 10], [236025661 / 3200000]] ∧
    ((clockChargeObj (exImg 2 1 [[40], [80]]) exCcd (.init (exRoe3.setDwell [1, 1])) [exGroup] 0 0 [0, 1] [0] none).map
      fun x => x.1.rows) = .ok [[739 / 20], [22701341 / 320000]] := by decide +kernel

/-- **C59**, an odd number of steps for trap pumping raises, but is stored all the same and used by the next call. -/
theorem C59_odd_kept (obj : RoeObj K) (d : DwellArg K) (hp : obj.attrs.isPumping = true) (hd : d.toList.length % 2 = 1) :
    (obj.assign (.dwellTimes d)).2 = .error .exception ∧ (obj.assign (.dwellTimes d)).1.attrs.dwell = d.toList := by
  obtain ⟨r, eb, seq, acc⟩ := obj
  cases r with
  | standard d ef eb f i => cases hp
  | injection d n eb f i => cases hp
  | pumping d' n ef i => exact ⟨if_pos ⟨rfl, hd⟩, rfl⟩

/-- Two phases with half of the traps each. -/
def exCcd2 : CcdView ℚ := ⟨[1 / 2, 1 / 2], fun _ => fill100⟩

/-- Pumping with four steps; then three steps are refused, and the next call returns another image. -/
example :
    let obj : RoeObj ℚ := .init (.pumping [1, 1, 1, 1] 1 true false)
    let obj' := obj.assign (.dwellTimes (.list [1, 1, 1]))
    obj'.2 = .error .exception ∧
    ((clockChargeObj (exImg 3 1 [[40], [80], [50]]) exCcd2 obj [exGroup] 0 0 [1] [0] none).map fun x => x.1.rows) =
      .ok [[40], [18675809 / 256000], [6621721 / 128000]] ∧
    ((clockChargeObj (exImg 3 1 [[40], [80], [50]]) exCcd2 obj'.1 [exGroup] 0 0 [1] [0] none).map fun x => x.1.rows) =
      .ok [[40], [9480241 / 128000], [6529681 / 128000]] := by decide +kernel

/-- The release direction matters when it is given to the constructor. -/
example :
    ((clockChargeObj (exImg 3 1 [[0], [80], [0]]) ⟨[0, 0, 1], fun _ => fill100⟩ (.init (.standard [1, 1, 1] false true true false))
      [exGroup] 1 0 [1, 2] [0] none).map fun x => x.1.rows) = .ok [[0], [64], [375459 / 32000]] ∧
    ((clockChargeObj (exImg 3 1 [[0], [80], [0]]) ⟨[0, 0, 1], fun _ => fill100⟩ (.init (.standard [1, 1, 1] false true false false))
      [exGroup] 1 0 [1, 2] [0] none).map fun x => x.1.rows) = .ok [[0], [377 / 5], [49533 / 6400]] := by decide +kernel

/-- Assignments to which `C59_assign` applies, one after the other. -/
example : (RoeObj.init (.standard [1, 2, 3] true true true false : Roe ℚ)).assign (.dwellTimes (.list [4, 5, 6])) =
      (.init (.standard [4, 5, 6] true true true false), .ok ()) ∧
    (RoeObj.init (.standard [4, 5, 6] true true true false : Roe ℚ)).assign (.dtype .int) =
      (.init (.standard [4, 5, 6] true true true true), .ok ()) :=
  ⟨C59_assign _ _ ⟨rfl, rfl⟩, C59_assign _ _ (by intro h; cases h)⟩

/-! ## C60 -/

/-- The direction with the readout that a reference refers to. -/
def RefDirection.deref (d : RefDirection K) (r : Roe K) : Direction K := ⟨d.ccd, r, d.groups, d.express, d.offset⟩

/-- **C60**, two different objects: `add_cti` does what `addCti` says for their values. -/
theorem C60_separate (img : Image K) (heap : Heap K) (dp ds : RefDirection K) (rp rs : Roe K) (o : ℕ) (pw sw : Window)
    (tw : Option (List ℕ)) (hp : heap dp.roe = .init rp) (hs : heap ds.roe = .init rs) (hne : dp.roe ≠ ds.roe) :
    (addCtiHeap img heap (some dp) o pw (some ds) sw tw).map Prod.fst =
      (addCti img (some (dp.deref rp)) o pw (some (ds.deref rs)) sw tw).map Prod.fst := by
  unfold addCtiHeap addCti RefDirection.deref
  simp only [bind, Except.bind, hp]
  rw [clockChargeObj_init]
  rcases tw with - | t
  on_goal 2 => rcases hsc : serialColumns (pw.resolve img.nr) t o with er | cols
  on_goal 2 => simp only [hsc]; rfl
  on_goal 2 => simp only [hsc]
  on_goal 1 => simp only
  all_goals
    generalize clockCharge img dp.ccd rp dp.groups dp.express o (pw.resolve img.nr) (sw.resolve img.nc) _ = x
    rcases x with er | x
    · rfl
    · simp only [Except.map]
      rw [Function.update_of_ne hne.symm, hs, clockChargeObj_init]
      generalize clockCharge x.1.transpose ds.ccd rs ds.groups ds.express ds.offset (sw.resolve img.nc) _ none = y
      cases y <;> rfl

/-- Does a readout store nothing when it is used? Charge injection without `n_pixel_transfers` stores the number of
transfers of the first image. -/
def Roe.Settled : Roe K → Prop
  | .injection _ none _ _ _ => False
  | _ => True

/-- **C60**, one object given for both directions: the same image as with two objects, or the same exception, if the
object is standard readout, trap pumping, or charge injection with a given `n_pixel_transfers`. -/
theorem C60_shared (img : Image K) (heap heap' : Heap K) (dp ds : RefDirection K) (r : Roe K) (q : ℕ) (o : ℕ)
    (pw sw : Window) (tw : Option (List ℕ)) (hr : r.Settled) (hshare : ds.roe = dp.roe) (hp : heap dp.roe = .init r)
    (hq : q ≠ dp.roe) (hp' : heap' dp.roe = .init r) (hq' : heap' q = .init r) :
    (addCtiHeap img heap (some dp) o pw (some ds) sw tw).map Prod.fst =
      (addCtiHeap img heap' (some dp) o pw (some { ds with roe := q }) sw tw).map Prod.fst := by
  rw [C60_separate img heap' dp { ds with roe := q } r r o pw sw tw hp' hq' (Ne.symm hq)]
  unfold addCtiHeap addCti RefDirection.deref
  simp only [bind, Except.bind, hp]
  rw [clockChargeObj_init]
  rcases tw with - | t
  on_goal 2 => rcases hsc : serialColumns (pw.resolve img.nr) t o with er | cols
  on_goal 2 => simp only [hsc]; rfl
  on_goal 2 => simp only [hsc]
  on_goal 1 => simp only
  all_goals
    generalize hc : clockCharge img dp.ccd r dp.groups dp.express o (pw.resolve img.nr) (sw.resolve img.nc) _ = x
    rcases x with er | x
    · rfl
    · obtain ⟨out, r'⟩ := x
      obtain ⟨cfg, st, h1, h2, -⟩ := clockCharge_ok hc
      obtain ⟨f1, -⟩ := clockCfg_fields h1
      have hr' : r' = r := by
        rcases (express_attrs r r' _ _ _ _ _ _ f1).2.2.2.2 with h | ⟨d, eb, f, i, n, rfl, -⟩
        · exact h
        · exact hr.elim
      subst hr'
      simp only [Except.map]
      rw [hshare, Function.update_self, clockChargeObj_init]
      generalize clockCharge out.transpose ds.ccd r' ds.groups ds.express ds.offset (sw.resolve img.nc) _ none = y
      cases y <;> rfl

/-- **C60** is *false* for charge injection without `n_pixel_transfers`: the number of rows is stored when the parallel
direction is clocked and used for the serial direction. One row, two columns. -/
theorem C60_injection_false :
    let heap : Heap ℚ := fun _ => .init (.injection [1] none true true false)
    ((addCtiHeap (exImg 1 2 [[40, 80]]) heap (some ⟨exCcd, 0, [exGroup], 0, 0⟩) 0 .all (some ⟨exCcd, 0, [exGroup], 0, 0⟩)
      .all none).map fun x => x.1.rows) = .ok [[162 / 5, 3411 / 50]] ∧
    ((addCtiHeap (exImg 1 2 [[40, 80]]) heap (some ⟨exCcd, 0, [exGroup], 0, 0⟩) 0 .all (some ⟨exCcd, 1, [exGroup], 0, 0⟩)
      .all none).map fun x => x.1.rows) = .ok [[729 / 25, 16119 / 250]] := by decide +kernel

theorem clockChargeObj_settled {img out : Image K} {ccd : CcdView K} {obj obj' : RoeObj K} {groups : List (Group K)}
    {e o : ℕ} {rows columns : List ℕ} {tw : Option (List ℕ)} (hr : obj.attrs.Settled)
    (h : clockChargeObj img ccd obj groups e o rows columns tw = .ok (out, obj')) : obj' = obj := by
  unfold clockChargeObj at h
  obtain ⟨⟨cfg, o'⟩, h1, h⟩ := bind_eq_ok h
  simp only at h
  obtain ⟨st, h2, h⟩ := bind_eq_ok h
  simp only [Except.ok.injEq, Prod.mk.injEq] at h
  obtain ⟨-, rfl⟩ := h
  unfold clockCfgObj at h1
  obtain ⟨⟨m, mon, r'⟩, f1, h1⟩ := bind_eq_ok h1
  simp only at h1
  obtain ⟨sv, f2, h1⟩ := bind_eq_ok h1
  simp only [Except.ok.injEq, Prod.mk.injEq] at h1
  obtain ⟨-, rfl⟩ := h1
  rcases (express_attrs _ r' _ _ _ _ _ _ f1).2.2.2.2 with h | ⟨d, eb, f, i, n, e1, -⟩
  · rw [h]
  · rw [e1] at hr; exact hr.elim

/-- A call of `add_cti`. -/
structure Call (K : Type) where
  img : Image K
  par : Option (RefDirection K)
  offset : ℕ
  parWindow : Window
  ser : Option (RefDirection K)
  serWindow : Window
  timeWindow : Option (List ℕ)

/-- Do the call. -/
def Call.run (heap : Heap K) (c : Call K) : Except Err (Image K × Heap K) :=
  addCtiHeap c.img heap c.par c.offset c.parWindow c.ser c.serWindow c.timeWindow

/-- **C60**: a call that returns leaves every readout object as it was, unless it is charge injection without
`n_pixel_transfers`. -/
theorem C60_unchanged (heap heap' : Heap K) (c : Call K) (out : Image K) (hset : ∀ r, (heap r).attrs.Settled)
    (h : c.run heap = .ok (out, heap')) : heap' = heap := by
  obtain ⟨img, par, o, pw, ser, sw, tw⟩ := c
  unfold Call.run addCtiHeap at h
  simp only [bind, Except.bind] at h
  -- the serial direction
  have hser : ∀ (img1 : Image K) (d : RefDirection K) (cols sc : List ℕ) (y : Image K × RoeObj K),
      clockChargeObj img1 d.ccd (heap d.roe) d.groups d.express d.offset cols sc none = .ok y →
      Function.update heap d.roe y.2 = heap := fun img1 d cols sc y hy => by
    rw [clockChargeObj_settled (hset _) hy, Function.update_eq_self]
  rcases tw with - | t
  on_goal 2 => rcases hsc : serialColumns (pw.resolve img.nr) t o with er | cols
  on_goal 2 => simp only [hsc] at h; cases h
  on_goal 2 => simp only [hsc] at h
  on_goal 1 => simp only at h
  all_goals
    rcases par with - | dp
    · rcases ser with - | ds
      · simp only [Except.ok.injEq, Prod.mk.injEq] at h
        exact h.2.symm
      · simp only at h
        split at h
        · cases h
        · rename_i y hy
          simp only [Except.ok.injEq, Prod.mk.injEq] at h
          rw [← h.2]
          exact hser _ _ _ _ y hy
    · simp only at h
      split at h
      · cases h
      · rename_i x hx
        rw [clockChargeObj_settled (hset _) hx, Function.update_eq_self] at h
        rcases ser with - | ds
        · simp only [Except.ok.injEq, Prod.mk.injEq] at h
          exact h.2.symm
        · simp only at h
          split at h
          · cases h
          · rename_i y hy
            simp only [Except.ok.injEq, Prod.mk.injEq] at h
            rw [← h.2]
            exact hser _ _ _ _ y hy

/-- **C60**: the result of a call does not depend on the calls made before, however many and with whatever images, CCDs
and traps they were made. -/
theorem C60_history (heap heap' : Heap K) (calls : List (Call K)) (hset : ∀ r, (heap r).attrs.Settled)
    (h : calls.foldlM (fun hp (c : Call K) => (c.run hp).map Prod.snd) heap = .ok heap') (c : Call K) : c.run heap' = c.run heap := by
  have key : heap' = heap := by
    refine foldlM_inv (fun hp => hp = heap) _ calls ?_ heap heap' rfl h
    rintro c - s s' rfl hc
    cases hr : c.run s with
    | error er => rw [hr] at hc; cases hc
    | ok x =>
      rw [hr] at hc
      simp only [Except.map, Except.ok.injEq] at hc
      rw [← hc]
      exact C60_unchanged _ x.2 c x.1 hset hr
  rw [key]

/-- A standard readout object used twice. -/
example :
    let heap : Heap ℚ := fun _ => .init exRoe
    let c1 : Call ℚ := ⟨exImg 2 1 [[40], [80]], some ⟨exCcd, 0, [exGroup], 0, 0⟩, 0, .all, none, .all, none⟩
    ([c1, c1].foldlM (fun hp (c : Call ℚ) => (c.run hp).map Prod.snd) heap).toBool = true ∧ ∀ r, (heap r).attrs.Settled :=
  ⟨by decide +kernel, fun _ => trivial⟩

end Arctic
