import Verif.Lemmas.FullReadout
import Verif.Props.ClockMore

/-!
# Configurations for which every access is in range, and the number of transfers seen by the traps
-/

set_option linter.unusedSectionVars false
set_option linter.unusedVariables false

namespace Arctic

variable {K : Type} [Field K] [LinearOrder K] [IsStrictOrderedRing K]

/-- What the configuration has to fulfil so that every access is in range. -/
structure RunCfg (cfg : ClockCfg K) (fill : ℕ → K → K) (D R : ℕ) : Prop where
  look : ∀ step ∈ cfg.steps, ∀ phase ∈ cfg.phases, ∃ ph dw, (cfg.clockSeq[step]?.bind fun l => l[phase]?) = some ph ∧
    cfg.dwell[step]? = some dw ∧ 0 < dw
  rows : ∀ k < cfg.expr.nr, ∀ j ∈ monitoredRows cfg k, ∃ w, cfg.rowWindow[j]? = some w
  range : ∀ (step phase : ℕ) (ph : Phase K), (cfg.clockSeq[step]?.bind fun l => l[phase]?) = some ph →
    ∀ w ∈ cfg.rowWindow, (0 ≤ (w : ℤ) + ph.captureFrom ∧ (w : ℤ) + ph.captureFrom < R) ∧
      ∀ x ∈ ph.release, 0 ≤ (w : ℤ) + x.1 ∧ (w : ℤ) + x.1 < R
  phases : ∀ ph ∈ cfg.phases, ph < D
  nodup : cfg.phases.Nodup
  fillModel : ∀ ph ∈ cfg.phases, FillModel (fill ph)

/-- The rows of the readout are found in the window: charge injection needs the window to start at row 0. -/
def RowsFound (rows : List ℕ) : Roe K → Prop
  | .standard .. => True
  | .injection .. => ∀ x ∈ rows, x < rows.length
  | .pumping .. => True

theorem restrictTimeSpan_shape {m r : Mat K} {tw : Option (List ℕ)} (h : restrictTimeSpan m tw = .ok r) :
    r.nr = m.nr ∧ r.nc = m.nc := by
  cases tw with
  | none => simp only [restrictTimeSpan] at h; injection h with h; subst h; exact ⟨rfl, rfl⟩
  | some t =>
    simp only [restrictTimeSpan] at h
    split at h
    · injection h with h; subst h; exact ⟨rfl, rfl⟩
    · cases h

/-- The matrices of charge injection. -/
theorem injectionExpress_ok {i : Bool} {n : Option ℕ} {rows : List ℕ} {e o n' : ℕ} {tw : Option (List ℕ)} {m : Mat K}
    {mon : Mat Bool} (h : injectionExpress i n rows e o tw = .ok ((m, mon), n')) :
    ∃ a, rows.max? = some a ∧ m.nc = a + 1 ∧ mon.nc = a + 1 := by
  unfold injectionExpress nPixelsOfWindow at h
  cases hw : rows.max? with
  | none => rw [hw] at h; cases h
  | some a =>
    rw [hw] at h
    simp only [bind, Except.bind] at h
    split at h
    · cases h
    · split at h
      · cases h
      · split at h
        · cases h
        · rename_i r hr
          injection h with h
          injection h with h1 _
          injection h1 with h1 h2
          subst h1 h2
          exact ⟨a, rfl, (restrictTimeSpan_shape hr).2, rfl⟩

theorem clockCfg_monitor {roe roe' : Roe K} {ccd : CcdView K} {e o : ℕ} {rows : List ℕ} {tw : Option (List ℕ)}
    {cfg : ClockCfg K} (h : clockCfg roe ccd e o rows tw = .ok (cfg, roe')) (hr : RowsFound rows roe) :
    cfg.monitor.nc ≤ rows.length := by
  obtain ⟨f1, -⟩ := clockCfg_fields h
  cases roe with
  | standard dw ef eb f i =>
    simp only [Roe.express] at f1
    obtain ⟨⟨m, mon⟩, g1, g2⟩ := bind_eq_ok f1
    injection g2 with g2
    injection g2 with g3 g4
    injection g4 with g4 _
    obtain ⟨a, -, -, r, -, -, q⟩ := roeExpress_ok g1
    rw [← g4, q]
  | injection dw n eb f i =>
    simp only [Roe.express] at f1
    obtain ⟨⟨⟨m, mon⟩, n'⟩, g1, g2⟩ := bind_eq_ok f1
    injection g2 with g2
    injection g2 with g3 g4
    injection g4 with g4 _
    obtain ⟨a, q1, q2, q3⟩ := injectionExpress_ok g1
    rw [← g4, q3]
    have := hr a (List.max?_eq_some_iff.1 q1).1
    omega
  | pumping dw n ef i =>
    simp only [Roe.express] at f1
    obtain ⟨⟨m, mon⟩, g1, g2⟩ := bind_eq_ok f1
    injection g2 with g2
    injection g2 with g3 g4
    injection g4 with g4 _
    unfold pumpingExpress at g1
    obtain ⟨l, g5, g6⟩ := bind_eq_ok g1
    simp only at g6
    injection g6 with g6
    injection g6 with g7 g8
    rw [← g4, ← g8]

theorem runCfg_of {roe roe' : Roe K} {ccd : CcdView K} {e o : ℕ} {rows : List ℕ} {tw : Option (List ℕ)}
    {cfg : ClockCfg K} (h : clockCfg roe ccd e o rows tw = .ok (cfg, roe'))
    (hfill : ∀ ph < ccd.fractions.length, FillModel (ccd.fill ph)) (hlen : ccd.fractions.length ≤ roe.nPhases)
    (hr : RowsFound rows roe) (R : ℕ) (hrows : ∀ w ∈ rows, w < R)
    (hlow : ∀ w ∈ rows, ∀ z ∈ roe.accessed, 0 ≤ (w : ℤ) + z) :
    RunCfg cfg ccd.fill ccd.fractions.length (R + nPadding roe.accessed) := by
  obtain ⟨-, -, f3, f4, f5, f6, f7, -⟩ := clockCfg_fields h
  have hph : ∀ ph ∈ cfg.phases, ph < ccd.fractions.length := by
    intro ph hph
    rw [f6] at hph
    exact (mem_positiveIndices.1 hph).1
  refine ⟨?_, ?_, ?_, hph, ?_, fun ph hp => hfill ph (hph ph hp)⟩
  · intro step hs phase hp
    rw [f5] at hs
    obtain ⟨s1, s2⟩ := mem_positiveIndices.1 hs
    obtain ⟨ph, q⟩ := clockSequence_look roe (step := step) s1 ((hph phase hp).trans_le hlen)
    refine ⟨ph, roe.dwell[step], by rw [f3]; exact q, by rw [f4]; exact List.getElem?_eq_getElem s1, ?_⟩
    rwa [List.getD_eq_getElem _ _ s1] at s2
  · intro k hk j hj
    have := (monitoredRows_lt hj).trans_le (clockCfg_monitor h hr)
    rw [f7]
    exact ⟨rows[j], List.getElem?_eq_getElem this⟩
  · intro step phase ph hp w hw
    rw [f3] at hp
    rw [f7] at hw
    obtain ⟨a1, a2⟩ := mem_accessed roe hp
    have hb : ∀ z ∈ roe.accessed, 0 ≤ (w : ℤ) + z ∧ (w : ℤ) + z < ((R + nPadding roe.accessed : ℕ) : ℤ) := by
      intro z hz
      refine ⟨hlow w hw z hz, ?_⟩
      have := accessed_le_padding _ (zero_mem_accessed roe) z hz
      have := hrows w hw
      push_cast; omega
    exact ⟨hb _ a1, fun x hx => hb _ (a2 x hx)⟩
  · rw [f6]; exact positiveIndices_nodup _

/-- Without saved states, with pumping, or with full readout the traps see no more transfers than allowed for. -/
theorem schedule_of {roe roe' : Roe K} {ccd : CcdView K} {e o : ℕ} {rows : List ℕ} {tw : Option (List ℕ)}
    {cfg : ClockCfg K} (h : clockCfg roe ccd e o rows tw = .ok (cfg, roe'))
    (hk : NoSaves roe ∨ roe.isPumping = true ∨ (e = 0 ∧ FullReadout o rows tw roe)) :
    ∃ N pos, Schedule cfg N pos ∧ maxNTransfers roe cfg = N * cfg.steps.length := by
  by_cases hfull : e = 0 ∧ FullReadout o rows tw roe
  · obtain ⟨rfl, hfull⟩ := hfull
    obtain ⟨N, pos, h1, h2, -⟩ := fullReadout_cfg hfull h
    exact ⟨N, pos, h1, h2⟩
  have hk : NoSaves roe ∨ roe.isPumping = true := by tauto
  obtain ⟨f1, f2, -⟩ := clockCfg_fields h
  cases roe with
  | standard dw ef eb f i =>
    have hef : ef = true := by
      rcases hk with hk | hk
      · exact hk
      · cases hk
    subst hef
    simp only [Roe.express] at f1
    obtain ⟨⟨m, mon⟩, g1, g2⟩ := bind_eq_ok f1
    injection g2 with g2
    injection g2 with g3 g4
    injection g4 with g4 _
    obtain ⟨a, -, -, r, -, q0, q⟩ := roeExpress_ok g1
    refine ⟨cfg.monitor.nc, fun _ j => j, ⟨?_, ?_, ?_⟩, ?_⟩
    · intro k _ j hj; exact monitoredRows_lt hj
    · intro k _ j _ j' _ hjj; exact hjj
    · intro k hk j hj hs
      simp only [Roe.save] at f2
      unfold roeSave at f2
      rw [if_pos rfl] at f2
      injection f2 with f2
      rw [← f2] at hs
      cases hs
    · change cfg.expr.nc * _ = _
      rw [← g3, ← g4, q0, q]
  | injection dw n eb f i =>
    simp only [Roe.express] at f1
    obtain ⟨⟨⟨m, mon⟩, n'⟩, g1, g2⟩ := bind_eq_ok f1
    injection g2 with g2
    injection g2 with g3 g4
    injection g4 with g4 _
    obtain ⟨a, q1, q2, q3⟩ := injectionExpress_ok g1
    refine ⟨cfg.monitor.nc, fun _ j => j, ⟨?_, ?_, ?_⟩, ?_⟩
    · intro k _ j hj; exact monitoredRows_lt hj
    · intro k _ j _ j' _ hjj; exact hjj
    · intro k hk j hj hs
      simp only [Roe.save] at f2
      injection f2 with f2
      rw [← f2] at hs
      cases hs
    · change cfg.expr.nc * _ = _
      rw [← g3, ← g4, q2, q3]
  | pumping dw n ef i =>
    simp only [Roe.express] at f1
    obtain ⟨⟨m, mon⟩, g1, g2⟩ := bind_eq_ok f1
    injection g2 with g2
    injection g2 with g3 g4
    injection g4 with g4 _
    unfold pumpingExpress at g1
    obtain ⟨l, g5, g6⟩ := bind_eq_ok g1
    simp only at g6
    injection g6 with g6
    injection g6 with g7 g8
    have hmon : ∀ k j, j ∈ monitoredRows cfg k → k / l.length = j := by
      intro k j hj
      obtain ⟨q1, q2⟩ := mem_monitoredRows.1 hj
      rw [← g4, ← g8] at q2
      simp only [decide_eq_true_eq] at q2
      by_contra hc
      rw [if_neg (fun h => hc h.1)] at q2
      exact absurd q2 (lt_irrefl _)
    refine ⟨cfg.expr.nr, fun k _ => k, ⟨?_, ?_, ?_⟩, rfl⟩
    · intro k hk j _; exact hk
    · intro k _ j hj j' hj' hjj
      have h1 := hmon k j hj
      have h2 := hmon k j' hj'
      omega
    · intro k hk j hj _ k' _ hkk j' _; exact hkk

/-! ### no errors -/

/-- The managers of all phases are within budget; `u` bounds the transfers. -/
def DataOk (tr : Prop) (M D : ℕ) (u : ℕ → ℕ) (d : List (List (Mgr K))) : Prop :=
  d.length = D ∧ ∀ ph ms, d[ph]? = some ms → ∀ m ∈ ms, MgrOk (0 < ·) M (u ph) m ∧ (m.kind.isTrack → tr)

theorem DataOk.mono {tr : Prop} {M D : ℕ} {u u' : ℕ → ℕ} {d : List (List (Mgr K))} (h : DataOk tr M D u d)
    (hu : ∀ ph, u ph ≤ u' ph) : DataOk tr M D u' d :=
  ⟨h.1, fun ph ms h1 m hm => ⟨(h.2 ph ms h1 m hm).1.mono (hu ph), (h.2 ph ms h1 m hm).2⟩⟩

theorem groupsStep_total {tr : Prop} {M k : ℕ} (hk : k < M) {f : K → K} (hf : FillModel f) (n x : K) (hx : 0 < x) :
    ∀ ms : List (Mgr K), (∀ m ∈ ms, MgrOk (0 < ·) M k m ∧ (m.kind.isTrack → tr)) →
      Sat (fun e => tr ∧ e = .typeError)
        (fun o => ∀ m ∈ o.2, MgrOk (0 < ·) M (k + 1) m ∧ (m.kind.isTrack → tr)) (groupsStep n x f ms) := by
  intro ms
  induction ms with
  | nil => intro _ m hm; cases hm
  | cons m ms ih =>
    intro h
    obtain ⟨h1, h2⟩ := h m List.mem_cons_self
    unfold groupsStep
    have hs := h1.step hk hf n x hx hx.le
    cases hm : m.step n x f with
    | error e =>
      have := hs.err hm
      exact ⟨h2 this.1, this.2⟩
    | ok v =>
      obtain ⟨net, m'⟩ := v
      have g := hs.ok hm
      simp only [bind, Except.bind]
      have ih := ih fun m hm => h m (List.mem_cons_of_mem _ hm)
      cases hms : groupsStep n x f ms with
      | error e => exact ih.err hms
      | ok w =>
        have g' := ih.ok hms
        intro m1 hm1
        rcases List.mem_cons.1 hm1 with rfl | hm1
        · exact ⟨g.1, fun hx => h2 ((Mgr.step_isTrack hm).1 hx)⟩
        · exact g' m1 hm1

theorem DataOk.react {tr : Prop} {M D : ℕ} {u : ℕ → ℕ} {a : ATM K} (h : DataOk tr M D u a.data) {f : K → K}
    {phase : ℕ} (hphase : phase < D) (hf : FillModel f) (hu : u phase < M) (n x : K) (hx : 0 < x) :
    Sat (fun e => tr ∧ e = .typeError) (fun o => DataOk tr M D (bump u phase) o.2.data ∧ o.2.eff = a.eff)
      (a.react phase n x f) := by
  cases hr : a.react phase n x f with
  | error e =>
    unfold ATM.react at hr
    rw [List.getElem?_eq_getElem (by rw [h.1]; exact hphase)] at hr
    simp only at hr
    have hs := groupsStep_total (tr := tr) hu hf n x hx _ (h.2 phase _ (List.getElem?_eq_getElem (by rw [h.1]; exact hphase)))
    cases hg : groupsStep n x f (a.data[phase]'(by rw [h.1]; exact hphase)) with
    | error e' =>
      rw [hg] at hr
      injection hr with hr
      exact hr ▸ hs.err hg
    | ok v => rw [hg] at hr; cases hr
  | ok v =>
    obtain ⟨net, a'⟩ := v
    have e := ATM.react_emptied hr
    obtain ⟨ms, ms', g1, g2, rfl⟩ := ATM.react_data hr
    have hs := (groupsStep_total (tr := tr) hu hf n x hx _ (h.2 phase _ g1)).ok g2
    refine ⟨⟨by simpa using h.1, fun ph ms1 q => ?_⟩, ATM.eff_of e.2 e.1⟩
    simp only at q
    rw [List.getElem?_set] at q
    unfold bump
    by_cases hp : phase = ph
    · subst hp
      rw [if_pos rfl, if_pos (by rw [h.1]; exact hphase)] at q
      injection q with q
      subst q
      rw [if_pos rfl]
      exact hs
    · rw [if_neg hp] at q
      rw [if_neg (fun h => hp h.symm)]
      exact h.2 ph ms1 q

theorem MgrOk.emptied {T : K → Prop} {M k : ℕ} {m : Mgr K} (h : MgrOk T M k m) :
    MgrOk T M 0 m.empty ∧ (m.empty.kind.isTrack → m.kind.isTrack) := by
  obtain ⟨hd, hkind, i, -, hi, hst⟩ := h
  obtain ⟨s, dens, kind, wm⟩ := m
  have hz : ∀ L, (wm : WM K s).length = L → (wm.map fun _ => zeroRow K s) = Z L := by
    intro L hl
    rw [List.map_const', hl]; rfl
  cases kind with
  | slow p => exact hst.elim
  | instant p =>
    refine ⟨⟨hd, hkind, 0, le_rfl, Nat.zero_le _, ?_⟩, fun h => h⟩
    change InstState (1 + M) 0 (wm.map fun _ => zeroRow K s)
    rw [hz (1 + M) hst.1]
    exact instState_zero _
  | trackTime c =>
    refine ⟨⟨hd, hkind, 0, le_rfl, Nat.zero_le _, ?_⟩, fun h => h⟩
    change TrackState (1 + M) 0 (wm.map fun _ => zeroRow K s)
    rw [hz (1 + M) (by
      obtain ⟨act, z, q1, -, -, -, -, q2⟩ := hst
      simp only at q1
      rw [q1, List.length_append, Z_length, q2])]
    exact trackState_zero _

theorem DataOk.emptied {tr : Prop} {M D : ℕ} {u : ℕ → ℕ} {d : List (List (Mgr K))} (h : DataOk tr M D u d) :
    DataOk tr M D (fun _ => 0) (Arctic.emptied d) := by
  refine ⟨by simp [Arctic.emptied, h.1], fun ph ms h1 m hm => ?_⟩
  unfold Arctic.emptied at h1
  rw [List.getElem?_map, Option.map_eq_some_iff] at h1
  obtain ⟨ms0, h3, rfl⟩ := h1
  obtain ⟨m0, hm0, rfl⟩ := List.mem_map.1 hm
  obtain ⟨q1, q2⟩ := h.2 ph ms0 h3 m0 hm0
  exact ⟨q1.emptied.1, fun h => q2 (q1.emptied.2 h)⟩

/-- The invariant of a run without errors. -/
def OkState (tr : Prop) (M D R C : ℕ) (u : ℕ → ℕ) (b : ℕ) (st : Image K × ATM K) : Prop :=
  st.1.nr = R ∧ st.1.nc = C ∧ DataOk tr M D u st.2.data ∧ DataOk tr M D (fun _ => b) st.2.eff

theorem okState_inv {tr : Prop} {cfg : ClockCfg K} {fill : ℕ → K → K} {D R C N c : ℕ} (hcfg : RunCfg cfg fill D R)
    (hc : c < C) : BudgetInv (atmSys fill) cfg (fun e => tr ∧ e = .typeError) N c
      (OkState tr (N * cfg.steps.length) D R C) where
  phase k hk j hj step hs phase hp u b st hst hu := by
    obtain ⟨i, s⟩ := st
    obtain ⟨h1, h2, h3, h4⟩ := hst
    simp only at h1 h2 h3 h4
    obtain ⟨ph, dw, l1, l2, l3⟩ := hcfg.look step hs phase hp
    obtain ⟨w, l4⟩ := hcfg.rows k hk j hj
    obtain ⟨r1, r2⟩ := hcfg.range step phase ph l1 w (List.mem_of_getElem? l4)
    unfold phaseBody
    rw [l1, l2, l4]
    simp only
    unfold Image.read
    rw [if_pos ⟨r1.1, by rw [h1]; exact r1.2, by rw [h2]; exact hc⟩]
    refine Sat.bind (Q := fun _ => True) trivial fun v _ => ?_
    refine Sat.bind (h3.react (hcfg.phases phase hp) (hcfg.fillModel phase hp) hu _ dw l3) ?_
    rintro ⟨net, s'⟩ ⟨g1, g2⟩
    simp only at g1 g2 ⊢
    split
    · exact ⟨h1, h2, g1, by simp only [g2]; exact h4⟩
    · obtain ⟨i', q1, q2, q3⟩ := writeAll_inRange (img := i) (row0 := w) (c := c) (net := net)
        (mult := cfg.expr.e k j) (rel := ph.release) (by rw [h2]; exact hc) (fun o ho => by rw [h1]; exact r2 o ho)
      rw [q1]
      exact ⟨q2.trans h1, q3.trans h2, g1, by simp only [g2]; exact h4⟩
  save _ u b v st h hv := ⟨h.1, h.2.1, h.2.2.1, by
    change DataOk _ _ _ _ st.2.save.eff
    rw [ATM.eff_save]; exact h.2.2.1.mono hv⟩
  restore u b st h := ⟨h.1, h.2.1, h.2.2.2, by
    change DataOk _ _ _ _ st.2.restore.eff
    rw [ATM.eff_restore]; exact h.2.2.2⟩
  mono u u' b st h hu := ⟨h.1, h.2.1, h.2.2.1.mono hu, h.2.2.2⟩

theorem okState_loops {tr : Prop} {cfg : ClockCfg K} {fill : ℕ → K → K} {D R C N : ℕ} {pos : ℕ → ℕ → ℕ}
    (hcfg : RunCfg cfg fill D R) (hsch : Schedule cfg N pos) (heb : cfg.emptyBetween = true) (columns : List ℕ)
    (hcols : ∀ c ∈ columns, c < C) (st : Image K × ATM K)
    (hst : OkState tr (N * cfg.steps.length) D R C (fun _ => 0) 0 st) :
    Sat (fun e => tr ∧ e = .typeError) (OkState tr (N * cfg.steps.length) D R C (fun _ => 0) 0)
      (clockLoops (atmSys fill) cfg columns st) := by
  unfold clockLoops
  refine Sat.fold' _ _ _ (fun c hc st hst => ?_) st hst
  unfold columnBody
  refine Sat.bind ((okState_inv (N := N) hcfg (hcols c hc)).passes hcfg.nodup hsch st _ hst) ?_
  rintro st' ⟨u', b', h1, h2, h3, h4⟩
  rw [heb, if_pos rfl]
  refine ⟨h1, h2, ?_, ?_⟩
  · exact h3.emptied
  · change DataOk _ _ _ _ (ATM.emptyAll st'.2).save.eff
    rw [ATM.eff_save]; exact h3.emptied

theorem dataOk_new {tr : Prop} {M : ℕ} (groups : List (Group K)) (fractions : List K)
    (hfr : ∀ x ∈ fractions, 0 ≤ x)
    (hg : ∀ g ∈ groups, (∀ j, 0 ≤ g.dens j) ∧ g.kind.Ok (0 < ·) ∧ (g.kind.isTrack → tr)) :
    DataOk tr M fractions.length (fun _ => 0) (ATM.new groups fractions M).data := by
  refine ⟨by simp [ATM.new], fun ph ms h1 m hm => ?_⟩
  unfold ATM.new at h1
  simp only at h1
  rw [List.getElem?_map, Option.map_eq_some_iff] at h1
  obtain ⟨x, h3, rfl⟩ := h1
  obtain ⟨g, hgm, rfl⟩ := List.mem_map.1 hm
  have hx := hfr x (List.mem_of_getElem? h3)
  obtain ⟨g1, g2, g3⟩ := hg g hgm
  exact ⟨(mgrOk_new _ _ M (fun j => mul_nonneg (g1 j) hx) g2).1, g3⟩

end Arctic
