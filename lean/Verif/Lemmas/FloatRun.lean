import Verif.Lemmas.FloatSafe
import Verif.Lemmas.FloatBudget
import Verif.Lemmas.RunCfg
import Verif.Lemmas.Causal

/-!
# Runs of the clocking loops over an arbitrary arithmetic
-/

set_option linter.unusedSectionVars false
set_option linter.unusedVariables false

namespace Arctic.Fp

open Arctic (Sat bump ExRel Both)

variable {F : Type} {A : Arith F}

/-! ### integers of a configuration -/

/-- The integers of a clock sequence: which phases are high, and the rows read and written. -/
def skeleton {K : Type} (seq : List (List (Phase K))) : List (List (Bool × ℤ × List ℤ)) :=
  seq.map fun l => l.map fun p => (p.isHigh, p.captureFrom, p.release.map Prod.fst)

/-- The configuration has the integers of the readout `roe` (given over the rationals, of which only the integers
matter here), the window `rows`, no saved trap states, and traps emptied between columns. The numbers — dwell times,
fractions, express matrix, which rows are monitored — are arbitrary. -/
structure ShapeOf (A : Arith F) (cfg : ClockCfg F) (roe : Roe ℚ) (ccd : CcdView F) (rows : List ℕ) : Prop where
  seq : skeleton cfg.clockSeq = skeleton roe.clockSequence
  dwell : cfg.dwell.length = roe.nSteps
  steps : cfg.steps = positiveIndices A cfg.dwell
  phases : cfg.phases = positiveIndices A ccd.fractions
  nPhases : ccd.fractions.length ≤ roe.nPhases
  window : cfg.rowWindow = rows
  monitor : cfg.monitor.nc = cfg.expr.nc
  columns : cfg.expr.nc ≤ rows.length
  saves : ∀ k j, cfg.saveMat.e k j = false
  between : cfg.emptyBetween = true

theorem skeleton_look {K : Type} {seq : List (List (Phase K))} {seq' : List (List (Phase F))}
    (h : skeleton seq' = skeleton seq) (step phase : ℕ) :
    ((seq'[step]?.bind fun l => l[phase]?).map fun p => (p.isHigh, p.captureFrom, p.release.map Prod.fst)) =
      ((seq[step]?.bind fun l => l[phase]?).map fun p => (p.isHigh, p.captureFrom, p.release.map Prod.fst)) := by
  have e1 : ∀ {K : Type} (seq : List (List (Phase K))), ((seq[step]?.bind fun l => l[phase]?).map
      fun p => (p.isHigh, p.captureFrom, p.release.map Prod.fst)) =
      ((skeleton seq)[step]?.bind fun l => l[phase]?) := by
    intro K seq
    unfold skeleton
    rw [List.getElem?_map]
    cases seq[step]? with
    | none => rfl
    | some l => simp
  rw [e1, e1, h]

/-- Every phase that is looked up exists, and has the integers of one of the readout's. -/
theorem ShapeOf.look {cfg : ClockCfg F} {roe : Roe ℚ} {ccd : CcdView F} {rows : List ℕ} (h : ShapeOf A cfg roe ccd rows)
    {step phase : ℕ} {ph : Phase F} (hp : (cfg.clockSeq[step]?.bind fun l => l[phase]?) = some ph) :
    ∃ q : Phase ℚ, (roe.clockSequence[step]?.bind fun l => l[phase]?) = some q ∧ ph.isHigh = q.isHigh ∧
      ph.captureFrom = q.captureFrom ∧ ph.release.map Prod.fst = q.release.map Prod.fst := by
  have := skeleton_look h.seq step phase
  rw [hp] at this
  cases hq : (roe.clockSequence[step]?.bind fun l => l[phase]?) with
  | none => rw [hq] at this; cases this
  | some q =>
    rw [hq] at this
    simp only [Option.map_some, Option.some.injEq, Prod.mk.injEq] at this
    exact ⟨q, rfl, this.1, this.2.1, this.2.2⟩

theorem mem_positiveIndices {l : List F} {i : ℕ} :
    i ∈ positiveIndices A l ↔ i < l.length ∧ A.lt A.zero (l.getD i A.zero) = true := by
  unfold positiveIndices
  rw [List.mem_filter, List.mem_range]

/-- What the configuration has to fulfil so that every access is in range. -/
structure InRange (cfg : ClockCfg F) (D R : ℕ) : Prop where
  look : ∀ step ∈ cfg.steps, ∀ phase ∈ cfg.phases, ∃ ph dw, (cfg.clockSeq[step]?.bind fun l => l[phase]?) = some ph ∧
    cfg.dwell[step]? = some dw
  rows : ∀ k < cfg.expr.nr, ∀ j ∈ monitoredRows cfg k, ∃ w, cfg.rowWindow[j]? = some w
  range : ∀ (step phase : ℕ) (ph : Phase F), (cfg.clockSeq[step]?.bind fun l => l[phase]?) = some ph →
    ∀ w ∈ cfg.rowWindow, (0 ≤ (w : ℤ) + ph.captureFrom ∧ (w : ℤ) + ph.captureFrom < R) ∧
      ∀ x ∈ ph.release, 0 ≤ (w : ℤ) + x.1 ∧ (w : ℤ) + x.1 < R
  phases : ∀ ph ∈ cfg.phases, ph < D
  nodup : cfg.phases.Nodup

theorem ShapeOf.inRange {cfg : ClockCfg F} {roe : Roe ℚ} {ccd : CcdView F} {rows : List ℕ}
    (h : ShapeOf A cfg roe ccd rows) (R : ℕ) (hrows : ∀ w ∈ rows, w < R)
    (hlow : ∀ w ∈ rows, ∀ z ∈ roe.accessed, 0 ≤ (w : ℤ) + z) :
    InRange cfg ccd.fractions.length (R + nPadding roe.accessed) := by
  have hph : ∀ ph ∈ cfg.phases, ph < ccd.fractions.length := by
    intro ph hph
    rw [h.phases] at hph
    exact (mem_positiveIndices.1 hph).1
  refine ⟨?_, ?_, ?_, hph, ?_⟩
  · intro step hs phase hp
    rw [h.steps] at hs
    have hs := (mem_positiveIndices.1 hs).1
    obtain ⟨q, hq⟩ := clockSequence_look roe (step := step) (h.dwell ▸ hs) ((hph phase hp).trans_le h.nPhases)
    have := skeleton_look h.seq step phase
    rw [hq] at this
    cases hc : (cfg.clockSeq[step]?.bind fun l => l[phase]?) with
    | none => rw [hc] at this; cases this
    | some ph => exact ⟨ph, cfg.dwell[step], rfl, List.getElem?_eq_getElem hs⟩
  · intro k hk j hj
    have h1 : j < cfg.monitor.nc := by
      unfold monitoredRows at hj
      exact List.mem_range.1 (List.mem_filter.1 hj).1
    rw [h.monitor] at h1
    have := h1.trans_le h.columns
    rw [h.window]
    exact ⟨rows[j], List.getElem?_eq_getElem this⟩
  · intro step phase ph hp w hw
    rw [h.window] at hw
    obtain ⟨q, hq, -, e2, e3⟩ := h.look hp
    obtain ⟨a1, a2⟩ := mem_accessed roe hq
    have hb : ∀ z ∈ roe.accessed, 0 ≤ (w : ℤ) + z ∧ (w : ℤ) + z < ((R + nPadding roe.accessed : ℕ) : ℤ) := by
      intro z hz
      refine ⟨hlow w hw z hz, ?_⟩
      have := accessed_le_padding _ (zero_mem_accessed roe) z hz
      have := hrows w hw
      push_cast; omega
    refine ⟨e2 ▸ hb _ a1, fun x hx => ?_⟩
    have hx' : x.1 ∈ q.release.map Prod.fst := e3 ▸ List.mem_map_of_mem hx
    obtain ⟨y, hy, hxy⟩ := List.mem_map.1 hx'
    rw [← hxy]
    exact hb _ (a2 y hy)
  · rw [h.phases]; exact List.Nodup.filter _ List.nodup_range

/-! ### the traps stay within their arrays -/

/-- The elapsed-time class. -/
def isTrack {s : ℕ} : Kind F s → Prop
  | .trackTime _ => True
  | _ => False

/-- A class other than slow capture. -/
def notSlow {s : ℕ} : Kind F s → Prop
  | .slow _ => False
  | _ => True

/-- A manager with an array of `1 + M` rows, of which at most `k` are in use. -/
def MgrOk (A : Arith F) (T : Prop) (M k : ℕ) (m : Mgr F) : Prop :=
  notSlow m.kind ∧ (isTrack m.kind → T) ∧ m.wm.length = 1 + M ∧ Used A k m.wm

theorem MgrOk.mono {T : Prop} {M k k' : ℕ} {m : Mgr F} (h : MgrOk A T M k m) (hk : k ≤ k') : MgrOk A T M k' m :=
  ⟨h.1, h.2.1, h.2.2.1, h.2.2.2.mono hk⟩

theorem step_safe (hA : A.Lawful) {T : Prop} {M k : ℕ} {m : Mgr F} (h : MgrOk A T M k m) (hk : k < M) {fill : F → F}
    (hf : FillOk A fill) (n t : F) : Sat (MayRaise A T) (fun r => MgrOk A T M (k + 1) r.2) (step A m n t fill) := by
  obtain ⟨s, dens, kind, wm⟩ := m
  obtain ⟨h1, h2, h3, h4⟩ := h
  simp only at h1 h2 h3 h4
  unfold step
  cases kind with
  | slow p => exact h1.elim
  | instant p =>
    simp only
    refine Sat.bind (Q := fun r : F × WM F s => r.2.length = wm.length ∧ Used A (k + 1) r.2) ?_ ?_
    · have := icStep_safe hA (tweakKeeps_instant (A := A) dens (p t)) hf n h4 (by rw [h3]; omega)
      cases hx : icStep A (instantOps A dens (p t)) fill n wm with
      | ok v => rw [hx] at this; exact this
      | error e =>
        rw [hx] at this
        rcases this with q | q
        · exact Or.inl q
        · exact q.2.elim
    · rintro ⟨net, w⟩ ⟨q1, q2⟩
      exact ⟨trivial, fun h => h.elim, q1.trans h3, q2⟩
  | trackTime c =>
    simp only
    refine Sat.bind (Q := fun r : F × WM F s => r.2.length = wm.length ∧ Used A (k + 1) r.2) ?_ ?_
    · have := icStep_safe hA (tweakKeeps_trackTime (A := A) dens c t) hf n h4 (by rw [h3]; omega)
      cases hx : icStep A (trackTimeOps A dens c t) fill n wm with
      | ok v => rw [hx] at this; exact this
      | error e =>
        rw [hx] at this
        rcases this with q | q
        · exact Or.inl q
        · exact Or.inr ⟨q.1, h2 trivial⟩
    · rintro ⟨net, w⟩ ⟨q1, q2⟩
      exact ⟨trivial, h2, q1.trans h3, q2⟩

theorem groupsStep_safe (hA : A.Lawful) {T : Prop} {M k : ℕ} (hk : k < M) {fill : F → F} (hf : FillOk A fill) (n t : F) :
    ∀ (ms : List (Mgr F)) (acc : F), (∀ m ∈ ms, MgrOk A T M k m) →
      Sat (MayRaise A T) (fun r => ∀ m ∈ r.2, MgrOk A T M (k + 1) m) (groupsStep A n t fill acc ms) := by
  intro ms
  induction ms with
  | nil => intro acc _ m hm; cases hm
  | cons m ms ih =>
    intro acc h
    unfold groupsStep
    refine Sat.bind (step_safe hA (h m List.mem_cons_self) hk hf n t) ?_
    rintro ⟨net, m'⟩ g
    refine Sat.bind (ih _ fun m hm => h m (List.mem_cons_of_mem _ hm)) ?_
    rintro ⟨tot, ms'⟩ g'
    intro m1 hm1
    rcases List.mem_cons.1 hm1 with rfl | hm1
    · exact g
    · exact g' m1 hm1

/-- The managers of all phases are within their arrays. -/
def DataOk (A : Arith F) (T : Prop) (M D : ℕ) (u : ℕ → ℕ) (d : List (List (Mgr F))) : Prop :=
  d.length = D ∧ ∀ ph ms, d[ph]? = some ms → ∀ m ∈ ms, MgrOk A T M (u ph) m

theorem DataOk.mono {T : Prop} {M D : ℕ} {u u' : ℕ → ℕ} {d : List (List (Mgr F))} (h : DataOk A T M D u d)
    (hu : ∀ ph, u ph ≤ u' ph) : DataOk A T M D u' d :=
  ⟨h.1, fun ph ms h1 m hm => (h.2 ph ms h1 m hm).mono (hu ph)⟩

theorem react_safe (hA : A.Lawful) {T : Prop} {M D : ℕ} {u : ℕ → ℕ} {a : ATM F} (h : DataOk A T M D u a.data)
    {phase : ℕ} (hphase : phase < D) {fill : F → F} (hf : FillOk A fill) (hu : u phase < M) (n t : F) :
    Sat (MayRaise A T) (fun r => DataOk A T M D (bump u phase) r.2.data ∧ r.2.saved = a.saved)
      (react A a phase n t fill) := by
  unfold react
  have hl : phase < a.data.length := by rw [h.1]; exact hphase
  rw [List.getElem?_eq_getElem hl]
  simp only
  refine Sat.bind (groupsStep_safe hA hu hf n t _ _ (h.2 phase _ (List.getElem?_eq_getElem hl))) ?_
  rintro ⟨net, ms'⟩ g
  refine ⟨⟨by simpa using h.1, fun ph ms1 q => ?_⟩, rfl⟩
  simp only at q
  rw [List.getElem?_set] at q
  unfold bump
  by_cases hp : phase = ph
  · subst hp
    rw [if_pos rfl, if_pos hl] at q
    injection q with q
    subst q
    rw [if_pos rfl]
    exact g
  · rw [if_neg hp] at q
    rw [if_neg (fun h => hp h.symm)]
    exact h.2 ph ms1 q

theorem used_zero {s : ℕ} (A : Arith F) (l : List (Row F s)) (k : ℕ) : Used A k (l.map fun _ => zeroRow A s) := by
  intro i r _ hr
  rw [List.getElem?_map, Option.map_eq_some_iff] at hr
  obtain ⟨q, -, rfl⟩ := hr
  rfl

theorem DataOk.emptied {T : Prop} {M D : ℕ} {u : ℕ → ℕ} {d : List (List (Mgr F))} (h : DataOk A T M D u d) :
    DataOk A T M D (fun _ => 0) (d.map fun ms => ms.map (empty A)) := by
  refine ⟨by simp [h.1], fun ph ms h1 m hm => ?_⟩
  rw [List.getElem?_map, Option.map_eq_some_iff] at h1
  obtain ⟨ms0, h3, rfl⟩ := h1
  obtain ⟨m0, hm0, rfl⟩ := List.mem_map.1 hm
  obtain ⟨q1, q2, q3, q4⟩ := h.2 ph ms0 h3 m0 hm0
  exact ⟨q1, q2, by simpa [empty] using q3, used_zero A _ 0⟩

theorem restore_saved (a : ATM F) : (restore A a).saved = a.saved := by
  obtain ⟨d, sv, q, r⟩ := a
  cases sv <;> rfl

theorem restore_data (a : ATM F) : (restore A a).data =
    match a.saved with
    | none => a.data.map fun ms => ms.map (empty A)
    | some d => d := by
  obtain ⟨d, sv, q, r⟩ := a
  cases sv <;> rfl

/-- What is restored is within the arrays as well. -/
def StateOk (A : Arith F) (T : Prop) (M D R C : ℕ) (u : ℕ → ℕ) (b : ℕ) (st : Image F × ATM F) : Prop :=
  st.1.nr = R ∧ st.1.nc = C ∧ DataOk A T M D u st.2.data ∧ ∀ d, st.2.saved = some d → DataOk A T M D (fun _ => b) d

theorem writeAll_inRange {img : Image F} {row0 : ℤ} {c : ℕ} {net mult : F} {rel : List (ℤ × F)} (hc : c < img.nc)
    (h : ∀ o ∈ rel, 0 ≤ row0 + o.1 ∧ row0 + o.1 < img.nr) :
    ∃ i, writeAll A img row0 c net mult rel = .ok i ∧ i.nr = img.nr ∧ i.nc = img.nc := by
  induction rel generalizing img with
  | nil => exact ⟨img, rfl, rfl, rfl⟩
  | cons o rel ih =>
    obtain ⟨off, frac⟩ := o
    have h0 := h _ List.mem_cons_self
    unfold writeAll writeBack read
    rw [if_pos ⟨h0.1, h0.2, hc⟩]
    simp only [bind, Except.bind]
    exact ih (img := set img _ c _) hc fun o ho => h o (List.mem_cons_of_mem _ ho)

theorem stateOk_inv (hA : A.Lawful) {T : Prop} {cfg : ClockCfg F} {fill : ℕ → F → F} {D R C N c : ℕ}
    (hcfg : InRange cfg D R) (hfill : ∀ ph ∈ cfg.phases, FillOk A (fill ph)) (hc : c < C) :
    BudgetInv A (atmSys A fill) cfg (MayRaise A T) N c (StateOk A T (N * cfg.steps.length) D R C) where
  phase k hk j hj step hs phase hp u b st hst hu := by
    obtain ⟨i, s⟩ := st
    obtain ⟨h1, h2, h3, h4⟩ := hst
    simp only at h1 h2 h3 h4
    obtain ⟨ph, dw, l1, l2⟩ := hcfg.look step hs phase hp
    obtain ⟨w, l4⟩ := hcfg.rows k hk j hj
    obtain ⟨r1, r2⟩ := hcfg.range step phase ph l1 w (List.mem_of_getElem? l4)
    unfold phaseBody
    rw [l1, l2, l4]
    simp only
    unfold read
    rw [if_pos ⟨r1.1, by rw [h1]; exact r1.2, by rw [h2]; exact hc⟩]
    refine Sat.bind (Q := fun _ => True) trivial fun v _ => ?_
    refine Sat.bind (react_safe hA h3 (hcfg.phases phase hp) (hfill phase hp) hu _ dw) ?_
    rintro ⟨net, s'⟩ ⟨g1, g2⟩
    simp only at g1 g2 ⊢
    split
    · exact ⟨h1, h2, g1, by simp only [g2]; exact h4⟩
    · obtain ⟨i', q1, q2, q3⟩ := writeAll_inRange (A := A) (img := i) (row0 := w) (c := c) (net := net)
        (mult := cfg.expr.e k j) (rel := ph.release) (by rw [h2]; exact hc) (fun o ho => by rw [h1]; exact r2 o ho)
      rw [q1]
      exact ⟨q2.trans h1, q3.trans h2, g1, by simp only [g2]; exact h4⟩
  save _ u b v st h hv := ⟨h.1, h.2.1, h.2.2.1, fun d hd => by
    have hd : some st.2.data = some d := hd
    injection hd with hd
    rw [← hd]; exact h.2.2.1.mono hv⟩
  restore u b st h := by
    obtain ⟨h1, h2, h3, h4⟩ := h
    refine ⟨h1, h2, ?_, ?_⟩
    · change DataOk A T _ D _ (restore A st.2).data
      rw [restore_data]
      cases hs : st.2.saved with
      | none => exact h3.emptied.mono fun _ => Nat.zero_le _
      | some d => exact h4 d hs
    · intro d hd
      have hd : (restore A st.2).saved = some d := hd
      rw [restore_saved] at hd
      exact h4 d hd
  mono u u' b st h hu := ⟨h.1, h.2.1, h.2.2.1.mono hu, h.2.2.2⟩

/-- Without saved states the positions are the indices of the rows. -/
theorem ShapeOf.schedule {cfg : ClockCfg F} {roe : Roe ℚ} {ccd : CcdView F} {rows : List ℕ}
    (h : ShapeOf A cfg roe ccd rows) : Schedule cfg cfg.expr.nc fun _ j => j where
  lt k hk j hj := by
    unfold monitoredRows at hj
    have := List.mem_range.1 (List.mem_filter.1 hj).1
    rw [h.monitor] at this
    exact this
  pass k _ j _ j' _ hjj := hjj
  save k _ j _ hs := by rw [h.saves] at hs; cases hs

theorem loops_safe (hA : A.Lawful) {T : Prop} {cfg : ClockCfg F} {fill : ℕ → F → F} {D R C N : ℕ} {pos : ℕ → ℕ → ℕ}
    (hcfg : InRange cfg D R) (hfill : ∀ ph ∈ cfg.phases, FillOk A (fill ph)) (hsch : Schedule cfg N pos)
    (heb : cfg.emptyBetween = true) (columns : List ℕ) (hcols : ∀ c ∈ columns, c < C) (st : Image F × ATM F)
    (hst : StateOk A T (N * cfg.steps.length) D R C (fun _ => 0) 0 st) :
    Sat (MayRaise A T) (StateOk A T (N * cfg.steps.length) D R C (fun _ => 0) 0)
      (clockLoops A (atmSys A fill) cfg columns st) := by
  unfold clockLoops
  refine Sat.fold' _ _ _ (fun c hc st hst => ?_) st hst
  unfold columnBody
  refine Sat.bind ((stateOk_inv hA (N := N) hcfg hfill (hcols c hc)).passes hcfg.nodup hsch st _ hst) ?_
  rintro st' ⟨u', b', h1, h2, h3, h4⟩
  rw [heb, if_pos rfl]
  refine ⟨h1, h2, h3.emptied, fun d hd => ?_⟩
  have hd : some (emptyAll A st'.2).data = some d := hd
  injection hd with hd
  rw [← hd]
  exact h3.emptied

theorem dataOk_new {T : Prop} {M : ℕ} (groups : List (Group F)) (fractions : List F)
    (hg : ∀ g ∈ groups, notSlow g.kind ∧ (isTrack g.kind → T)) :
    DataOk A T M fractions.length (fun _ => 0) (newATM A groups fractions M).data := by
  refine ⟨by simp [newATM], fun ph ms h1 m hm => ?_⟩
  unfold newATM at h1
  simp only at h1
  rw [List.getElem?_map, Option.map_eq_some_iff] at h1
  obtain ⟨x, h3, rfl⟩ := h1
  obtain ⟨g, hgm, rfl⟩ := List.mem_map.1 hm
  obtain ⟨g1, g2⟩ := hg g hgm
  refine ⟨g1, g2, ?_, ?_⟩
  · have : g.kind.perTransfer = 1 := by
      cases hk : g.kind with
      | slow p => rw [hk] at g1; exact g1.elim
      | instant p => rfl
      | trackTime c => rfl
    simp [newMgr, this]
  · intro i r _ hr
    have := List.mem_of_getElem? hr
    rw [List.eq_of_mem_replicate this]
    rfl

/-! ### invariants of the image -/

/-- An invariant of images kept by every write the loops make in column `c`. -/
def Kept (A : Arith F) (cfg : ClockCfg F) (c : ℕ) (P : Image F → Prop) : Prop :=
  ∀ i, P i → ∀ (r : ℕ) (old delta : F), r < i.nr → c < i.nc →
    (∃ w ∈ cfg.rowWindow, ∃ (step phase : ℕ) (ph : Phase F), (cfg.clockSeq[step]?.bind fun l => l[phase]?) = some ph ∧
      ∃ o ∈ ph.release, (r : ℤ) = w + o.1) →
    P (set i r c (if A.lt (A.add old delta) A.zero then A.zero else A.add old delta))

theorem read_ok {img : Image F} {r : ℤ} {c : ℕ} {v : F} (h : read img r c = .ok v) :
    0 ≤ r ∧ r < img.nr ∧ c < img.nc ∧ v = img.px r.toNat c := by
  unfold read at h
  split at h
  · rename_i hr
    injection h with h
    exact ⟨hr.1, hr.2.1, hr.2.2, h.symm⟩
  · cases h

variable {S : Type}

theorem phaseBody_kept (sys : TrapSys F S) (cfg : ClockCfg F) (c j : ℕ) (mult : F) (step : ℕ) {P : Image F → Prop}
    (hP : Kept A cfg c P) (phase : ℕ) (st st' : Image F × S) (hst : P st.1)
    (h : phaseBody A sys cfg c j mult step st phase = .ok st') : P st'.1 := by
  unfold phaseBody at h
  split at h
  · rename_i ph row0 dwell e1 e2 e3
    obtain ⟨v, h1, h⟩ := bind_eq_ok h
    obtain ⟨⟨net, s⟩, h2, h⟩ := bind_eq_ok h
    simp only at h
    split at h
    · injection h with h; subst h; exact hst
    · obtain ⟨i1, h3, h⟩ := bind_eq_ok h
      injection h with h; subst h
      have key : ∀ (rel : List (ℤ × F)), (∀ o ∈ rel, o ∈ ph.release) → ∀ i i', P i →
          writeAll A i row0 c net mult rel = .ok i' → P i' := by
        intro rel
        induction rel with
        | nil => intro _ i i' hi h; injection h with h; exact h ▸ hi
        | cons o rel ih =>
          intro hrel i i' hi h
          obtain ⟨off, frac⟩ := o
          unfold writeAll at h
          obtain ⟨i2, g1, g2⟩ := bind_eq_ok h
          refine ih (fun o ho => hrel o (List.mem_cons_of_mem _ ho)) i2 i' ?_ g2
          unfold writeBack at g1
          obtain ⟨old, g3, g4⟩ := bind_eq_ok g1
          injection g4 with g4
          subst g4
          obtain ⟨q1, q2, q3, -⟩ := read_ok g3
          refine hP i hi _ _ _ (by omega) q3 ⟨row0, List.mem_of_getElem? e2, step, phase, ph, e1,
            (off, frac), hrel _ List.mem_cons_self, by omega⟩
      exact key ph.release (fun _ h => h) _ _ hst h3
  · cases h

theorem columnBody_kept (sys : TrapSys F S) (cfg : ClockCfg F) (c : ℕ) {P : Image F → Prop} (hP : Kept A cfg c P)
    (st st' : Image F × S) (hst : P st.1) (h : columnBody A sys cfg st c = .ok st') : P st'.1 := by
  unfold columnBody at h
  obtain ⟨s1, h1, h⟩ := bind_eq_ok h
  injection h with h
  subst h
  refine foldlM_inv (fun s : Image F × S => P s.1) _ _ (fun k _ s s' hs h => ?_) st s1 hst h1
  unfold expressBody at h
  refine foldlM_inv (fun s : Image F × S => P s.1) _ _ (fun j _ s s' hs h => ?_) (s.1, sys.restore s.2) s' hs h
  unfold rowBody at h
  obtain ⟨s2, h2, h⟩ := bind_eq_ok h
  have : P s2.1 := by
    refine foldlM_inv (fun s : Image F × S => P s.1) _ _ (fun step _ s s' hs h => ?_) s s2 hs h2
    unfold stepBody at h
    exact foldlM_inv (fun s : Image F × S => P s.1) _ _
      (fun ph _ s s' hs h => phaseBody_kept sys cfg c j _ step hP ph s s' hs h) s s' hs h
  injection h with h
  subst h
  split <;> exact this

theorem clockLoops_kept (sys : TrapSys F S) (cfg : ClockCfg F) (columns : List ℕ) {P : Image F → Prop}
    (hP : ∀ c ∈ columns, Kept A cfg c P) (st st' : Image F × S) (hst : P st.1)
    (h : clockLoops A sys cfg columns st = .ok st') : P st'.1 := by
  unfold clockLoops at h
  exact foldlM_inv (fun s : Image F × S => P s.1) _ _
    (fun c hc s s' hs h => columnBody_kept sys cfg c (hP c hc) s s' hs h) st st' hst h

end Arctic.Fp
