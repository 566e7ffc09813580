import Verif.Lemmas.Budget
import Verif.Spec.Readout
import Verif.Lemmas.Columns
import Verif.Lemmas.MgrBounds
import Verif.Lemmas.Relabel
import Verif.Props.Clock
import Mathlib.Algebra.BigOperators.Intervals

/-!
# Charge bookkeeping during clocking
-/

set_option linter.unusedSectionVars false
set_option linter.unusedVariables false

namespace Arctic
open Finset

variable {K : Type} [Field K] [LinearOrder K] [IsStrictOrderedRing K]

/-! ### managers -/

/-- The array of a manager after at most `k` transfers. -/
def Kind.State {s : ℕ} (L k : ℕ) (wm : WM K s) : Kind K s → Prop
  | .instant _ => InstState L k wm
  | .trackTime _ => TrackState L k wm
  | .slow _ => False

structure MgrOk (T : K → Prop) (M k : ℕ) (m : Mgr K) : Prop where
  dens : ∀ j, 0 ≤ m.dens j
  kind : m.kind.Ok T
  state : ∃ k' ≤ k, k' ≤ M ∧ m.kind.State (1 + M) k' m.wm

/-- No stale row (only an issue for fill fractions). -/
def MgrReg (m : Mgr K) : Prop := m.kind.isTrack ∨ Regular m.wm

theorem MgrOk.mono {T : K → Prop} {M k k' : ℕ} {m : Mgr K} (h : MgrOk T M k m) (hk : k ≤ k') : MgrOk T M k' m := by
  obtain ⟨i, h1, h2, h3⟩ := h.state
  exact ⟨h.dens, h.kind, i, h1.trans hk, h2, h3⟩

theorem MgrOk.nTrapped_nonneg {T : K → Prop} {M k : ℕ} {m : Mgr K} (h : MgrOk T M k m) : 0 ≤ m.nTrapped := by
  obtain ⟨hd, hkind, i, -, hi, hst⟩ := h
  obtain ⟨s, dens, kind, wm⟩ := m
  cases kind with
  | slow p => exact hst.elim
  | instant p =>
    simp only [Mgr.nTrapped, electrons_eq_cy]
    exact ((InstState.wellFormed hst).1.electrons_bounds dens hd).1
  | trackTime c =>
    simp only [Mgr.nTrapped]
    rw [toFillFractions_electrons dens c (1 + M) i wm hst (by omega)]
    exact ((TrackState.asFractions_wf hst c hkind.2.1).1.electrons_bounds dens hd).1

/-- One transfer within the budget. -/
theorem MgrOk.step {T : K → Prop} {M k : ℕ} {m : Mgr K} (h : MgrOk T M k m) (hk : k < M) {f : K → K}
    (hf : FillModel f) (n t : K) (ht : T t) (ht0 : 0 ≤ t) :
    Sat (fun e => m.kind.isTrack ∧ e = .typeError)
      (fun o => MgrOk T M (k + 1) o.2 ∧ o.1 = m.nTrapped - o.2.nTrapped ∧
        ((∀ n, 0 < n → 0 < f n) → MgrReg m → MgrReg o.2) ∧ (0 ≤ n → MgrReg m → -n ≤ o.1)) (m.step n t f) := by
  obtain ⟨hd, hkind, i, hik, -, hst⟩ := h
  obtain ⟨s, dens, kind, wm⟩ := m
  cases kind with
  | slow p => exact hst.elim
  | instant p =>
    obtain ⟨net, wm', g1, g2, g3, -, g5, g6⟩ := instant_step dens (p t) f hf hd (hkind t ht) n (1 + M) i wm hst
      (by omega)
    rw [step_instant, g1]
    refine ⟨⟨hd, hkind, i + 1, by omega, by omega, g2⟩, ?_, ?_, ?_⟩
    · simp only [Mgr.nTrapped, electrons_eq_cy]; exact g3
    · rintro hpos (hreg | hreg)
      · exact hreg.elim
      · exact Or.inr (g6 hpos hreg)
    · rintro hn (hreg | hreg)
      · exact hreg.elim
      · have hc := g5 hreg
        simp only [CaptureSpec] at hc
        have hrel := released_le dens (p t) (hkind t ht) hd wm hst
        have ha : 0 ≤ available dens (p t) n wm := by
          unfold available; linarith
        rw [max_eq_right ha] at hc
        have hmin := min_le_left (available dens (p t) n wm)
          (vacant dens (f (available dens (p t) n wm)) (released (p t) wm))
        rw [← hc] at hmin
        unfold available at hmin
        simp only
        linarith
  | trackTime c =>
    have key := track_step dens c t f hf hd hkind.1 hkind.2.1 ht0 n (1 + M) i wm hst (by omega)
    simp only at key
    rw [step_track]
    by_cases hs : Shortage dens c t f n wm
    · rw [key.2 hs]
      exact ⟨trivial, rfl⟩
    · obtain ⟨wm', g1, g2, g3, -⟩ := key.1 hs
      rw [g1]
      refine ⟨⟨hd, hkind, i + 1, by omega, by omega, g2⟩, ?_, fun _ _ => Or.inl trivial, ?_⟩
      · simp only [Mgr.nTrapped]
        rw [toFillFractions_electrons dens c (1 + M) i wm hst (by omega),
          toFillFractions_electrons dens c (1 + M) (i + 1) wm' g2 (by omega), g3]
        ring
      · intro hn _
        simp only [Shortage, not_lt] at hs
        have hle : electrons dens (asFractionsAfter c t wm) ≤ electrons dens (asFractions c wm) :=
          asFractionsAfter_le dens c t hd hkind.2.2 ht0 _ _ wm hst
        rw [max_eq_right (by linarith)] at hs
        simp only
        linarith

theorem mgrOk_new {T : K → Prop} {s : ℕ} (dens : Fin s → K) (kind : Kind K s) (M : ℕ) (hd : ∀ j, 0 ≤ dens j)
    (hk : kind.Ok T) : MgrOk T M 0 (Mgr.new dens kind M) ∧ MgrReg (Mgr.new dens kind M) ∧
      (Mgr.new dens kind M).nTrapped = 0 := by
  cases kind with
  | slow p => exact hk.elim
  | instant p =>
    refine ⟨⟨hd, hk, 0, le_rfl, Nat.zero_le _, ?_⟩, Or.inr ⟨[], 1 + M, ?_, by simp [Pos]⟩, ?_⟩
    · have := instState_zero (K := K) (s := s) (1 + M)
      simpa [Mgr.new, Kind.perTransfer, Kind.State, Z] using this
    · simp only [Mgr.new, Kind.perTransfer, Nat.mul_one]; rfl
    · simp only [Mgr.new, Mgr.nTrapped, Kind.perTransfer]
      exact cyNTrapped_Z _ _
  | trackTime c =>
    refine ⟨⟨hd, hk, 0, le_rfl, Nat.zero_le _, ?_⟩, Or.inl trivial, ?_⟩
    · have := trackState_zero (K := K) (s := s) (1 + M)
      simpa [Mgr.new, Kind.perTransfer, Kind.State, Z] using this
    · simp only [Mgr.new, Mgr.nTrapped, Kind.perTransfer]
      rw [show List.replicate (1 + M * 1) (zeroRow K s) = Z (1 + M * 1) from rfl, toFillFractions_Z]
      exact cyNTrapped_Z _ _

/-! ### one group per phase -/

/-- The managers of one phase: at most one, within budget; `tr` says whether elapsed times are allowed. -/
def PhaseOk (tr : Prop) (T : K → Prop) (M k : ℕ) (ms : List (Mgr K)) : Prop :=
  ms.length ≤ 1 ∧ ∀ m ∈ ms, MgrOk T M k m ∧ MgrReg m ∧ (m.kind.isTrack → tr)

theorem PhaseOk.mono {tr : Prop} {T : K → Prop} {M k k' : ℕ} {ms : List (Mgr K)} (h : PhaseOk tr T M k ms)
    (hk : k ≤ k') : PhaseOk tr T M k' ms :=
  ⟨h.1, fun m hm => ⟨(h.2 m hm).1.mono hk, (h.2 m hm).2⟩⟩

theorem Mgr.step_isTrack {m m' : Mgr K} {n t net : K} {f : K → K} (h : m.step n t f = .ok (net, m')) :
    m'.kind.isTrack ↔ m.kind.isTrack := by
  obtain ⟨s, dens, kind, wm⟩ := m
  cases kind with
  | slow p =>
    rw [step_slow] at h
    cases hs : slowStep dens (p t) f n wm with
    | error e => rw [hs] at h; cases h
    | ok v => rw [hs] at h; injection h with h; injection h with h1 h2; subst h2; rfl
  | instant p =>
    rw [step_instant] at h
    cases hs : icStep (instantOps dens (p t)) f n wm with
    | error e => rw [hs] at h; cases h
    | ok v => rw [hs] at h; injection h with h; injection h with h1 h2; subst h2; rfl
  | trackTime c =>
    rw [step_track] at h
    cases hs : icStep (trackTimeOps dens c t) f n wm with
    | error e => rw [hs] at h; cases h
    | ok v => rw [hs] at h; injection h with h; injection h with h1 h2; subst h2; rfl

theorem PhaseOk.step {tr : Prop} {T : K → Prop} {M k : ℕ} {ms : List (Mgr K)} (h : PhaseOk tr T M k ms) (hk : k < M)
    {f : K → K} (hf : FillModel f) (hpos : ∀ n, 0 < n → 0 < f n) (n t : K) (ht : T t) (ht0 : 0 ≤ t) (hn : 0 ≤ n) :
    Sat (fun e => tr ∧ e = .typeError)
      (fun o => PhaseOk tr T M (k + 1) o.2 ∧ o.1 = (ms.map Mgr.nTrapped).sum - (o.2.map Mgr.nTrapped).sum ∧ -n ≤ o.1)
      (groupsStep n t f ms) := by
  obtain ⟨h1, h2⟩ := h
  match ms, h1, h2 with
  | [], _, _ =>
    refine ⟨⟨by simp, by simp⟩, by simp, by simpa using hn⟩
  | [m], _, h2 =>
    obtain ⟨g1, g2, g3⟩ := h2 m List.mem_cons_self
    have hs := g1.step hk hf n t ht ht0
    unfold groupsStep
    cases hm : m.step n t f with
    | error e =>
      have := hs.err hm
      exact ⟨g3 this.1, this.2⟩
    | ok v =>
      obtain ⟨net, m'⟩ := v
      obtain ⟨q1, q2, q3, q4⟩ := hs.ok hm
      refine ⟨⟨le_rfl, ?_⟩, ?_, ?_⟩
      · intro x hx
        rcases List.mem_singleton.1 hx with rfl
        exact ⟨q1, q3 hpos g2, fun hx => g3 ((Mgr.step_isTrack hm).1 hx)⟩
      · simp only [List.map_cons, List.map_nil, List.sum_cons, List.sum_nil]
        simp only at q2
        rw [q2]; ring
      · have := q4 hn g2
        simp only at this
        linarith
  | _ :: _ :: _, h1, _ => simp at h1

theorem phaseOk_trapped_nonneg {tr : Prop} {T : K → Prop} {M k : ℕ} {ms : List (Mgr K)} (h : PhaseOk tr T M k ms) :
    0 ≤ (ms.map Mgr.nTrapped).sum := by
  apply List.sum_nonneg
  intro x hx
  obtain ⟨m, hm, rfl⟩ := List.mem_map.1 hx
  exact (h.2 m hm).1.nTrapped_nonneg

/-- What the account needs of the managers of a phase; `F` is what is required of the filling function. -/
structure PhaseInv (tr : Prop) (T : K → Prop) (F : (K → K) → Prop) (PO : ℕ → ℕ → List (Mgr K) → Prop) : Prop where
  mono : ∀ {M k k' ms}, PO M k ms → k ≤ k' → PO M k' ms
  step : ∀ {M k ms}, PO M k ms → k < M → ∀ {f : K → K}, FillModel f → F f → ∀ n t : K, T t → 0 ≤ t → 0 ≤ n →
    Sat (fun e => tr ∧ e = .typeError)
      (fun o => PO M (k + 1) o.2 ∧ o.1 = (ms.map Mgr.nTrapped).sum - (o.2.map Mgr.nTrapped).sum ∧ -n ≤ o.1)
      (groupsStep n t f ms)
  nonneg : ∀ {M k ms}, PO M k ms → 0 ≤ (ms.map Mgr.nTrapped).sum

theorem phaseOk_inv (tr : Prop) (T : K → Prop) : PhaseInv tr T (fun f => ∀ n, 0 < n → 0 < f n) (PhaseOk tr T) where
  mono h hk := h.mono hk
  step h hk _ hf hF n t ht ht0 hn := h.step hk hf hF n t ht ht0 hn
  nonneg h := phaseOk_trapped_nonneg h

/-! ### electrons in a column -/

theorem colSum_set (img : Image K) (r c : ℕ) (v : K) (hr : r < img.nr) :
    colSum (img.set r c v) c = colSum img c + (v - img.px r c) := by
  unfold colSum
  have hr' : r ∈ range img.nr := mem_range.2 hr
  have hnr : (img.set r c v).nr = img.nr := rfl
  rw [hnr, ← Finset.add_sum_erase _ _ hr', ← Finset.add_sum_erase (range img.nr) (fun i => img.px i c) hr']
  have : ∑ x ∈ (range img.nr).erase r, (img.set r c v).px x c = ∑ x ∈ (range img.nr).erase r, img.px x c := by
    refine Finset.sum_congr rfl fun x hx => ?_
    have hne := (Finset.mem_erase.1 hx).1
    simp [Image.set, hne]
  rw [this]
  simp only [Image.set, and_self, if_true]
  ring

/-- The column is not negative and contains `q` electrons. -/
def ColIs (c : ℕ) (R : ℕ) (q : K) (img : Image K) : Prop := img.nr = R ∧ (∀ r < img.nr, 0 ≤ img.px r c) ∧ colSum img c = q

theorem writeBack_col {c R : ℕ} {q : K} {img : Image K} (h : ColIs c R q img) (r : ℤ) (d : K)
    (hd : 0 ≤ d ∨ 0 ≤ img.px r.toNat c + d) :
    Sat (fun e => e = .outOfBounds) (ColIs c R (q + d)) (writeBack img r c d) := by
  obtain ⟨h1, h2, h3⟩ := h
  unfold writeBack
  cases hr : img.read r c with
  | error e =>
    unfold Image.read at hr
    split at hr
    · cases hr
    · injection hr with hr; exact hr.symm
  | ok old =>
    obtain ⟨g1, g2, g3, rfl⟩ := read_ok hr
    have hnn : 0 ≤ img.px r.toNat c + d := by
      rcases hd with hd | hd
      · have := h2 r.toNat (by omega); linarith
      · exact hd
    change ColIs c R (q + d) (img.set r.toNat c _)
    rw [if_neg (not_lt.2 hnn)]
    refine ⟨h1, fun i hi => ?_, ?_⟩
    · unfold Image.set
      simp only
      split
      · exact hnn
      · exact h2 i hi
    · rw [colSum_set _ _ _ _ (by omega), h3]; ring

theorem writeAll_col {c R : ℕ} (row0 : ℤ) (net : K) (hnet : 0 ≤ net) (rel : List (ℤ × K)) (hrel : ∀ x ∈ rel, 0 ≤ x.2) :
    ∀ {q : K} {img : Image K}, ColIs c R q img →
    Sat (fun e => e = .outOfBounds) (ColIs c R (q + net * (rel.map Prod.snd).sum)) (writeAll img row0 c net 1 rel) := by
  induction rel with
  | nil =>
    intro q img h
    change ColIs c R _ img
    simpa using h
  | cons x rel ih =>
    intro q img h
    obtain ⟨off, frac⟩ := x
    unfold writeAll
    have hf : 0 ≤ net * frac * 1 := by
      rw [mul_one]; exact mul_nonneg hnet (hrel _ List.mem_cons_self)
    refine Sat.bind (writeBack_col h _ _ (Or.inl hf)) fun img' h' => ?_
    have := ih (fun y hy => hrel y (List.mem_cons_of_mem _ hy)) h'
    refine this.mono fun i hi => ?_
    rw [List.map_cons, List.sum_cons]
    convert hi using 1
    ring

/-- What the clock sequences fulfil. -/
def PhaseSane (ph : Phase K) : Prop :=
  (ph.isHigh = true → ph.release = [(ph.captureFrom, 1)]) ∧ (ph.release.map Prod.snd).sum = 1 ∧
    ∀ x ∈ ph.release, 0 ≤ x.2

/-- A transfer returns all electrons to the column and leaves no pixel negative. -/
theorem writeAll_phase {c R : ℕ} {q : K} {img : Image K} (h : ColIs c R q img) (row0 : ℤ) (ph : Phase K)
    (hph : PhaseSane ph) (net : K)
    (hnet : -(img.px (row0 + ph.captureFrom).toNat c * (if ph.isHigh then 1 else 0)) ≤ net) :
    Sat (fun e => e = .outOfBounds) (ColIs c R (q + net)) (writeAll img row0 c net 1 ph.release) := by
  obtain ⟨h1, h2, h3⟩ := hph
  by_cases hh : ph.isHigh = true
  · rw [h1 hh]
    rw [if_pos hh, mul_one] at hnet
    unfold writeAll
    refine Sat.bind (writeBack_col h _ _ (Or.inr (by linarith))) fun img' h' => ?_
    simp only [mul_one] at h'
    exact h'
  · rw [if_neg hh, mul_zero, neg_zero] at hnet
    have := writeAll_col row0 net hnet ph.release h3 h
    rw [h2, mul_one] at this
    exact this

/-! ### the invariant -/

theorem trappedIn_set {d : List (List (Mgr K))} {ph : ℕ} {ms ms' : List (Mgr K)} (h : d[ph]? = some ms) :
    trappedIn (d.set ph ms') = trappedIn d + ((ms'.map Mgr.nTrapped).sum - (ms.map Mgr.nTrapped).sum) := by
  induction d generalizing ph with
  | nil => simp at h
  | cons x d ih =>
    cases ph with
    | zero =>
      simp only [List.getElem?_cons_zero, Option.some.injEq] at h
      subst h
      simp only [List.set_cons_zero, trappedIn, List.map_cons, List.sum_cons]; ring
    | succ ph =>
      simp only [List.getElem?_cons_succ] at h
      have := ih h
      unfold trappedIn at this
      simp only [List.set_cons_succ, trappedIn, List.map_cons, List.sum_cons, this]; ring

/-- The account of a column: `Q` electrons in the image or in traps. -/
structure ChargeInv (ns : Prop) (PO : ℕ → ℕ → List (Mgr K) → Prop) (M c R D : ℕ) (Q : K) (u : ℕ → ℕ) (b : ℕ)
    (st : Image K × ATM K) : Prop where
  col : ColIs c R (Q - st.2.previously - st.2.currently) st.1
  len : st.2.data.length = D
  data : ∀ ph ms, st.2.data[ph]? = some ms → PO M (u ph) ms
  effLen : st.2.eff.length = D
  eff : ∀ ms ∈ st.2.eff, PO M b ms
  inSave : st.2.inSave = trappedIn st.2.eff
  noSave : ns → st.2.inSave = 0 ∧ 0 ≤ st.2.previously

variable {PO : ℕ → ℕ → List (Mgr K) → Prop} {F : (K → K) → Prop}

theorem ChargeInv.currently_nonneg {tr ns : Prop} {T : K → Prop} {M c R D : ℕ} {Q : K} {u : ℕ → ℕ} {b : ℕ}
    {st : Image K × ATM K} (h : ChargeInv ns PO M c R D Q u b st) (hPO : PhaseInv tr T F PO) : 0 ≤ st.2.currently := by
  unfold ATM.currently
  apply List.sum_nonneg
  intro x hx
  obtain ⟨ms, hm, rfl⟩ := List.mem_map.1 hx
  obtain ⟨i, hi, rfl⟩ := List.getElem_of_mem hm
  exact hPO.nonneg (h.data i _ (List.getElem?_eq_getElem hi))

/-- Everything the loops look up is there. -/
def Indexed (cfg : ClockCfg K) : Prop :=
  (∀ step ∈ cfg.steps, ∀ phase ∈ cfg.phases, ∃ ph dw, (cfg.clockSeq[step]?.bind fun l => l[phase]?) = some ph ∧
    cfg.dwell[step]? = some dw) ∧
  ∀ k < cfg.expr.nr, ∀ j ∈ monitoredRows cfg k, ∃ w, cfg.rowWindow[j]? = some w

/-- The errors that may occur. -/
def ChargeErr (tr : Prop) (cfg : ClockCfg K) (e : Err) : Prop :=
  e = .outOfBounds ∨ (¬ Indexed cfg ∧ e = .indexError) ∨ (tr ∧ e = .typeError)

/-- What the readout and the CCD have to fulfil. -/
structure UnitCfg (cfg : ClockCfg K) (fill : ℕ → K → K) (D : ℕ) : Prop where
  unit : ∀ k < cfg.expr.nr, ∀ j ∈ monitoredRows cfg k, cfg.expr.e k j = 1
  sane : ∀ (step phase : ℕ) (ph : Phase K), (cfg.clockSeq[step]?.bind fun l => l[phase]?) = some ph → PhaseSane ph
  dwell : ∀ step ∈ cfg.steps, ∀ t, cfg.dwell[step]? = some t → 0 ≤ t
  phases : ∀ ph ∈ cfg.phases, ph < D
  fillModel : ∀ ph ∈ cfg.phases, FillModel (fill ph)
  fillPos : ∀ ph ∈ cfg.phases, ∀ n, 0 < n → 0 < fill ph n

theorem Sat.weaken {α : Type} {E E' : Err → Prop} {Q : α → Prop} {x : Except Err α} (h : Sat E Q x)
    (hE : ∀ e, E e → E' e) : Sat E' Q x := by
  cases x with
  | error e => exact hE e h
  | ok a => exact h

theorem chargeInv_phase {tr ns : Prop} {T : K → Prop} (hPO : PhaseInv tr T F PO) {c R D : ℕ} {Q : K}
    {cfg : ClockCfg K} {fill : ℕ → K → K} (hF : ∀ ph ∈ cfg.phases, F (fill ph))
    (hT : ∀ step ∈ cfg.steps, ∀ t, cfg.dwell[step]? = some t → T t) {M : ℕ}
    (hcfg : UnitCfg cfg fill D) {k : ℕ} (hk : k < cfg.expr.nr) {j : ℕ} (hj : j ∈ monitoredRows cfg k) {step : ℕ}
    (hs : step ∈ cfg.steps) {phase : ℕ} (hp : phase ∈ cfg.phases) (u : ℕ → ℕ) (b : ℕ) (st : Image K × ATM K)
    (h : ChargeInv ns PO M c R D Q u b st) (hu : u phase < M) :
    Sat (ChargeErr tr cfg) (ChargeInv ns PO M c R D Q (bump u phase) b)
      (phaseBody (atmSys fill) cfg c j (cfg.expr.e k j) step st phase) := by
  rw [hcfg.unit k hk j hj]
  unfold phaseBody
  split
  · rename_i ph row0 dwell e1 e2 e3
    cases hr : st.1.read ((row0 : ℤ) + ph.captureFrom) c with
    | error e =>
      left
      unfold Image.read at hr
      split at hr
      · cases hr
      · injection hr with hr; exact hr.symm
    | ok v =>
      obtain ⟨hr1, hr2, -, hv⟩ := read_ok hr
      have hv0 : 0 ≤ v := by rw [hv]; exact h.col.2.1 _ (by omega)
      have hn0 : 0 ≤ v * (if ph.isHigh then (1 : K) else 0) := by
        split
        · simpa using hv0
        · simp
      have hlen : phase < st.2.data.length := by rw [h.len]; exact hcfg.phases phase hp
      have hget : st.2.data[phase]? = some st.2.data[phase] := List.getElem?_eq_getElem hlen
      have hstep := hPO.step (h.data phase _ hget) hu (hcfg.fillModel phase hp) (hF phase hp) _ dwell
        (hT step hs dwell e3) (hcfg.dwell step hs dwell e3) hn0
      change Sat _ _ ((st.2.react phase (v * (if ph.isHigh then (1 : K) else 0)) dwell (fill phase)) >>= _)
      cases hre : st.2.react phase (v * (if ph.isHigh then (1 : K) else 0)) dwell (fill phase) with
      | error e =>
        right; right
        unfold ATM.react at hre
        rw [hget] at hre
        simp only at hre
        cases hg : groupsStep (v * (if ph.isHigh then (1 : K) else 0)) dwell (fill phase) st.2.data[phase] with
        | error e' =>
          rw [hg] at hre
          have : e' = e := by injection hre
          rw [← this]
          exact hstep.err hg
        | ok w => rw [hg] at hre; cases hre
      | ok w =>
        obtain ⟨net, a⟩ := w
        obtain ⟨ms, ms', g1, g2, g3⟩ := ATM.react_data hre
        have hem := ATM.react_emptied hre
        rw [hget] at g1
        have hms : st.2.data[phase] = ms := Option.some.inj g1
        rw [hms] at hget
        rw [hms] at hstep
        obtain ⟨q1, q2, q3⟩ := hstep.ok g2
        simp only at q1 q2 q3
        have hcur : a.currently = st.2.currently - net := by
          rw [q2, g3]
          change trappedIn (st.2.data.set phase ms') = trappedIn st.2.data - _
          rw [trappedIn_set hget]; ring
        have hprev : a.previously = st.2.previously := by rw [g3]
        have heff : a.eff = st.2.eff := ATM.eff_of hem.2 hem.1
        change Sat _ _ (if (1 : K) = 0 then _ else _)
        rw [if_neg one_ne_zero]
        have hw := writeAll_phase h.col (row0 : ℤ) ph (hcfg.sane step phase ph e1) net (by rw [← hv]; exact q3)
        refine Sat.bind (hw.weaken fun e he => Or.inl he) fun img' hi => ?_
        refine ⟨?_, ?_, ?_, ?_, ?_, ?_, ?_⟩
        · simp only [hcur, hprev]
          convert hi using 1; ring
        · simp only [g3, List.length_set]; exact h.len
        · intro q mq hq
          simp only [g3] at hq
          unfold bump
          by_cases hqp : q = phase
          · subst hqp
            rw [List.getElem?_set_self (by omega)] at hq
            rw [← Option.some.inj hq, if_pos rfl]
            exact q1
          · rw [List.getElem?_set_ne (Ne.symm hqp)] at hq
            rw [if_neg hqp]
            exact h.data q mq hq
        · simp only [heff]; exact h.effLen
        · simp only [heff]; exact h.eff
        · simp only [heff]; rw [g3]; exact h.inSave
        · simp only [hprev]; rw [g3]; exact h.noSave
  · rename_i hno
    cases hl : cfg.clockSeq[step]?.bind fun l => l[phase]? with
    | none => exact Or.inl rfl
    | some ph0 =>
    right; left
    refine ⟨fun hidx => ?_, rfl⟩
    obtain ⟨ph, dw, a1, a2⟩ := hidx.1 step hs phase hp
    obtain ⟨w, a3⟩ := hidx.2 k hk j hj
    exact hno ph w dw a1 a3 a2

theorem chargeInv_budget {tr ns : Prop} {T : K → Prop} (hPO : PhaseInv tr T F PO) {N c R D : ℕ} {Q : K}
    {cfg : ClockCfg K} {fill : ℕ → K → K} (hF : ∀ ph ∈ cfg.phases, F (fill ph))
    (hT : ∀ step ∈ cfg.steps, ∀ t, cfg.dwell[step]? = some t → T t) (hcfg : UnitCfg cfg fill D)
    (hns : ns → ∀ k j, cfg.saveMat.e k j = false) :
    BudgetInv (atmSys fill) cfg (ChargeErr tr cfg) N c
      (ChargeInv ns PO (N * cfg.steps.length) c R D Q) where
  phase k hk j hj step hs phase hp u b st h hu := chargeInv_phase hPO hF hT hcfg hk hj hs hp u b st h hu
  save := by
    rintro ⟨k, j, hkj⟩ u b v st h hv
    have heff : (ATM.save st.2).eff = st.2.data := ATM.eff_save _
    refine ⟨h.col, h.len, h.data, ?_, ?_, ?_, ?_⟩
    · change (ATM.save st.2).eff.length = D
      rw [heff]; exact h.len
    · change ∀ ms ∈ (ATM.save st.2).eff, _
      rw [heff]
      intro ms hms
      obtain ⟨i, hi, rfl⟩ := List.getElem_of_mem hms
      exact hPO.mono (h.data i _ (List.getElem?_eq_getElem hi)) (hv i)
    · change (ATM.save st.2).inSave = trappedIn (ATM.save st.2).eff
      rw [heff]; rfl
    · intro hn
      have := hns hn k j
      rw [hkj] at this
      cases this
  restore := by
    intro u b st h
    have heff : (ATM.restore st.2).eff = st.2.eff := ATM.eff_restore _
    have hdata : (ATM.restore st.2).data = st.2.eff := rfl
    have hc : (ATM.restore st.2).currently = trappedIn st.2.eff := rfl
    have hp : (ATM.restore st.2).previously = st.2.previously + (st.2.currently - st.2.inSave) := by
      unfold ATM.restore
      cases st.2.saved <;> rfl
    have hi : (ATM.restore st.2).inSave = st.2.inSave := by
      unfold ATM.restore
      cases st.2.saved <;> rfl
    refine ⟨?_, ?_, ?_, ?_, ?_, ?_, ?_⟩
    · change ColIs c R (Q - (ATM.restore st.2).previously - (ATM.restore st.2).currently) st.1
      rw [hp, hc, ← h.inSave]
      convert h.col using 1; ring
    · change (ATM.restore st.2).data.length = D
      rw [hdata]; exact h.effLen
    · intro ph ms hms
      change (ATM.restore st.2).data[ph]? = some ms at hms
      rw [hdata] at hms
      exact h.eff ms (List.mem_of_getElem? hms)
    · change (ATM.restore st.2).eff.length = D
      rw [heff]; exact h.effLen
    · change ∀ ms ∈ (ATM.restore st.2).eff, _
      rw [heff]; exact h.eff
    · change (ATM.restore st.2).inSave = trappedIn (ATM.restore st.2).eff
      rw [hi, heff]; exact h.inSave
    · intro hn
      obtain ⟨a1, a2⟩ := h.noSave hn
      refine ⟨hi.trans a1, ?_⟩
      change 0 ≤ (ATM.restore st.2).previously
      rw [hp, a1]
      have := h.currently_nonneg hPO
      linarith
  mono u u' b st h hu := ⟨h.col, h.len, fun ph ms hms => hPO.mono (h.data ph ms hms) (hu ph), h.effLen, h.eff, h.inSave,
    h.noSave⟩

/-- The state at the start of a column. -/
theorem chargeInv_new {tr ns : Prop} {T : K → Prop} (hPO : PhaseInv tr T F PO) {M c : ℕ} {img : Image K}
    {groups : List (Group K)} {fr : List K}
    (hnew : ∀ f ∈ fr, PO M 0 (groups.map fun g => Mgr.new (fun j => g.dens j * f) g.kind M))
    (h0 : ∀ r < img.nr, 0 ≤ img.px r c) (u : ℕ → ℕ) :
    ChargeInv ns PO M c img.nr fr.length (colSum img c) u 0 (img, ATM.new groups fr M) := by
  have heff : (ATM.new groups fr M).eff = (ATM.new groups fr M).data := (fresh_new groups fr M).2.1
  have hz : trappedIn (ATM.new groups fr M).data = 0 := by
    rw [← emptied_new groups fr M, trappedIn_emptied]
  have hdata : ∀ ms ∈ (ATM.new groups fr M).data, PO M 0 ms := by
    intro ms hms
    simp only [ATM.new, List.mem_map] at hms
    obtain ⟨f, hf, rfl⟩ := hms
    exact hnew f hf
  refine ⟨?_, ?_, ?_, ?_, ?_, ?_, ?_⟩
  · refine ⟨rfl, h0, ?_⟩
    change _ = colSum img c - 0 - trappedIn (ATM.new groups fr M).data
    rw [hz]; ring
  · simp [ATM.new]
  · intro ph ms hms
    exact hPO.mono (hdata ms (List.mem_of_getElem? hms)) (Nat.zero_le _)
  · change (ATM.new groups fr M).eff.length = _
    rw [heff]; simp [ATM.new]
  · change ∀ ms ∈ (ATM.new groups fr M).eff, _
    rw [heff]; exact hdata
  · change (0 : K) = trappedIn (ATM.new groups fr M).eff
    rw [heff, hz]
  · intro _
    exact ⟨rfl, le_rfl⟩

theorem phaseOk_new {tr : Prop} {T : K → Prop} {M : ℕ} {groups : List (Group K)} {f : K} (hone : groups.length ≤ 1)
    (hg : ∀ g ∈ groups, (∀ j, 0 ≤ g.dens j) ∧ g.kind.Ok T ∧ (g.kind.isTrack → tr)) (hf : 0 ≤ f) :
    PhaseOk tr T M 0 (groups.map fun g => Mgr.new (fun j => g.dens j * f) g.kind M) := by
  refine ⟨by simpa using hone, ?_⟩
  intro m hm
  obtain ⟨g, hgm, rfl⟩ := List.mem_map.1 hm
  obtain ⟨a1, a2, a3⟩ := hg g hgm
  obtain ⟨b1, b2, -⟩ := mgrOk_new (T := T) (fun j => g.dens j * f) g.kind M (fun j => mul_nonneg (a1 j) hf) a2
  exact ⟨b1, b2, a3⟩

end Arctic
