import Verif.Lemmas.StepColumnOn
import Verif.Lemmas.FillCongr

/-!
# The clocking loops on traps described by a step function, for a limited number of transfers of large clouds
-/

set_option linter.unusedSectionVars false
set_option linter.unusedVariables false

namespace Arctic
open Ref (stepRow stepPass stepReadout)

/-- The trap system follows a step function of the traps of its only phase, for at most `M` transfers of clouds of at least
`b` electrons; `Inv k` holds after `k` transfers. -/
structure StepSysFrom {S σ : Type} (sys : TrapSys ℝ S) (dw : ℝ) (put : σ → σ → S) (step : σ → ℝ → ℝ × σ) (emp : σ → σ)
    (Inv : ℕ → σ → Prop) (M : ℕ) (b : ℝ) : Prop where
  react : ∀ k s sv n, Inv k s → k < M → b ≤ n → sys.react (put s sv) 0 n dw = .ok ((step s n).1, put (step s n).2 sv)
  inv : ∀ k s n, Inv k s → k < M → b ≤ n → Inv (k + 1) (step s n).2
  restore : ∀ s sv, sys.restore (put s sv) = put sv sv
  save : ∀ s sv, sys.save (put s sv) = put s s
  emptyAll : ∀ s sv, sys.emptyAll (put s sv) = put (emp s) sv
  emp : ∀ k s n, Inv k s → k < M → b ≤ n → emp (step s n).2 = emp s

/-- Every cloud that is transferred has at least `b` electrons at the beginning of the pass. -/
def Stays {σ : Type} (step : σ → ℝ → ℝ × σ) (s : σ) (b : ℝ) : List (List (ℕ × ℝ)) → (ℕ → ℝ) → Prop
  | [], _ => True
  | p :: ps, col => (∀ x ∈ p, b ≤ col x.1) ∧ Stays step s b ps (stepPass step s col p)

section loops
variable {S σ : Type} {sys : TrapSys ℝ S} {dw : ℝ} {put : σ → σ → S} {step : σ → ℝ → ℝ × σ} {emp : σ → σ}
  {Inv : ℕ → σ → Prop} {M : ℕ} {b : ℝ} {cfg : ClockCfg ℝ}

theorem stepRow_other (st : (ℕ → ℝ) × σ) (x : ℕ × ℝ) {r : ℕ} (h : r ≠ x.1) : (stepRow step st x).1 r = st.1 r := by
  unfold stepRow
  simp only
  split
  · rfl
  · exact Function.update_of_ne h _ _

theorem StepSysFrom.row (hy : StepSysFrom sys dw put step emp Inv M b) (h : OnePhase cfg dw) (i : Image ℝ) (c k j w : ℕ)
    (hw : cfg.rowWindow[j]? = some w) (hr : w < i.nr) (hc : c < i.nc) (col : ℕ → ℝ) (hcol : b ≤ col w) (s sv : σ) {u : ℕ}
    (hs : Inv u s) (hu : u < M) :
    rowBody sys cfg c k (withCol i c col, put s sv) j =
      .ok (withCol i c (stepRow step (col, s) (w, cfg.expr.e k j)).1,
        put (stepRow step (col, s) (w, cfg.expr.e k j)).2 sv) := by
  have e1 : (withCol i c col).nr = i.nr := rfl
  have e2 : (withCol i c col).nc = i.nc := rfl
  have e3 : (withCol i c col).px w c = col w := by simp [withCol]
  have hp : phaseBody sys cfg c j (cfg.expr.e k j) 0 (withCol i c col, put s sv) 0 =
      .ok (withCol i c (stepRow step (col, s) (w, cfg.expr.e k j)).1,
        put (stepRow step (col, s) (w, cfg.expr.e k j)).2 sv) := by
    unfold phaseBody
    rw [h.seq, hw, h.dwell]
    simp only [List.getElem?_cons_zero, Option.bind_some]
    unfold Image.read
    rw [if_pos ⟨by omega, by rw [e1]; omega, by rw [e2]; exact hc⟩]
    simp only [bind, Except.bind, if_true, mul_one, add_zero, Int.toNat_natCast, e3, hy.react u s sv _ hs hu hcol]
    unfold stepRow
    by_cases hm : cfg.expr.e k j = 0
    · simp only [if_pos hm]
    · simp only [if_neg hm]
      rw [writeAll_withCol i c w hr hc]
  unfold rowBody
  rw [h.steps]
  simp only [foldlM_cons, foldlM_nil, stepBody, h.phases]
  rw [hp]
  simp only [bind, Except.bind]
  rw [h.noSave]
  rfl

theorem StepSysFrom.rows (hy : StepSysFrom sys dw put step emp Inv M b) (h : OnePhase cfg dw) (i : Image ℝ) (c k : ℕ)
    (hc : c < i.nc) (hrows : ∀ w ∈ cfg.rowWindow, w < i.nr) (sv : σ) (l : List ℕ) :
    ∀ (col : ℕ → ℝ) (s : σ) (u : ℕ), (∀ j ∈ l, j < cfg.rowWindow.length) →
    ((l.map fun j => (cfg.rowWindow.getD j 0, cfg.expr.e k j)).map Prod.fst).Nodup → u + l.length ≤ M →
    (∀ x ∈ l.map fun j => (cfg.rowWindow.getD j 0, cfg.expr.e k j), b ≤ col x.1) → Inv u s →
    l.foldlM (rowBody sys cfg c k) (withCol i c col, put s sv) =
      .ok (withCol i c ((l.map fun j => (cfg.rowWindow.getD j 0, cfg.expr.e k j)).foldl (stepRow step) (col, s)).1,
        put ((l.map fun j => (cfg.rowWindow.getD j 0, cfg.expr.e k j)).foldl (stepRow step) (col, s)).2 sv) ∧
      emp ((l.map fun j => (cfg.rowWindow.getD j 0, cfg.expr.e k j)).foldl (stepRow step) (col, s)).2 = emp s := by
  induction l with
  | nil => intro col s u _ _ _ _ _; exact ⟨rfl, rfl⟩
  | cons j l ih =>
    intro col s u hl hnd hu hcol hs
    have hj := hl j List.mem_cons_self
    have e : cfg.rowWindow.getD j 0 = cfg.rowWindow[j] := List.getD_eq_getElem _ _ hj
    rw [List.length_cons] at hu
    rw [List.map_cons, List.map_cons, List.nodup_cons] at hnd
    have hb : b ≤ col cfg.rowWindow[j] := by
      have := hcol _ (List.mem_map_of_mem (f := fun j => (cfg.rowWindow.getD j 0, cfg.expr.e k j)) List.mem_cons_self)
      rwa [e] at this
    rw [foldlM_cons, hy.row h i c k j _ (List.getElem?_eq_getElem hj) (hrows _ (List.getElem_mem hj)) hc col hb s sv hs
      (by omega)]
    simp only [bind, Except.bind]
    obtain ⟨g1, g2⟩ := ih (stepRow step (col, s) (cfg.rowWindow[j], cfg.expr.e k j)).1
      (stepRow step (col, s) (cfg.rowWindow[j], cfg.expr.e k j)).2 (u + 1) (fun j hj => hl j (List.mem_cons_of_mem _ hj))
      hnd.2 (by omega) (fun x hx => by
        rw [stepRow_other (col, s)]
        · exact hcol x (by rw [List.map_cons]; exact List.mem_cons_of_mem _ hx)
        · intro he
          refine hnd.1 ?_
          simp only at he ⊢
          rw [e, ← he]
          exact List.mem_map_of_mem hx)
      (hy.inv _ _ _ hs (by omega) hb)
    rw [g1]
    simp only [List.map_cons, List.foldl_cons, e]
    exact ⟨trivial, g2.trans (hy.emp u s _ hs (by omega) hb)⟩

theorem StepSysFrom.passes (hy : StepSysFrom sys dw put step emp Inv M b) (h : OnePhase cfg dw) (i : Image ℝ) (c : ℕ)
    (hc : c < i.nc) (hmon : cfg.monitor.nc ≤ cfg.rowWindow.length) (hrows : ∀ w ∈ cfg.rowWindow, w < i.nr) (s : σ)
    (hs : Inv 0 s) (hnd : ∀ k, ((todo cfg k).map Prod.fst).Nodup) (hM : ∀ k, (todo cfg k).length ≤ M) (l : List ℕ) :
    ∀ (col : ℕ → ℝ) (d : σ), Stays step s b (l.map (todo cfg)) col → emp d = emp s →
    ∃ d', emp d' = emp s ∧
      l.foldlM (expressBody sys cfg c) (withCol i c col, put d s) =
        .ok (withCol i c (stepReadout step s (l.map (todo cfg)) col), put d' s) := by
  induction l with
  | nil => intro col d _ hd; exact ⟨d, hd, rfl⟩
  | cons k l ih =>
    intro col d hcol hd
    rw [foldlM_cons]
    have hlen : (monitoredRows cfg k).length ≤ M := by
      have := hM k
      unfold todo at this
      rwa [List.length_map] at this
    obtain ⟨g1, g2⟩ := hy.rows h i c k hc hrows s (monitoredRows cfg k) col s 0
      (fun j hj => (monitoredRows_lt hj).trans_le hmon) (hnd k) (by omega) hcol.1 hs
    have : expressBody sys cfg c (withCol i c col, put d s) k =
        .ok (withCol i c (stepPass step s col (todo cfg k)), put ((todo cfg k).foldl (stepRow step) (col, s)).2 s) := by
      unfold expressBody
      simp only [hy.restore]
      exact g1
    rw [this]
    exact ih _ _ hcol.2 g2

theorem StepSysFrom.column (hy : StepSysFrom sys dw put step emp Inv M b) (h : OnePhase cfg dw) (i : Image ℝ) (c : ℕ)
    (hc : c < i.nc) (hmon : cfg.monitor.nc ≤ cfg.rowWindow.length) (hrows : ∀ w ∈ cfg.rowWindow, w < i.nr)
    (hnd : ∀ k, ((todo cfg k).map Prod.fst).Nodup) (hM : ∀ k, (todo cfg k).length ≤ M) (s : σ)
    (hi : Stays step s b ((List.range cfg.expr.nr).map (todo cfg)) fun r => i.px r c) (hI : Inv 0 s) (hs : emp s = s) :
    columnBody sys cfg (i, put s s) c =
      .ok (withCol i c (stepReadout step s ((List.range cfg.expr.nr).map (todo cfg)) fun r => i.px r c), put s s) := by
  obtain ⟨d', h1, h2⟩ := hy.passes h i c hc hmon hrows s hI hnd hM (List.range cfg.expr.nr) (fun r => i.px r c) s hi rfl
  rw [withCol_self] at h2
  unfold columnBody
  rw [h2, h.between]
  simp only [bind, Except.bind, if_true, hy.emptyAll, h1, hs, hy.save]

/-- The readout of every column of a window. -/
theorem StepSysFrom.columns (hy : StepSysFrom sys dw put step emp Inv M b) (h : OnePhase cfg dw)
    (hmon : cfg.monitor.nc ≤ cfg.rowWindow.length) (hnd : ∀ k, ((todo cfg k).map Prod.fst).Nodup)
    (hM : ∀ k, (todo cfg k).length ≤ M) (s : σ) (hI : Inv 0 s) (hs : emp s = s) (columns : List ℕ) :
    ∀ i : Image ℝ, columns.Nodup → (∀ c ∈ columns, c < i.nc) → (∀ w ∈ cfg.rowWindow, w < i.nr) →
      (∀ c ∈ columns, Stays step s b ((List.range cfg.expr.nr).map (todo cfg)) fun r => i.px r c) →
    ∃ out, clockLoops sys cfg columns (i, put s s) = .ok (out, put s s) ∧
      (∀ r c, out.px r c = if c ∈ columns then
        stepReadout step s ((List.range cfg.expr.nr).map (todo cfg)) (fun r => i.px r c) r else i.px r c) ∧
      out.nr = i.nr ∧ out.nc = i.nc := by
  induction columns with
  | nil => intro i _ _ _ _; exact ⟨i, rfl, fun r c => by simp, rfl, rfl⟩
  | cons c cs ih =>
    intro i hnd' hc hr h0
    obtain ⟨n1, n2⟩ := List.nodup_cons.1 hnd'
    have h1 := hy.column h i c (hc c List.mem_cons_self) hmon hr hnd hM s (h0 c List.mem_cons_self) hI hs
    obtain ⟨out, g1, g2, g3, g4⟩ := ih (withCol i c (stepReadout step s
      ((List.range cfg.expr.nr).map (todo cfg)) fun r => i.px r c)) n2
      (fun c' h' => hc c' (List.mem_cons_of_mem _ h')) hr (fun c' h' => by
        have hcc : c' ≠ c := fun e => n1 (e ▸ h')
        simp only [withCol, if_neg hcc]
        exact h0 c' (List.mem_cons_of_mem _ h'))
    refine ⟨out, ?_, fun r c' => ?_, g3, g4⟩
    · unfold clockLoops at g1 ⊢
      rw [foldlM_cons, h1]
      exact g1
    · rw [g2]
      by_cases hcc : c' = c
      · subst hcc
        simp [n1, withCol]
      · simp [withCol, hcc]

end loops

/-! ### managers without counters -/

/-- Managers as a description of traps. -/
noncomputable def plainSpec : TrapSpec ℝ (Mgr ℝ) where
  step m n x f := m.step n x f
  empty := Mgr.empty

theorem plainSpec_groups (n x : ℝ) (f : ℝ → ℝ) (ms : List (Mgr ℝ)) : plainSpec.groups n x f ms = groupsStep n x f ms := by
  induction ms with
  | nil => rfl
  | cons m ms ih =>
    unfold TrapSpec.groups groupsStep
    rw [ih]
    rfl

theorem atm_plain (fill : ℕ → ℝ → ℝ) :
    SysProj (fun _ => True) (atmSys fill) (plainSpec.sys fill) fun a => ⟨a.data, a.eff⟩ where
  react a ph n dw := by
    change Proj _ _ (a.react ph n dw (fill ph)) _
    cases hr : a.react ph n dw (fill ph) with
    | ok o =>
      have he := ATM.react_emptied hr
      unfold ATM.react at hr
      simp only [Proj, TrapSpec.sys, plainSpec_groups]
      cases hd : a.data[ph]? with
      | none => rw [hd] at hr; cases hr
      | some ms =>
        rw [hd] at hr
        simp only at hr ⊢
        cases hg : groupsStep n dw (fill ph) ms with
        | error e => rw [hg] at hr; cases hr
        | ok q =>
          rw [hg] at hr
          simp only [bind, Except.bind] at hr
          injection hr with hr
          subst hr
          simp only [Except.map]
          have hE := ATM.eff_of he.2 he.1
          simp only at hE
          rw [hE]
    | error e =>
      intro _
      unfold ATM.react at hr
      simp only [TrapSpec.sys, plainSpec_groups]
      cases hd : a.data[ph]? with
      | none => rw [hd] at hr; simpa using hr
      | some ms =>
        rw [hd] at hr
        simp only at hr ⊢
        cases hg : groupsStep n dw (fill ph) ms with
        | error e' => rw [hg] at hr; simpa [bind, Except.bind, Except.map] using hr
        | ok q => rw [hg] at hr; simp [bind, Except.bind] at hr
  save a := rfl
  restore a := by
    change (⟨a.eff, a.eff⟩ : SpecState (Mgr ℝ)) = ⟨a.restore.data, a.restore.eff⟩
    rw [ATM.eff_restore]
    rfl
  emptyAll a := by
    have he : a.emptyAll.eff = a.eff := ATM.eff_of rfl (by rw [ATM.emptied_emptyAll, emptied_emptied])
    change (⟨_, a.eff⟩ : SpecState (Mgr ℝ)) = ⟨_, a.emptyAll.eff⟩
    rw [he]
    rfl

end Arctic
