import Verif.Lemmas.StepColumn
import Verif.Lemmas.FullGentle

/-!
# The clocking loops on traps described by a step function, as long as no pixel is negative
-/

set_option linter.unusedSectionVars false
set_option linter.unusedVariables false

namespace Arctic
open Ref (stepRow stepPass stepReadout)

/-- The trap system follows a step function of the traps of its only phase, for clouds that are not negative. -/
structure StepSysOn {S σ : Type} (sys : TrapSys ℝ S) (dw : ℝ) (put : σ → σ → S) (step : σ → ℝ → ℝ × σ) (emp : σ → σ)
    (Inv : σ → Prop) : Prop where
  react : ∀ s sv n, Inv s → 0 ≤ n → sys.react (put s sv) 0 n dw = .ok ((step s n).1, put (step s n).2 sv)
  inv : ∀ s n, Inv s → Inv (step s n).2
  restore : ∀ s sv, sys.restore (put s sv) = put sv sv
  save : ∀ s sv, sys.save (put s sv) = put s s
  emptyAll : ∀ s sv, sys.emptyAll (put s sv) = put (emp s) sv
  emp : ∀ s n, emp (step s n).2 = emp s

section loops
variable {S σ : Type} {sys : TrapSys ℝ S} {dw : ℝ} {put : σ → σ → S} {step : σ → ℝ → ℝ × σ} {emp : σ → σ} {Inv : σ → Prop}
  {cfg : ClockCfg ℝ}

theorem stepRow_nonneg (x : ℕ × ℝ) (st : (ℕ → ℝ) × σ) (h : ∀ r, 0 ≤ st.1 r) : ∀ r, 0 ≤ (stepRow step st x).1 r := by
  intro r
  unfold stepRow
  simp only
  split
  · exact h r
  · by_cases hr : r = x.1
    · subst hr
      rw [Function.update_self]
      exact le_max_left _ _
    · rw [Function.update_of_ne hr]
      exact h r

theorem stepRows_nonneg (l : List (ℕ × ℝ)) : ∀ st : (ℕ → ℝ) × σ, (∀ r, 0 ≤ st.1 r) →
    ∀ r, 0 ≤ (l.foldl (stepRow step) st).1 r := by
  induction l with
  | nil => intro st h; exact h
  | cons x l ih => intro st h; exact ih _ (stepRow_nonneg x st h)

theorem StepSysOn.row (hy : StepSysOn sys dw put step emp Inv) (h : OnePhase cfg dw) (i : Image ℝ) (c k j w : ℕ)
    (hw : cfg.rowWindow[j]? = some w) (hr : w < i.nr) (hc : c < i.nc) (col : ℕ → ℝ) (hcol : ∀ r, 0 ≤ col r) (s sv : σ)
    (hs : Inv s) :
    rowBody sys cfg c k (withCol i c col, put s sv) j =
      .ok (withCol i c (stepRow step (col, s) (w, cfg.expr.e k j)).1,
        put (stepRow step (col, s) (w, cfg.expr.e k j)).2 sv) := by
  have e1 : (withCol i c col).nr = i.nr := rfl
  have e2 : (withCol i c col).nc = i.nc := rfl
  have e3 : (withCol i c col).px w c = col w := by simp [withCol]
  have hp : phaseBody sys cfg c j (cfg.expr.e k j) 0 (withCol i c col, put s sv) 0 =
      .ok (withCol i c (stepRow step (col, s) (w, cfg.expr.e k j)).1,
        put (stepRow step (col, s) (w, cfg.expr.e k j)).2 sv) := by
    unfold phaseBody
    rw [h.seq, hw, h.dwell]
    simp only [List.getElem?_cons_zero, Option.bind_some]
    unfold Image.read
    rw [if_pos ⟨by omega, by rw [e1]; omega, by rw [e2]; exact hc⟩]
    simp only [bind, Except.bind, if_true, mul_one, add_zero, Int.toNat_natCast, e3, hy.react s sv _ hs (hcol w)]
    unfold stepRow
    by_cases hm : cfg.expr.e k j = 0
    · simp only [if_pos hm]
    · simp only [if_neg hm]
      rw [writeAll_withCol i c w hr hc]
  unfold rowBody
  rw [h.steps]
  simp only [foldlM_cons, foldlM_nil, stepBody, h.phases]
  rw [hp]
  simp only [bind, Except.bind]
  rw [h.noSave]
  rfl

theorem StepSysOn.rows (hy : StepSysOn sys dw put step emp Inv) (h : OnePhase cfg dw) (i : Image ℝ) (c k : ℕ)
    (hc : c < i.nc) (l : List ℕ) (hl : ∀ j ∈ l, j < cfg.rowWindow.length) (hrows : ∀ w ∈ cfg.rowWindow, w < i.nr) (sv : σ) :
    ∀ (col : ℕ → ℝ) (s : σ), (∀ r, 0 ≤ col r) → Inv s →
    l.foldlM (rowBody sys cfg c k) (withCol i c col, put s sv) =
      .ok (withCol i c ((l.map fun j => (cfg.rowWindow.getD j 0, cfg.expr.e k j)).foldl (stepRow step) (col, s)).1,
        put ((l.map fun j => (cfg.rowWindow.getD j 0, cfg.expr.e k j)).foldl (stepRow step) (col, s)).2 sv) := by
  induction l with
  | nil => intro col s _ _; rfl
  | cons j l ih =>
    intro col s hcol hs
    have hj := hl j List.mem_cons_self
    have e : cfg.rowWindow.getD j 0 = cfg.rowWindow[j] := List.getD_eq_getElem _ _ hj
    rw [foldlM_cons, hy.row h i c k j _ (List.getElem?_eq_getElem hj) (hrows _ (List.getElem_mem hj)) hc col hcol s sv hs]
    simp only [bind, Except.bind]
    rw [ih (fun j hj => hl j (List.mem_cons_of_mem _ hj)) _ (stepRow step (col, s) (cfg.rowWindow[j], cfg.expr.e k j)).2
      (stepRow_nonneg _ (col, s) hcol) (hy.inv _ _ hs)]
    simp only [List.map_cons, List.foldl_cons, e]

theorem StepSysOn.emptied (hy : StepSysOn sys dw put step emp Inv) (l : List (ℕ × ℝ)) :
    ∀ st : (ℕ → ℝ) × σ, emp (l.foldl (stepRow step) st).2 = emp st.2 := by
  induction l with
  | nil => intro st; rfl
  | cons x l ih =>
    intro st
    rw [List.foldl_cons, ih]
    exact hy.emp _ _

theorem StepSysOn.passes (hy : StepSysOn sys dw put step emp Inv) (h : OnePhase cfg dw) (i : Image ℝ) (c : ℕ)
    (hc : c < i.nc) (hmon : cfg.monitor.nc ≤ cfg.rowWindow.length) (hrows : ∀ w ∈ cfg.rowWindow, w < i.nr) (s : σ)
    (hs : Inv s) (l : List ℕ) :
    ∀ (col : ℕ → ℝ) (d : σ), (∀ r, 0 ≤ col r) → emp d = emp s →
    ∃ d', emp d' = emp s ∧
      l.foldlM (expressBody sys cfg c) (withCol i c col, put d s) =
        .ok (withCol i c (stepReadout step s (l.map (todo cfg)) col), put d' s) := by
  induction l with
  | nil => intro col d _ hd; exact ⟨d, hd, rfl⟩
  | cons k l ih =>
    intro col d hcol hd
    rw [foldlM_cons]
    have : expressBody sys cfg c (withCol i c col, put d s) k =
        .ok (withCol i c (stepPass step s col (todo cfg k)), put ((todo cfg k).foldl (stepRow step) (col, s)).2 s) := by
      unfold expressBody
      simp only [hy.restore]
      exact hy.rows h i c k hc (monitoredRows cfg k) (fun j hj => (monitoredRows_lt hj).trans_le hmon) hrows s col s hcol hs
    rw [this]
    exact ih _ _ (stepRows_nonneg _ (col, s) hcol) (hy.emptied _ _)

theorem StepSysOn.column (hy : StepSysOn sys dw put step emp Inv) (h : OnePhase cfg dw) (i : Image ℝ) (c : ℕ)
    (hc : c < i.nc) (hmon : cfg.monitor.nc ≤ cfg.rowWindow.length) (hrows : ∀ w ∈ cfg.rowWindow, w < i.nr)
    (hi : ∀ r, 0 ≤ i.px r c) (s : σ) (hI : Inv s) (hs : emp s = s) :
    columnBody sys cfg (i, put s s) c =
      .ok (withCol i c (stepReadout step s ((List.range cfg.expr.nr).map (todo cfg)) fun r => i.px r c), put s s) := by
  obtain ⟨d', h1, h2⟩ := hy.passes h i c hc hmon hrows s hI (List.range cfg.expr.nr) (fun r => i.px r c) s hi rfl
  rw [withCol_self] at h2
  unfold columnBody
  rw [h2, h.between]
  simp only [bind, Except.bind, if_true, hy.emptyAll, h1, hs, hy.save]

/-- The readout of every column of a window. -/
theorem StepSysOn.columns (hy : StepSysOn sys dw put step emp Inv) (h : OnePhase cfg dw)
    (hmon : cfg.monitor.nc ≤ cfg.rowWindow.length) (s : σ) (hI : Inv s) (hs : emp s = s) (columns : List ℕ) :
    ∀ i : Image ℝ, columns.Nodup → (∀ c ∈ columns, c < i.nc) → (∀ w ∈ cfg.rowWindow, w < i.nr) →
      (∀ c ∈ columns, ∀ r, 0 ≤ i.px r c) →
    ∃ out, clockLoops sys cfg columns (i, put s s) = .ok (out, put s s) ∧
      (∀ r c, out.px r c = if c ∈ columns then
        stepReadout step s ((List.range cfg.expr.nr).map (todo cfg)) (fun r => i.px r c) r else i.px r c) ∧
      out.nr = i.nr ∧ out.nc = i.nc := by
  induction columns with
  | nil => intro i _ _ _ _; exact ⟨i, rfl, fun r c => by simp, rfl, rfl⟩
  | cons c cs ih =>
    intro i hnd hc hr h0
    obtain ⟨n1, n2⟩ := List.nodup_cons.1 hnd
    have h1 := hy.column h i c (hc c List.mem_cons_self) hmon hr (h0 c List.mem_cons_self) s hI hs
    obtain ⟨out, g1, g2, g3, g4⟩ := ih (withCol i c (stepReadout step s
      ((List.range cfg.expr.nr).map (todo cfg)) fun r => i.px r c)) n2
      (fun c' h' => hc c' (List.mem_cons_of_mem _ h')) hr (fun c' h' r => by
        have hcc : c' ≠ c := fun e => n1 (e ▸ h')
        simp only [withCol, if_neg hcc]
        exact h0 c' (List.mem_cons_of_mem _ h') r)
    refine ⟨out, ?_, fun r c' => ?_, g3, g4⟩
    · unfold clockLoops at g1 ⊢
      rw [foldlM_cons, h1]
      exact g1
    · rw [g2]
      by_cases hcc : c' = c
      · subst hcc
        simp [n1, withCol]
      · simp [withCol, hcc]

end loops

/-! ### groups of all sorts -/

/-- As traps of all sorts. -/
def Ref.FullTraps.every : Ref.FullTraps → Ref.EveryTraps
  | .inl t => Ref.MixTraps.every t
  | .inr t => .inl (.inr t)

/-- No trap is filled. -/
def Ref.FullTraps.vacate : Ref.FullTraps → Ref.FullTraps
  | .inl t => .inl (Ref.MixTraps.vacate t)
  | .inr t => .inr t.empty

section full
variable {dw L T : ℝ}

theorem full_groups {f : ℝ → ℝ} (hf : LipFill f L) {ts : List Ref.FullTraps} (h : Ref.FullFew dw T ts) (hL : T * L ≤ 1)
    {n : ℝ} (hn : 0 ≤ n) :
    Ref.everySpec.groups n dw f (ts.map Ref.FullTraps.every) =
      .ok ((Ref.fullStep f dw ts n).1, (Ref.fullStep f dw ts n).2.map Ref.FullTraps.every) := by
  induction ts generalizing T with
  | nil => rfl
  | cons t ts ih =>
    obtain ⟨h1, h2, h3⟩ := h.split
    have k1 := mul_nonneg h1.total_nonneg hf.nonneg_slope
    have k2 := mul_nonneg (Ref.fullTotal_nonneg h2.reg) hf.nonneg_slope
    rw [← h3, add_mul] at hL
    rw [List.map_cons]
    unfold TrapSpec.groups
    simp only [ih h2 (by linarith), bind, Except.bind]
    cases t with
    | inl t =>
      cases t with
      | inl t =>
        simp only [Ref.FullTraps.every, Ref.MixTraps.every, Ref.everySpec, Ref.anySpec, Except.map]
        simp [Ref.fullStep, Ref.FullTraps.transfer, Ref.FullTraps.every, Ref.MixTraps.transfer, Ref.MixTraps.every]
      | inr t =>
        simp only [Ref.FullTraps.every, Ref.MixTraps.every, Ref.everySpec]
        simp [Ref.fullStep, Ref.FullTraps.transfer, Ref.FullTraps.every, Ref.MixTraps.transfer, Ref.MixTraps.every]
    | inr t =>
      have hh : t.Reg ∧ 0 ≤ dw := h1
      have hl : t.total * L ≤ 1 := by change t.total * L + _ ≤ 1 at hL; linarith
      simp only [Ref.FullTraps.every, Ref.everySpec, Ref.anySpec, hh.1.transfer_ok hh.2 hf hl hn, Except.map]
      simp [Ref.fullStep, Ref.FullTraps.transfer, Ref.FullTraps.every]

theorem full_stepSys (fill : ℕ → ℝ → ℝ) (hf : LipFill (fill 0) L) (hL : T * L ≤ 1) :
    StepSysOn (Ref.everySpec.sys fill) dw
      (fun s sv : List Ref.FullTraps => ⟨[s.map Ref.FullTraps.every], [sv.map Ref.FullTraps.every]⟩)
      (Ref.fullStep (fill 0) dw) (List.map Ref.FullTraps.vacate) (Ref.FullFew dw T) where
  react s sv n hs hn := by
    simp only [TrapSpec.sys, List.getElem?_cons_zero, full_groups hf hs hL hn, Except.map, List.set_cons_zero]
  inv s n hs := (full_step hf hs hL n).1
  restore s sv := rfl
  save s sv := rfl
  emptyAll s sv := by
    simp only [TrapSpec.sys, List.map_cons, List.map_nil, List.map_map]
    congr 2
    refine List.map_congr_left fun t _ => ?_
    rcases t with (t | t) | t <;> rfl
  emp s n := by
    unfold Ref.fullStep
    simp only [List.map_map]
    refine List.map_congr_left fun t _ => ?_
    rcases t with (t | t) | t
    · exact congrArg (fun t => Sum.inl (Sum.inl t)) (transfer_empty t _ _ _)
    · rfl
    · rfl

end full

end Arctic
