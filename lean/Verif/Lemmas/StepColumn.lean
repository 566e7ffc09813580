import Verif.Lemmas.RefColumn
import Verif.Spec.RefMixed

/-!
# The clocking loops on traps described by a step function, one phase and one step
-/

set_option linter.unusedSectionVars false
set_option linter.unusedVariables false

namespace Arctic
open Ref (stepRow stepPass stepReadout)

/-- The trap system follows a step function of the traps of its only phase. -/
structure StepSys {S σ : Type} (sys : TrapSys ℝ S) (dw : ℝ) (put : σ → σ → S) (step : σ → ℝ → ℝ × σ) (emp : σ → σ) :
    Prop where
  react : ∀ s sv n, sys.react (put s sv) 0 n dw = .ok ((step s n).1, put (step s n).2 sv)
  restore : ∀ s sv, sys.restore (put s sv) = put sv sv
  save : ∀ s sv, sys.save (put s sv) = put s s
  emptyAll : ∀ s sv, sys.emptyAll (put s sv) = put (emp s) sv
  emp : ∀ s n, emp (step s n).2 = emp s

section loops
variable {S σ : Type} {sys : TrapSys ℝ S} {dw : ℝ} {put : σ → σ → S} {step : σ → ℝ → ℝ × σ} {emp : σ → σ}
  {cfg : ClockCfg ℝ}

theorem StepSys.row (hy : StepSys sys dw put step emp) (h : OnePhase cfg dw) (i : Image ℝ) (c k j w : ℕ)
    (hw : cfg.rowWindow[j]? = some w) (hr : w < i.nr) (hc : c < i.nc) (col : ℕ → ℝ) (s sv : σ) :
    rowBody sys cfg c k (withCol i c col, put s sv) j =
      .ok (withCol i c (stepRow step (col, s) (w, cfg.expr.e k j)).1,
        put (stepRow step (col, s) (w, cfg.expr.e k j)).2 sv) := by
  have e1 : (withCol i c col).nr = i.nr := rfl
  have e2 : (withCol i c col).nc = i.nc := rfl
  have e3 : (withCol i c col).px w c = col w := by simp [withCol]
  have hp : phaseBody sys cfg c j (cfg.expr.e k j) 0 (withCol i c col, put s sv) 0 =
      .ok (withCol i c (stepRow step (col, s) (w, cfg.expr.e k j)).1,
        put (stepRow step (col, s) (w, cfg.expr.e k j)).2 sv) := by
    unfold phaseBody
    rw [h.seq, hw, h.dwell]
    simp only [List.getElem?_cons_zero, Option.bind_some]
    unfold Image.read
    rw [if_pos ⟨by omega, by rw [e1]; omega, by rw [e2]; exact hc⟩]
    simp only [bind, Except.bind, if_true, mul_one, add_zero, Int.toNat_natCast, e3, hy.react]
    unfold stepRow
    by_cases hm : cfg.expr.e k j = 0
    · simp only [if_pos hm]
    · simp only [if_neg hm]
      rw [writeAll_withCol i c w hr hc]
  unfold rowBody
  rw [h.steps]
  simp only [foldlM_cons, foldlM_nil, stepBody, h.phases]
  rw [hp]
  simp only [bind, Except.bind]
  rw [h.noSave]
  rfl

theorem StepSys.rows (hy : StepSys sys dw put step emp) (h : OnePhase cfg dw) (i : Image ℝ) (c k : ℕ) (hc : c < i.nc)
    (l : List ℕ) (hl : ∀ j ∈ l, j < cfg.rowWindow.length) (hrows : ∀ w ∈ cfg.rowWindow, w < i.nr) (sv : σ) :
    ∀ (col : ℕ → ℝ) (s : σ),
    l.foldlM (rowBody sys cfg c k) (withCol i c col, put s sv) =
      .ok (withCol i c ((l.map fun j => (cfg.rowWindow.getD j 0, cfg.expr.e k j)).foldl (stepRow step) (col, s)).1,
        put ((l.map fun j => (cfg.rowWindow.getD j 0, cfg.expr.e k j)).foldl (stepRow step) (col, s)).2 sv) := by
  induction l with
  | nil => intro col s; rfl
  | cons j l ih =>
    intro col s
    have hj := hl j List.mem_cons_self
    have e : cfg.rowWindow.getD j 0 = cfg.rowWindow[j] := List.getD_eq_getElem _ _ hj
    rw [foldlM_cons, hy.row h i c k j _ (List.getElem?_eq_getElem hj) (hrows _ (List.getElem_mem hj)) hc col s sv]
    simp only [bind, Except.bind]
    rw [ih (fun j hj => hl j (List.mem_cons_of_mem _ hj))]
    simp only [List.map_cons, List.foldl_cons, e]

theorem StepSys.emptied (hy : StepSys sys dw put step emp) (l : List (ℕ × ℝ)) :
    ∀ st : (ℕ → ℝ) × σ, emp (l.foldl (stepRow step) st).2 = emp st.2 := by
  induction l with
  | nil => intro st; rfl
  | cons x l ih =>
    intro st
    rw [List.foldl_cons, ih]
    exact hy.emp _ _

theorem StepSys.passes (hy : StepSys sys dw put step emp) (h : OnePhase cfg dw) (i : Image ℝ) (c : ℕ) (hc : c < i.nc)
    (hmon : cfg.monitor.nc ≤ cfg.rowWindow.length) (hrows : ∀ w ∈ cfg.rowWindow, w < i.nr) (s : σ) (l : List ℕ) :
    ∀ (col : ℕ → ℝ) (d : σ), emp d = emp s →
    ∃ d', emp d' = emp s ∧
      l.foldlM (expressBody sys cfg c) (withCol i c col, put d s) =
        .ok (withCol i c (stepReadout step s (l.map (todo cfg)) col), put d' s) := by
  induction l with
  | nil => intro col d hd; exact ⟨d, hd, rfl⟩
  | cons k l ih =>
    intro col d hd
    rw [foldlM_cons]
    have : expressBody sys cfg c (withCol i c col, put d s) k =
        .ok (withCol i c (stepPass step s col (todo cfg k)), put ((todo cfg k).foldl (stepRow step) (col, s)).2 s) := by
      unfold expressBody
      simp only [hy.restore]
      exact hy.rows h i c k hc (monitoredRows cfg k) (fun j hj => (monitoredRows_lt hj).trans_le hmon) hrows s col s
    rw [this]
    exact ih _ _ (hy.emptied _ _)

theorem StepSys.column (hy : StepSys sys dw put step emp) (h : OnePhase cfg dw) (i : Image ℝ) (c : ℕ) (hc : c < i.nc)
    (hmon : cfg.monitor.nc ≤ cfg.rowWindow.length) (hrows : ∀ w ∈ cfg.rowWindow, w < i.nr) (s : σ) (hs : emp s = s) :
    columnBody sys cfg (i, put s s) c =
      .ok (withCol i c (stepReadout step s ((List.range cfg.expr.nr).map (todo cfg)) fun r => i.px r c), put s s) := by
  obtain ⟨d', h1, h2⟩ := hy.passes h i c hc hmon hrows s (List.range cfg.expr.nr) (fun r => i.px r c) s rfl
  rw [withCol_self] at h2
  unfold columnBody
  rw [h2, h.between]
  simp only [bind, Except.bind, if_true, hy.emptyAll, h1, hs, hy.save]

/-- The readout of every column of a window. -/
theorem StepSys.columns (hy : StepSys sys dw put step emp) (h : OnePhase cfg dw)
    (hmon : cfg.monitor.nc ≤ cfg.rowWindow.length) (s : σ) (hs : emp s = s) (columns : List ℕ) :
    ∀ i : Image ℝ, columns.Nodup → (∀ c ∈ columns, c < i.nc) → (∀ w ∈ cfg.rowWindow, w < i.nr) →
    ∃ out, clockLoops sys cfg columns (i, put s s) = .ok (out, put s s) ∧
      (∀ r c, out.px r c = if c ∈ columns then
        stepReadout step s ((List.range cfg.expr.nr).map (todo cfg)) (fun r => i.px r c) r else i.px r c) ∧
      out.nr = i.nr ∧ out.nc = i.nc := by
  induction columns with
  | nil => intro i _ _ _; exact ⟨i, rfl, fun r c => by simp, rfl, rfl⟩
  | cons c cs ih =>
    intro i hnd hc hr
    obtain ⟨n1, n2⟩ := List.nodup_cons.1 hnd
    have h1 := hy.column h i c (hc c List.mem_cons_self) hmon hr s hs
    obtain ⟨out, g1, g2, g3, g4⟩ := ih (withCol i c (stepReadout step s
      ((List.range cfg.expr.nr).map (todo cfg)) fun r => i.px r c)) n2
      (fun c' h' => hc c' (List.mem_cons_of_mem _ h')) hr
    refine ⟨out, ?_, fun r c' => ?_, g3, g4⟩
    · unfold clockLoops at g1 ⊢
      rw [foldlM_cons, h1]
      exact g1
    · rw [g2]
      by_cases hcc : c' = c
      · subst hcc
        simp [n1, withCol]
      · simp [withCol, hcc]

/-- Rows outside the passes do not matter. -/
theorem stepReadout_congr (s : σ) (R : ℕ) (passes : List (List (ℕ × ℝ))) :
    (∀ p ∈ passes, ∀ x ∈ p, x.1 < R) → ∀ col col' : ℕ → ℝ, (∀ r < R, col r = col' r) →
    ∀ r < R, stepReadout step s passes col r = stepReadout step s passes col' r := by
  induction passes with
  | nil => intro _ col col' h r hr; exact h r hr
  | cons p ps ih =>
    intro hp col col' h
    have key : ∀ (l : List (ℕ × ℝ)), (∀ x ∈ l, x.1 < R) → ∀ st st' : (ℕ → ℝ) × σ,
        (∀ r < R, st.1 r = st'.1 r) ∧ st.2 = st'.2 →
        ∀ r < R, (l.foldl (stepRow step) st).1 r = (l.foldl (stepRow step) st').1 r := by
      intro l
      induction l with
      | nil => intro _ st st' h r hr; exact h.1 r hr
      | cons x l ih =>
        intro hl st st' h
        refine ih (fun y hy => hl y (List.mem_cons_of_mem _ hy)) _ _ ⟨fun r hr => ?_, ?_⟩
        · unfold stepRow
          simp only [h.1 _ (hl x List.mem_cons_self), h.2]
          split
          · exact h.1 r hr
          · by_cases hrx : r = x.1
            · subst hrx; simp
            · simp [Function.update_of_ne hrx, h.1 r hr]
        · unfold stepRow
          simp only [h.1 _ (hl x List.mem_cons_self), h.2]
    exact ih (fun q hq => hp q (List.mem_cons_of_mem _ hq)) _ _
      (key p (hp p List.mem_cons_self) (col, s) (col', s) ⟨h, rfl⟩)

end loops

/-! ### groups with instant and with slow capture -/

/-- As traps of all sorts. -/
def Ref.MixTraps.every : Ref.MixTraps → Ref.EveryTraps
  | .inl t => .inl (.inl t)
  | .inr t => .inr t

/-- No trap is filled. -/
def Ref.MixTraps.vacate : Ref.MixTraps → Ref.MixTraps
  | .inl t => .inl t.empty
  | .inr t => .inr t.empty

theorem mix_groups (f : ℝ → ℝ) (dw n : ℝ) (ts : List Ref.MixTraps) :
    Ref.everySpec.groups n dw f (ts.map Ref.MixTraps.every) =
      .ok ((Ref.mixStep f dw ts n).1, (Ref.mixStep f dw ts n).2.map Ref.MixTraps.every) := by
  induction ts with
  | nil => rfl
  | cons t ts ih =>
    rw [List.map_cons]
    unfold TrapSpec.groups
    simp only [ih, bind, Except.bind]
    cases t with
    | inl t =>
      simp only [Ref.MixTraps.every, Ref.everySpec, Ref.anySpec, Except.map]
      simp [Ref.mixStep, Ref.MixTraps.transfer, Ref.MixTraps.every]
    | inr t =>
      simp only [Ref.MixTraps.every, Ref.everySpec]
      simp [Ref.mixStep, Ref.MixTraps.transfer, Ref.MixTraps.every]

theorem mix_stepSys (fill : ℕ → ℝ → ℝ) (dw : ℝ) :
    StepSys (Ref.everySpec.sys fill) dw
      (fun s sv : List Ref.MixTraps => ⟨[s.map Ref.MixTraps.every], [sv.map Ref.MixTraps.every]⟩)
      (Ref.mixStep (fill 0) dw) (List.map Ref.MixTraps.vacate) where
  react s sv n := by
    simp only [TrapSpec.sys, List.getElem?_cons_zero, mix_groups, Except.map, List.set_cons_zero]
  restore s sv := rfl
  save s sv := rfl
  emptyAll s sv := by
    simp only [TrapSpec.sys, List.map_cons, List.map_nil, List.map_map]
    congr 2
    refine List.map_congr_left fun t _ => ?_
    cases t <;> rfl
  emp s n := by
    unfold Ref.mixStep
    simp only [List.map_map]
    refine List.map_congr_left fun t _ => ?_
    cases t with
    | inl t => exact congrArg Sum.inl (transfer_empty t _ _ _)
    | inr t => rfl

end Arctic
