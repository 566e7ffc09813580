import Verif.Lemmas.RefClock

/-!
# The clocking loops on reference traps, one phase and one step
-/

set_option linter.unusedSectionVars false
set_option linter.unusedVariables false

namespace Arctic

/-- The image with one column replaced. -/
def withCol (i : Image ℝ) (c : ℕ) (col : ℕ → ℝ) : Image ℝ :=
  { i with px := fun r c' => if c' = c then col r else i.px r c' }

theorem withCol_self (i : Image ℝ) (c : ℕ) : withCol i c (fun r => i.px r c) = i := by
  unfold withCol
  cases i with
  | mk nr nc px =>
    simp only [Image.mk.injEq, true_and]
    funext r c'
    split
    · rename_i h; rw [h]
    · rfl

theorem withCol_set (i : Image ℝ) (c : ℕ) (col : ℕ → ℝ) (w : ℕ) (v : ℝ) :
    (withCol i c col).set w c v = withCol i c (Function.update col w v) := by
  unfold withCol Image.set
  simp only [Image.mk.injEq, true_and]
  funext r c'
  by_cases hc : c' = c
  · by_cases hr : r = w
    · subst hc hr; simp
    · simp [hc, hr]
  · simp [hc]

/-- One step, one phase: the cloud under the phase is captured from and released to. -/
structure OnePhase (cfg : ClockCfg ℝ) (dw : ℝ) : Prop where
  seq : cfg.clockSeq = [[⟨true, 0, [(0, 1)]⟩]]
  dwell : cfg.dwell = [dw]
  steps : cfg.steps = [0]
  phases : cfg.phases = [0]
  noSave : ∀ k j, cfg.saveMat.e k j = false
  between : cfg.emptyBetween = true

theorem capture_empty (t : Ref.Traps) (h a : ℝ) : (t.capture h a).2.empty = t.empty := by
  unfold Ref.Traps.capture
  by_cases hw : t.vacant h ≤ a
  · simp only [if_pos hw]; rfl
  · simp only [if_neg hw]; rfl

theorem transfer_empty (t : Ref.Traps) (f : ℝ → ℝ) (x n : ℝ) : (t.transfer f x n).2.empty = t.empty := by
  unfold Ref.Traps.transfer
  simp only [capture_empty]
  rfl

theorem writeAll_withCol (i : Image ℝ) (c w : ℕ) (hr : w < i.nr) (hc : c < i.nc) (col : ℕ → ℝ) (net mult : ℝ) :
    writeAll (withCol i c col) (w : ℤ) c net mult [(0, 1)] =
      .ok (withCol i c (Function.update col w (max 0 (col w + net * mult)))) := by
  have e1 : (withCol i c col).nr = i.nr := rfl
  have e2 : (withCol i c col).nc = i.nc := rfl
  have e3 : (withCol i c col).px w c = col w := by simp [withCol]
  unfold writeAll writeBack Image.read
  rw [if_pos ⟨by omega, by rw [e1]; omega, by rw [e2]; exact hc⟩]
  simp only [bind, Except.bind, mul_one, add_zero, Int.toNat_natCast, e3]
  unfold writeAll
  rw [withCol_set]
  congr 3
  split
  · rename_i h; exact (max_eq_left h.le).symm
  · rename_i h; exact (max_eq_right (not_lt.1 h)).symm

theorem row_empty (f : ℝ → ℝ) (dw : ℝ) (st : (ℕ → ℝ) × List Ref.Traps) (x : ℕ × ℝ) :
    (Ref.row f dw st x).2.map Ref.Traps.empty = st.2.map Ref.Traps.empty := by
  unfold Ref.row
  simp only [List.map_map]
  exact List.map_congr_left fun t _ => transfer_empty t f dw _

variable {cfg : ClockCfg ℝ} {fill : ℕ → ℝ → ℝ} {dw : ℝ}

theorem refSys_row (h : OnePhase cfg dw) (i : Image ℝ) (c k j w : ℕ) (hw : cfg.rowWindow[j]? = some w) (hr : w < i.nr)
    (hc : c < i.nc) (col : ℕ → ℝ) (ts : List Ref.Traps) (sv : List (List Ref.Traps)) :
    rowBody (refSys fill) cfg c k (withCol i c col, ⟨[ts], sv⟩) j =
      .ok (withCol i c (Ref.row (fill 0) dw (col, ts) (w, cfg.expr.e k j)).1,
        ⟨[(Ref.row (fill 0) dw (col, ts) (w, cfg.expr.e k j)).2], sv⟩) := by
  have e1 : (withCol i c col).nr = i.nr := rfl
  have e2 : (withCol i c col).nc = i.nc := rfl
  have e3 : (withCol i c col).px w c = col w := by simp [withCol]
  have hp : phaseBody (refSys fill) cfg c j (cfg.expr.e k j) 0 (withCol i c col, ⟨[ts], sv⟩) 0 =
      .ok (withCol i c (Ref.row (fill 0) dw (col, ts) (w, cfg.expr.e k j)).1,
        ⟨[(Ref.row (fill 0) dw (col, ts) (w, cfg.expr.e k j)).2], sv⟩) := by
    unfold phaseBody
    rw [h.seq, hw, h.dwell]
    simp only [List.getElem?_cons_zero, Option.bind_some]
    unfold Image.read
    rw [if_pos ⟨by omega, by rw [e1]; omega, by rw [e2]; exact hc⟩]
    simp only [bind, Except.bind, refSys, List.getElem?_cons_zero, List.set_cons_zero, if_true, mul_one, add_zero,
      Int.toNat_natCast, e3]
    unfold Ref.row
    by_cases hm : cfg.expr.e k j = 0
    · simp only [if_pos hm]
    · simp only [if_neg hm]
      rw [writeAll_withCol i c w hr hc]
  unfold rowBody
  rw [h.steps]
  simp only [foldlM_cons, foldlM_nil, stepBody, h.phases]
  rw [hp]
  simp only [bind, Except.bind]
  rw [h.noSave]
  rfl

/-- The rows of pass `k` and how many transfers each stands for. -/
noncomputable def todo (cfg : ClockCfg ℝ) (k : ℕ) : List (ℕ × ℝ) :=
  (monitoredRows cfg k).map fun j => (cfg.rowWindow.getD j 0, cfg.expr.e k j)

theorem refSys_rows (h : OnePhase cfg dw) (i : Image ℝ) (c k : ℕ) (hc : c < i.nc) (l : List ℕ)
    (hl : ∀ j ∈ l, j < cfg.rowWindow.length) (hrows : ∀ w ∈ cfg.rowWindow, w < i.nr) (sv : List (List Ref.Traps)) :
    ∀ (col : ℕ → ℝ) (ts : List Ref.Traps),
    l.foldlM (rowBody (refSys fill) cfg c k) (withCol i c col, ⟨[ts], sv⟩) =
      .ok (withCol i c ((l.map fun j => (cfg.rowWindow.getD j 0, cfg.expr.e k j)).foldl (Ref.row (fill 0) dw)
        (col, ts)).1, ⟨[((l.map fun j => (cfg.rowWindow.getD j 0, cfg.expr.e k j)).foldl (Ref.row (fill 0) dw)
        (col, ts)).2], sv⟩) := by
  induction l with
  | nil => intro col ts; rfl
  | cons j l ih =>
    intro col ts
    have hj := hl j List.mem_cons_self
    have e : cfg.rowWindow.getD j 0 = cfg.rowWindow[j] := List.getD_eq_getElem _ _ hj
    rw [foldlM_cons, refSys_row h i c k j _ (List.getElem?_eq_getElem hj) (hrows _ (List.getElem_mem hj)) hc col ts sv]
    simp only [bind, Except.bind]
    rw [ih (fun j hj => hl j (List.mem_cons_of_mem _ hj))]
    simp only [List.map_cons, List.foldl_cons, e]

theorem foldl_row_empty (f : ℝ → ℝ) (dw : ℝ) (l : List (ℕ × ℝ)) :
    ∀ st : (ℕ → ℝ) × List Ref.Traps, (l.foldl (Ref.row f dw) st).2.map Ref.Traps.empty = st.2.map Ref.Traps.empty := by
  induction l with
  | nil => intro st; rfl
  | cons x l ih => intro st; rw [List.foldl_cons, ih, row_empty]

theorem refSys_passes (h : OnePhase cfg dw) (i : Image ℝ) (c : ℕ) (hc : c < i.nc)
    (hmon : cfg.monitor.nc ≤ cfg.rowWindow.length) (hrows : ∀ w ∈ cfg.rowWindow, w < i.nr) (traps : List Ref.Traps)
    (l : List ℕ) :
    ∀ (col : ℕ → ℝ) (d : List Ref.Traps), d.map Ref.Traps.empty = traps.map Ref.Traps.empty →
    ∃ d', d'.map Ref.Traps.empty = traps.map Ref.Traps.empty ∧
      l.foldlM (expressBody (refSys fill) cfg c) (withCol i c col, ⟨[d], [traps]⟩) =
        .ok (withCol i c (Ref.readout (fill 0) dw traps (l.map (todo cfg)) col), ⟨[d'], [traps]⟩) := by
  induction l with
  | nil => intro col d hd; exact ⟨d, hd, rfl⟩
  | cons k l ih =>
    intro col d hd
    rw [foldlM_cons]
    have : expressBody (refSys fill) cfg c (withCol i c col, ⟨[d], [traps]⟩) k =
        .ok (withCol i c (Ref.pass (fill 0) dw traps col (todo cfg k)),
          ⟨[((todo cfg k).foldl (Ref.row (fill 0) dw) (col, traps)).2], [traps]⟩) := by
      unfold expressBody
      exact refSys_rows h i c k hc (monitoredRows cfg k) (fun j hj => (monitoredRows_lt hj).trans_le hmon) hrows [traps]
        col traps
    rw [this]
    exact ih _ _ (foldl_row_empty _ _ _ _)

theorem refSys_column (h : OnePhase cfg dw) (i : Image ℝ) (c : ℕ) (hc : c < i.nc)
    (hmon : cfg.monitor.nc ≤ cfg.rowWindow.length) (hrows : ∀ w ∈ cfg.rowWindow, w < i.nr) (traps d : List Ref.Traps)
    (ht : traps.map Ref.Traps.empty = traps) (hd : d.map Ref.Traps.empty = traps) :
    columnBody (refSys fill) cfg (i, ⟨[d], [traps]⟩) c =
      .ok (withCol i c (Ref.readout (fill 0) dw traps ((List.range cfg.expr.nr).map (todo cfg)) fun r => i.px r c),
        ⟨[traps], [traps]⟩) := by
  obtain ⟨d', h1, h2⟩ := refSys_passes (fill := fill) h i c hc hmon hrows traps (List.range cfg.expr.nr)
    (fun r => i.px r c) d (hd.trans ht.symm)
  rw [withCol_self] at h2
  unfold columnBody
  rw [h2, h.between]
  simp only [bind, Except.bind, refSys, if_true, List.map_cons, List.map_nil, h1, ht]

/-- The readout of every column of a window. -/
theorem refSys_columns (h : OnePhase cfg dw) (hmon : cfg.monitor.nc ≤ cfg.rowWindow.length) (traps : List Ref.Traps)
    (ht : traps.map Ref.Traps.empty = traps) (columns : List ℕ) :
    ∀ i : Image ℝ, columns.Nodup → (∀ c ∈ columns, c < i.nc) → (∀ w ∈ cfg.rowWindow, w < i.nr) →
    ∃ out, clockLoops (refSys fill) cfg columns (i, ⟨[traps], [traps]⟩) = .ok (out, ⟨[traps], [traps]⟩) ∧
      (∀ r c, out.px r c = if c ∈ columns then Ref.readout (fill 0) dw traps
        ((List.range cfg.expr.nr).map (todo cfg)) (fun r => i.px r c) r else i.px r c) ∧
      out.nr = i.nr ∧ out.nc = i.nc := by
  induction columns with
  | nil => intro i _ _ _; exact ⟨i, rfl, fun r c => by simp, rfl, rfl⟩
  | cons c cs ih =>
    intro i hnd hc hr
    obtain ⟨n1, n2⟩ := List.nodup_cons.1 hnd
    have h1 := refSys_column (fill := fill) h i c (hc c List.mem_cons_self) hmon hr traps traps ht ht
    obtain ⟨out, g1, g2, g3, g4⟩ := ih (withCol i c (Ref.readout (fill 0) dw traps
      ((List.range cfg.expr.nr).map (todo cfg)) fun r => i.px r c)) n2
      (fun c' h' => hc c' (List.mem_cons_of_mem _ h')) hr
    refine ⟨out, ?_, fun r c' => ?_, g3, g4⟩
    · unfold clockLoops at g1 ⊢
      rw [foldlM_cons, h1]
      exact g1
    · rw [g2]
      by_cases hcc : c' = c
      · subst hcc
        simp [n1, withCol]
      · simp [withCol, hcc]

end Arctic
