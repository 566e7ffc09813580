import Verif.Lemmas.ClockInv
import Verif.Lemmas.StepShape

/-!
# Columns are processed independently
-/

set_option linter.unusedSectionVars false
set_option linter.unusedVariables false

namespace Arctic

variable {K : Type} [Field K] [LinearOrder K] [IsStrictOrderedRing K]

/-- The same restored state and the same array sizes. -/
def AtmRel0 (a b : ATM K) : Prop := a.eff = b.eff ∧ emptied a.data = emptied b.data

/-- The same current and restored state. -/
def AtmRel (a b : ATM K) : Prop := a.data = b.data ∧ a.eff = b.eff

theorem ATM.eff_of {a a' : ATM K} (h : a'.saved = a.saved) (he : emptied a'.data = emptied a.data) :
    a'.eff = a.eff := by
  cases hs : a.saved with
  | none => rw [ATM.eff_none hs, ATM.eff_none (h.trans hs), he]
  | some d => rw [ATM.eff_some hs, ATM.eff_some (h.trans hs)]

theorem ATM.eff_save (a : ATM K) : a.save.eff = a.data := ATM.eff_some rfl

theorem ATM.restore_saved (a : ATM K) : a.restore.saved = a.saved := by
  unfold ATM.restore
  cases h : a.saved <;> simp [ATM.emptyAll]

theorem ATM.emptied_emptyAll (a : ATM K) : a.emptyAll.data = emptied a.data := rfl

theorem ATM.eff_restore (a : ATM K) : a.restore.eff = a.eff := by
  cases h : a.saved with
  | none =>
    rw [ATM.eff_none (a.restore_saved.trans h)]
    change emptied a.eff = a.eff
    rw [ATM.eff_none h, emptied_emptied]
  | some d => rw [ATM.eff_some h, ATM.eff_some (a.restore_saved.trans h)]

theorem atmSysRel (fill : ℕ → K → K) : SysRel (atmSys fill) (atmSys fill) (AtmRel (K := K)) AtmRel0 where
  react s t h ph n dw := by
    obtain ⟨h1, h2⟩ := h
    change ExRel _ (s.react ph n dw (fill ph)) (t.react ph n dw (fill ph))
    cases hs : s.react ph n dw (fill ph) with
    | error e =>
      cases ht : t.react ph n dw (fill ph) with
      | error e' =>
        unfold ATM.react at hs ht
        rw [h1] at hs
        split at hs
        · rename_i hn; rw [hn] at ht; injection hs with hs; injection ht with ht; exact hs.symm.trans ht
        · rename_i ms hms
          rw [hms] at ht
          simp only at ht
          cases hg : groupsStep n dw (fill ph) ms with
          | error e2 => rw [hg] at hs ht; injection hs with hs; injection ht with ht; exact hs.symm.trans ht
          | ok v => rw [hg] at hs; cases hs
      | ok v =>
        obtain ⟨ms, ms', g1, g2, g3⟩ := ATM.react_data ht
        unfold ATM.react at hs
        rw [h1, g1] at hs
        simp only [g2] at hs
        cases hs
    | ok v =>
      obtain ⟨net, s'⟩ := v
      obtain ⟨ms, ms', g1, g2, g3⟩ := ATM.react_data hs
      have ht : t.react ph n dw (fill ph) = .ok (net, { t with data := t.data.set ph ms' }) := by
        unfold ATM.react
        rw [← h1, g1]
        simp only [g2]
        rfl
      rw [ht]
      have e1 := ATM.react_emptied hs
      have e2 := ATM.react_emptied ht
      refine ⟨rfl, ?_, ?_⟩
      · rw [g3]; simp only [h1]
      · rw [ATM.eff_of e1.2 e1.1, h2, ← ATM.eff_of e2.2 e2.1]
  save s t h := ⟨h.1, by
    change s.save.eff = t.save.eff
    rw [ATM.eff_save, ATM.eff_save, h.1]⟩
  restore s t h := ⟨h.1, by
    change s.restore.eff = t.restore.eff
    rw [ATM.eff_restore, ATM.eff_restore, h.1]⟩
  weaken s t h := ⟨h.2, by rw [h.1]⟩

/-- The sizes never change. -/
theorem atmSysInv (fill : ℕ → K → K) (D : List (List (Mgr K))) :
    SysInv (atmSys fill) (fun a => emptied a.data = D ∧ emptied a.eff = D) where
  react s h ph n dw net s' hr := by
    have := ATM.react_emptied hr
    rw [this.1, ATM.eff_of this.2 this.1]
    exact h
  save s h := by
    change emptied s.data = D ∧ emptied s.save.eff = D
    rw [ATM.eff_save]; exact ⟨h.1, h.1⟩
  restore s h := by
    change emptied s.eff = D ∧ emptied s.restore.eff = D
    rw [ATM.eff_restore]; exact ⟨h.2, h.2⟩

/-- A state in which every restore gives empty traps, of sizes `D`. -/
def Fresh (D : List (List (Mgr K))) (a : ATM K) : Prop := emptied a.data = D ∧ a.eff = D ∧ emptied D = D

theorem fresh_new (groups : List (Group K)) (fr : List K) (N : ℕ) :
    Fresh (ATM.new groups fr N).data (ATM.new groups fr N) :=
  ⟨emptied_new _ _ _, (ATM.eff_none rfl).trans (emptied_new _ _ _), emptied_new _ _ _⟩

theorem Fresh.rel {D : List (List (Mgr K))} {a b : ATM K} (ha : Fresh D a) (hb : Fresh D b) : AtmRel0 a b :=
  ⟨ha.2.1.trans hb.2.1.symm, ha.1.trans hb.1.symm⟩

/-- With `empty_traps_between_columns` every column starts afresh. -/
theorem columnBody_fresh (fill : ℕ → K → K) (cfg : ClockCfg K) (hb : cfg.emptyBetween = true)
    {D : List (List (Mgr K))} {st st' : Image K × ATM K} {c : ℕ} (hs : Fresh D st.2)
    (h : columnBody (atmSys fill) cfg st c = .ok st') : Fresh D st'.2 := by
  unfold columnBody at h
  obtain ⟨st1, h1, h⟩ := bind_eq_ok h
  injection h with h
  subst h
  have := foldlM_inv (fun st : Image K × ATM K => emptied st.2.data = D ∧ emptied st.2.eff = D) _ _
    (fun k _ s s' hs h => expressBody_sinv (atmSysInv fill D) cfg c k s s' hs h) st st1
    ⟨hs.1, by rw [hs.2.1, hs.2.2]⟩ h1
  simp only [hb, if_true]
  change Fresh D (ATM.save (ATM.emptyAll st1.2))
  refine ⟨?_, ?_, hs.2.2⟩
  · change emptied (emptied st1.2.data) = D
    rw [emptied_emptied, this.1]
  · rw [ATM.eff_save, ATM.emptied_emptyAll, this.1]

/-- Only column `c` is touched. -/
def SameExcept (c : ℕ) (i j : Image K) : Prop :=
  i.nr = j.nr ∧ i.nc = j.nc ∧ ∀ r c', c' ≠ c → i.px r c' = j.px r c'

theorem columnBody_frame {S : Type} (sys : TrapSys K S) (cfg : ClockCfg K) {st st' : Image K × S} {c : ℕ}
    (h : columnBody sys cfg st c = .ok st') : SameExcept c st'.1 st.1 := by
  refine columnBody_inv sys cfg c (fun i => SameExcept c i st.1) ?_ st st' ⟨rfl, rfl, fun _ _ _ => rfl⟩ h
  intro i hi r v _ _ _ _
  refine ⟨hi.1, hi.2.1, fun r' c' hc => ?_⟩
  unfold Image.set
  simp only [hc, and_false, if_false]
  exact hi.2.2 r' c' hc

theorem clockLoops_frame {S : Type} (sys : TrapSys K S) (cfg : ClockCfg K) {st st' : Image K × S}
    {columns : List ℕ} (h : clockLoops sys cfg columns st = .ok st') :
    st'.1.nr = st.1.nr ∧ st'.1.nc = st.1.nc ∧ ∀ r c, c ∉ columns → st'.1.px r c = st.1.px r c := by
  refine clockLoops_inv sys cfg columns
    (fun i => i.nr = st.1.nr ∧ i.nc = st.1.nc ∧ ∀ r c, c ∉ columns → i.px r c = st.1.px r c) ?_ st st'
    ⟨rfl, rfl, fun _ _ _ => rfl⟩ h
  intro c hc i hi r v _ _ _ _
  refine ⟨hi.1, hi.2.1, fun r' c' hc' => ?_⟩
  unfold Image.set
  have : c' ≠ c := fun h => hc' (h ▸ hc)
  simp only [this, and_false, if_false]
  exact hi.2.2 r' c' hc'

theorem SameExcept.agree {c c' : ℕ} {i j : Image K} (h : SameExcept c i j) (hc : c' ≠ c) : AgreeOn c' i j :=
  ⟨h.1, by rw [h.2.1], fun r => h.2.2 r c' hc⟩

theorem AgreeOn.symm {c : ℕ} {i j : Image K} (h : AgreeOn c i j) : AgreeOn c j i :=
  ⟨h.1.symm, h.2.1.symm, fun r => (h.2.2 r).symm⟩

theorem AgreeOn.trans {c : ℕ} {i j k : Image K} (h : AgreeOn c i j) (h' : AgreeOn c j k) : AgreeOn c i k :=
  ⟨h.1.trans h'.1, h.2.1.trans h'.2.1, fun r => (h.2.2 r).trans (h'.2.2 r)⟩

/-- One column, starting from two fresh states and images that agree on it. -/
theorem column_agree (fill : ℕ → K → K) (cfg : ClockCfg K) {D : List (List (Mgr K))} {i j : Image K}
    {a b : ATM K} {c : ℕ} (hi : AgreeOn c i j) (ha : Fresh D a) (hb : Fresh D b) :
    ExRel (fun x y => AgreeOn c x.1 y.1) (columnBody (atmSys fill) cfg (i, a) c)
      (columnBody (atmSys fill) cfg (j, b) c) :=
  (columnBody_rel (atmSysRel fill) (imgRel_agreeOn c) cfg (fun _ _ => True) (fun _ _ _ => trivial)
    (i, a) (j, b) ⟨hi, ha.rel hb⟩).mono fun _ _ h => h.1

theorem clockLoops_cons {S : Type} (sys : TrapSys K S) (cfg : ClockCfg K) (c : ℕ) (cs : List ℕ)
    (st : Image K × S) :
    clockLoops sys cfg (c :: cs) st = columnBody sys cfg st c >>= fun st' => clockLoops sys cfg cs st' :=
  foldlM_cons _ _ _ _

theorem clockLoops_single {S : Type} (sys : TrapSys K S) (cfg : ClockCfg K) (c : ℕ) (st : Image K × S) :
    clockLoops sys cfg [c] st = columnBody sys cfg st c := by
  rw [clockLoops_cons]
  cases columnBody sys cfg st c <;> rfl

/-- Processing a list of columns gives each of them what processing it alone gives. -/
theorem columns_split (fill : ℕ → K → K) (cfg : ClockCfg K) (hb : cfg.emptyBetween = true)
    {D : List (List (Mgr K))} {columns : List ℕ} (hnd : columns.Nodup) :
    ∀ {img : Image K} {a : ATM K} {out : Image K × ATM K}, Fresh D a →
      clockLoops (atmSys fill) cfg columns (img, a) = .ok out → ∀ {b : ATM K}, Fresh D b → ∀ c ∈ columns,
      ∃ o, clockLoops (atmSys fill) cfg [c] (img, b) = .ok o ∧ AgreeOn c o.1 out.1 := by
  induction columns with
  | nil => intro img a out _ _ b _ c hc; cases hc
  | cons c0 cs ih =>
    intro img a out ha h b hbf c hc
    rw [clockLoops_cons] at h
    obtain ⟨st1, h1, h2⟩ := bind_eq_ok h
    obtain ⟨hn1, hn2⟩ := List.nodup_cons.1 hnd
    have hf := columnBody_fresh fill cfg hb (st := (img, a)) ha h1
    have hframe := columnBody_frame _ cfg h1
    rcases List.mem_cons.1 hc with rfl | hc
    · have hrel := column_agree fill cfg (i := img) (j := img) (c := c) ⟨rfl, Iff.rfl, fun _ => rfl⟩ ha hbf
      obtain ⟨o, g1, g2⟩ := hrel.ok_left h1
      refine ⟨o, by rw [clockLoops_single]; exact g1, ?_⟩
      obtain ⟨f1, f2, f3⟩ := clockLoops_frame _ cfg h2
      exact g2.symm.trans ⟨f1.symm, by rw [f2], fun r => (f3 r c hn1).symm⟩
    · obtain ⟨o, g1, g2⟩ := ih hn2 hf h2 hbf c hc
      rw [clockLoops_single] at g1
      have hne : c ≠ c0 := fun h => hn1 (h ▸ hc)
      have hrel := column_agree fill cfg (i := st1.1) (j := img) (c := c)
        (hframe.agree hne) hbf hbf
      obtain ⟨o', g3, g4⟩ := hrel.ok_left g1
      exact ⟨o', by rw [clockLoops_single]; exact g3, g4.symm.trans g2⟩

/-- If every column can be processed alone then the list can be processed. -/
theorem columns_join (fill : ℕ → K → K) (cfg : ClockCfg K) (hb : cfg.emptyBetween = true)
    {D : List (List (Mgr K))} {columns : List ℕ} (hnd : columns.Nodup) :
    ∀ {img : Image K} {a b : ATM K}, Fresh D a → Fresh D b →
      (∀ c ∈ columns, ∃ o, clockLoops (atmSys fill) cfg [c] (img, b) = .ok o) →
      ∃ out, clockLoops (atmSys fill) cfg columns (img, a) = .ok out := by
  induction columns with
  | nil => intro img a b _ _ _; exact ⟨_, rfl⟩
  | cons c0 cs ih =>
    intro img a b ha hbf h
    obtain ⟨hn1, hn2⟩ := List.nodup_cons.1 hnd
    obtain ⟨o0, h0⟩ := h c0 List.mem_cons_self
    rw [clockLoops_single] at h0
    have hrel := column_agree fill cfg (i := img) (j := img) (c := c0) ⟨rfl, Iff.rfl, fun _ => rfl⟩ ha hbf
    obtain ⟨st1, h1, -⟩ := hrel.ok_right h0
    have hf := columnBody_fresh fill cfg hb (st := (img, a)) ha h1
    have hframe := columnBody_frame _ cfg h1
    obtain ⟨out, h2⟩ := ih hn2 (img := st1.1) (a := st1.2) (b := b) hf hbf (by
      intro c hc
      obtain ⟨o, g⟩ := h c (List.mem_cons_of_mem _ hc)
      rw [clockLoops_single] at g
      have hne : c ≠ c0 := fun h => hn1 (h ▸ hc)
      have hrel := column_agree fill cfg (i := st1.1) (j := img) (c := c) (hframe.agree hne) hbf hbf
      obtain ⟨o', g3, -⟩ := hrel.ok_right g
      exact ⟨o', by rw [clockLoops_single]; exact g3⟩)
    refine ⟨out, ?_⟩
    rw [clockLoops_cons, h1]
    exact h2

/-- Unfold a successful call. -/
theorem clockCharge_ok {img : Image K} {ccd : CcdView K} {roe : Roe K} {groups : List (Group K)} {e o : ℕ}
    {rows columns : List ℕ} {tw : Option (List ℕ)} {out : Image K} {roe' : Roe K}
    (h : clockCharge img ccd roe groups e o rows columns tw = .ok (out, roe')) :
    ∃ cfg st, clockCfg roe ccd e o rows tw = .ok (cfg, roe') ∧
      clockLoops (atmSys ccd.fill) cfg columns (img.pad (nPadding roe.accessed),
        ATM.new groups ccd.fractions (maxNTransfers roe cfg)) = .ok st ∧
      out = st.1.unpad (nPadding roe.accessed) := by
  unfold clockCharge at h
  obtain ⟨⟨cfg, roe1⟩, h1, h⟩ := bind_eq_ok h
  simp only at h
  obtain ⟨st, h2, h⟩ := bind_eq_ok h
  injection h with h
  injection h with h3 h4
  subst h3 h4
  exact ⟨cfg, st, h1, h2, rfl⟩

theorem clockCharge_of {img : Image K} {ccd : CcdView K} {roe : Roe K} {groups : List (Group K)} {e o : ℕ}
    {rows columns : List ℕ} {tw : Option (List ℕ)} {roe' : Roe K} {cfg : ClockCfg K} {st : Image K × ATM K}
    (h1 : clockCfg roe ccd e o rows tw = .ok (cfg, roe'))
    (h2 : clockLoops (atmSys ccd.fill) cfg columns (img.pad (nPadding roe.accessed),
        ATM.new groups ccd.fractions (maxNTransfers roe cfg)) = .ok st) :
    clockCharge img ccd roe groups e o rows columns tw = .ok (st.1.unpad (nPadding roe.accessed), roe') := by
  unfold clockCharge
  rw [h1]
  change (clockLoops (atmSys ccd.fill) cfg columns (img.pad (nPadding roe.accessed),
        ATM.new groups ccd.fractions (maxNTransfers roe cfg)) >>= fun (x : Image K × ATM K) =>
          Except.ok (x.1.unpad (nPadding roe.accessed), roe')) = _
  rw [h2]
  rfl

/-- The fields of the configuration that do not depend on the matrices. -/
theorem clockCfg_fields {roe roe' : Roe K} {ccd : CcdView K} {e o : ℕ} {rows : List ℕ} {tw : Option (List ℕ)}
    {cfg : ClockCfg K} (h : clockCfg roe ccd e o rows tw = .ok (cfg, roe')) :
    roe.express rows e o tw = .ok (cfg.expr, cfg.monitor, roe') ∧ roe.save cfg.expr = .ok cfg.saveMat ∧
    cfg.clockSeq = roe.clockSequence ∧ cfg.dwell = roe.dwell ∧ cfg.steps = positiveIndices roe.dwell ∧
      cfg.phases = positiveIndices ccd.fractions ∧ cfg.rowWindow = rows ∧ cfg.emptyBetween = roe.emptyBetween := by
  unfold clockCfg at h
  obtain ⟨⟨m, mon, roe1⟩, h1, h⟩ := bind_eq_ok h
  simp only at h
  obtain ⟨sv, h2, h⟩ := bind_eq_ok h
  injection h with h
  injection h with h3 h4
  subst h3 h4
  exact ⟨h1, h2, rfl, rfl, rfl, rfl, rfl, rfl⟩

end Arctic
