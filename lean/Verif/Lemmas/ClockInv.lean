import Verif.Lemmas.Fold
import Mathlib.Tactic.Linarith

/-!
# Image invariants of the clocking loops, and relations between two runs
-/

set_option linter.unusedSectionVars false
set_option linter.unusedVariables false

namespace Arctic

variable {K : Type} [Field K] [LinearOrder K] {S S' : Type}

/-! ### invariants of the image -/

/-- Row offsets at which electrons are returned. -/
def writeOffsets (seq : List (List (Phase K))) : List ℤ :=
  seq.flatMap fun l => l.flatMap fun p => p.release.map Prod.fst

/-- What the loops may do to an image while working on column `c`: write a non-negative value at a row of
the window shifted by a release offset. -/
def Writable (cfg : ClockCfg K) (c : ℕ) (PI : Image K → Prop) : Prop :=
  ∀ i, PI i → ∀ (r : ℕ) (v : K), r < i.nr → c < i.nc → 0 ≤ v →
    (∃ w ∈ cfg.rowWindow, ∃ off ∈ writeOffsets cfg.clockSeq, (r : ℤ) = w + off) → PI (i.set r c v)

theorem read_ok {img : Image K} {r : ℤ} {c : ℕ} {v : K} (h : img.read r c = .ok v) :
    0 ≤ r ∧ r < img.nr ∧ c < img.nc ∧ v = img.px r.toNat c := by
  unfold Image.read at h
  split at h
  · rename_i hr
    injection h with h
    exact ⟨hr.1, hr.2.1, hr.2.2, h.symm⟩
  · cases h

theorem writeBack_inv (cfg : ClockCfg K) (c : ℕ) (PI : Image K → Prop) (hW : Writable cfg c PI) (w : ℕ)
    (hw : w ∈ cfg.rowWindow) (off : ℤ) (hoff : off ∈ writeOffsets cfg.clockSeq) (delta : K) (i i' : Image K)
    (hi : PI i) (h : writeBack i ((w : ℤ) + off) c delta = .ok i') : PI i' := by
  unfold writeBack at h
  obtain ⟨old, h1, h2⟩ := bind_eq_ok h
  injection h2 with h2
  subst h2
  obtain ⟨g1, g2, g3, -⟩ := read_ok h1
  refine hW i hi _ _ (by omega) g3 ?_ ⟨w, hw, off, hoff, by omega⟩
  split
  · exact le_rfl
  · rename_i hlt; exact not_lt.1 hlt

theorem writeAll_inv (cfg : ClockCfg K) (c : ℕ) (PI : Image K → Prop) (hW : Writable cfg c PI) (w : ℕ)
    (hw : w ∈ cfg.rowWindow) (net mult : K) (rel : List (ℤ × K))
    (hrel : ∀ o ∈ rel, o.1 ∈ writeOffsets cfg.clockSeq) :
    ∀ i i', PI i → writeAll i w c net mult rel = .ok i' → PI i' := by
  induction rel with
  | nil => intro i i' hi h; unfold writeAll at h; injection h with h; exact h ▸ hi
  | cons o rel ih =>
    intro i i' hi h
    obtain ⟨off, frac⟩ := o
    unfold writeAll at h
    obtain ⟨i1, h1, h2⟩ := bind_eq_ok h
    exact ih (fun o ho => hrel o (List.mem_cons_of_mem _ ho)) i1 i'
      (writeBack_inv cfg c PI hW w hw off (hrel _ List.mem_cons_self) _ i i1 hi h1) h2

theorem mem_positiveIndices {l : List K} {i : ℕ} : i ∈ positiveIndices l ↔ i < l.length ∧ 0 < l.getD i 0 := by
  unfold positiveIndices
  rw [List.mem_filter, List.mem_range, decide_eq_true_eq]

theorem mem_writeOffsets {seq : List (List (Phase K))} {step phase : ℕ} {ph : Phase K}
    (h : (seq[step]?.bind fun l => l[phase]?) = some ph) : ∀ o ∈ ph.release, o.1 ∈ writeOffsets seq := by
  intro o ho
  cases h1 : seq[step]? with
  | none => rw [h1] at h; cases h
  | some l =>
    rw [h1] at h
    have h2 : l[phase]? = some ph := h
    unfold writeOffsets
    rw [List.mem_flatMap]
    refine ⟨l, List.mem_of_getElem? h1, ?_⟩
    rw [List.mem_flatMap]
    exact ⟨ph, List.mem_of_getElem? h2, List.mem_map_of_mem ho⟩

theorem phaseBody_inv (sys : TrapSys K S) (cfg : ClockCfg K) (c : ℕ) (PI : Image K → Prop)
    (hW : Writable cfg c PI) (rowIdx : ℕ) (mult : K) (step phase : ℕ) (st st' : Image K × S) (hi : PI st.1)
    (h : phaseBody sys cfg c rowIdx mult step st phase = .ok st') : PI st'.1 := by
  unfold phaseBody at h
  split at h
  · rename_i ph row0 dwell e1 e2 e3
    obtain ⟨v, h1, h⟩ := bind_eq_ok h
    obtain ⟨⟨net, s⟩, h2, h⟩ := bind_eq_ok h
    simp only at h
    split at h
    · injection h with h; subst h; exact hi
    · obtain ⟨i1, h3, h⟩ := bind_eq_ok h
      injection h with h; subst h
      exact writeAll_inv cfg c PI hW row0 (List.mem_of_getElem? e2) net mult ph.release
        (mem_writeOffsets e1) _ _ hi h3
  · cases h

theorem columnBody_inv (sys : TrapSys K S) (cfg : ClockCfg K) (c : ℕ) (PI : Image K → Prop)
    (hW : Writable cfg c PI) (st st' : Image K × S) (hi : PI st.1)
    (h : columnBody sys cfg st c = .ok st') : PI st'.1 := by
  unfold columnBody at h
  obtain ⟨st1, h1, h⟩ := bind_eq_ok h
  injection h with h; subst h
  refine foldlM_inv (fun st : Image K × S => PI st.1) _ _ ?_ st st1 hi h1
  intro k _ s s' hs h
  unfold expressBody at h
  refine foldlM_inv (fun st : Image K × S => PI st.1) _ _ ?_ _ s' ?_ h
  · intro j _ s s' hs h
    unfold rowBody at h
    obtain ⟨st2, h2, h⟩ := bind_eq_ok h
    injection h with h; subst h
    have : PI st2.1 := by
      refine foldlM_inv (fun st : Image K × S => PI st.1) _ _ ?_ s st2 hs h2
      intro step _ s s' hs h
      unfold stepBody at h
      refine foldlM_inv (fun st : Image K × S => PI st.1) _ _ ?_ s s' hs h
      intro phase _ s s' hs h
      exact phaseBody_inv sys cfg c PI hW j _ step phase s s' hs h
    split <;> exact this
  · exact hs

/-- An image property that the permitted writes preserve holds at the end if it holds at the start. -/
theorem clockLoops_inv (sys : TrapSys K S) (cfg : ClockCfg K) (columns : List ℕ) (PI : Image K → Prop)
    (hW : ∀ c ∈ columns, Writable cfg c PI) (st st' : Image K × S) (hi : PI st.1)
    (h : clockLoops sys cfg columns st = .ok st') : PI st'.1 := by
  unfold clockLoops at h
  exact foldlM_inv (fun st : Image K × S => PI st.1) _ _
    (fun c hc s s' hs h => columnBody_inv sys cfg c PI (hW c hc) s s' hs h) st st' hi h

/-! ### invariants of the trap state -/

/-- A property of the trap state that the operations preserve. -/
structure SysInv (sys : TrapSys K S) (PS : S → Prop) : Prop where
  react : ∀ s, PS s → ∀ phase n dwell net s', sys.react s phase n dwell = .ok (net, s') → PS s'
  save : ∀ s, PS s → PS (sys.save s)
  restore : ∀ s, PS s → PS (sys.restore s)

theorem phaseBody_sinv {sys : TrapSys K S} {PS : S → Prop} (hS : SysInv sys PS) (cfg : ClockCfg K) (c : ℕ)
    (rowIdx : ℕ) (mult : K) (step phase : ℕ) (st st' : Image K × S) (hs : PS st.2)
    (h : phaseBody sys cfg c rowIdx mult step st phase = .ok st') : PS st'.2 := by
  unfold phaseBody at h
  split at h
  · obtain ⟨v, h1, h⟩ := bind_eq_ok h
    obtain ⟨⟨net, s⟩, h2, h⟩ := bind_eq_ok h
    have hs' := hS.react _ hs _ _ _ _ _ h2
    simp only at h
    split at h
    · injection h with h; subst h; exact hs'
    · obtain ⟨i1, h3, h⟩ := bind_eq_ok h
      injection h with h; subst h; exact hs'
  · cases h

theorem expressBody_sinv {sys : TrapSys K S} {PS : S → Prop} (hS : SysInv sys PS) (cfg : ClockCfg K) (c k : ℕ)
    (st st' : Image K × S) (hs : PS st.2) (h : expressBody sys cfg c st k = .ok st') : PS st'.2 := by
  unfold expressBody at h
  refine foldlM_inv (fun st : Image K × S => PS st.2) _ _ ?_ _ st' (hS.restore _ hs) h
  intro j _ s s' hs h
  unfold rowBody at h
  obtain ⟨st2, h2, h⟩ := bind_eq_ok h
  injection h with h; subst h
  have : PS st2.2 := by
    refine foldlM_inv (fun st : Image K × S => PS st.2) _ _ ?_ s st2 hs h2
    intro step _ s s' hs h
    unfold stepBody at h
    refine foldlM_inv (fun st : Image K × S => PS st.2) _ _ ?_ s s' hs h
    intro phase _ s s' hs h
    exact phaseBody_sinv hS cfg c j _ step phase s s' hs h
  split
  · exact hS.save _ this
  · exact this

/-! ### joint invariants of image and trap state -/

theorem rowBody_sat {E : Err → Prop} {sys : TrapSys K S} {cfg : ClockCfg K} {c k j : ℕ} (P : Image K × S → Prop)
    (hphase : ∀ step ∈ cfg.steps, ∀ phase ∈ cfg.phases, ∀ st, P st →
      Sat E P (phaseBody sys cfg c j (cfg.expr.e k j) step st phase))
    (hsave : ∀ st, P st → P (st.1, sys.save st.2)) (st : Image K × S) (h : P st) :
    Sat E P (rowBody sys cfg c k st j) := by
  unfold rowBody
  refine Sat.bind (Sat.fold' P _ _ ?_ st h) ?_
  · intro step hstep st h
    unfold stepBody
    exact Sat.fold' P _ _ (fun phase hph st h => hphase step hstep phase hph st h) st h
  · intro st h
    split
    · exact hsave st h
    · exact h

/-- A property that one transfer, saving, restoring and emptying preserve. -/
theorem columnBody_sat {E : Err → Prop} {sys : TrapSys K S} {cfg : ClockCfg K} {c : ℕ} (P : Image K × S → Prop)
    (hphase : ∀ k < cfg.expr.nr, ∀ j ∈ monitoredRows cfg k, ∀ step ∈ cfg.steps, ∀ phase ∈ cfg.phases, ∀ st, P st →
      Sat E P (phaseBody sys cfg c j (cfg.expr.e k j) step st phase))
    (hsave : ∀ st, P st → P (st.1, sys.save st.2)) (hrestore : ∀ st, P st → P (st.1, sys.restore st.2))
    (hempty : ∀ st, P st → P (st.1, sys.emptyAll st.2)) (st : Image K × S) (h : P st) :
    Sat E P (columnBody sys cfg st c) := by
  unfold columnBody
  refine Sat.bind (Sat.fold' P _ _ ?_ st h) ?_
  · intro k hk st h
    unfold expressBody
    exact Sat.fold' P _ _ (fun j hj st h => rowBody_sat P
      (fun step hs phase hp st h => hphase k (List.mem_range.1 hk) j hj step hs phase hp st h) hsave st h) _
      (hrestore st h)
  · intro st h
    have : P (st.1, sys.save (if cfg.emptyBetween then sys.emptyAll st.2 else st.2)) := by
      split
      · exact hsave _ (hempty _ h)
      · exact hsave _ h
    exact this

theorem clockLoops_sat {E : Err → Prop} {sys : TrapSys K S} {cfg : ClockCfg K} {columns : List ℕ}
    (P : Image K × S → Prop)
    (hphase : ∀ c ∈ columns, ∀ k < cfg.expr.nr, ∀ j ∈ monitoredRows cfg k, ∀ step ∈ cfg.steps,
      ∀ phase ∈ cfg.phases, ∀ st, P st → Sat E P (phaseBody sys cfg c j (cfg.expr.e k j) step st phase))
    (hsave : ∀ st, P st → P (st.1, sys.save st.2)) (hrestore : ∀ st, P st → P (st.1, sys.restore st.2))
    (hempty : ∀ st, P st → P (st.1, sys.emptyAll st.2)) (st : Image K × S) (h : P st) :
    Sat E P (clockLoops sys cfg columns st) := by
  unfold clockLoops
  exact Sat.fold' P _ _ (fun c hc st h => columnBody_sat P (hphase c hc) hsave hrestore hempty st h) st h

/-! ### relations between two runs on one column -/

/-- Relation between the images of two runs that work on column `c`. -/
structure ImgRel (c : ℕ) (RI : Image K → Image K → Prop) : Prop where
  read : ∀ i j, RI i j → ∀ r, i.read r c = j.read r c
  set : ∀ i j, RI i j → ∀ r v, RI (i.set r c v) (j.set r c v)

/-- Relation between the trap states: `RS` during a pass, `RS0` between passes. -/
structure SysRel (sys : TrapSys K S) (sys' : TrapSys K S') (RS RS0 : S → S' → Prop) : Prop where
  react : ∀ s t, RS s t → ∀ phase n dwell,
    ExRel (fun a b => a.1 = b.1 ∧ RS a.2 b.2) (sys.react s phase n dwell) (sys'.react t phase n dwell)
  save : ∀ s t, RS s t → RS (sys.save s) (sys'.save t)
  restore : ∀ s t, RS0 s t → RS (sys.restore s) (sys'.restore t)
  weaken : ∀ s t, RS s t → RS0 s t

theorem writeAll_rel {c : ℕ} {RI : Image K → Image K → Prop} (hI : ImgRel c RI) (row0 : ℤ) (net mult : K)
    (rel : List (ℤ × K)) : ∀ i j, RI i j →
    ExRel RI (writeAll i row0 c net mult rel) (writeAll j row0 c net mult rel) := by
  induction rel with
  | nil => intro i j h; exact h
  | cons o rel ih =>
    intro i j h
    obtain ⟨off, frac⟩ := o
    unfold writeAll
    refine ExRel.bind (R := RI) ?_ (fun a b hab => ih a b hab)
    unfold writeBack
    rw [hI.read i j h]
    cases j.read (row0 + off) c with
    | error e => rfl
    | ok old => exact hI.set i j h _ _

theorem phaseBody_rel {sys : TrapSys K S} {sys' : TrapSys K S'} {RS RS0 : S → S' → Prop}
    (hS : SysRel sys sys' RS RS0) {c : ℕ} {RI : Image K → Image K → Prop} (hI : ImgRel c RI) (cfg : ClockCfg K)
    (rowIdx : ℕ) (mult : K) (step phase : ℕ) (st : Image K × S) (st' : Image K × S')
    (h : RI st.1 st'.1 ∧ RS st.2 st'.2) :
    ExRel (fun a b => RI a.1 b.1 ∧ RS a.2 b.2) (phaseBody sys cfg c rowIdx mult step st phase)
      (phaseBody sys' cfg c rowIdx mult step st' phase) := by
  unfold phaseBody
  split
  · rename_i ph row0 dwell e1 e2 e3
    rw [hI.read _ _ h.1]
    refine ExRel.bind (R := fun a b => a = b) (ExRel.refl (fun _ => rfl) _) ?_
    rintro v _ rfl
    refine ExRel.bind (hS.react _ _ h.2 phase _ dwell) ?_
    rintro ⟨net, s⟩ ⟨net', s'⟩ ⟨hn, hs⟩
    simp only at hn hs
    subst hn
    simp only
    split
    · exact ⟨h.1, hs⟩
    · exact ExRel.bind (writeAll_rel hI _ _ _ _ _ _ h.1) fun a b hab => ⟨hab, hs⟩
  · rfl

theorem rowBody_rel {sys : TrapSys K S} {sys' : TrapSys K S'} {RS RS0 : S → S' → Prop}
    (hS : SysRel sys sys' RS RS0) {c : ℕ} {RI : Image K → Image K → Prop} (hI : ImgRel c RI) (cfg : ClockCfg K)
    (k j : ℕ) (st : Image K × S) (st' : Image K × S') (h : RI st.1 st'.1 ∧ RS st.2 st'.2) :
    ExRel (fun a b => RI a.1 b.1 ∧ RS a.2 b.2) (rowBody sys cfg c k st j) (rowBody sys' cfg c k st' j) := by
  unfold rowBody
  refine ExRel.bind (R := fun a b => RI a.1 b.1 ∧ RS a.2 b.2) (foldlM_rel _ _ _ _ ?_ _ _ h) ?_
  · intro step _ s t hst
    unfold stepBody
    exact foldlM_rel _ _ _ _ (fun phase _ s t hst => phaseBody_rel hS hI cfg j _ step phase s t hst) _ _ hst
  · intro a b hab
    split
    · exact ⟨hab.1, hS.save _ _ hab.2⟩
    · exact hab

theorem expressBody_rel {sys : TrapSys K S} {sys' : TrapSys K S'} {RS RS0 : S → S' → Prop}
    (hS : SysRel sys sys' RS RS0) {c : ℕ} {RI : Image K → Image K → Prop} (hI : ImgRel c RI) (cfg : ClockCfg K)
    (k : ℕ) (st : Image K × S) (st' : Image K × S') (h : RI st.1 st'.1 ∧ RS0 st.2 st'.2) :
    ExRel (fun a b => RI a.1 b.1 ∧ RS a.2 b.2) (expressBody sys cfg c st k) (expressBody sys' cfg c st' k) := by
  unfold expressBody
  exact foldlM_rel _ _ _ _ (fun j _ s t hst => rowBody_rel hS hI cfg k j s t hst) _ _
    ⟨h.1, hS.restore _ _ h.2⟩

/-- The passes over one column, before the traps are emptied. -/
theorem passes_rel {sys : TrapSys K S} {sys' : TrapSys K S'} {RS RS0 : S → S' → Prop}
    (hS : SysRel sys sys' RS RS0) {c : ℕ} {RI : Image K → Image K → Prop} (hI : ImgRel c RI) (cfg : ClockCfg K)
    (ks : List ℕ) (st : Image K × S) (st' : Image K × S') (h : RI st.1 st'.1 ∧ RS0 st.2 st'.2) :
    ExRel (fun a b => RI a.1 b.1 ∧ RS0 a.2 b.2) (ks.foldlM (expressBody sys cfg c) st)
      (ks.foldlM (expressBody sys' cfg c) st') :=
  foldlM_rel _ _ _ _ (fun k _ s t hst => (expressBody_rel hS hI cfg k s t hst).mono
    fun a b hab => ⟨hab.1, hS.weaken _ _ hab.2⟩) _ _ h

/-- One column. -/
theorem columnBody_rel {sys : TrapSys K S} {sys' : TrapSys K S'} {RS RS0 : S → S' → Prop}
    (hS : SysRel sys sys' RS RS0) {c : ℕ} {RI : Image K → Image K → Prop} (hI : ImgRel c RI) (cfg : ClockCfg K)
    (RE : S → S' → Prop)
    (hE : ∀ s t, RS0 s t → RE (sys.save (if cfg.emptyBetween then sys.emptyAll s else s))
      (sys'.save (if cfg.emptyBetween then sys'.emptyAll t else t)))
    (st : Image K × S) (st' : Image K × S') (h : RI st.1 st'.1 ∧ RS0 st.2 st'.2) :
    ExRel (fun a b => RI a.1 b.1 ∧ RE a.2 b.2) (columnBody sys cfg st c) (columnBody sys' cfg st' c) := by
  unfold columnBody
  exact ExRel.bind (passes_rel hS hI cfg _ _ _ h) fun a b hab => ⟨hab.1, hE _ _ hab.2⟩

/-- All columns, when the relation between the images is preserved by the work on every column. -/
theorem clockLoops_rel {sys : TrapSys K S} {sys' : TrapSys K S'} {RS RS0 : S → S' → Prop}
    (hS : SysRel sys sys' RS RS0) {RI : Image K → Image K → Prop} (cfg : ClockCfg K) (columns : List ℕ)
    (hI : ∀ c ∈ columns, ImgRel c RI)
    (hE : ∀ s t, RS0 s t → RS0 (sys.save (if cfg.emptyBetween then sys.emptyAll s else s))
      (sys'.save (if cfg.emptyBetween then sys'.emptyAll t else t)))
    (st : Image K × S) (st' : Image K × S') (h : RI st.1 st'.1 ∧ RS0 st.2 st'.2) :
    ExRel (fun a b => RI a.1 b.1 ∧ RS0 a.2 b.2) (clockLoops sys cfg columns st)
      (clockLoops sys' cfg columns st') := by
  unfold clockLoops
  exact foldlM_rel _ _ _ _ (fun c hc s t hst => columnBody_rel hS (hI c hc) cfg RS0 hE s t hst) _ _ h

/-- Equality of the images is such a relation, for every column. -/
theorem imgRel_eq (c : ℕ) : ImgRel (K := K) c (· = ·) :=
  ⟨fun i j h r => by rw [h], fun i j h r v => by rw [h]⟩

/-- Agreement on column `c`. -/
def AgreeOn (c : ℕ) (i j : Image K) : Prop := i.nr = j.nr ∧ (c < i.nc ↔ c < j.nc) ∧ ∀ r, i.px r c = j.px r c

theorem imgRel_agreeOn (c : ℕ) : ImgRel (K := K) c (AgreeOn c) where
  read i j h r := by
    unfold Image.read
    obtain ⟨h1, h2, h3⟩ := h
    rw [h1, h3]
    by_cases hr : 0 ≤ r ∧ r < j.nr
    · by_cases hc : c < j.nc
      · rw [if_pos ⟨hr.1, hr.2, h2.2 hc⟩, if_pos ⟨hr.1, hr.2, hc⟩]
      · rw [if_neg (fun h => hc (h2.1 h.2.2)), if_neg (fun h => hc h.2.2)]
    · rw [if_neg (fun h => hr ⟨h.1, h.2.1⟩), if_neg (fun h => hr ⟨h.1, h.2.1⟩)]
  set i j h r v := by
    obtain ⟨h1, h2, h3⟩ := h
    refine ⟨h1, h2, fun r' => ?_⟩
    unfold Image.set
    simp only [h3]

end Arctic
