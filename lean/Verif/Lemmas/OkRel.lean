import Verif.Lemmas.ClockInv
import Verif.Lemmas.MgrRel

/-!
# Two runs that both succeed or both raise

As `ExRel` and `SysRel`, but the exceptions may be different ones.
-/

set_option linter.unusedSectionVars false
set_option linter.unusedVariables false

namespace Arctic

variable {K : Type} [Field K] [LinearOrder K] [IsStrictOrderedRing K] {S S' α β σ τ : Type}

/-- Two computations both end with an exception or with related values. -/
def OkRel (R : α → β → Prop) : Except Err α → Except Err β → Prop
  | .ok a, .ok b => R a b
  | .error _, .error _ => True
  | _, _ => False

theorem OkRel.bind {α' β' : Type} {R : α → β → Prop} {R' : α' → β' → Prop} {x : Except Err α}
    {y : Except Err β} {f : α → Except Err α'} {g : β → Except Err β'} (h : OkRel R x y)
    (hfg : ∀ a b, R a b → OkRel R' (f a) (g b)) : OkRel R' (x >>= f) (y >>= g) := by
  cases x <;> cases y
  · exact h
  · exact h.elim
  · exact h.elim
  · exact hfg _ _ h

theorem OkRel.mono {R R' : α → β → Prop} (hR : ∀ a b, R a b → R' a b) {x : Except Err α} {y : Except Err β}
    (h : OkRel R x y) : OkRel R' x y := by
  cases x <;> cases y
  · exact h
  · exact h.elim
  · exact h.elim
  · exact hR _ _ h

theorem OkRel.refl {R : α → α → Prop} (hR : ∀ a, R a a) (x : Except Err α) : OkRel R x x := by
  cases x
  · trivial
  · exact hR _

theorem OkRel.trans {γ : Type} {R : α → β → Prop} {R' : β → γ → Prop} {R'' : α → γ → Prop}
    (hR : ∀ a b c, R a b → R' b c → R'' a c) {x : Except Err α} {y : Except Err β} {z : Except Err γ}
    (h : OkRel R x y) (h' : OkRel R' y z) : OkRel R'' x z := by
  cases x <;> cases y <;> cases z <;> first | trivial | exact h.elim | exact h'.elim | exact hR _ _ _ h h'

theorem foldlM_okRel (R : σ → τ → Prop) (f : σ → α → Except Err σ) (g : τ → α → Except Err τ) (l : List α)
    (h : ∀ a ∈ l, ∀ s t, R s t → OkRel R (f s a) (g t a)) :
    ∀ s t, R s t → OkRel R (l.foldlM f s) (l.foldlM g t) := by
  induction l with
  | nil => intro s t hR; exact hR
  | cons a l ih =>
    intro s t hR
    rw [foldlM_cons, foldlM_cons]
    exact (h a List.mem_cons_self s t hR).bind fun s' t' hR' =>
      ih (fun b hb => h b (List.mem_cons_of_mem _ hb)) s' t' hR'

/-- Relation between the trap states: `RS` during a pass, `RS0` between passes. -/
structure SysOk (sys : TrapSys K S) (sys' : TrapSys K S') (RS RS0 : S → S' → Prop) : Prop where
  react : ∀ s t, RS s t → ∀ phase n dwell,
    OkRel (fun a b => a.1 = b.1 ∧ RS a.2 b.2) (sys.react s phase n dwell) (sys'.react t phase n dwell)
  save : ∀ s t, RS s t → RS (sys.save s) (sys'.save t)
  restore : ∀ s t, RS0 s t → RS (sys.restore s) (sys'.restore t)
  weaken : ∀ s t, RS s t → RS0 s t

theorem writeAll_okRel {c : ℕ} {RI : Image K → Image K → Prop} (hI : ImgRel c RI) (row0 : ℤ) (net mult : K)
    (rel : List (ℤ × K)) : ∀ i j, RI i j →
    OkRel RI (writeAll i row0 c net mult rel) (writeAll j row0 c net mult rel) := by
  induction rel with
  | nil => intro i j h; exact h
  | cons o rel ih =>
    intro i j h
    obtain ⟨off, frac⟩ := o
    unfold writeAll
    refine OkRel.bind (R := RI) ?_ (fun a b hab => ih a b hab)
    unfold writeBack
    rw [hI.read i j h]
    cases j.read (row0 + off) c with
    | error e => trivial
    | ok old => exact hI.set i j h _ _

theorem phaseBody_okRel {sys : TrapSys K S} {sys' : TrapSys K S'} {RS RS0 : S → S' → Prop}
    (hS : SysOk sys sys' RS RS0) {c : ℕ} {RI : Image K → Image K → Prop} (hI : ImgRel c RI) (cfg : ClockCfg K)
    (rowIdx : ℕ) (mult : K) (step phase : ℕ) (st : Image K × S) (st' : Image K × S')
    (h : RI st.1 st'.1 ∧ RS st.2 st'.2) :
    OkRel (fun a b => RI a.1 b.1 ∧ RS a.2 b.2) (phaseBody sys cfg c rowIdx mult step st phase)
      (phaseBody sys' cfg c rowIdx mult step st' phase) := by
  unfold phaseBody
  split
  · rename_i ph row0 dwell e1 e2 e3
    rw [hI.read _ _ h.1]
    refine OkRel.bind (R := fun a b => a = b) (OkRel.refl (fun _ => rfl) _) ?_
    rintro v _ rfl
    refine OkRel.bind (hS.react _ _ h.2 phase _ dwell) ?_
    rintro ⟨net, s⟩ ⟨net', s'⟩ ⟨hn, hs⟩
    simp only at hn hs
    subst hn
    simp only
    split
    · exact ⟨h.1, hs⟩
    · exact OkRel.bind (writeAll_okRel hI _ _ _ _ _ _ h.1) fun a b hab => ⟨hab, hs⟩
  · trivial

theorem rowBody_okRel {sys : TrapSys K S} {sys' : TrapSys K S'} {RS RS0 : S → S' → Prop}
    (hS : SysOk sys sys' RS RS0) {c : ℕ} {RI : Image K → Image K → Prop} (hI : ImgRel c RI) (cfg : ClockCfg K)
    (k j : ℕ) (st : Image K × S) (st' : Image K × S') (h : RI st.1 st'.1 ∧ RS st.2 st'.2) :
    OkRel (fun a b => RI a.1 b.1 ∧ RS a.2 b.2) (rowBody sys cfg c k st j) (rowBody sys' cfg c k st' j) := by
  unfold rowBody
  refine OkRel.bind (R := fun a b => RI a.1 b.1 ∧ RS a.2 b.2) (foldlM_okRel _ _ _ _ ?_ _ _ h) ?_
  · intro step _ s t hst
    unfold stepBody
    exact foldlM_okRel _ _ _ _ (fun phase _ s t hst => phaseBody_okRel hS hI cfg j _ step phase s t hst) _ _ hst
  · intro a b hab
    split
    · exact ⟨hab.1, hS.save _ _ hab.2⟩
    · exact hab

theorem expressBody_okRel {sys : TrapSys K S} {sys' : TrapSys K S'} {RS RS0 : S → S' → Prop}
    (hS : SysOk sys sys' RS RS0) {c : ℕ} {RI : Image K → Image K → Prop} (hI : ImgRel c RI) (cfg : ClockCfg K)
    (k : ℕ) (st : Image K × S) (st' : Image K × S') (h : RI st.1 st'.1 ∧ RS0 st.2 st'.2) :
    OkRel (fun a b => RI a.1 b.1 ∧ RS a.2 b.2) (expressBody sys cfg c st k) (expressBody sys' cfg c st' k) := by
  unfold expressBody
  exact foldlM_okRel _ _ _ _ (fun j _ s t hst => rowBody_okRel hS hI cfg k j s t hst) _ _
    ⟨h.1, hS.restore _ _ h.2⟩

/-- The passes over one column, before the traps are emptied. -/
theorem passes_okRel {sys : TrapSys K S} {sys' : TrapSys K S'} {RS RS0 : S → S' → Prop}
    (hS : SysOk sys sys' RS RS0) {c : ℕ} {RI : Image K → Image K → Prop} (hI : ImgRel c RI) (cfg : ClockCfg K)
    (ks : List ℕ) (st : Image K × S) (st' : Image K × S') (h : RI st.1 st'.1 ∧ RS0 st.2 st'.2) :
    OkRel (fun a b => RI a.1 b.1 ∧ RS0 a.2 b.2) (ks.foldlM (expressBody sys cfg c) st)
      (ks.foldlM (expressBody sys' cfg c) st') :=
  foldlM_okRel _ _ _ _ (fun k _ s t hst => (expressBody_okRel hS hI cfg k s t hst).mono
    fun a b hab => ⟨hab.1, hS.weaken _ _ hab.2⟩) _ _ h

/-- One column. -/
theorem columnBody_okRel {sys : TrapSys K S} {sys' : TrapSys K S'} {RS RS0 : S → S' → Prop}
    (hS : SysOk sys sys' RS RS0) {c : ℕ} {RI : Image K → Image K → Prop} (hI : ImgRel c RI) (cfg : ClockCfg K)
    (RE : S → S' → Prop)
    (hE : ∀ s t, RS0 s t → RE (sys.save (if cfg.emptyBetween then sys.emptyAll s else s))
      (sys'.save (if cfg.emptyBetween then sys'.emptyAll t else t)))
    (st : Image K × S) (st' : Image K × S') (h : RI st.1 st'.1 ∧ RS0 st.2 st'.2) :
    OkRel (fun a b => RI a.1 b.1 ∧ RE a.2 b.2) (columnBody sys cfg st c) (columnBody sys' cfg st' c) := by
  unfold columnBody
  exact OkRel.bind (passes_okRel hS hI cfg _ _ _ h) fun a b hab => ⟨hab.1, hE _ _ hab.2⟩

/-- All columns, when the relation between the images is preserved by the work on every column. -/
theorem clockLoops_okRel {sys : TrapSys K S} {sys' : TrapSys K S'} {RS RS0 : S → S' → Prop}
    (hS : SysOk sys sys' RS RS0) {RI : Image K → Image K → Prop} (cfg : ClockCfg K) (columns : List ℕ)
    (hI : ∀ c ∈ columns, ImgRel c RI)
    (hE : ∀ s t, RS0 s t → RS0 (sys.save (if cfg.emptyBetween then sys.emptyAll s else s))
      (sys'.save (if cfg.emptyBetween then sys'.emptyAll t else t)))
    (st : Image K × S) (st' : Image K × S') (h : RI st.1 st'.1 ∧ RS0 st.2 st'.2) :
    OkRel (fun a b => RI a.1 b.1 ∧ RS0 a.2 b.2) (clockLoops sys cfg columns st)
      (clockLoops sys' cfg columns st') := by
  unfold clockLoops
  exact foldlM_okRel _ _ _ _ (fun c hc s t hst => columnBody_okRel hS (hI c hc) cfg RS0 hE s t hst) _ _ h

end Arctic
