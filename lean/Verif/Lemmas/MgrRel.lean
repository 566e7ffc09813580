import Verif.Lemmas.ClockInv
import Verif.Lemmas.Same

/-!
# Runs with different managers

If the managers of two lists of groups stay related, and related managers return the same electrons, the images are the same.
-/

set_option linter.unusedSectionVars false
set_option linter.unusedVariables false

namespace Arctic

variable {K : Type} [Field K] [LinearOrder K] [IsStrictOrderedRing K]

/-- A relation between managers that is kept by transfers and by emptying. -/
structure MgrRel (MR : Mgr K → Mgr K → Prop) : Prop where
  step : ∀ m m', MR m m' → ∀ n t f, ExRel (fun a b => a.1 = b.1 ∧ MR a.2 b.2) (m.step n t f) (m'.step n t f)
  empty : ∀ m m', MR m m' → MR m.empty m'.empty

theorem groupsStep_rel {MR : Mgr K → Mgr K → Prop} (h : MgrRel MR) (n t : K) (f : K → K) (ms ms' : List (Mgr K))
    (hms : List.Forall₂ MR ms ms') :
    ExRel (fun a b => a.1 = b.1 ∧ List.Forall₂ MR a.2 b.2) (groupsStep n t f ms) (groupsStep n t f ms') := by
  induction hms with
  | nil => exact ⟨rfl, .nil⟩
  | cons hm hms ih =>
    unfold groupsStep
    refine ExRel.bind (h.step _ _ hm n t f) ?_
    rintro ⟨a, m⟩ ⟨b, m'⟩ ⟨e, hm⟩
    refine ExRel.bind ih ?_
    rintro ⟨a', l⟩ ⟨b', l'⟩ ⟨e', hl⟩
    simp only at e e'
    subst e e'
    exact ⟨rfl, .cons hm hl⟩

def DataRel (MR : Mgr K → Mgr K → Prop) : List (List (Mgr K)) → List (List (Mgr K)) → Prop :=
  List.Forall₂ (List.Forall₂ MR)

def MAtmRel (MR : Mgr K → Mgr K → Prop) (a b : ATM K) : Prop :=
  DataRel MR a.data b.data ∧ Option.Rel (DataRel MR) a.saved b.saved

theorem forall₂_set {α β : Type} {R : α → β → Prop} {l : List α} {l' : List β} (h : List.Forall₂ R l l') (i : ℕ)
    {x : α} {y : β} (hxy : R x y) : List.Forall₂ R (l.set i x) (l'.set i y) := by
  induction h generalizing i with
  | nil => exact .nil
  | cons hh ht ih =>
    cases i with
    | zero => exact .cons hxy ht
    | succ i => exact .cons hh (ih i)

theorem forall₂_getElem? {α β : Type} {R : α → β → Prop} {l : List α} {l' : List β} (h : List.Forall₂ R l l') (i : ℕ) :
    Option.Rel R l[i]? l'[i]? := by
  induction h generalizing i with
  | nil => exact .none
  | cons hh ht ih =>
    cases i with
    | zero => exact .some hh
    | succ i => simpa using ih i

theorem DataRel.emptied {MR : Mgr K → Mgr K → Prop} (h : MgrRel MR) {d d' : List (List (Mgr K))} (hd : DataRel MR d d') :
    DataRel MR (d.map fun ms => ms.map Mgr.empty) (d'.map fun ms => ms.map Mgr.empty) := by
  unfold DataRel at *
  rw [List.forall₂_map_left_iff, List.forall₂_map_right_iff]
  refine hd.imp fun a b hab => ?_
  rw [List.forall₂_map_left_iff, List.forall₂_map_right_iff]
  exact hab.imp fun m m' hm => h.empty m m' hm

theorem mAtmRel_sys {MR : Mgr K → Mgr K → Prop} (h : MgrRel MR) (fill : ℕ → K → K) :
    SysRel (atmSys fill) (atmSys fill) (MAtmRel MR) (MAtmRel MR) where
  react := by
    rintro a b ⟨h1, h2⟩ phase n dwell
    change ExRel _ (a.react phase n dwell (fill phase)) (b.react phase n dwell (fill phase))
    unfold ATM.react
    have := forall₂_getElem? h1 phase
    rcases e : a.data[phase]? with - | ms <;> rcases e' : b.data[phase]? with - | ms' <;> rw [e, e'] at this
    · exact rfl
    · cases this
    · cases this
    · cases this with
      | some this =>
        refine ExRel.bind (groupsStep_rel h n dwell (fill phase) _ _ this) ?_
        rintro ⟨x, l⟩ ⟨y, l'⟩ ⟨e, hl⟩
        exact ⟨e, forall₂_set h1 phase hl, h2⟩
  save := by
    rintro a b ⟨h1, h2⟩
    exact ⟨h1, .some h1⟩
  restore := by
    rintro a b ⟨h1, h2⟩
    change MAtmRel MR a.restore b.restore
    unfold ATM.restore
    rcases e : a.saved with - | d <;> rcases e' : b.saved with - | d' <;> rw [e, e'] at h2
    · exact ⟨h1.emptied h, .none⟩
    · cases h2
    · cases h2
    · cases h2 with
      | some h2 => exact ⟨h2, .some h2⟩
  weaken := fun _ _ h => h

theorem mAtmRel_empty {MR : Mgr K → Mgr K → Prop} (h : MgrRel MR) {a b : ATM K} (hab : MAtmRel MR a b) :
    MAtmRel MR a.emptyAll b.emptyAll := ⟨hab.1.emptied h, hab.2⟩

theorem clockCharge_mgrRel {MR : Mgr K → Mgr K → Prop} (h : MgrRel MR) (img : Image K) (ccd : CcdView K) (roe : Roe K)
    (groups groups' : List (Group K))
    (hg : List.Forall₂ (fun g g' => ∀ frac ∈ ccd.fractions, ∀ N, MR (Mgr.new (fun j => g.dens j * frac) g.kind N)
      (Mgr.new (fun j => g'.dens j * frac) g'.kind N)) groups groups')
    (express offset : ℕ) (rows columns : List ℕ) (tw : Option (List ℕ)) :
    clockCharge img ccd roe groups express offset rows columns tw =
      clockCharge img ccd roe groups' express offset rows columns tw := by
  unfold clockCharge
  congr 1
  funext x
  obtain ⟨cfg, roe'⟩ := x
  simp only
  have hnew : ∀ N, MAtmRel MR (ATM.new groups ccd.fractions N) (ATM.new groups' ccd.fractions N) := by
    intro N
    refine ⟨?_, .none⟩
    unfold ATM.new DataRel
    simp only
    rw [List.forall₂_map_left_iff, List.forall₂_map_right_iff, List.forall₂_same]
    intro frac hf
    rw [List.forall₂_map_left_iff, List.forall₂_map_right_iff]
    exact hg.imp fun a b hab => hab frac hf N
  have := clockLoops_rel (mAtmRel_sys h ccd.fill) (RI := (· = ·)) cfg columns (fun c _ => imgRel_eq c)
    (fun s t hst => by
      split
      · exact (mAtmRel_sys h ccd.fill).save _ _ (mAtmRel_empty h hst)
      · exact (mAtmRel_sys h ccd.fill).save _ _ hst)
    (img.pad (nPadding roe.accessed), ATM.new groups ccd.fractions (maxNTransfers roe cfg))
    (img.pad (nPadding roe.accessed), ATM.new groups' ccd.fractions (maxNTransfers roe cfg)) ⟨rfl, hnew _⟩
  generalize clockLoops (atmSys ccd.fill) cfg columns
    (img.pad (nPadding roe.accessed), ATM.new groups ccd.fractions (maxNTransfers roe cfg)) = x at this ⊢
  generalize clockLoops (atmSys ccd.fill) cfg columns
    (img.pad (nPadding roe.accessed), ATM.new groups' ccd.fractions (maxNTransfers roe cfg)) = y at this ⊢
  rcases x with e | ⟨i, s⟩ <;> rcases y with e' | ⟨j, t⟩ <;> simp only [ExRel] at this
  · rw [this]
  · obtain ⟨rfl, -⟩ := this
    rfl

/-- The image and the readout objects after `add_cti`, without the traps given to it. -/
def resultOf (x : Image K × Option (Direction K) × Option (Direction K)) : Image K × Option (Roe K) × Option (Roe K) :=
  (x.1, x.2.1.map Direction.roe, x.2.2.map Direction.roe)

/-- Two directions with the same settings, whose traps have the same effect on every image. -/
structure SameEffect (d d' : Direction K) : Prop where
  ccd : d'.ccd = d.ccd
  roe : d'.roe = d.roe
  express : d'.express = d.express
  offset : d'.offset = d.offset
  effect : ∀ img e o rows cols tw, clockCharge img d.ccd d.roe d'.groups e o rows cols tw =
      clockCharge img d.ccd d.roe d.groups e o rows cols tw

theorem addCti_sameEffect (img : Image K) {par par' ser ser' : Option (Direction K)} (o : ℕ)
    (pw sw : Window) (tw : Option (List ℕ)) (hp : Option.Rel SameEffect par par') (hs : Option.Rel SameEffect ser ser') :
    (addCti img par' o pw ser' sw tw).map resultOf = (addCti img par o pw ser sw tw).map resultOf := by
  rw [addCti_halves, addCti_halves]
  suffices key : ∀ (x : Except Err (List ℕ)) (t : List ℕ),
      (x >>= fun sc => bothHalves img par' ser' o (pw.resolve img.nr) (sw.resolve img.nc) t sc).map resultOf =
        (x >>= fun sc => bothHalves img par ser o (pw.resolve img.nr) (sw.resolve img.nc) t sc).map resultOf from key _ _
  intro x t
  cases x with
  | error e => rfl
  | ok sc =>
    simp only [bind_ok]
    have hser : ∀ (cols sc : List ℕ) (a : Image K) (p p' : Option (Direction K)),
        p'.map Direction.roe = p.map Direction.roe →
        (serialHalf ser' cols sc (a, p')).map resultOf = (serialHalf ser cols sc (a, p)).map resultOf := by
      intro cols sc a p p' hp
      cases hs with
      | none => simp only [serialHalf, Except.map, resultOf, hp]
      | @some d d' h =>
        simp only [serialHalf, h.ccd, h.roe, h.express, h.offset, h.effect]
        generalize clockCharge a.transpose d.ccd d.roe d.groups d.express d.offset cols sc none = y
        cases y with
        | error e => rfl
        | ok x => simp only [bind_ok, Except.map, resultOf, hp, Option.map_some]
    unfold bothHalves
    cases hp with
    | none => exact hser _ _ _ _ _ rfl
    | @some d d' h =>
      simp only [h.ccd, h.roe, h.express, h.effect]
      generalize clockCharge img d.ccd d.roe d.groups d.express o _ _ _ = y
      cases y with
      | error e => rfl
      | ok x => exact hser _ _ _ _ _ rfl

end Arctic
