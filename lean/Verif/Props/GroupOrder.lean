import Verif.Lemmas.OkRel
import Verif.Props.Species
import Verif.Props.RefSlow
import Verif.Props.Units

/-!
# C71: the order of the groups of traps

`traps = [group, group, ...]`: the groups may be given in any order. Which species share a group does matter.
-/

set_option linter.unusedSectionVars false
set_option linter.unusedVariables false

namespace Arctic

variable {K : Type} [Field K] [LinearOrder K] [IsStrictOrderedRing K]

/-- The same managers in every phase, in some order. -/
def DataPerm : List (List (Mgr K)) → List (List (Mgr K)) → Prop := List.Forall₂ List.Perm

def AtmPerm (a b : ATM K) : Prop := DataPerm a.data b.data ∧ Option.Rel DataPerm a.saved b.saved

theorem groupsStep_perm (n t : K) (f : K → K) {ms ms' : List (Mgr K)} (h : ms.Perm ms') :
    OkRel (fun a b => a.1 = b.1 ∧ a.2.Perm b.2) (groupsStep n t f ms) (groupsStep n t f ms') := by
  induction h with
  | nil => exact ⟨rfl, .nil⟩
  | cons m h ih =>
    unfold groupsStep
    refine OkRel.bind (R := Eq) (OkRel.refl (fun _ => rfl) _) ?_
    rintro ⟨a, m₁⟩ _ rfl
    refine OkRel.bind ih ?_
    rintro ⟨x, l⟩ ⟨y, l'⟩ ⟨rfl, hl⟩
    exact ⟨rfl, hl.cons _⟩
  | swap m m' l =>
    simp only [groupsStep]
    rcases m.step n t f with e | ⟨x, m₁⟩ <;> rcases m'.step n t f with e' | ⟨x', m₁'⟩ <;>
      rcases groupsStep n t f l with e'' | ⟨y, l₁⟩ <;> try trivial
    exact ⟨by simp only; ring, .swap _ _ _⟩
  | trans _ _ ih ih' => exact ih.trans (fun a b c h h' => ⟨h.1.trans h'.1, h.2.trans h'.2⟩) ih'

theorem DataPerm.emptied {d d' : List (List (Mgr K))} (h : DataPerm d d') :
    DataPerm (d.map fun ms => ms.map Mgr.empty) (d'.map fun ms => ms.map Mgr.empty) := by
  unfold DataPerm at *
  rw [List.forall₂_map_left_iff, List.forall₂_map_right_iff]
  exact h.imp fun a b hab => hab.map _

theorem atmPerm_sys (fill : ℕ → K → K) : SysOk (atmSys fill) (atmSys fill) (AtmPerm (K := K)) AtmPerm where
  react := by
    rintro a b ⟨h1, h2⟩ phase n dwell
    change OkRel _ (a.react phase n dwell (fill phase)) (b.react phase n dwell (fill phase))
    unfold ATM.react
    have := forall₂_getElem? h1 phase
    rcases e : a.data[phase]? with - | ms <;> rcases e' : b.data[phase]? with - | ms' <;> rw [e, e'] at this
    · trivial
    · cases this
    · cases this
    · cases this with
      | some this =>
        refine OkRel.bind (groupsStep_perm n dwell (fill phase) this) ?_
        rintro ⟨x, l⟩ ⟨y, l'⟩ ⟨e, hl⟩
        exact ⟨e, forall₂_set h1 phase hl, h2⟩
  save := by
    rintro a b ⟨h1, h2⟩
    exact ⟨h1, .some h1⟩
  restore := by
    rintro a b ⟨h1, h2⟩
    change AtmPerm a.restore b.restore
    unfold ATM.restore
    rcases e : a.saved with - | d <;> rcases e' : b.saved with - | d' <;> rw [e, e'] at h2
    · exact ⟨h1.emptied, .none⟩
    · cases h2
    · cases h2
    · cases h2 with
      | some h2 => exact ⟨h2, .some h2⟩
  weaken := fun _ _ h => h

/-- **C71** for one direction of clocking: the same image and readout object, or an exception in both orders. -/
theorem C71_clocking (img : Image K) (ccd : CcdView K) (roe : Roe K) {groups groups' : List (Group K)}
    (h : groups.Perm groups') (express offset : ℕ) (rows columns : List ℕ) (tw : Option (List ℕ)) :
    OkRel (· = ·) (clockCharge img ccd roe groups express offset rows columns tw)
      (clockCharge img ccd roe groups' express offset rows columns tw) := by
  unfold clockCharge
  refine OkRel.bind (R := Eq) (OkRel.refl (fun _ => rfl) _) ?_
  rintro ⟨cfg, roe'⟩ _ rfl
  refine OkRel.bind (clockLoops_okRel (atmPerm_sys ccd.fill) (RI := (· = ·)) cfg columns (fun c _ => imgRel_eq c)
    (fun s t hst => ?_) _ _ ⟨rfl, ?_⟩) ?_
  · split
    · exact (atmPerm_sys ccd.fill).save _ _ ⟨hst.1.emptied, hst.2⟩
    · exact (atmPerm_sys ccd.fill).save _ _ hst
  · refine ⟨?_, .none⟩
    unfold ATM.new DataPerm
    simp only
    rw [List.forall₂_map_left_iff, List.forall₂_map_right_iff, List.forall₂_same]
    exact fun frac _ => h.map _
  · rintro ⟨i, s⟩ ⟨j, t⟩ ⟨rfl, -⟩
    exact rfl

/-- The same arguments, apart from the order of the groups of traps. -/
structure Direction.Reordered (d d' : Direction K) : Prop where
  ccd : d'.ccd = d.ccd
  roe : d'.roe = d.roe
  express : d'.express = d.express
  offset : d'.offset = d.offset
  groups : d.groups.Perm d'.groups

/-- **C71** for `add_cti`: the same image, the same readout objects afterwards; or an exception in both orders. -/
theorem C71_add_cti (img : Image K) {par par' ser ser' : Option (Direction K)}
    (hp : Option.Rel Direction.Reordered par par') (hs : Option.Rel Direction.Reordered ser ser') (o : ℕ) (pw sw : Window)
    (tw : Option (List ℕ)) :
    OkRel (fun a b => a.1 = b.1 ∧ Option.Rel Direction.Reordered a.2.1 b.2.1 ∧ Option.Rel Direction.Reordered a.2.2 b.2.2)
      (addCti img par o pw ser sw tw) (addCti img par' o pw ser' sw tw) := by
  rw [addCti_halves, addCti_halves]
  refine OkRel.bind (R := Eq) (OkRel.refl (fun _ => rfl) _) ?_
  rintro sc _ rfl
  have hser : ∀ (cols sc : List ℕ) (a : Image K) (p p' : Option (Direction K)), Option.Rel Direction.Reordered p p' →
      OkRel (fun a b => a.1 = b.1 ∧ Option.Rel Direction.Reordered a.2.1 b.2.1 ∧
        Option.Rel Direction.Reordered a.2.2 b.2.2) (serialHalf ser cols sc (a, p)) (serialHalf ser' cols sc (a, p')) := by
    intro cols sc a p p' hp
    cases hs with
    | none => exact ⟨rfl, hp, .none⟩
    | @some d d' h =>
      simp only [serialHalf, h.ccd, h.roe, h.express, h.offset]
      refine OkRel.bind (C71_clocking _ _ _ h.groups _ _ _ _ _) ?_
      rintro x _ rfl
      exact ⟨rfl, hp, .some ⟨rfl, rfl, rfl, rfl, h.groups⟩⟩
  unfold bothHalves
  cases hp with
  | none => exact hser _ _ _ _ _ .none
  | @some d d' h =>
    simp only [h.ccd, h.roe, h.express]
    refine OkRel.bind (C71_clocking _ _ _ h.groups _ _ _ _ _) ?_
    rintro x _ rfl
    exact hser _ _ _ _ _ (.some ⟨rfl, rfl, rfl, h.offset, h.groups⟩)

/-- **C71** for `remove_cti`. -/
theorem C71_remove_cti (img : Image K) (n : ℕ) {par par' ser ser' : Option (Direction K)}
    (hp : Option.Rel Direction.Reordered par par') (hs : Option.Rel Direction.Reordered ser ser') (o : ℕ) (pw sw : Window)
    (tw : Option (List ℕ)) :
    OkRel (fun a b => a.1 = b.1 ∧ Option.Rel Direction.Reordered a.2.1 b.2.1 ∧ Option.Rel Direction.Reordered a.2.2 b.2.2)
      (removeCti img n par o pw ser sw tw) (removeCti img n par' o pw ser' sw tw) := by
  unfold removeCti
  suffices key : ∀ (n : ℕ) (cur : Image K) (s s' : Option (Direction K) × Option (Direction K)),
      Option.Rel Direction.Reordered s.1 s'.1 → Option.Rel Direction.Reordered s.2 s'.2 →
      OkRel (fun a b => a.1 = b.1 ∧ Option.Rel Direction.Reordered a.2.1 b.2.1 ∧
        Option.Rel Direction.Reordered a.2.2 b.2.2)
        (removeIter (fun cur s => addCti cur s.1 o pw s.2 sw tw) img n (cur, s))
        (removeIter (fun cur s => addCti cur s.1 o pw s.2 sw tw) img n (cur, s')) from key n img _ _ hp hs
  intro n
  induction n with
  | zero => intro cur s s' h h'; exact ⟨rfl, h, h'⟩
  | succ n ih =>
    intro cur s s' h h'
    unfold removeIter
    refine OkRel.bind (C71_add_cti cur h h' o pw sw tw) ?_
    rintro ⟨a, t⟩ ⟨b, t'⟩ ⟨e, h1, h2⟩
    simp only at e
    subst e
    exact ih _ _ _ h1 h2

/-- Two groups of one species each, instant capture. -/
def exGroupA : Group ℚ := ⟨1, fun _ => 10, .instant fun _ _ => 1 / 2⟩
def exGroupB : Group ℚ := ⟨1, fun _ => 6, .instant fun _ _ => 3 / 4⟩

/-- Both species in one group. -/
def exGroupAB : Group ℚ := ⟨2, ![10, 6], .instant fun _ j => ![1 / 2, 3 / 4] j⟩

/-- The other order, the same image. -/
example : List.Perm [exGroupA, exGroupB] [exGroupB, exGroupA] ∧
    ((addCti (exImg 3 1 [[0], [80], [0]]) (some ⟨exCcd, exRoe, [exGroupA, exGroupB], 0, 0⟩) 0 .all none .all none).map
      fun x => x.1.rows) = .ok [[0], [7056 / 125], [49812527 / 4000000]] ∧
    ((addCti (exImg 3 1 [[0], [80], [0]]) (some ⟨exCcd, exRoe, [exGroupB, exGroupA], 0, 0⟩) 0 .all none .all none).map
      fun x => x.1.rows) = .ok [[0], [7056 / 125], [49812527 / 4000000]] := ⟨.swap _ _ _, by decide +kernel⟩

/-- **C71**: it does matter which species share a group. (A group's cloud includes the electrons released by the group
itself, not those of the other groups.) -/
theorem C71_grouping_matters :
    ((addCti (exImg 3 1 [[0], [80], [0]]) (some ⟨exCcd, exRoe, [exGroupAB], 0, 0⟩) 0 .all none .all none).map
      fun x => x.1.rows) ≠
    ((addCti (exImg 3 1 [[0], [80], [0]]) (some ⟨exCcd, exRoe, [exGroupA, exGroupB], 0, 0⟩) 0 .all none .all none).map
      fun x => x.1.rows) := by decide +kernel

/-! ## Trap objects -/

theorem perm_equiv {α : Type} {l l' : List α} (h : l.Perm l') :
    ∃ e : Fin l'.length ≃ Fin l.length, ∀ i, l'[i] = l[e i] := by
  induction h with
  | nil => exact ⟨Equiv.refl _, fun i => i.elim0⟩
  | cons x h ih =>
    obtain ⟨e, he⟩ := ih
    refine ⟨((finSuccEquiv _).trans (Equiv.optionCongr e)).trans (finSuccEquiv _).symm, fun i => ?_⟩
    refine Fin.cases ?_ (fun i => ?_) i
    · simp
    · simpa using he i
  | swap x y l =>
    refine ⟨Equiv.swap (0 : Fin (l.length + 2)) 1, fun i => ?_⟩
    refine Fin.cases ?_ (fun i => Fin.cases ?_ (fun i => ?_) i) i
    · simp
    · simp
    · have h1 : (i.succ.succ : Fin (l.length + 2)) ≠ 0 := Fin.succ_ne_zero _
      have h2 : (i.succ.succ : Fin (l.length + 2)) ≠ 1 := by
        intro h
        exact Fin.succ_ne_zero i (Fin.succ_injective _ h)
      have := Equiv.swap_apply_of_ne_of_ne h1 h2
      simp only [this]
      rfl
  | trans _ _ ih ih' =>
    obtain ⟨e, he⟩ := ih
    obtain ⟨e', he'⟩ := ih'
    exact ⟨e'.trans e, fun i => (he' i).trans (he _)⟩

theorem splits_of_equiv {s s' : ℕ} {dens : Fin s → K} {dens' : Fin s' → K} {k : Kind K s} {k' : Kind K s'}
    (e : Fin s' ≃ Fin s) (hd : ∀ i, dens' i = dens (e i)) (hk : KindRel e k k') :
    Group.Splits (⟨s, dens, k⟩ : Group K) ⟨s', dens', k'⟩ := by
  refine ⟨e, e.surjective, fun j => ?_, hk⟩
  have : (Finset.univ.filter fun i : Fin s' => e i = j) = {e.symm j} := by
    ext i
    simp [Equiv.eq_symm_apply]
  change dens j = ∑ i with e i = j, dens' i
  rw [this, Finset.sum_singleton, hd, Equiv.apply_symm_apply]

/-- Groups of traps of one class that agree up to the order in what the manager of this class uses. -/
theorem groupOf_splits_of {t t' : Trap} {l l' : List Trap} (e : Fin (t' :: l').length ≃ Fin (t :: l).length)
    (hc : t.cls = t'.cls) (hd : ∀ i, (t' :: l')[i].density = (t :: l)[e i].density)
    (h : ∀ i, match t.cls with
      | .trackTime => (t' :: l')[i].fillFraction = (t :: l)[e i].fillFraction
      | .instantCapture => (t' :: l')[i].releaseTimescale = (t :: l)[e i].releaseTimescale
      | .trapManager => (t' :: l')[i].releaseTimescale = (t :: l)[e i].releaseTimescale ∧
          (t' :: l')[i].captureTimescale = (t :: l)[e i].captureTimescale) :
    (groupOf (t :: l)).Splits (groupOf (t' :: l')) := by
  cases t <;> cases t' <;> simp only [Trap.cls, reduceCtorEq] at hc h
  · refine splits_of_equiv e hd (.slow _ _ fun x i => ?_)
    simp only [fillProbs, fillFromEmpty, fillFromFull, exponentialFactor, fillFromRelease, Trap.emissionRate, Trap.captureRate,
      (h i).1, (h i).2, and_self]
  · refine splits_of_equiv e hd (.instant _ _ fun x i => ?_)
    simp only [fillFromRelease, Trap.emissionRate, h i]
  · refine splits_of_equiv e hd (.trackTime _ _ fun i => ?_)
    exact h i

/-- The same species in another order, and a first species of the same class: the same group. -/
theorem groupOf_splits {l l' : List Trap} (hl : l ≠ []) (h : l.Perm l') (hc : l.head?.map Trap.cls = l'.head?.map Trap.cls) :
    (groupOf l).Splits (groupOf l') := by
  obtain ⟨e, he⟩ := perm_equiv h
  cases l with
  | nil => exact absurd rfl hl
  | cons t l =>
    cases l' with
    | nil => simp at hc
    | cons t' l' =>
      simp only [List.head?_cons, Option.map_some, Option.some.injEq] at hc
      refine groupOf_splits_of e hc (fun i => by rw [he i]) fun i => ?_
      split <;> simp only [he i, and_self]

/-- The same groups of traps: in any order, and the traps of each group in any order such that one of the same class is the
first. -/
def SameGroups (gs gs' : List (List Trap)) : Prop :=
  ∃ gm, gs.Perm gm ∧ List.Forall₂ (fun l l' => l.Perm l' ∧ l.head?.map Trap.cls = l'.head?.map Trap.cls) gm gs'

/-- **C71** for one direction of clocking with trap objects. -/
theorem C71_objects (img : Image ℝ) (ccd : Option CCD) (roe : Roe ℝ) {gs gs' : List (List Trap)} (hgs : gs ≠ [])
    (hg : ∀ l ∈ gs, l ≠ []) (h : SameGroups gs gs') (e o : ℕ) (rows columns : List ℕ) (tw : Option (List ℕ)) :
    OkRel (· = ·) (clockChargePy img ccd roe (.list (gs.map .group)) e o rows columns tw)
      (clockChargePy img ccd roe (.list (gs'.map .group)) e o rows columns tw) := by
  obtain ⟨gm, h1, h2⟩ := h
  have hgm : gm ≠ [] := fun h => hgs (by rw [h] at h1; exact h1.eq_nil)
  have hm : ∀ l ∈ gm, l ≠ [] := fun l hl => hg l (h1.mem_iff.2 hl)
  have hgs' : gs' ≠ [] := by rintro rfl; cases h2; exact hgm rfl
  have hg' : ∀ l ∈ gs', l ≠ [] := by
    clear h1 hgm hgs'
    induction h2 with
    | nil => simp
    | cons hab _ ih =>
      intro l hl
      rcases List.mem_cons.1 hl with rfl | hl
      · rintro rfl
        exact hm _ List.mem_cons_self hab.1.eq_nil
      · exact ih (fun l hl => hm l (List.mem_cons_of_mem _ hl)) l hl
  cases ccd with
  | none => exact OkRel.refl (fun _ => rfl) _
  | some c =>
    by_cases hf : c.fractions = []
    · unfold clockChargePy
      simp only [allTrapManager, hf, if_true]
      obtain ⟨l, gs, rfl⟩ := List.exists_cons_of_ne_nil hgs
      obtain ⟨l', gs', rfl⟩ := List.exists_cons_of_ne_nil hgs'
      exact OkRel.refl (fun _ => rfl) _
    · rw [clockChargePy_groups img c roe gs hgs hg hf, clockChargePy_groups img c roe gs' hgs' hg' hf,
        C24_clocking img c.view roe (gm.map groupOf) (gs'.map groupOf) ?_]
      · exact C71_clocking _ _ _ (h1.map _) _ _ _ _ _
      · rw [List.forall₂_map_left_iff, List.forall₂_map_right_iff]
        clear h1 hgm hgs' hg'
        induction h2 with
        | nil => exact .nil
        | cons hab _ ih =>
          exact .cons (groupOf_splits (hm _ List.mem_cons_self) hab.1 hab.2)
            (ih fun l hl => hm l (List.mem_cons_of_mem _ hl))

/-- Arguments of a direction that differ in the order of the traps only. -/
inductive PyDirection.Reordered : PyDirection → PyDirection → Prop
  | refl (d : PyDirection) : Reordered d d
  | traps (ccd : Option CCD) (roe : Option (Roe ℝ)) (gs gs' : List (List Trap)) (e o : ℕ) (hgs : gs ≠ [])
      (hg : ∀ l ∈ gs, l ≠ []) (h : SameGroups gs gs') :
      Reordered ⟨ccd, roe, some (.list (gs.map .group)), e, o⟩ ⟨ccd, roe, some (.list (gs'.map .group)), e, o⟩

theorem PyDirection.Reordered.withRoe {d d' : PyDirection} (h : d.Reordered d') (r : Option (Roe ℝ)) :
    PyDirection.Reordered { d with roe := r } { d' with roe := r } := by
  cases h with
  | refl => exact .refl _
  | traps ccd roe gs gs' e o hgs hg h => exact .traps ccd r gs gs' e o hgs hg h

/-- One direction of `add_cti`. -/
theorem PyDirection.Reordered.clock {d d' : PyDirection} (h : d.Reordered d') (img : Image ℝ) (r : Roe ℝ)
    (rows cols : List ℕ) (tw : Option (List ℕ)) :
    OkRel (· = ·)
      (match d.traps with
        | none => .ok (img, r)
        | some t => clockChargePy img d.ccd r t d.express d.offset rows cols tw)
      (match d'.traps with
        | none => .ok (img, r)
        | some t => clockChargePy img d'.ccd r t d'.express d'.offset rows cols tw) := by
  cases h with
  | refl => exact OkRel.refl (fun _ => rfl) _
  | traps ccd roe gs gs' e o hgs hg h => exact C71_objects _ _ _ hgs hg h _ _ _ _ _

/-- **C71** for `add_cti` with objects: the same image and readout objects, or an exception in both orders. -/
theorem C71_add_cti_objects (img : Image ℝ) {par par' ser ser' : PyDirection} (hp : par.Reordered par')
    (hs : ser.Reordered ser') (pw sw : Window) (tw : Option (List ℕ)) :
    OkRel (· = ·) (addCtiPy img par pw ser sw tw) (addCtiPy img par' pw ser' sw tw) := by
  have ho : par'.offset = par.offset := by cases hp <;> rfl
  have hr : par'.roe = par.roe := by cases hp <;> rfl
  have hr' : ser'.roe = ser.roe := by cases hs <;> rfl
  rw [addCtiPy_eq, addCtiPy_eq]
  simp only [ho, hr, hr']
  refine OkRel.bind (R := Eq) (OkRel.refl (fun _ => rfl) _) ?_
  rintro sc _ rfl
  have h1 := hp.clock img (par.roe.getD Roe.default) (pw.resolve img.nr) (sw.resolve img.nc)
    (some (tw.getD (List.range (img.nr + par.offset))))
  rw [ho] at h1
  refine OkRel.bind h1 ?_
  rintro ⟨mid, r⟩ _ rfl
  have h2 := hs.clock mid.transpose (ser.roe.getD Roe.default) (sw.resolve img.nc) sc none
  cases hs with
  | refl => exact OkRel.refl (fun _ => rfl) _
  | traps ccd roe gs gs' e o hgs hg h =>
    refine OkRel.bind h2 ?_
    rintro x _ rfl
    exact rfl

/-- **C71** for `remove_cti` with objects. -/
theorem C71_remove_cti_objects (img : Image ℝ) (n : ℕ) {par par' ser ser' : PyDirection} (hp : par.Reordered par')
    (hs : ser.Reordered ser') (pw sw : Window) (tw : Option (List ℕ)) :
    OkRel (· = ·) (removeCtiPy img n par pw ser sw tw) (removeCtiPy img n par' pw ser' sw tw) := by
  have hr : par'.roe = par.roe := by cases hp <;> rfl
  have hr' : ser'.roe = ser.roe := by cases hs <;> rfl
  unfold removeCtiPy
  rw [hr, hr']
  generalize (img, par.roe, ser.roe) = st
  induction n generalizing st with
  | zero => exact OkRel.refl (fun _ => rfl) _
  | succ n ih =>
    obtain ⟨cur, s⟩ := st
    unfold removeIter
    refine OkRel.bind (R := Eq) (OkRel.bind (C71_add_cti_objects cur (hp.withRoe s.1) (hs.withRoe s.2) pw sw tw) ?_) ?_
    · rintro x _ rfl
      exact rfl
    · rintro x _ rfl
      exact ih _

/-! ## The first trap of a group decides -/

/-- The group as it is treated: the class of the first trap, for all its traps. (A `Trap` or `TrapInstantCapture` behind a
lifetime continuum keeps its own exponential.) -/
noncomputable def Trap.asFirst : List Trap → List Trap
  | .instant d τ b :: l => .instant d τ b :: l.map fun t => .instant t.density t.releaseTimescale false
  | .trap d τ c b :: l => .trap d τ c b :: l.map fun t => .trap t.density t.releaseTimescale t.captureTimescale false
  | l => l

theorem asFirst_splits (l : List Trap) (hl : l ≠ []) : (groupOf l).Splits (groupOf (Trap.asFirst l)) := by
  cases l with
  | nil => exact absurd rfl hl
  | cons t l =>
    have hlen : ∀ f : Trap → Trap, (t :: l.map f).length = (t :: l).length := by simp
    have key : ∀ (f : Trap → Trap) (i : Fin (t :: l.map f).length), (t :: l.map f)[i] = (t :: l)[finCongr (hlen f) i] ∨
        (t :: l.map f)[i] = f (t :: l)[finCongr (hlen f) i] := by
      intro f i
      rcases i with ⟨_ | i, hi⟩
      · exact Or.inl rfl
      · exact Or.inr (by simp)
    cases t with
    | trap d τ c b =>
      refine groupOf_splits_of (finCongr (hlen _)) rfl (fun i => ?_) fun i => ?_
      · rcases key _ i with h | h <;> rw [h] <;> rfl
      · constructor <;> rcases key _ i with h | h <;> rw [h] <;> rfl
    | instant d τ b =>
      refine groupOf_splits_of (finCongr (hlen _)) rfl (fun i => ?_) fun i => ?_
      · rcases key _ i with h | h <;> rw [h] <;> rfl
      · simp only [Trap.cls]
        rcases key _ i with h | h <;> rw [h] <;> rfl
    | continuum d f m s =>
      refine groupOf_splits_of (Equiv.refl _) rfl (fun i => rfl) fun i => rfl

/-- **C71**: the class of the first trap of each group is used for all its traps. -/
theorem C71_first_decides (img : Image ℝ) (ccd : Option CCD) (roe : Roe ℝ) (gs : List (List Trap)) (hgs : gs ≠ [])
    (hg : ∀ l ∈ gs, l ≠ []) (e o : ℕ) (rows columns : List ℕ) (tw : Option (List ℕ)) :
    clockChargePy img ccd roe (.list ((gs.map Trap.asFirst).map .group)) e o rows columns tw =
      clockChargePy img ccd roe (.list (gs.map .group)) e o rows columns tw := by
  have hne : ∀ l : List Trap, l ≠ [] → Trap.asFirst l ≠ [] := by
    intro l hl
    cases l with
    | nil => exact absurd rfl hl
    | cons t l => cases t <;> simp [Trap.asFirst]
  have hg' : ∀ l ∈ gs.map Trap.asFirst, l ≠ [] := by
    intro l hl
    obtain ⟨l', h, rfl⟩ := List.mem_map.1 hl
    exact hne l' (hg l' h)
  have hgs' : gs.map Trap.asFirst ≠ [] := by simpa using hgs
  cases ccd with
  | none => rfl
  | some c =>
    by_cases hf : c.fractions = []
    · unfold clockChargePy
      simp only [allTrapManager, hf, if_true]
      obtain ⟨l, gs, rfl⟩ := List.exists_cons_of_ne_nil hgs
      rfl
    · rw [clockChargePy_groups img c roe gs hgs hg hf, clockChargePy_groups img c roe _ hgs' hg' hf]
      refine C24_clocking img c.view roe (gs.map groupOf) ((gs.map Trap.asFirst).map groupOf) ?_ _ _ _ _ _
      rw [List.map_map, List.forall₂_map_left_iff, List.forall₂_map_right_iff, List.forall₂_same]
      exact fun l hl => asFirst_splits l (hg l hl)

theorem integral_step {a h : ℝ} (h0 : 0 ≤ h) (h1 : h ≤ 1) : ∫ d in (0 : ℝ)..1, (if d ≤ h then a else 0) = a * h := by
  rw [← intervalIntegral.integral_add_adjacent_intervals (b := h)]
  · have e1 : ∫ d in (0 : ℝ)..h, (if d ≤ h then a else 0) = ∫ d in (0 : ℝ)..h, a := by
      refine intervalIntegral.integral_congr_ae (Filter.Eventually.of_forall fun d hd => ?_)
      rw [Set.uIoc_of_le h0] at hd
      rw [if_pos hd.2]
    have e2 : ∫ d in h..1, (if d ≤ h then a else 0) = ∫ d in h..1, (0 : ℝ) := by
      refine intervalIntegral.integral_congr_ae (Filter.Eventually.of_forall fun d hd => ?_)
      rw [Set.uIoc_of_le h1] at hd
      rw [if_neg (not_le.2 hd.1)]
    rw [e1, e2]
    simp [mul_comm]
  · refine IntervalIntegrable.congr (fun d hd => ?_) (intervalIntegrable_const (c := a))
    rw [Set.uIoc_of_le h0] at hd
    exact (if_pos hd.2).symm
  · refine IntervalIntegrable.congr (fun d hd => ?_) (intervalIntegrable_const (c := (0 : ℝ)))
    rw [Set.uIoc_of_le h1] at hd
    exact (if_neg (not_le.2 hd.1)).symm

/-- The first capture by empty traps. -/
theorem emptyTraps_transfer {s : ℕ} (dens : Fin s → ℝ) (p : ℝ → Fin s → ℝ) {f : ℝ → ℝ} {n x : ℝ} (hn : 0 ≤ n)
    (h : ∑ j, dens j * f n ≤ n) :
    ((⟨s, dens, p, fun _ _ => 0⟩ : Ref.Traps).transfer f x n).1 = -∑ j, dens j * f n := by
  simp only [Ref.Traps.transfer, Ref.Traps.release, Ref.Traps.filled, Ref.Traps.capture, Ref.Traps.vacant, zero_mul,
    intervalIntegral.integral_zero, mul_zero, Finset.sum_const_zero, sub_zero, add_zero, intervalIntegral.integral_const,
    smul_eq_mul, mul_one, max_eq_right hn]
  split
  · exact zero_sub _
  · next hw => exact absurd h hw

/-- **C71**: a `TrapInstantCapture` and a `Trap` in one group. With the first of them in front, empty traps capture at once;
with the other in front, fewer electrons are captured. -/
theorem C71_mixed_order (d τ d' τ' c : ℝ) (b b' : Bool) (hd : 0 ≤ d) (hτ : 0 < τ) (hd' : 0 < d') (hτ' : 0 < τ') (hc : 0 < c)
    {f : ℝ → ℝ} (hf : FillModel f) (hfew : FewTraps f (d + d')) (n x : ℝ) (hn : 0 < n) (hx : 0 < x) (M : ℕ) (hM : 0 < M) :
    ∃ g g' net m net' m', groupOfTraps [.instant d τ b, .trap d' τ' c b'] = .ok g ∧
      groupOfTraps [.trap d' τ' c b', .instant d τ b] = .ok g' ∧
      (Mgr.new g.dens g.kind M).step n x f = .ok (net, m) ∧ (Mgr.new g'.dens g'.kind M).step n x f = .ok (net', m') ∧
      net = -((d + d') * f n) ∧ net < net' := by
  have hfn := hfew.pos n hn
  have hf1 := hf.le_one n
  have hall : ∀ t ∈ [Trap.trap d' τ' c b', .instant d τ b], t.Sensible ∧ 0 ≤ t.captureTimescale := by
    intro t ht
    simp only [List.mem_cons, List.not_mem_nil, or_false] at ht
    rcases ht with rfl | rfl
    · exact ⟨⟨hd'.le, hτ'⟩, hc.le⟩
    · exact ⟨⟨hd, hτ⟩, le_rfl⟩
  have hE : EveryGroup [Trap.trap d' τ' c b', .instant d τ b] := ⟨by simp, hall⟩
  -- instant capture
  obtain ⟨m, h1, -⟩ := (mgrRef_new (T := fun x => 0 < x) (groupOf [.instant d τ b, .trap d' τ' c b']).dens
    (fun dwell j => fillFromRelease ([Trap.instant d τ b, .trap d' τ' c b'])[j] dwell) M (fun j => by
      fin_cases j
      · exact hd
      · exact hd'.le) (fun x hx j => by
      have : 0 < ([Trap.instant d τ b, .trap d' τ' c b'])[j].releaseTimescale := by
        fin_cases j
        · exact hτ
        · exact hτ'
      unfold fillFromRelease Trap.emissionRate
      refine ⟨(Real.exp_pos _).le, ?_⟩
      rw [Real.exp_lt_one_iff]
      have := mul_pos (one_div_pos.2 this) hx
      linarith)).step hM hf hfew.pos n x hx
  -- slow capture
  obtain ⟨m', h2, -, -, -⟩ := (slowRef_new (D := d + d') (Ref.slowOf [Trap.trap d' τ' c b', .instant d τ b]) M 1 hE.slow_ok
    zero_le_one (by rw [Ref.slowOf_total]; simp [Trap.density]; linarith) _ (fun x hx => slowOf_probs hE hx)).step hM hf hfew n x
    hn.le hx
  simp only [mul_one] at h2
  have hle : (d + d') * f n ≤ n := by
    have := hfew.few 0 n le_rfl hn.le
    rw [hf.empty 0 le_rfl] at this
    linarith
  have e1 : ((⟨_, (groupOf [.instant d τ b, .trap d' τ' c b']).dens,
      fun dwell j => fillFromRelease ([Trap.instant d τ b, .trap d' τ' c b'])[j] dwell, fun _ _ => 0⟩ : Ref.Traps).transfer f x n).1 =
      -((d + d') * f n) := by
    have hv : ∑ j, (groupOf [.instant d τ b, .trap d' τ' c b']).dens j * f n = (d + d') * f n := by
      rw [← Finset.sum_mul]
      congr 1
      exact Fin.sum_univ_two _
    exact (emptyTraps_transfer _ _ hn.le (hv.le.trans hle)).trans (congrArg Neg.neg hv)
  have e2 : (((Ref.slowOf [Trap.trap d' τ' c b', .instant d τ b]).inPhase 1).transfer n x f).1 =
      -((d' * (τ' / (τ' + c) * (1 - Real.exp (-(x / c + x / τ')))) + d) * f n) := by
    simp only [Ref.Slow.transfer, Ref.Slow.release, Ref.Slow.exchange, Ref.Slow.filled, Ref.Slow.inPhase, zero_mul, ite_self,
      intervalIntegral.integral_zero, mul_zero, Finset.sum_const_zero, sub_zero, add_zero, one_mul, zero_add, zero_sub, mul_one,
      integral_step (hf.nonneg n) hf1]
    congr 1
    rw [add_mul]
    refine (Fin.sum_univ_two _).trans ?_
    congr 1
    · simp [Ref.slowOf, Trap.density, Trap.balance, Trap.memory, Trap.releaseTimescale, Trap.captureTimescale, hc.ne']
      ring
    · simp [Ref.slowOf, Trap.density, Trap.balance, Trap.memory, Trap.releaseTimescale, Trap.captureTimescale, hτ.ne']
  refine ⟨_, _, _, m, _, m', rfl, rfl, h1, h2, e1, ?_⟩
  rw [e1, e2, neg_lt_neg_iff]
  refine mul_lt_mul_of_pos_right ?_ hfn
  have h3 : 1 - Real.exp (-(x / c + x / τ')) < 1 := by linarith [Real.exp_pos (-(x / c + x / τ'))]
  have h4 : τ' / (τ' + c) < 1 := by rw [div_lt_one (by linarith)]; linarith
  have h5 : 0 < τ' / (τ' + c) := div_pos hτ' (by linarith)
  have h6 : τ' / (τ' + c) * (1 - Real.exp (-(x / c + x / τ'))) < 1 := by nlinarith
  nlinarith

/-- Ten traps of each kind, a linear well of 1000 electrons. -/
example : FillModel (wellFill 1000 1) ∧ FewTraps (wellFill 1000 1) (10 + 10) := by
  have hl := wellFill_lip (full := 1000) (power := 1) (by norm_num) le_rfl
  have he := wellFill_exact (full := 1000) (power := 1) (by norm_num) (by norm_num)
  refine ⟨he.1, fun x y hxy => hl.mono hxy, fun x y _ hxy => ?_, he.2⟩
  have := hl.lip x y hxy
  linarith

/-- Two groups in the other order, and the two species of one of them. -/
example (t u v : Trap) (h : u.cls = v.cls) : SameGroups [[t], [u, v]] [[v, u], [t]] :=
  ⟨[[u, v], [t]], .swap _ _ _, .cons ⟨.swap _ _ _, by simp [h]⟩ (.cons ⟨.refl _, rfl⟩ .nil)⟩

end Arctic
