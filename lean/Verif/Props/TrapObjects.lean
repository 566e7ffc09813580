import Verif.Model.TrapObjects
import Verif.Lemmas.ClockInv
import Verif.Props.ClockExamples

/-!
# C73: trap objects are copied where they have to be
-/

set_option linter.unusedSectionVars false
set_option linter.unusedVariables false

namespace Arctic

variable {K : Type} [Field K] [LinearOrder K] [IsStrictOrderedRing K] {α : Type}

/-! ## Copies -/

theorem copyAll_old (m : Store α) (d : List ℕ) {a : ℕ} (h : a < m.next) : (m.copyAll d).get a = m.get a := by
  unfold Store.copyAll
  simp only
  rw [if_neg (by omega)]

theorem copyAll_new (m : Store α) (d : List ℕ) {r : ℕ} (h : r ∈ d) : (m.copyAll d).get (copyRef m d r) = m.get r := by
  have hi : d[d.idxOf r]? = some r := by rw [List.getElem?_eq_getElem (List.idxOf_lt_length_of_mem h), List.getElem_idxOf]
  unfold Store.copyAll copyRef
  simp only [Nat.le_add_right, if_true, Nat.add_sub_cancel_left, hi]

theorem copyRef_ge (m : Store α) (d : List ℕ) (r : ℕ) : m.next ≤ copyRef m d r := Nat.le_add_right _ _

theorem copyRef_lt (m : Store α) (d : List ℕ) {r : ℕ} (h : r ∈ d) : copyRef m d r < (m.copyAll d).next := by
  have := List.idxOf_lt_length_of_mem h
  unfold copyRef Store.copyAll
  simp only
  omega

theorem copyRef_inj (m : Store α) (d : List ℕ) {r q : ℕ} (h : r ∈ d) (h' : q ∈ d) (e : copyRef m d r = copyRef m d q) : r = q := by
  unfold copyRef at e
  exact (List.idxOf_inj h).1 (by omega)

theorem copyAll_next (m : Store α) (d : List ℕ) : m.next ≤ (m.copyAll d).next := Nat.le_add_right _ _

/-- The contents of objects in a list of lists. -/
def Store.values (m : Store α) (refs : List (List ℕ)) : List (List α) := refs.map fun l => l.map m.get

theorem values_congr {m m' : Store α} {refs : List (List ℕ)} (h : ∀ r ∈ refs.flatten, m'.get r = m.get r) :
    m'.values refs = m.values refs := by
  unfold Store.values
  refine List.map_congr_left fun l hl => List.map_congr_left fun r hr => h r ?_
  exact List.mem_flatten.2 ⟨l, hl, hr⟩

theorem deepcopy₂_flatten (m : Store α) (refs : List (List ℕ)) :
    (m.deepcopy₂ refs).1.flatten = refs.flatten.map (copyRef m refs.flatten.dedup) := by
  unfold Store.deepcopy₂
  simp only [List.map_flatten]

theorem deepcopy₂_values (m : Store α) (refs : List (List ℕ)) :
    (m.deepcopy₂ refs).2.values (m.deepcopy₂ refs).1 = m.values refs := by
  unfold Store.deepcopy₂ Store.values
  simp only [List.map_map]
  refine List.map_congr_left fun l hl => ?_
  simp only [Function.comp, List.map_map]
  refine List.map_congr_left fun r hr => copyAll_new m _ (List.mem_dedup.2 (List.mem_flatten.2 ⟨l, hl, hr⟩))

theorem deepcopy₂_old (m : Store α) (refs : List (List ℕ)) {a : ℕ} (h : a < m.next) : (m.deepcopy₂ refs).2.get a = m.get a :=
  copyAll_old m _ h

theorem deepcopy₂_next (m : Store α) (refs : List (List ℕ)) : m.next ≤ (m.deepcopy₂ refs).2.next := copyAll_next m _

theorem deepcopy₂_range (m : Store α) (refs : List (List ℕ)) {a : ℕ} (h : a ∈ (m.deepcopy₂ refs).1.flatten) :
    m.next ≤ a ∧ a < (m.deepcopy₂ refs).2.next := by
  rw [deepcopy₂_flatten] at h
  obtain ⟨r, hr, rfl⟩ := List.mem_map.1 h
  exact ⟨copyRef_ge _ _ _, copyRef_lt _ _ (List.mem_dedup.2 hr)⟩

theorem deepcopy₂_nodup (m : Store α) (refs : List (List ℕ)) (h : refs.flatten.Nodup) : (m.deepcopy₂ refs).1.flatten.Nodup := by
  rw [deepcopy₂_flatten]
  exact List.Nodup.map_on (fun r hr q hq e => copyRef_inj m _ (List.mem_dedup.2 hr) (List.mem_dedup.2 hq) e) h

theorem put_ne (m : Store α) {r a : ℕ} (x : α) (h : a ≠ r) : (m.put r x).get a = m.get a := Function.update_of_ne h _ _
theorem put_self (m : Store α) (r : ℕ) (x : α) : (m.put r x).get r = x := Function.update_self _ _ _
theorem put_next (m : Store α) (r : ℕ) (x : α) : (m.put r x).next = m.next := rfl

/-! ## Managers -/

/-- The objects hold these values, and no object is used twice. -/
structure ATMObj.Holds (o : ATMObj K) (a : ATM K) : Prop where
  data : o.mem.values o.data = a.data
  nodup : o.data.flatten.Nodup
  lt : ∀ r ∈ o.data.flatten, r < o.mem.next
  saved : o.saved.map o.mem.values = a.saved
  snodup : ∀ d, o.saved = some d → d.flatten.Nodup
  slt : ∀ d, o.saved = some d → ∀ r ∈ d.flatten, r < o.mem.next ∧ r ∉ o.data.flatten
  inSave : o.inSave = a.inSave
  previously : o.previously = a.previously

theorem ATMObj.Holds.currently {o : ATMObj K} {a : ATM K} (h : o.Holds a) : o.currently = a.currently := by
  unfold ATMObj.currently ATM.currently
  rw [← h.data]
  simp only [Store.values, List.map_map, Function.comp_def]

theorem emptyFold_get (refs : List ℕ) (m : Store (Mgr K)) :
    (refs.foldl (fun m r => m.put r (m.get r).empty) m).next = m.next ∧
    (∀ a, a ∉ refs → (refs.foldl (fun m r => m.put r (m.get r).empty) m).get a = m.get a) ∧
    (refs.Nodup → ∀ a ∈ refs, (refs.foldl (fun m r => m.put r (m.get r).empty) m).get a = (m.get a).empty) := by
  induction refs generalizing m with
  | nil => exact ⟨rfl, fun _ _ => rfl, fun _ a ha => by cases ha⟩
  | cons r rs ih =>
    rw [List.foldl_cons]
    obtain ⟨h1, h2, h3⟩ := ih (m.put r (m.get r).empty)
    refine ⟨h1, fun a ha => ?_, fun hn a ha => ?_⟩
    · rw [List.mem_cons, not_or] at ha
      rw [h2 a ha.2, put_ne _ _ ha.1]
    · rw [List.nodup_cons] at hn
      rcases List.mem_cons.1 ha with rfl | ha'
      · rw [h2 a hn.1, put_self]
      · rw [h3 hn.2 a ha', put_ne _ _ (fun e : a = r => hn.1 (e ▸ ha'))]

theorem ATMObj.Holds.emptyAll {o : ATMObj K} {a : ATM K} (h : o.Holds a) : o.emptyAll.Holds a.emptyAll := by
  obtain ⟨h1, h2, h3⟩ := emptyFold_get o.data.flatten o.mem
  refine ⟨?_, h.nodup, fun r hr => (h.lt r hr).trans_le h1.ge, ?_, h.snodup, fun d hd r hr => ?_, h.inSave, h.previously⟩
  · unfold ATMObj.emptyAll ATM.emptyAll
    simp only
    rw [← h.data]
    unfold Store.values
    simp only [List.map_map]
    refine List.map_congr_left fun l hl => ?_
    simp only [Function.comp, List.map_map]
    exact List.map_congr_left fun r hr => h3 h.nodup r (List.mem_flatten.2 ⟨l, hl, hr⟩)
  · unfold ATMObj.emptyAll ATM.emptyAll
    simp only
    rw [← h.saved]
    cases hs : o.saved with
    | none => rfl
    | some d =>
      simp only [Option.map_some]
      rw [values_congr fun r hr => h2 r (h.slt d hs r hr).2]
  · obtain ⟨g1, g2⟩ := h.slt d hd r hr
    exact ⟨g1.trans_le h1.ge, g2⟩

theorem ATMObj.Holds.save {o : ATMObj K} {a : ATM K} (h : o.Holds a) : o.save.Holds a.save := by
  unfold ATMObj.save ATM.save
  simp only
  refine ⟨?_, h.nodup, fun r hr => (h.lt r hr).trans_le (deepcopy₂_next _ _), ?_, fun d hd => ?_, fun d hd r hr => ?_,
    h.currently, h.previously⟩
  · rw [← h.data]
    exact values_congr fun r hr => deepcopy₂_old _ _ (h.lt r hr)
  · simp only [Option.map_some]
    rw [deepcopy₂_values, h.data]
  · cases hd
    exact deepcopy₂_nodup _ _ h.nodup
  · cases hd
    obtain ⟨g1, g2⟩ := deepcopy₂_range _ _ hr
    exact ⟨g2, fun hc => absurd (h.lt r hc) (by omega)⟩

theorem ATMObj.Holds.restore {o : ATMObj K} {a : ATM K} (h : o.Holds a) : o.restore.Holds a.restore := by
  have hp : o.previously + (o.currently - o.inSave) = a.previously + (a.currently - a.inSave) := by
    rw [h.previously, h.currently, h.inSave]
  have hs := h.saved
  unfold ATMObj.restore ATM.restore
  cases hos : o.saved with
  | none =>
    rw [hos] at hs
    rw [← hs]
    simp only [Option.map_none]
    refine ATMObj.Holds.emptyAll ⟨h.data, h.nodup, h.lt, ?_, fun d hd => ?_, fun d hd => ?_, h.inSave, hp⟩
    · rfl
    · cases hd
    · cases hd
  | some d =>
    rw [hos] at hs
    rw [← hs]
    simp only [Option.map_some]
    refine ⟨deepcopy₂_values _ _, deepcopy₂_nodup _ _ (h.snodup d hos), fun r hr => (deepcopy₂_range _ _ hr).2, ?_,
      fun d' hd => ?_, fun d' hd r hr => ?_, h.inSave, hp⟩
    · simp only [Option.map_some]
      rw [values_congr fun r hr => deepcopy₂_old _ _ (h.slt d hos r hr).1]
    · cases hd
      exact h.snodup d hos
    · cases hd
      obtain ⟨g1, g2⟩ := h.slt d hos r hr
      exact ⟨g1.trans_le (deepcopy₂_next _ _), fun hc => absurd (deepcopy₂_range _ _ hc).1 (by omega)⟩

theorem groups_rel (nFree dwell : K) (fill : K → K) (refs : List ℕ) (hn : refs.Nodup) (total : K) (mem : Store (Mgr K)) :
    ExRel (fun x y => x.1 = total + y.1 ∧ refs.map x.2.get = y.2 ∧ x.2.next = mem.next ∧
        ∀ a, a ∉ refs → x.2.get a = mem.get a)
      (ATMObj.groups nFree dwell fill refs (total, mem)) (groupsStep nFree dwell fill (refs.map mem.get)) := by
  induction refs generalizing total mem with
  | nil => exact ⟨by simp, rfl, rfl, fun _ _ => rfl⟩
  | cons r rs ih =>
    rw [List.nodup_cons] at hn
    rw [List.map_cons]
    unfold ATMObj.groups groupsStep
    rcases hm : (mem.get r).step nFree dwell fill with e | ⟨net, m⟩
    · exact rfl
    · have h := ih hn.2 (total + net) (mem.put r m)
      have hv : rs.map (mem.put r m).get = rs.map mem.get :=
        List.map_congr_left fun q hq => put_ne _ _ (fun e => hn.1 (e ▸ hq))
      rw [hv] at h
      simp only [bind_ok]
      generalize ATMObj.groups nFree dwell fill rs (total + net, mem.put r m) = x at h
      generalize groupsStep nFree dwell fill (rs.map mem.get) = y at h
      rcases x with e | x <;> rcases y with e' | y
      · exact h
      · exact h.elim
      · exact h.elim
      · obtain ⟨h1, h2, h3, h4⟩ := h
        refine ⟨?_, ?_, h3, fun a ha => ?_⟩
        · change x.1 = total + (net + y.1)
          rw [h1, add_assoc]
        · rw [List.map_cons, h2, h4 r hn.1, put_self]
        · rw [List.mem_cons, not_or] at ha
          rw [h4 a ha.2, put_ne _ _ ha.1]

theorem ATMObj.Holds.react {o : ATMObj K} {a : ATM K} (h : o.Holds a) (phase : ℕ) (nFree dwell : K) (fill : K → K) :
    ExRel (fun x y => x.1 = y.1 ∧ x.2.Holds y.2) (o.react phase nFree dwell fill) (a.react phase nFree dwell fill) := by
  unfold ATMObj.react ATM.react
  have hget : a.data[phase]? = (o.data[phase]?).map fun l => l.map o.mem.get := by
    rw [← h.data]; exact List.getElem?_map ..
  rw [hget]
  cases hp : o.data[phase]? with
  | none => exact rfl
  | some refs =>
    have hmem : refs ∈ o.data := List.mem_of_getElem? hp
    have hn : refs.Nodup := (List.nodup_flatten.1 h.nodup).1 refs hmem
    simp only [Option.map_some]
    refine ExRel.bind (groups_rel nFree dwell fill refs hn 0 o.mem) ?_
    rintro ⟨net, mem⟩ ⟨net', ms⟩ ⟨h1, h2, h3, h4⟩
    simp only at h1 h2 h3 h4
    have hlt : phase < o.data.length := (List.getElem?_eq_some_iff.1 hp).1
    -- the other managers are other objects
    have hother : ∀ q, q ≠ phase → ∀ l, o.data[q]? = some l → ∀ r ∈ l, r ∉ refs := by
      intro q hq l hl r hr hr'
      have hpw := List.pairwise_iff_getElem.1 (List.nodup_flatten.1 h.nodup).2
      obtain ⟨hql, hql'⟩ := List.getElem?_eq_some_iff.1 hl
      obtain ⟨hpl, hpl'⟩ := List.getElem?_eq_some_iff.1 hp
      rcases lt_or_gt_of_ne hq with hlt' | hlt'
      · exact hpw q phase hql hpl hlt' (hql' ▸ hr) (hpl' ▸ hr')
      · exact hpw phase q hpl hql hlt' (hpl' ▸ hr') (hql' ▸ hr)
    refine ⟨by rw [h1, zero_add], ?_, h.nodup, fun r hr => h3 ▸ h.lt r hr, ?_, h.snodup, fun d hd r hr => ?_, h.inSave,
      h.previously⟩
    · simp only
      rw [← h.data]
      refine List.ext_getElem? fun q => ?_
      unfold Store.values
      rw [List.getElem?_map, List.getElem?_set]
      split
      · rename_i e
        rw [← e, hp]
        simp only [Option.map_some, List.length_map, hlt, if_true, h2]
      · rename_i e
        rw [List.getElem?_map]
        cases hq : o.data[q]? with
        | none => rfl
        | some l =>
          simp only [Option.map_some]
          rw [List.map_congr_left fun r hr => h4 r (hother q (Ne.symm e) l hq r hr)]
    · simp only
      rw [← h.saved]
      cases hs : o.saved with
      | none => rfl
      | some d =>
        simp only [Option.map_some]
        rw [values_congr fun r hr => h4 r fun hc => (h.slt d hs r hr).2 (List.mem_flatten.2 ⟨refs, hmem, hc⟩)]
    · obtain ⟨g1, g2⟩ := h.slt d hd r hr
      exact ⟨h3 ▸ g1, g2⟩

theorem newManagers_spec (ms : List (Mgr K)) (mem : Store (Mgr K)) :
    (newManagers ms mem).1.map (newManagers ms mem).2.get = ms ∧
    (∀ a < mem.next, (newManagers ms mem).2.get a = mem.get a) ∧ (newManagers ms mem).1.Nodup ∧
    (∀ r ∈ (newManagers ms mem).1, mem.next ≤ r ∧ r < (newManagers ms mem).2.next) ∧ mem.next ≤ (newManagers ms mem).2.next := by
  unfold newManagers
  refine ⟨?_, fun a ha => ?_, ?_, fun r hr => ?_, ?_⟩
  · simp only [List.map_map]
    refine List.ext_getElem (by simp) fun i h1 h2 => ?_
    simp [h2]
  · simp only
    rw [if_neg (by omega)]
  · exact List.Nodup.map (fun a b h => by simpa using h) List.nodup_range
  · obtain ⟨i, hi, rfl⟩ := List.mem_map.1 hr
    have := List.mem_range.1 hi
    simp only
    omega
  · simp only
    omega

theorem ATMObj.new_holds (groups : List (Group K)) (fractions : List K) (n : ℕ) (mem : Store (Mgr K)) :
    (ATMObj.new groups fractions n mem).Holds (ATM.new groups fractions n) := by
  have key : ∀ (fr : List K) (st : List (List ℕ) × Store (Mgr K)) (vals : List (List (Mgr K))), st.2.values st.1 = vals →
      st.1.flatten.Nodup → (∀ r ∈ st.1.flatten, r < st.2.next) →
      let st' := fr.foldl (fun (st : List (List ℕ) × Store (Mgr K)) frac =>
        ((st.1 ++ [(newManagers (groups.map fun g => Mgr.new (fun j => g.dens j * frac) g.kind n) st.2).1],
          (newManagers (groups.map fun g => Mgr.new (fun j => g.dens j * frac) g.kind n) st.2).2))) st
      st'.2.values st'.1 = vals ++ (fr.map fun frac => groups.map fun g => Mgr.new (fun j => g.dens j * frac) g.kind n) ∧
        st'.1.flatten.Nodup ∧ ∀ r ∈ st'.1.flatten, r < st'.2.next := by
    intro fr
    induction fr with
    | nil => intro st vals h1 h2 h3; exact ⟨by simpa using h1, h2, h3⟩
    | cons f fr ih =>
      intro st vals h1 h2 h3
      obtain ⟨g1, g2, g3, g4, g5⟩ := newManagers_spec (groups.map fun g => Mgr.new (fun j => g.dens j * f) g.kind n) st.2
      have hv := ih (st.1 ++ [(newManagers (groups.map fun g => Mgr.new (fun j => g.dens j * f) g.kind n) st.2).1],
          (newManagers (groups.map fun g => Mgr.new (fun j => g.dens j * f) g.kind n) st.2).2)
        (vals ++ [groups.map fun g => Mgr.new (fun j => g.dens j * f) g.kind n]) ?_ ?_ ?_
      · exact ⟨hv.1.trans (by rw [List.append_assoc]; rfl), hv.2⟩
      · simp only
        rw [← h1, ← values_congr (m' := (newManagers (groups.map fun g => Mgr.new (fun j => g.dens j * f) g.kind n) st.2).2)
          fun r hr => g2 r (h3 r hr)]
        unfold Store.values
        rw [List.map_append, List.map_singleton, g1]
      · simp only [List.flatten_append, List.flatten_singleton]
        refine List.nodup_append.2 ⟨h2, g3, fun a ha b hb e => ?_⟩
        have := h3 a ha
        have := (g4 b hb).1
        omega
      · intro r hr
        simp only [List.flatten_append, List.flatten_singleton, List.mem_append] at hr
        rcases hr with hr | hr
        · exact (h3 r hr).trans_le g5
        · exact (g4 r hr).2
  obtain ⟨h1, h2, h3⟩ := key fractions ([], mem) [] rfl List.nodup_nil (by simp)
  exact ⟨h1, h2, h3, rfl, (fun d hd => by cases hd), (fun d hd => by cases hd), rfl, rfl⟩

/-- **C73**: clocking with manager objects that are copied by `save` and `restore` and changed in place is clocking with values. -/
theorem C73_clocking (mem : Store (Mgr K)) (img : Image K) (ccd : CcdView K) (roe : Roe K) (groups : List (Group K))
    (express offset : ℕ) (rows columns : List ℕ) (tw : Option (List ℕ)) :
    clockChargeMgrObj mem img ccd roe groups express offset rows columns tw =
      clockCharge img ccd roe groups express offset rows columns tw := by
  unfold clockChargeMgrObj clockCharge
  cases clockCfg roe ccd express offset rows tw with
  | error e => rfl
  | ok x =>
    obtain ⟨cfg, roe'⟩ := x
    simp only [bind_ok]
    have hS : SysRel (atmObjSys ccd.fill) (atmSys ccd.fill) (fun o a => o.Holds a) (fun o a => o.Holds a) :=
      ⟨fun s t h phase n dwell => h.react phase n dwell _, fun s t h => h.save, fun s t h => h.restore, fun s t h => h⟩
    have h := clockLoops_rel hS cfg columns (fun c _ => imgRel_eq c) (fun s t hst => by
        split
        · exact hst.emptyAll.save
        · exact hst.save) (img.pad (nPadding roe.accessed), ATMObj.new groups ccd.fractions (maxNTransfers roe cfg) mem)
      (img.pad (nPadding roe.accessed), ATM.new groups ccd.fractions (maxNTransfers roe cfg)) ⟨rfl, ATMObj.new_holds _ _ _ _⟩
    generalize clockLoops (atmObjSys ccd.fill) cfg columns
      (img.pad (nPadding roe.accessed), ATMObj.new groups ccd.fractions (maxNTransfers roe cfg) mem) = x at h
    generalize clockLoops (atmSys ccd.fill) cfg columns
      (img.pad (nPadding roe.accessed), ATM.new groups ccd.fractions (maxNTransfers roe cfg)) = y at h
    rcases x with e | x <;> rcases y with e' | y
    · cases h; rfl
    · exact h.elim
    · exact h.elim
    · obtain ⟨h1, -⟩ := h
      change Except.ok (x.1.unpad _, roe') = Except.ok (y.1.unpad _, roe')
      rw [h1]

/-! ## Saved states -/

/-- What may be done with an `AllTrapManager`. -/
inductive MgrOp (K : Type) where
  | react (phase : ℕ) (nFree dwell : K)
  | empty
  | save
  | restore

def MgrOp.run (fill : ℕ → K → K) (o : ATMObj K) : MgrOp K → Except Err (ATMObj K)
  | .react phase nFree dwell => (o.react phase nFree dwell (fill phase)).map (·.2)
  | .empty => .ok o.emptyAll
  | .save => .ok o.save
  | .restore => .ok o.restore

theorem MgrOp.run_holds (fill : ℕ → K → K) {o o' : ATMObj K} {a : ATM K} (h : o.Holds a) (op : MgrOp K)
    (hr : op.run fill o = .ok o') : ∃ a', o'.Holds a' ∧ (op ≠ .save → a'.saved = a.saved) := by
  cases op with
  | react phase nFree dwell =>
    have hx := h.react phase nFree dwell (fill phase)
    change (o.react phase nFree dwell (fill phase)).map (fun x => x.2) = .ok o' at hr
    generalize o.react phase nFree dwell (fill phase) = x at hx hr
    rcases hy : a.react phase nFree dwell (fill phase) with e | y <;> rw [hy] at hx <;> rcases x with e' | x
    · cases hr
    · exact hx.elim
    · cases hr
    · cases hr
      refine ⟨y.2, hx.2, fun _ => ?_⟩
      unfold ATM.react at hy
      cases hp : a.data[phase]? with
      | none => rw [hp] at hy; cases hy
      | some ms =>
        rw [hp] at hy
        obtain ⟨z, -, hz⟩ := bind_eq_ok hy
        cases hz
        rfl
  | empty => cases hr; exact ⟨_, h.emptyAll, fun _ => rfl⟩
  | save => cases hr; exact ⟨_, h.save, fun hn => absurd rfl hn⟩
  | restore =>
    cases hr
    refine ⟨_, h.restore, fun _ => ?_⟩
    unfold ATM.restore
    cases a.saved <;> rfl

/-- **C73**: a saved state is a copy: whatever is done afterwards, except saving again, `restore` brings it back, any number of times. -/
theorem C73_saved (groups : List (Group K)) (fractions : List K) (n : ℕ) (mem : Store (Mgr K)) (fill : ℕ → K → K)
    (pre mid : List (MgrOp K)) (o o' : ATMObj K) (hpre : pre.foldlM (MgrOp.run fill) (ATMObj.new groups fractions n mem) = .ok o)
    (hs : .save ∉ mid) (hmid : mid.foldlM (MgrOp.run fill) o.save = .ok o') :
    o'.restore.mem.values o'.restore.data = o.mem.values o.data := by
  have h1 : ∀ (l : List (MgrOp K)) (o o' : ATMObj K) (a : ATM K), o.Holds a → l.foldlM (MgrOp.run fill) o = .ok o' →
      ∃ a', o'.Holds a' ∧ (.save ∉ l → a'.saved = a.saved) := by
    intro l
    induction l with
    | nil => intro o o' a h hr; cases hr; exact ⟨a, h, fun _ => rfl⟩
    | cons op l ih =>
      intro o o' a h hr
      rw [List.foldlM_cons] at hr
      obtain ⟨o1, ho1, hr⟩ := bind_eq_ok hr
      obtain ⟨a1, ha1, hs1⟩ := MgrOp.run_holds fill h op ho1
      obtain ⟨a2, ha2, hs2⟩ := ih o1 o' a1 ha1 hr
      refine ⟨a2, ha2, fun hn => ?_⟩
      rw [List.mem_cons, not_or] at hn
      rw [hs2 hn.2, hs1 (Ne.symm hn.1)]
  obtain ⟨a, ha, -⟩ := h1 pre _ _ _ (ATMObj.new_holds groups fractions n mem) hpre
  obtain ⟨a', ha', hsv⟩ := h1 mid _ _ _ ha.save hmid
  rw [ha'.restore.data, ha.data]
  unfold ATM.restore
  rw [hsv hs]
  rfl

/-! ## Traps -/

theorem Store.deepcopy_values (m : Store α) (refs : List ℕ) : (m.deepcopy refs).1.map (m.deepcopy refs).2.get = refs.map m.get := by
  unfold Store.deepcopy
  simp only [List.map_map]
  exact List.map_congr_left fun r hr => copyAll_new m _ (List.mem_dedup.2 hr)

theorem Store.deepcopy_range (m : Store α) (refs : List ℕ) {a : ℕ} (h : a ∈ (m.deepcopy refs).1) :
    m.next ≤ a ∧ a < (m.deepcopy refs).2.next := by
  obtain ⟨r, hr, rfl⟩ := List.mem_map.1 h
  exact ⟨copyRef_ge _ _ _, copyRef_lt _ _ (List.mem_dedup.2 hr)⟩

theorem withDensity_density (t : Trap) (d : ℝ) : (t.withDensity d).density = d := by cases t <;> rfl

theorem setDensities_spec (refs : List ℕ) (values : List ℝ) (mem : Store Trap) :
    (setDensities mem refs values).next = mem.next ∧
      ∀ a, a ∉ refs → (setDensities mem refs values).get a = mem.get a := by
  induction refs generalizing values mem with
  | nil => exact ⟨rfl, fun _ _ => rfl⟩
  | cons r rs ih =>
    cases values with
    | nil => exact ⟨rfl, fun _ _ => rfl⟩
    | cons v vs =>
      obtain ⟨h1, h2⟩ := ih vs (mem.put r ((mem.get r).withDensity v))
      refine ⟨h1, fun a ha => ?_⟩
      rw [List.mem_cons, not_or] at ha
      exact (h2 a ha.2).trans (put_ne _ _ ha.1)

/-- A density is set to a value that depends on the object only. -/
theorem setDensities_map (f : ℕ → ℝ) (refs : List ℕ) (mem : Store Trap) :
    ∀ r ∈ refs, ((setDensities mem refs (refs.map f)).get r).density = f r := by
  induction refs generalizing mem with
  | nil => intro r hr; cases hr
  | cons q rs ih =>
    intro r hr
    rw [List.map_cons]
    unfold setDensities
    by_cases h : r ∈ rs
    · exact ih _ r h
    · obtain rfl : r = q := (List.mem_cons.1 hr).resolve_right h
      rw [(setDensities_spec rs _ _).2 r h, put_self, withDensity_density]

/-- Trap objects that are the same but for the density. -/
inductive SameSpecies : Trap → Trap → Prop
  | trap (d d' r c : ℝ) (b : Bool) : SameSpecies (.trap d r c b) (.trap d' r c b)
  | instant (d d' r : ℝ) (b : Bool) : SameSpecies (.instant d r b) (.instant d' r b)
  | continuum (d d' : ℝ) (f : ℝ → ℝ → ℝ → ℝ) (m s : ℝ) : SameSpecies (.continuum d f m s) (.continuum d' f m s)

theorem SameSpecies.refl (t : Trap) : SameSpecies t t := by cases t <;> constructor

theorem SameSpecies.trans {a b c : Trap} (h : SameSpecies a b) (h' : SameSpecies b c) : SameSpecies a c := by
  cases h <;> cases h' <;> constructor

theorem withDensity_same (t : Trap) (d : ℝ) : SameSpecies t (t.withDensity d) := by cases t <;> constructor

theorem setDensities_same (refs : List ℕ) (values : List ℝ) (mem : Store Trap) (a : ℕ) :
    SameSpecies (mem.get a) ((setDensities mem refs values).get a) := by
  induction refs generalizing values mem with
  | nil => exact .refl _
  | cons r rs ih =>
    cases values with
    | nil => exact .refl _
    | cons v vs =>
      refine .trans ?_ (ih vs (mem.put r ((mem.get r).withDensity v)))
      by_cases h : a = r
      · subst h
        rw [put_self]
        exact withDensity_same _ _
      · rw [put_ne _ _ h]
        exact .refl _

/-- **C73**: assigning as many densities as there are species sets them, changes nothing else of these trap objects, and
nothing of all others. -/
theorem C73_setter (mem : Store Trap) (refs : List ℕ) (hn : refs.Nodup) (values : List ℝ) (hl : values.length = refs.length) :
    (setNTrapsPerPixel mem refs values).2 = .ok () ∧ densities (setNTrapsPerPixel mem refs values).1 refs = values ∧
      (∀ a, SameSpecies (mem.get a) ((setNTrapsPerPixel mem refs values).1.get a)) ∧
      ∀ a, a ∉ refs → (setNTrapsPerPixel mem refs values).1.get a = mem.get a := by
  unfold setNTrapsPerPixel
  rw [if_neg (by simpa using hl)]
  refine ⟨rfl, ?_, setDensities_same refs values mem, (setDensities_spec refs values mem).2⟩
  simp only
  have key : ∀ (refs : List ℕ) (values : List ℝ) (mem : Store Trap), refs.Nodup → values.length = refs.length →
      densities (setDensities mem refs values) refs = values := by
    intro refs
    induction refs with
    | nil => intro values mem _ hl; exact (List.length_eq_zero_iff.1 hl).symm
    | cons r rs ih =>
      intro values mem hn hl
      rw [List.nodup_cons] at hn
      cases values with
      | nil => simp at hl
      | cons v vs =>
        have h := ih vs (mem.put r ((mem.get r).withDensity v)) hn.2 (by simpa using hl)
        unfold densities at h ⊢
        rw [List.map_cons]
        unfold setDensities
        rw [h, (setDensities_spec rs vs _).2 r hn.1, put_self, withDensity_density]
  exact key refs values mem hn hl

/-- **C73** (limit): another number of densities raises `UnboundLocalError` instead of the `ValueError` that was meant. -/
theorem C73_setter_length (mem : Store Trap) (refs : List ℕ) (values : List ℝ) (hl : values.length ≠ refs.length) :
    setNTrapsPerPixel mem refs values = (mem, .error .unboundLocalError) := by
  unfold setNTrapsPerPixel
  rw [if_pos hl]

/-- **C73** (limit): if one trap object is listed twice in a group, both species get the density assigned last. -/
theorem C73_setter_twice (mem : Store Trap) (r : ℕ) (v w : ℝ) :
    densities (setNTrapsPerPixel mem [r, r] [v, w]).1 [r, r] = [w, w] := by
  simp [setNTrapsPerPixel, setDensities, densities, put_self, withDensity_density]

theorem newTrapManager_spec (mem : Store Trap) (refs : List ℕ) (frac : ℝ) :
    densities (newTrapManager mem refs frac).2 (newTrapManager mem refs frac).1 = (densities mem refs).map (· * frac) ∧
    (∀ a < mem.next, (newTrapManager mem refs frac).2.get a = mem.get a) ∧ mem.next ≤ (newTrapManager mem refs frac).2.next ∧
    ∀ r ∈ (newTrapManager mem refs frac).1, r < (newTrapManager mem refs frac).2.next := by
  have hv : densities (mem.deepcopy refs).2 (mem.deepcopy refs).1 = densities mem refs := by
    have := congrArg (List.map Trap.density) (mem.deepcopy_values refs)
    rw [List.map_map, List.map_map] at this
    exact this
  have hrange := fun a => mem.deepcopy_range refs (a := a)
  unfold newTrapManager
  simp only
  generalize hc : mem.deepcopy refs = c at hv hrange
  have hold : ∀ a < mem.next, c.2.get a = mem.get a := by rw [← hc]; exact fun a ha => copyAll_old _ _ ha
  have hnext : mem.next ≤ c.2.next := by rw [← hc]; exact copyAll_next _ _
  obtain ⟨refs', mem'⟩ := c
  simp only at hv hrange hold hnext ⊢
  unfold setNTrapsPerPixel
  rw [if_neg (by simp [densities])]
  simp only
  have hval : (densities mem' refs').map (· * frac) = refs'.map fun r => (mem'.get r).density * frac := by
    unfold densities; rw [List.map_map]; rfl
  obtain ⟨h1, h2⟩ := setDensities_spec refs' ((densities mem' refs').map (· * frac)) mem'
  refine ⟨?_, fun a ha => ?_, h1 ▸ hnext, fun r hr => h1 ▸ (hrange r hr).2⟩
  · rw [← hv, hval]
    unfold densities
    exact List.map_congr_left fun r hr => setDensities_map (fun r => (mem'.get r).density * frac) refs' mem' r hr
  · rw [h2 a fun hc => absurd (hrange a hc).1 (by omega), hold a ha]

/-- The inner loop over the groups. -/
theorem groupManagers_spec (frac : ℝ) (groups : List (List ℕ)) (st : List (List ℕ) × Store Trap) (base : Store Trap)
    (hbase : ∀ a < base.next, st.2.get a = base.get a) (hnext : base.next ≤ st.2.next)
    (hg : ∀ g ∈ groups, ∀ r ∈ g, r < base.next) (hst : ∀ m ∈ st.1, ∀ r ∈ m, r < st.2.next) :
    let st' := groups.foldl (fun st' refs =>
      (st'.1 ++ [(newTrapManager st'.2 refs frac).1], (newTrapManager st'.2 refs frac).2)) st
    st'.1.map (densities st'.2) = st.1.map (densities st.2) ++ groups.map (fun g => (densities base g).map (· * frac)) ∧
      (∀ a < st.2.next, st'.2.get a = st.2.get a) ∧ st.2.next ≤ st'.2.next ∧ ∀ m ∈ st'.1, ∀ r ∈ m, r < st'.2.next := by
  induction groups generalizing st with
  | nil => exact ⟨by simp, fun _ _ => rfl, le_rfl, hst⟩
  | cons g gs ih =>
    obtain ⟨h1, h2, h3, h4⟩ := newTrapManager_spec st.2 g frac
    have hd : densities st.2 g = densities base g :=
      List.map_congr_left fun r hr => by rw [hbase r (hg g (by simp) r hr)]
    obtain ⟨g1, g2, g3, g4⟩ := ih (st.1 ++ [(newTrapManager st.2 g frac).1], (newTrapManager st.2 g frac).2)
      (fun a ha => (h2 a (ha.trans_le hnext)).trans (hbase a ha)) (hnext.trans h3)
      (fun g' hg' => hg g' (List.mem_cons_of_mem _ hg')) (by
        intro m hm r hr
        simp only [List.mem_append, List.mem_singleton] at hm
        rcases hm with hm | rfl
        · exact (hst m hm r hr).trans_le h3
        · exact h4 r hr)
    refine ⟨?_, fun a ha => (g2 a (ha.trans_le h3)).trans (h2 a ha), h3.trans g3, g4⟩
    simp only at g1
    rw [List.foldl_cons, g1, List.map_append, List.map_singleton, h1, hd, List.append_assoc, List.map_cons]
    congr 1
    refine List.map_congr_left fun m hm => List.map_congr_left fun r hr => ?_
    rw [h2 r (hst m hm r hr)]

/-- **C73**: making the trap managers of a CCD leaves the traps of the caller as they are, and every manager has the densities of its
traps times the fraction of traps in its phase, also if a trap object is listed several times. -/
theorem C73_traps (mem : Store Trap) (groups : List (List ℕ)) (hg : ∀ g ∈ groups, ∀ r ∈ g, r < mem.next) (fractions : List ℝ) :
    (∀ a < mem.next, (allManagers mem groups fractions).2.get a = mem.get a) ∧
      (allManagers mem groups fractions).1.map (fun ms => ms.map (densities (allManagers mem groups fractions).2)) =
        fractions.map fun frac => groups.map fun g => (densities mem g).map (· * frac) := by
  have key : ∀ (fr : List ℝ) (st : List (List (List ℕ)) × Store Trap), (∀ a < mem.next, st.2.get a = mem.get a) →
      mem.next ≤ st.2.next → (∀ ms ∈ st.1, ∀ m ∈ ms, ∀ r ∈ m, r < st.2.next) →
      let st' := fr.foldl (fun st frac =>
        let x := groups.foldl (fun st' refs =>
          (st'.1 ++ [(newTrapManager st'.2 refs frac).1], (newTrapManager st'.2 refs frac).2)) (([] : List (List ℕ)), st.2)
        (st.1 ++ [x.1], x.2)) st
      (∀ a < mem.next, st'.2.get a = mem.get a) ∧ st'.1.map (fun ms => ms.map (densities st'.2)) =
        st.1.map (fun ms => ms.map (densities st.2)) ++ fr.map fun frac => groups.map fun g => (densities mem g).map (· * frac) := by
    intro fr
    induction fr with
    | nil => intro st h1 h2 h3; exact ⟨h1, by simp⟩
    | cons f fr ih =>
      intro st h1 h2 h3
      obtain ⟨g1, g2, g3, g4⟩ := groupManagers_spec f groups ([], st.2) mem h1 h2 hg (by simp)
      rw [List.foldl_cons]
      simp only at g1 g2 g3 g4
      generalize groups.foldl (fun st' refs =>
          (st'.1 ++ [(newTrapManager st'.2 refs f).1], (newTrapManager st'.2 refs f).2)) (([] : List (List ℕ)), st.2) = x at g1 g2 g3 g4
      obtain ⟨k1, k2⟩ := ih (st.1 ++ [x.1], x.2) (fun a ha => (g2 a (ha.trans_le h2)).trans (h1 a ha)) (h2.trans g3) (by
        intro ms hms m hm r hr
        simp only [List.mem_append, List.mem_singleton] at hms
        rcases hms with hms | rfl
        · exact (h3 ms hms m hm r hr).trans_le g3
        · exact g4 m hm r hr)
      refine ⟨k1, ?_⟩
      simp only at k2
      refine k2.trans ?_
      rw [List.map_append, List.map_singleton, g1, List.append_assoc, List.map_cons]
      congr 1
      refine List.map_congr_left fun ms hms => List.map_congr_left fun m hm => List.map_congr_left fun r hr => ?_
      rw [g2 r (h3 ms hms m hm r hr)]
  have h := key fractions ([], mem) (fun _ _ => rfl) le_rfl (by simp)
  exact ⟨h.1, h.2⟩

/-! ## Examples -/

/-- A trap listed twice in one group and once in another, in a CCD with two phases. -/
example : (allManagers ⟨fun _ => .instant 8 2 false, 1⟩ [[0, 0], [0]] [3 / 4, 1 / 4]).1.map
    (fun ms => ms.map (densities (allManagers ⟨fun _ => .instant 8 2 false, 1⟩ [[0, 0], [0]] [3 / 4, 1 / 4]).2)) =
    [[[6, 6], [6]], [[2, 2], [2]]] := by
  rw [(C73_traps ⟨fun _ => .instant 8 2 false, 1⟩ [[0, 0], [0]] (by simp) [3 / 4, 1 / 4]).2]
  simp [densities, Trap.density]
  norm_num

/-- Captured, saved, emptied, restored, more captured, restored: the electrons trapped when saving are there again. -/
def exOps : List (MgrOp ℚ) := [.empty, .restore, .react 0 50 1, .react 0 90 1, .restore, .react 0 20 1]
def exAtmObj : ATMObj ℚ := ATMObj.new [exGroup] [1] 4 ⟨fun _ => Mgr.new (s := 0) (fun _ => 0) (.instant fun _ _ => 0) 0, 0⟩
example : ((([.react 0 60 1, .react 0 30 1] : List (MgrOp ℚ)).foldlM (MgrOp.run fun _ => fill100) exAtmObj).bind fun o =>
    (exOps.foldlM (MgrOp.run fun _ => fill100) o.save).map fun o' => (o.currently, o'.currently, o'.restore.currently)) =
    .ok (93 / 20, 2753 / 800, 93 / 20) := by decide +kernel

end Arctic
