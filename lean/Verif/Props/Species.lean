import Verif.Lemmas.MgrRel
import Verif.Lemmas.Relabel
import Verif.Props.ClockExamples

/-!
# Species and whole calls of `add_cti` (C24)
-/

set_option linter.unusedSectionVars false
set_option linter.unusedVariables false

namespace Arctic

variable {K : Type} [Field K] [LinearOrder K] [IsStrictOrderedRing K]

/-- `g'` lists the species of `g` in parts: each species of `g'` behaves like the species `φ i` of `g`, and the densities of the
parts of a species add up to its density. (With `φ` a permutation: the species in another order.) -/
def Group.Splits (g g' : Group K) : Prop :=
  ∃ φ : Fin g'.s → Fin g.s, Function.Surjective φ ∧ (∀ j, g.dens j = ∑ i with φ i = j, g'.dens i) ∧ KindRel φ g.kind g'.kind

/-- A manager and one with the species in parts, in the same state. -/
def SplitMgr (m m' : Mgr K) : Prop :=
  ∃ φ : Fin m'.s → Fin m.s, Function.Surjective φ ∧ (∀ j, m.dens j = ∑ i with φ i = j, m'.dens i) ∧
    KindRel φ m.kind m'.kind ∧ m'.wm = rl φ m.wm

theorem splitMgr_rel : MgrRel (K := K) SplitMgr where
  step := by
    rintro ⟨s, dens, k, wm⟩ ⟨s', dens', k', wm'⟩ ⟨φ, hφ, hd, hk, h⟩ n t f
    simp only at φ hφ hd hk h
    subst h
    rw [rl_step φ hφ dens dens' hd k k' hk]
    obtain ⟨r, hr⟩ : ∃ r : Except Err (K × WM K s),
        Mgr.step ⟨s, dens, k, wm⟩ n t f = r.map fun o => (o.1, ⟨s, dens, k, o.2⟩) := by
      cases hk with
      | slow p p' h => exact ⟨_, step_slow ..⟩
      | instant p p' h => exact ⟨_, step_instant ..⟩
      | trackTime p p' h => exact ⟨_, step_track ..⟩
    rw [hr]
    cases r with
    | error e => exact rfl
    | ok o => exact ⟨rfl, φ, hφ, hd, hk, by simp only [dif_pos]⟩
  empty := by
    rintro ⟨s, dens, k, wm⟩ ⟨s', dens', k', wm'⟩ ⟨φ, hφ, hd, hk, h⟩
    simp only at φ hφ hd hk h
    subst h
    refine ⟨φ, hφ, hd, hk, ?_⟩
    simp only [Mgr.empty, rl, List.map_map]
    exact List.map_congr_left fun _ _ => rfl

theorem splitMgr_new {g g' : Group K} (h : g.Splits g') (frac : K) (N : ℕ) :
    SplitMgr (Mgr.new (fun j => g.dens j * frac) g.kind N) (Mgr.new (fun j => g'.dens j * frac) g'.kind N) := by
  obtain ⟨s, dens, k⟩ := g
  obtain ⟨s', dens', k'⟩ := g'
  obtain ⟨φ, hφ, hd, hk⟩ := h
  simp only at φ hφ hd hk
  have hd' : ∀ j : Fin s, dens j * frac = ∑ i with φ i = j, dens' i * frac := fun j => by
    rw [hd j]; exact Finset.sum_mul _ _ _
  refine ⟨φ, hφ, hd', hk, ?_⟩
  · unfold Mgr.new rl
    cases hk <;> · simp only [List.map_replicate]; rfl

/-- **C24** for one direction of clocking: any image, readout class, express value, windows; also when the call fails. -/
theorem C24_clocking (img : Image K) (ccd : CcdView K) (roe : Roe K) (groups groups' : List (Group K))
    (h : List.Forall₂ Group.Splits groups groups') (express offset : ℕ) (rows columns : List ℕ) (tw : Option (List ℕ)) :
    clockCharge img ccd roe groups' express offset rows columns tw =
      clockCharge img ccd roe groups express offset rows columns tw :=
  (clockCharge_mgrRel splitMgr_rel img ccd roe groups groups' (h.imp fun a b hab frac _ N => splitMgr_new hab frac N)
    express offset rows columns tw).symm

/-- **C24** for `add_cti`: the same image and readout objects, or the same exception. -/
theorem C24_add_cti (img : Image K) (par ser : Option (Direction K)) (pgroups sgroups : List (Group K))
    (hp : ∀ d, par = some d → List.Forall₂ Group.Splits d.groups pgroups)
    (hs : ∀ d, ser = some d → List.Forall₂ Group.Splits d.groups sgroups) (o : ℕ) (pw sw : Window)
    (tw : Option (List ℕ)) :
    (addCti img (par.map fun d => { d with groups := pgroups }) o pw (ser.map fun d => { d with groups := sgroups }) sw
      tw).map resultOf = (addCti img par o pw ser sw tw).map resultOf := by
  refine addCti_sameEffect img o pw sw tw ?_ ?_
  · cases par with
    | none => exact .none
    | some d => exact .some ⟨rfl, rfl, rfl, rfl, fun _ _ _ _ _ _ => C24_clocking _ _ _ _ _ (hp d rfl) _ _ _ _ _⟩
  · cases ser with
    | none => exact .none
    | some d => exact .some ⟨rfl, rfl, rfl, rfl, fun _ _ _ _ _ _ => C24_clocking _ _ _ _ _ (hs d rfl) _ _ _ _ _⟩

/-- Density 10 in parts of 4 and 6. -/
def exGroupSplit : Group ℚ := ⟨2, ![4, 6], .instant fun _ _ => 1 / 2⟩

example : exGroup.Splits exGroupSplit :=
  ⟨fun _ => (0 : Fin 1), fun j => ⟨(0 : Fin 2), (Subsingleton.elim (α := Fin 1) _ _)⟩, by
    change ∀ j : Fin 1, (10 : ℚ) = ∑ i : Fin 2 with (0 : Fin 1) = j, ![4, 6] i
    decide +kernel, .instant _ _ fun _ _ => rfl⟩

example : ((addCti (exImg 3 1 [[0], [80], [0]]) (some ⟨exCcd, exRoe, [exGroupSplit], 0, 0⟩) 0 .all none .all none).map
      fun x => x.1.rows) =
    ((addCti (exImg 3 1 [[0], [80], [0]]) (some ⟨exCcd, exRoe, [exGroup], 0, 0⟩) 0 .all none .all none).map
      fun x => x.1.rows) ∧
    ((addCti (exImg 3 1 [[0], [80], [0]]) (some ⟨exCcd, exRoe, [exGroup], 0, 0⟩) 0 .all none .all none).map
      fun x => x.1.rows) ≠ .ok [[0], [80], [0]] := by decide +kernel

end Arctic
