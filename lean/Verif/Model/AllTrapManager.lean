import Verif.Model.TrapManager

/-!
# `AllTrapManager` (arcticpy/trap_managers.py:22-156)

`data[phase][group]` with save/restore and its book-keeping counters.
`traps` is taken after the normalisation of lines 76-81 to a list of groups.
-/

namespace Arctic

variable {K : Type} [Field K] [LinearOrder K]

/-- A group of species sharing watermarks: densities and the manager class chosen for the group
(trap_managers.py:91-106; the choice from trap objects is `Verif.Model.Traps.groupOfTraps`). -/
structure Group (K : Type) where
  s : ℕ
  dens : Fin s → K
  kind : Kind K s

/-- State of an `AllTrapManager` object. -/
structure ATM (K : Type) where
  data : List (List (Mgr K))
  saved : Option (List (List (Mgr K)))
  inSave : K
  previously : K

/-- `AllTrapManager.__init__` (trap_managers.py:83-116): one manager per phase and group, the
densities scaled by the phase's fraction of traps. -/
def ATM.new (groups : List (Group K)) (fractions : List K) (maxNTransfers : ℕ) : ATM K where
  data := fractions.map fun frac =>
    groups.map fun g => Mgr.new (fun j => g.dens j * frac) g.kind maxNTransfers
  saved := none
  inSave := 0
  previously := 0

/-- `n_electrons_trapped_currently` (trap_managers.py:118-129). -/
def ATM.currently (a : ATM K) : K := (a.data.map fun ms => (ms.map Mgr.nTrapped).sum).sum

/-- `empty_all_traps` (trap_managers.py:131-135). -/
def ATM.emptyAll (a : ATM K) : ATM K := { a with data := a.data.map fun ms => ms.map Mgr.empty }

/-- `save` (trap_managers.py:137-142). -/
def ATM.save (a : ATM K) : ATM K := { a with saved := some a.data, inSave := a.currently }

/-- `restore` (trap_managers.py:144-156). -/
def ATM.restore (a : ATM K) : ATM K :=
  let a' := { a with previously := a.previously + (a.currently - a.inSave) }
  match a.saved with
  | none => a'.emptyAll
  | some d => { a' with data := d }

/-- The loop over the groups of one phase (main_utils.pyx:212-221): every manager sees the same
`n_free_electrons`; the nets are added up. -/
def groupsStep (nFree dwell : K) (fill : K → K) :
    List (Mgr K) → Except Err (K × List (Mgr K))
  | [] => .ok (0, [])
  | m :: ms => do
    let (net, m') ← m.step nFree dwell fill
    let (nets, ms') ← groupsStep nFree dwell fill ms
    .ok (net + nets, m' :: ms')

/-- `trap_managers[phase]` and the loop over its groups (main_utils.pyx:212-221). -/
def ATM.react (a : ATM K) (phase : ℕ) (nFree dwell : K) (fill : K → K) :
    Except Err (K × ATM K) :=
  match a.data[phase]? with
  | none => .error .indexError
  | some ms => do
    let (net, ms') ← groupsStep nFree dwell fill ms
    .ok (net, { a with data := a.data.set phase ms' })

end Arctic
