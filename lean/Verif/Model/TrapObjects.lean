import Verif.Model.Traps
import Verif.Model.Main

/-!
# Trap and trap manager objects (arcticpy/trap_managers.py:23-160, 199, 282-296)

In the other modules traps and trap managers are values. Here they are objects: a list of traps is a list of references,
a `TrapManager` works on `deepcopy`s of its traps, `save` and `restore` make `deepcopy`s of all managers, and capture and
release change the manager objects in place. `deepcopy` of a list copies an object once, however often it is listed.

Simplifications: a manager object owns its watermark array and its (copied) traps, so that it is one value; after an
exception nothing is said about the objects.
-/

namespace Arctic

/-! ## References and `deepcopy` -/

/-- Objects by address; addresses from `next` on are unused. -/
structure Store (α : Type) where
  get : ℕ → α
  next : ℕ

/-- `obj.attribute = value`, the new object being `x`. -/
def Store.put {α : Type} (m : Store α) (r : ℕ) (x : α) : Store α := { m with get := Function.update m.get r x }

/-- The new addresses of the objects `d` after `deepcopy`. -/
def copyRef {α : Type} (m : Store α) (d : List ℕ) (r : ℕ) : ℕ := m.next + d.idxOf r

/-- The memory after copying the objects `d`. -/
def Store.copyAll {α : Type} (m : Store α) (d : List ℕ) : Store α where
  get := fun a => if m.next ≤ a then (match d[a - m.next]? with
    | some r => m.get r
    | none => m.get a) else m.get a
  next := m.next + d.length

/-- `deepcopy` of a list of objects. -/
def Store.deepcopy {α : Type} (m : Store α) (refs : List ℕ) : List ℕ × Store α :=
  (refs.map (copyRef m refs.dedup), m.copyAll refs.dedup)

/-- `deepcopy` of a list of lists of objects. -/
def Store.deepcopy₂ {α : Type} (m : Store α) (refs : List (List ℕ)) : List (List ℕ) × Store α :=
  (refs.map fun l => l.map (copyRef m refs.flatten.dedup), m.copyAll refs.flatten.dedup)

/-! ## Trap managers as objects -/

section
variable {K : Type} [Field K] [LinearOrder K]

/-- An `AllTrapManager` and the memory with its manager objects. -/
structure ATMObj (K : Type) where
  mem : Store (Mgr K)
  data : List (List ℕ)
  saved : Option (List (List ℕ))
  inSave : K
  previously : K

/-- `n_electrons_trapped_currently` (trap_managers.py:118-129). -/
def ATMObj.currently (a : ATMObj K) : K := (a.data.map fun l => (l.map fun r => (a.mem.get r).nTrapped).sum).sum

/-- `empty_all_traps` (trap_managers.py:131-135), in place. -/
def ATMObj.emptyAll (a : ATMObj K) : ATMObj K :=
  { a with mem := a.data.flatten.foldl (fun m r => m.put r (m.get r).empty) a.mem }

/-- `save` (trap_managers.py:137-142). -/
def ATMObj.save (a : ATMObj K) : ATMObj K :=
  let (refs, mem) := a.mem.deepcopy₂ a.data
  { a with mem := mem, saved := some refs, inSave := a.currently }

/-- `restore` (trap_managers.py:144-160). -/
def ATMObj.restore (a : ATMObj K) : ATMObj K :=
  let a' := { a with previously := a.previously + (a.currently - a.inSave) }
  match a.saved with
  | none => a'.emptyAll
  | some d =>
    let (refs, mem) := a.mem.deepcopy₂ d
    { a' with mem := mem, data := refs }

/-- The loop over the managers of a phase (main_utils.pyx:210-221), each changed in place. -/
def ATMObj.groups (nFree dwell : K) (fill : K → K) :
    List ℕ → K × Store (Mgr K) → Except Err (K × Store (Mgr K))
  | [], st => .ok st
  | r :: rs, (total, mem) => do
    let (net, m) ← (mem.get r).step nFree dwell fill
    ATMObj.groups nFree dwell fill rs (total + net, mem.put r m)

/-- `trap_managers[phase]` and the loop over it (main_utils.pyx:210-221). -/
def ATMObj.react (a : ATMObj K) (phase : ℕ) (nFree dwell : K) (fill : K → K) : Except Err (K × ATMObj K) :=
  match a.data[phase]? with
  | none => .error .indexError
  | some refs => do
    let (net, mem) ← ATMObj.groups nFree dwell fill refs (0, a.mem)
    .ok (net, { a with mem := mem })

/-- The trap system with objects. -/
def atmObjSys (fill : ℕ → K → K) : TrapSys K (ATMObj K) where
  restore := ATMObj.restore
  save := ATMObj.save
  emptyAll := ATMObj.emptyAll
  react := fun a phase nFree dwell => a.react phase nFree dwell (fill phase)

/-- The managers of one phase: new objects (trap_managers.py:87-108). -/
def newManagers (ms : List (Mgr K)) (mem : Store (Mgr K)) : List ℕ × Store (Mgr K) :=
  ((List.range ms.length).map (mem.next + ·),
    { get := fun a => if mem.next ≤ a then (match ms[a - mem.next]? with
        | some m => m
        | none => mem.get a) else mem.get a
      next := mem.next + ms.length })

/-- `AllTrapManager.__init__` (trap_managers.py:83-116). -/
def ATMObj.new (groups : List (Group K)) (fractions : List K) (maxNTransfers : ℕ) (mem : Store (Mgr K)) : ATMObj K :=
  let (data, mem) := fractions.foldl (fun (st : List (List ℕ) × Store (Mgr K)) frac =>
    let (refs, mem) := newManagers (groups.map fun g => Mgr.new (fun j => g.dens j * frac) g.kind maxNTransfers) st.2
    (st.1 ++ [refs], mem)) ([], mem)
  ⟨mem, data, none, 0, 0⟩

/-- `cy_clock_charge_in_one_direction` (main_utils.pyx:14-264) with trap managers as objects. -/
def clockChargeMgrObj (mem : Store (Mgr K)) (img : Image K) (ccd : CcdView K) (roe : Roe K) (groups : List (Group K))
    (express offset : ℕ) (rows columns : List ℕ) (tw : Option (List ℕ)) : Except Err (Image K × Roe K) := do
  let (cfg, roe') ← clockCfg roe ccd express offset rows tw
  let n := nPadding roe.accessed
  let (out, _) ← clockLoops (atmObjSys ccd.fill) cfg columns
    (img.pad n, ATMObj.new groups ccd.fractions (maxNTransfers roe cfg) mem)
  .ok (out.unpad n, roe')

end

/-! ## Traps as objects -/

noncomputable section

/-- `n_traps_per_pixel` (trap_managers.py:283-286) of a manager with the traps `refs`. -/
def densities (mem : Store Trap) (refs : List ℕ) : List ℝ := refs.map fun r => (mem.get r).density

/-- The loop of the setter (trap_managers.py:294-295). -/
def setDensities (mem : Store Trap) : List ℕ → List ℝ → Store Trap
  | r :: rs, v :: vs => setDensities (mem.put r ((mem.get r).withDensity v)) rs vs
  | _, _ => mem

/-- `manager.n_traps_per_pixel = values` (trap_managers.py:288-295): the objects afterwards, and the exception. The message
of the `ValueError` uses a variable that has no value yet. -/
def setNTrapsPerPixel (mem : Store Trap) (refs : List ℕ) (values : List ℝ) : Store Trap × Except Err Unit :=
  if values.length ≠ refs.length then (mem, .error .unboundLocalError)
  else (setDensities mem refs values, .ok ())

/-- One manager of `AllTrapManager.__init__` (trap_managers.py:97-107, 199): copies of the traps, then
`n_traps_per_pixel *= fraction`. -/
def newTrapManager (mem : Store Trap) (refs : List ℕ) (frac : ℝ) : List ℕ × Store Trap :=
  let (refs', mem) := mem.deepcopy refs
  (refs', (setNTrapsPerPixel mem refs' ((densities mem refs').map (· * frac))).1)

/-- The loops of `AllTrapManager.__init__` (trap_managers.py:83-111) over phases and groups: the traps of each manager. -/
def allManagers (mem : Store Trap) (groups : List (List ℕ)) (fractions : List ℝ) : List (List (List ℕ)) × Store Trap :=
  fractions.foldl (fun st frac =>
    let (managers, mem) := groups.foldl (fun st' refs =>
      let (refs', mem) := newTrapManager st'.2 refs frac
      (st'.1 ++ [refs'], mem)) (([] : List (List ℕ)), st.2)
    (st.1 ++ [managers], mem)) ([], mem)

end
end Arctic
