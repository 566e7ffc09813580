import Verif.Model.Main

/-!
# Readout objects with attributes (arcticpy/roe.py:89-140, 337-428, 627-671, 735-799)

`Verif.Model.Roe` has the readout classes as values. Here a readout is an object: its clock sequence and accessed pixels
are computed when it is constructed and stay as they are when an attribute is assigned later; and the same object may be
given to `add_cti` for both directions and in several calls. What an exception in `add_cti` leaves behind is in
`Verif.Model.Failures`.
-/

namespace Arctic

/-- The type given as `express_matrix_dtype`. -/
inductive PyType where
  | int | float | other
  deriving DecidableEq

/-- The check of roe.py:134-140; `true` for `int`. -/
def PyType.isInt : PyType → Except Err Bool
  | .int => .ok true
  | .float => .ok false
  | .other => .error .valueError

/-- The `dwell_times` argument: a number or a list. -/
inductive DwellArg (K : Type) where
  | scalar (x : K)
  | list (l : List K)

/-- roe.py:119-124, 793-800 -/
def DwellArg.toList {K : Type} : DwellArg K → List K
  | .scalar x => [x]
  | .list l => l

/-- A readout object: the attributes, and what was computed from them at construction. `empty_traps_between_columns` is
read from the attribute, which trap pumping also has (roe.py:781). -/
structure RoeObj (K : Type) where
  attrs : Roe K
  emptyBetween : Bool
  clockSeq : List (List (Phase K))
  accessed : List ℤ

/-- An assignment to an attribute of a readout object. -/
inductive Assign (K : Type) where
  | dwellTimes (d : DwellArg K)
  | dtype (t : PyType)
  | emptyFirst (b : Bool)
  | emptyBetween (b : Bool)
  | force (b : Bool)
  | nPumps (n : ℕ)
  | nPixelTransfers (n : Option ℕ)

section
variable {K : Type} [Field K] [LinearOrder K]

/-- The end of each constructor: `clock_sequence` and `pixels_accessed_during_clocking` are computed from the attributes
(roe.py:418-422, 667-671, 783-787). -/
def RoeObj.init (r : Roe K) : RoeObj K := ⟨r, r.emptyBetween, r.clockSequence, r.accessed⟩

/-- `ROE(...)` (roe.py:338-422). -/
def RoeObj.newStandard (dwell : DwellArg K) (emptyFirst emptyBetween force : Bool) (dtype : PyType) :
    Except Err (RoeObj K) := do
  let i ← dtype.isInt
  .ok (.init (.standard dwell.toList emptyFirst emptyBetween force i))

/-- `ROEChargeInjection(...)` (roe.py:628-671). -/
def RoeObj.newInjection (dwell : DwellArg K) (nPixelTransfers : Option ℕ) (emptyBetween force : Bool)
    (dtype : PyType) : Except Err (RoeObj K) := do
  let i ← dtype.isInt
  .ok (.init (.injection dwell.toList nPixelTransfers emptyBetween force i))

/-- `ROETrapPumping(...)` (roe.py:736-787): the dwell times are checked first (roe.py:112-113). -/
def RoeObj.newPumping (dwell : DwellArg K) (nPumps : ℕ) (emptyFirst : Bool) (dtype : PyType) :
    Except Err (RoeObj K) :=
  if dwell.toList.length % 2 = 1 then .error .exception
  else do
    let i ← dtype.isInt
    .ok (.init (.pumping dwell.toList nPumps emptyFirst i))

/-- The attributes after `dwell_times` has been stored. -/
def Roe.setDwell : Roe K → List K → Roe K
  | .standard _ ef eb f i, d => .standard d ef eb f i
  | .injection _ n eb f i, d => .injection d n eb f i
  | .pumping _ n ef i, d => .pumping d n ef i

/-- The attributes after `express_matrix_dtype` has been stored. -/
def Roe.setInt : Roe K → Bool → Roe K
  | .standard d ef eb f _, i => .standard d ef eb f i
  | .injection d n eb f _, i => .injection d n eb f i
  | .pumping d n ef _, i => .pumping d n ef i

/-- Charge injection inherits the attribute but never reads it. -/
def Roe.setEmptyFirst : Roe K → Bool → Roe K
  | .standard d _ eb f i, b => .standard d b eb f i
  | .injection d n eb f i, _ => .injection d n eb f i
  | .pumping d n _ i, b => .pumping d n b i

def Roe.setEmptyBetween : Roe K → Bool → Roe K
  | .standard d ef _ f i, b => .standard d ef b f i
  | .injection d n _ f i, b => .injection d n b f i
  | .pumping d n ef i, _ => .pumping d n ef i

def Roe.setForce : Roe K → Bool → Roe K
  | .standard d ef eb _ i, b => .standard d ef eb b i
  | .injection d n eb _ i, b => .injection d n eb b i
  | .pumping d n ef i, _ => .pumping d n ef i

def Roe.setNPumps : Roe K → ℕ → Roe K
  | .pumping d _ ef i, n => .pumping d n ef i
  | r, _ => r

def Roe.setNPixelTransfers : Roe K → Option ℕ → Roe K
  | .injection d _ eb f i, n => .injection d n eb f i
  | r, _ => r

/-- `obj.attribute = value`: the object afterwards and the exception if one is raised. The setters of roe.py:119-124,
134-140 and 793-802 (which stores an odd number of steps before it raises); all others are plain attributes. -/
def RoeObj.assign (o : RoeObj K) : Assign K → RoeObj K × Except Err Unit
  | .dwellTimes d =>
    let o' := { o with attrs := o.attrs.setDwell d.toList }
    (o', if o.attrs.isPumping = true ∧ d.toList.length % 2 = 1 then .error .exception else .ok ())
  | .dtype t =>
    match t.isInt with
    | .ok i => ({ o with attrs := o.attrs.setInt i }, .ok ())
    | .error e => (o, .error e)
  | .emptyFirst b => ({ o with attrs := o.attrs.setEmptyFirst b }, .ok ())
  | .emptyBetween b => ({ o with attrs := o.attrs.setEmptyBetween b, emptyBetween := b }, .ok ())
  | .force b => ({ o with attrs := o.attrs.setForce b }, .ok ())
  | .nPumps n => ({ o with attrs := o.attrs.setNPumps n }, .ok ())
  | .nPixelTransfers n => ({ o with attrs := o.attrs.setNPixelTransfers n }, .ok ())

/-- The configuration of main_utils.pyx:110-148, with the stored clock sequence. -/
def clockCfgObj (o : RoeObj K) (ccd : CcdView K) (express offset : ℕ) (rows : List ℕ) (tw : Option (List ℕ)) :
    Except Err (ClockCfg K × RoeObj K) := do
  let (m, mon, attrs') ← o.attrs.express rows express offset tw
  let sv ← o.attrs.save m
  .ok ({ expr := m, monitor := mon, saveMat := sv, clockSeq := o.clockSeq,
         dwell := o.attrs.dwell, steps := positiveIndices o.attrs.dwell,
         phases := positiveIndices ccd.fractions, rowWindow := rows,
         emptyBetween := o.emptyBetween }, { o with attrs := attrs' })

/-- `cy_clock_charge_in_one_direction` (main_utils.pyx:14-264) with a readout object. -/
def clockChargeObj (img : Image K) (ccd : CcdView K) (o : RoeObj K) (groups : List (Group K))
    (express offset : ℕ) (rows columns : List ℕ) (tw : Option (List ℕ)) :
    Except Err (Image K × RoeObj K) := do
  let (cfg, o') ← clockCfgObj o ccd express offset rows tw
  let n := nPadding o.accessed
  let (out, _) ← clockLoops (atmSys ccd.fill) cfg columns
    (img.pad n, ATM.new groups ccd.fractions (maxNTransfers o.attrs cfg))
  .ok (out.unpad n, o')

/-- The readout objects of a program: what each reference refers to. -/
abbrev Heap (K : Type) := ℕ → RoeObj K

/-- The arguments of one direction of `add_cti`, the readout being a reference. -/
structure RefDirection (K : Type) where
  ccd : CcdView K
  roe : ℕ
  groups : List (Group K)
  express : ℕ
  offset : ℕ

/-- `add_cti` (main.py:36-233) as in `addCti`, with readout objects that the call may modify. -/
def addCtiHeap (img : Image K) (heap : Heap K) (par : Option (RefDirection K)) (parOffset : ℕ) (parWindow : Window)
    (ser : Option (RefDirection K)) (serWindow : Window) (timeWindow : Option (List ℕ)) :
    Except Err (Image K × Heap K) := do
  let rows := parWindow.resolve img.nr
  let cols := serWindow.resolve img.nc
  let tw := timeWindow.getD (List.range (img.nr + parOffset))
  let serCols ← match timeWindow with
    | none => .ok rows
    | some tw => serialColumns rows tw parOffset
  let (img, heap) ← match par with
    | none => .ok (img, heap)
    | some d => do
      let (out, o') ← clockChargeObj img d.ccd (heap d.roe) d.groups d.express parOffset rows cols (some tw)
      .ok (out, Function.update heap d.roe o')
  match ser with
  | none => .ok (img, heap)
  | some d => do
    let (out, o') ←
      clockChargeObj img.transpose d.ccd (heap d.roe) d.groups d.express d.offset cols serCols none
    .ok (out.transpose, Function.update heap d.roe o')

end
end Arctic
