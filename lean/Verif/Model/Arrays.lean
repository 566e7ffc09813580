import Verif.Model.Main

/-!
# `add_cti` and `remove_cti` with numpy arrays (arcticpy/main.py:36-313, main_utils.pyx:164-171, 259-264)

`Verif.Model.Main` passes images by value. Here an image is a numpy array: a view of a buffer in memory with an element type.
Arrays are copied, transposed, cut and changed in place where the code does so; an exception leaves the memory as it is then.

Simplifications: buffers have two axes; of the element types only what decides casting is kept (`int` stands for all integer
types, values are elements of `K`); rounding to an element type is a parameter `store` (the identity for `float64`, as
everywhere except in the `Fp` modules); while the compiled loops run their buffer has no other reference, so its contents are
given at their end only. Subclasses of `ndarray` (`frames.Frame`) are not modelled.
-/

namespace Arctic

/-- Element types. -/
inductive Dtype where
  | bool | int | float32 | float64 | longdouble | complex
  deriving DecidableEq, Repr

/-- `np.result_type(t, np.float64)` -/
def Dtype.withFloat64 : Dtype → Dtype
  | .longdouble => .longdouble
  | .complex => .complex
  | _ => .float64

/-- The type of `a - b` for an image and the result of `add_cti`, which has the type of the image or is `float64`.
Booleans cannot be subtracted. -/
def Dtype.subtract (t u : Dtype) : Except Err Dtype :=
  if t = u then (if t = .bool then .error .typeError else .ok t) else .ok t.withFloat64

/-- `a += b` with `b` of the type of `a` or `float64`: the sum must be castable to the type of `a` with
`casting="same_kind"`, else `UFuncTypeError` (a `TypeError`). -/
def Dtype.addInPlace (t u : Dtype) : Except Err Unit :=
  if t = u then .ok ()
  else match t with
    | .bool | .int => .error .typeError
    | _ => .ok ()

section
variable {K : Type} [Field K] [LinearOrder K]

/-- A block of memory with two axes. -/
structure Buf (K : Type) where
  dtype : Dtype
  img : Image K

/-- The buffers by address; new ones come last. -/
abbrev Mem (K : Type) := List (Buf K)

def Mem.buf (m : Mem K) (i : ℕ) : Buf K := m.getD i ⟨.float64, ⟨0, 0, fun _ _ => 0⟩⟩

/-- An array object: a buffer without its last `cut` rows, possibly with the axes exchanged. -/
structure Arr where
  addr : ℕ
  cut : ℕ
  transposed : Bool
  deriving DecidableEq

/-- The contents of an array. -/
def Arr.image (a : Arr) (m : Mem K) : Image K :=
  let i := (m.buf a.addr).img.unpad a.cut
  if a.transposed then i.transpose else i

def Arr.dtype (a : Arr) (m : Mem K) : Dtype := (m.buf a.addr).dtype

/-- Code that works on the memory and may raise. -/
def Act (K α : Type) := Mem K → Mem K × Except Err α

instance : Monad (Act K) where
  pure x := fun m => (m, .ok x)
  bind x f := fun m =>
    match x m with
    | (m', .ok a) => f a m'
    | (m', .error e) => (m', .error e)

/-- Code that does not touch the memory. -/
def Act.lift {α : Type} (x : Except Err α) : Act K α := fun m => (m, x)

/-- A new array. -/
def alloc (b : Buf K) : Act K Arr := fun m => (m ++ [b], .ok ⟨m.length, 0, false⟩)

def Arr.read (a : Arr) : Act K (Image K) := fun m => (m, .ok (a.image m))
def Arr.readDtype (a : Arr) : Act K Dtype := fun m => (m, .ok (a.dtype m))

/-- Overwrite the contents of a buffer. -/
def writeBuf (addr : ℕ) (img : Image K) : Act K Unit := fun m => (m.set addr ⟨(m.buf addr).dtype, img⟩, .ok ())

/-- `deepcopy(array)`, `array.copy()`. -/
def Arr.copy (a : Arr) : Act K Arr := do
  let img ← a.read
  let t ← a.readDtype
  alloc ⟨t, img⟩

/-- `array.T`: the same buffer. -/
def Arr.T (a : Arr) : Arr := { a with transposed := !a.transposed }

/-- `cy_clock_charge_in_one_direction` (main_utils.pyx:14-264): a new buffer for the image and the extra rows, of the common type with
`np.zeros(..., dtype=np.float64)`, which must be `float64` for the typed memoryview of line 171. -/
def clockArr (a : Arr) (ccd : CcdView K) (roe : Roe K) (groups : List (Group K))
    (express offset : ℕ) (rows columns : List ℕ) (tw : Option (List ℕ)) : Act K (Arr × Roe K) := do
  let (cfg, roe') ← Act.lift (clockCfg roe ccd express offset rows tw)
  let n := nPadding roe.accessed
  let img ← a.read
  let t ← a.readDtype
  let b ← alloc ⟨t.withFloat64, img.pad n⟩
  if t.withFloat64 = .float64 then do
    let (out, _) ← Act.lift (clockLoops (atmSys ccd.fill) cfg columns
      (img.pad n, ATM.new groups ccd.fractions (maxNTransfers roe cfg)))
    writeBuf b.addr out
    pure ({ b with cut := n }, roe')
  else Act.lift (.error .valueError)

/-- `add_cti` (main.py:36-233). -/
def addCtiArr (image : Arr) (par : Option (Direction K)) (parOffset : ℕ) (parWindow : Window)
    (ser : Option (Direction K)) (serWindow : Window) (timeWindow : Option (List ℕ)) :
    Act K (Arr × Option (Direction K) × Option (Direction K)) := do
  let shape ← image.read
  let rows := parWindow.resolve shape.nr
  let cols := serWindow.resolve shape.nc
  let tw := timeWindow.getD (List.range (shape.nr + parOffset))
  let serCols ← Act.lift (match timeWindow with
    | none => .ok rows
    | some tw => serialColumns rows tw parOffset)
  let added ← image.copy
  let (added, par') ← match par with
    | none => pure (added, none)
    | some d => do
      let (out, roe') ← clockArr added d.ccd d.roe d.groups d.express parOffset rows cols (some tw)
      pure (out, some { d with roe := roe' })
  match ser with
  | none => pure (added, par', none)
  | some d => do
    let turned ← added.T.copy
    let (out, roe') ← clockArr turned d.ccd d.roe d.groups d.express d.offset cols serCols none
    pure (out.T, par', some { d with roe := roe' })

/-- `image_remove_cti += image - image_add_cti` (main.py:299). -/
def Arr.improve (store : Dtype → K → K) (cur image added : Arr) : Act K Unit := do
  let i ← image.read
  let x ← added.read
  let t ← image.readDtype
  let u ← added.readDtype
  let v ← Act.lift (t.subtract u)
  let diff ← alloc ⟨v, { i with px := fun r c => store v (i.px r c - x.px r c) }⟩
  let w ← cur.readDtype
  let y ← cur.read
  let z ← diff.read
  Act.lift (w.addInPlace v)
  writeBuf cur.addr { y with px := fun r c => store w (y.px r c + z.px r c) }

/-- The loop of `remove_cti` (main.py:279-299); the readout objects are those of the caller. -/
def removeLoop (store : Dtype → K → K) (image cur : Arr) (parOffset : ℕ) (parWindow serWindow : Window)
    (timeWindow : Option (List ℕ)) :
    ℕ → Option (Direction K) × Option (Direction K) → Act K (Option (Direction K) × Option (Direction K))
  | 0, s => pure s
  | n + 1, s => do
    let (added, s') ← addCtiArr cur s.1 parOffset parWindow s.2 serWindow timeWindow
    cur.improve store image added
    removeLoop store image cur parOffset parWindow serWindow timeWindow n s'

/-- `remove_cti` (main.py:236-313). -/
def removeCtiArr (store : Dtype → K → K) (image : Arr) (iterations : ℕ) (par : Option (Direction K)) (parOffset : ℕ)
    (parWindow : Window) (ser : Option (Direction K)) (serWindow : Window) (timeWindow : Option (List ℕ)) :
    Act K (Arr × Option (Direction K) × Option (Direction K)) := do
  let cur ← image.copy
  let s ← removeLoop store image cur parOffset parWindow serWindow timeWindow iterations (par, ser)
  pure (cur, s)

end
end Arctic
