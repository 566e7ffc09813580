import Verif.Model.Clock

/-!
# `add_cti` and `remove_cti` (arcticpy/main.py:36-313)

The conversion to and from `frames.Frame` (main.py:222-231, 303-311) is not modelled.
A direction with `traps = None` is `none`; a direction with traps always has a CCD.
-/

namespace Arctic

/-- A `*_window_range` argument: `None`, an `int`, or a `range`. -/
inductive Window where
  | all
  | pixel (n : ℕ)
  | range (l : List ℕ)

/-- main.py:157-164 -/
def Window.resolve (w : Window) (n : ℕ) : List ℕ :=
  match w with
  | .all => List.range n
  | .pixel k => [k]
  | .range l => l

section
variable {K : Type} [Field K] [LinearOrder K]

/-- The arguments of one clocking direction. -/
structure Direction (K : Type) where
  ccd : CcdView K
  roe : Roe K
  groups : List (Group K)
  express : ℕ
  offset : ℕ

/-- `.T` -/
def Image.transpose (img : Image K) : Image K := ⟨img.nc, img.nr, fun r c => img.px c r⟩

/-- `range(lo, hi)` -/
def pyRange (lo hi : ℤ) : List ℕ := (List.range (hi - lo).toNat).map fun (i : ℕ) => (lo + i).toNat

/-- `serial_window_column_range` for a given time window (main.py:170-175). `lo` is nonnegative
because row windows are. -/
def serialColumns (rows tw : List ℕ) (offset : ℕ) : Except Err (List ℕ) :=
  match rows.head?, rows.getLast?, tw.head?, tw.getLast? with
  | some r0, some r1, some t0, some t1 =>
    .ok (pyRange (max (r0 : ℤ) ((t0 : ℤ) - offset)) (min (r1 : ℤ) ((t1 : ℤ) - offset) + 1))
  | _, _, _, _ => .error .indexError

/-- `add_cti` (main.py:36-233). `parallelOffset` is an argument even when there are no parallel
traps. The default readout objects of lines 178-181 are the caller's business.
Returns also the readout objects after the call. -/
def addCti (img : Image K) (par : Option (Direction K)) (parOffset : ℕ) (parWindow : Window)
    (ser : Option (Direction K)) (serWindow : Window) (timeWindow : Option (List ℕ)) :
    Except Err (Image K × Option (Direction K) × Option (Direction K)) := do
  let rows := parWindow.resolve img.nr
  let cols := serWindow.resolve img.nc
  let tw := timeWindow.getD (List.range (img.nr + parOffset))
  let serCols ← match timeWindow with
    | none => .ok rows
    | some tw => serialColumns rows tw parOffset
  let (img, par') ← match par with
    | none => .ok (img, none)
    | some d => do
      let (out, roe') ← clockCharge img d.ccd d.roe d.groups d.express parOffset rows cols (some tw)
      .ok (out, some { d with roe := roe' })
  match ser with
  | none => .ok (img, par', none)
  | some d => do
    let (out, roe') ←
      clockCharge img.transpose d.ccd d.roe d.groups d.express d.offset cols serCols none
    .ok (out.transpose, par', some { d with roe := roe' })

/-- The iteration of `remove_cti` (main.py:280-302) for an abstract forward model `add` threading
a state (the mutable readout objects).
`+=` on arrays of different shape is not considered: `add` preserves the shape. -/
def removeIter {S : Type} (add : Image K → S → Except Err (Image K × S)) (img : Image K) :
    ℕ → Image K × S → Except Err (Image K × S)
  | 0, st => .ok st
  | n + 1, (cur, s) => do
    let (added, s) ← add cur s
    removeIter add img n
      ({ cur with px := fun r c => cur.px r c + (img.px r c - added.px r c) }, s)

/-- `remove_cti` (main.py:236-313). -/
def removeCti (img : Image K) (iterations : ℕ) (par : Option (Direction K)) (parOffset : ℕ)
    (parWindow : Window) (ser : Option (Direction K)) (serWindow : Window)
    (timeWindow : Option (List ℕ)) :
    Except Err (Image K × Option (Direction K) × Option (Direction K)) := do
  removeIter
    (fun cur s => addCti cur s.1 parOffset parWindow s.2 serWindow timeWindow)
    img iterations (img, par, ser)

end
end Arctic
