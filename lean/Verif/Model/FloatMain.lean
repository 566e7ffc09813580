import Verif.Model.FloatRoe
import Verif.Model.Main

/-!
# `add_cti` and `remove_cti` in any arithmetic (arcticpy/main.py:36-313)

The functions of `Verif.Model.Main`, with the operations of an `Arith`. `C70_exact` proves that with exact arithmetic they
are the same.
-/

set_option linter.unusedVariables false

namespace Arctic.Fp

variable {F : Type}

/-- `.T` (main.py:205, 220), which moves numbers without arithmetic -/
def transpose (img : Image F) : Image F := ⟨img.nc, img.nr, fun r c => img.px c r⟩

/-- `add_cti` (main.py:36-233), for images of floats. -/
def addCti (A : Arith F) (C : Conv F) (img : Image F) (par : Option (Direction F)) (parOffset : ℕ) (parWindow : Window)
    (ser : Option (Direction F)) (serWindow : Window) (timeWindow : Option (List ℕ)) :
    Except Err (Image F × Option (Direction F) × Option (Direction F)) := do
  let rows := parWindow.resolve img.nr
  let cols := serWindow.resolve img.nc
  let tw := timeWindow.getD (List.range (img.nr + parOffset))
  let serCols ← match timeWindow with
    | none => .ok rows
    | some tw => serialColumns rows tw parOffset
  let (img, par') ← match par with
    | none => .ok (img, none)
    | some d => do
      let (out, roe') ← clockDirection A C img d.ccd d.roe d.groups d.express parOffset rows cols (some tw)
      .ok (out, some { d with roe := roe' })
  match ser with
  | none => .ok (img, par', none)
  | some d => do
    let (out, roe') ←
      clockDirection A C (transpose img) d.ccd d.roe d.groups d.express d.offset cols serCols none
    .ok (transpose out, par', some { d with roe := roe' })

/-- The iteration of `remove_cti` (main.py:280-302). -/
def removeIter (A : Arith F) {S : Type} (add : Image F → S → Except Err (Image F × S)) (img : Image F) :
    ℕ → Image F × S → Except Err (Image F × S)
  | 0, st => .ok st
  | n + 1, (cur, s) => do
    let (added, s) ← add cur s
    removeIter A add img n
      ({ cur with px := fun r c => A.add (cur.px r c) (A.sub (img.px r c) (added.px r c)) }, s)

/-- `remove_cti` (main.py:236-313), for images of floats. -/
def removeCti (A : Arith F) (C : Conv F) (img : Image F) (iterations : ℕ) (par : Option (Direction F)) (parOffset : ℕ)
    (parWindow : Window) (ser : Option (Direction F)) (serWindow : Window) (timeWindow : Option (List ℕ)) :
    Except Err (Image F × Option (Direction F) × Option (Direction F)) :=
  removeIter A (fun cur s => addCti A C cur s.1 parOffset parWindow s.2 serWindow timeWindow)
    img iterations (img, par, ser)

end Arctic.Fp
