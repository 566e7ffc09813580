import Verif.Model.RoeObject
import Verif.Model.Windows

/-!
# The readout objects after a call that raises

`add_cti` changes nothing that outlives the call except one attribute: charge injection without `n_pixel_transfers`
stores the number found from the first window (roe.py:690-692).  It does so before the matrices are computed, so an
exception raised later, in the matrices or in the loops, does not undo it.
-/

namespace Arctic
open Win

section
variable {K : Type} [Field K] [LinearOrder K]

/-- The readout after `express_matrix_and_monitor_traps_matrix_from_pixels_and_express` was called, whether it returned
or raised: `max` of an empty window raises before the assignment (roe.py:689-692), everything else after it. -/
def Roe.entered (r : Roe K) (rows : List ℕ) (offset : ℕ) : Roe K :=
  match r with
  | .injection d none b f i =>
    match rows.max? with
    | some a => .injection d (some (a + 1 + offset)) b f i
    | none => r
  | r => r

/-- `cy_clock_charge_in_one_direction` with the readout object afterwards, whether it returned or raised. -/
def clockChargeAfter (img : Image K) (ccd : CcdView K) (o : RoeObj K) (groups : List (Group K))
    (express offset : ℕ) (rows columns : List ℕ) (tw : Option (List ℕ)) : Except Err (Image K) × RoeObj K :=
  ((clockChargeObj img ccd o groups express offset rows columns tw).map Prod.fst,
    { o with attrs := o.attrs.entered rows offset })

/-- `add_cti` (main.py:36-233) with the readout objects afterwards, whether it returned or raised. -/
def addCtiAfter (img : Image K) (heap : Heap K) (par : Option (RefDirection K)) (parOffset : ℕ) (parWindow : Window)
    (ser : Option (RefDirection K)) (serWindow : Window) (timeWindow : Option (List ℕ)) :
    Except Err (Image K) × Heap K :=
  let rows := parWindow.resolve img.nr
  let cols := serWindow.resolve img.nc
  let tw := timeWindow.getD (List.range (img.nr + parOffset))
  match (match timeWindow with
    | none => Except.ok rows
    | some tw => serialColumns rows tw parOffset) with
  | .error e => (.error e, heap)
  | .ok serCols =>
    let afterPar : Except Err (Image K) × Heap K := match par with
      | none => (.ok img, heap)
      | some d =>
        let x := clockChargeAfter img d.ccd (heap d.roe) d.groups d.express parOffset rows cols (some tw)
        (x.1, Function.update heap d.roe x.2)
    match afterPar.1, ser with
    | .error e, _ => (.error e, afterPar.2)
    | .ok img, none => (.ok img, afterPar.2)
    | .ok img, some d =>
      let x := clockChargeAfter img.transpose d.ccd (afterPar.2 d.roe) d.groups d.express d.offset cols serCols none
      (x.1.map Image.transpose, Function.update afterPar.2 d.roe x.2)

end

namespace Win
variable {K : Type} [Field K] [LinearOrder K]

/-- `n_pixel_transfers` after a call of `ROEChargeInjection.express_matrix_and_monitor_traps_matrix_from_pixels_and_express`
with a window of any integers, whether it returned or raised (roe.py:689-692). -/
def storedTransfers (n : Option ℤ) (window : List ℤ) (offset : ℕ) : Option ℤ :=
  match n, window.max? with
  | some n, _ => some n
  | none, some a => some (a + 1 + offset)
  | none, none => none

end Win
end Arctic
