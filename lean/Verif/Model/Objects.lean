import Verif.Model.Main
import Verif.Model.Traps
import Verif.Model.CCD

/-!
# `add_cti` with arcticpy's own objects (arcticpy/main.py:36-233, main_utils.pyx:14-264)

`Verif.Model.Main` takes one direction's settings as a list of trap groups and a view of the CCD. Here the arguments are
the objects a caller passes: `CCD`, `ROE` and trap objects, each possibly `None`. Exceptions are raised in the order of
the code. For a CCD with an invalid filling law see `CCD.view`.
-/

namespace Arctic
noncomputable section

/-- `ROE()` (roe.py:338-345). -/
def Roe.default : Roe ℝ := .standard [1] true true true false

/-- The `parallel_*` or `serial_*` arguments of `add_cti`, except for the window. -/
structure PyDirection where
  ccd : Option CCD
  roe : Option (Roe ℝ)
  traps : Option PyTraps
  express : ℕ
  offset : ℕ

/-- No argument of a direction given. -/
def PyDirection.absent : PyDirection := ⟨none, none, none, 0, 0⟩

/-- `cy_clock_charge_in_one_direction` (main_utils.pyx:14-264). Without a CCD the attribute access of line 135 fails
after the matrices have been computed. -/
def clockChargePy (img : Image ℝ) (ccd : Option CCD) (roe : Roe ℝ) (traps : PyTraps) (express offset : ℕ)
    (rows columns : List ℕ) (tw : Option (List ℕ)) : Except Err (Image ℝ × Roe ℝ) :=
  match ccd with
  | none => do
    let (m, _, _) ← roe.express rows express offset tw
    let _ ← roe.save m
    .error .attributeError
  | some c => do
    let (cfg, roe') ← clockCfg roe c.view express offset rows tw
    let managers ← allTrapManager traps c.fractions (maxNTransfers roe cfg)
    let n := nPadding roe.accessed
    let (out, _) ← clockLoops (atmSys c.view.fill) cfg columns (img.pad n, managers)
    .ok (out.unpad n, roe')

/-- `add_cti` (main.py:36-233). Also returns the two readout objects (of lines 178-181 if none were given). -/
def addCtiPy (img : Image ℝ) (par : PyDirection) (parWindow : Window) (ser : PyDirection) (serWindow : Window)
    (timeWindow : Option (List ℕ)) : Except Err (Image ℝ × Roe ℝ × Roe ℝ) := do
  -- lines 157-175
  let rows := parWindow.resolve img.nr
  let cols := serWindow.resolve img.nc
  let tw := timeWindow.getD (List.range (img.nr + par.offset))
  let serCols ← match timeWindow with
    | none => .ok rows
    | some tw => serialColumns rows tw par.offset
  -- lines 178-181
  let parRoe := par.roe.getD Roe.default
  let serRoe := ser.roe.getD Roe.default
  -- lines 187-199
  let (img, parRoe) ← match par.traps with
    | none => .ok (img, parRoe)
    | some t => clockChargePy img par.ccd parRoe t par.express par.offset rows cols (some tw)
  -- lines 202-220
  match ser.traps with
  | none => .ok (img, parRoe, serRoe)
  | some t => do
    let (out, serRoe) ← clockChargePy img.transpose ser.ccd serRoe t ser.express ser.offset cols serCols none
    .ok (out.transpose, parRoe, serRoe)

/-- `remove_cti` (main.py:236-313) with objects. The readout objects passed by the caller are the same in all
iterations; if none was passed, `add_cti` makes a new one every time. -/
def removeCtiPy (img : Image ℝ) (iterations : ℕ) (par : PyDirection) (parWindow : Window) (ser : PyDirection)
    (serWindow : Window) (timeWindow : Option (List ℕ)) : Except Err (Image ℝ × Option (Roe ℝ) × Option (Roe ℝ)) :=
  removeIter
    (fun cur s => do
      let (out, rp, rs) ← addCtiPy cur { par with roe := s.1 } parWindow { ser with roe := s.2 } serWindow timeWindow
      .ok (out, s.1.map fun _ => rp, s.2.map fun _ => rs))
    img iterations (img, par.roe, ser.roe)

end
end Arctic
