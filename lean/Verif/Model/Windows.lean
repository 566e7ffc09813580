import Verif.Model.Main
import Mathlib.Algebra.Order.Floor.Defs

/-!
# Window arguments that are any Python numbers

`Verif.Model.Main` follows `add_cti` for the documented windows, whose entries are natural numbers.  This file follows
the same code (main.py:157-220, roe.py:430-583, 673-721, main_utils.pyx:110-264) for

* spatial windows with any integers, such as `parallel_window_range = -1` or `range(-2, 3)`;
* time windows with any numbers, such as the `[0, 0.25]` and `[0.25, 1]` of the project's own
  `test__split_parallel_and_serial_readout_by_time` (test_main.py:804, 819).

`Verif.Props.Windows` proves that it is the model of `Verif.Model.Main` when all entries are natural numbers.

Simplifications: `express`, `offset` and `n_pumps` are natural numbers, as there.  A memoryview access with an index
outside the shape of the image is `Err.outOfBounds` also when the address happens to lie inside the buffer (a negative
column in a row other than the first): the compiled code neither checks the index nor counts it from the end
(main_utils.pyx:11-13).
-/

namespace Arctic.Win
open Arctic

/-- A `*_window_range` argument: `None`, an `int`, or a `range` (or list) of integers. -/
inductive ZWindow where
  | all
  | pixel (n : ℤ)
  | range (l : List ℤ)

/-- main.py:157-164 -/
def ZWindow.resolve (w : ZWindow) (n : ℕ) : List ℤ :=
  match w with
  | .all => (List.range n).map fun (i : ℕ) => (i : ℤ)
  | .pixel k => [k]
  | .range l => l

/-- The position that numpy means by the index `i` along an axis of length `n`. -/
def npIndex (n : ℕ) (i : ℤ) : Option ℕ :=
  if 0 ≤ i ∧ i < n then some i.toNat else if -(n : ℤ) ≤ i ∧ i < 0 then some (n + i).toNat else none

/-- `m[:, window_range]` (roe.py:559, 571). -/
def selectCols {α : Type} (m : Mat α) (w : List ℤ) : Except Err (Mat α) :=
  if w.all (fun i => (npIndex m.nc i).isSome) then
    .ok ⟨m.nr, w.length, fun i j => m.e i ((npIndex m.nc (w.getD j 0)).getD 0)⟩
  else .error .indexError

section
variable {K : Type} [Field K] [LinearOrder K]

/-- `restrict_time_span_of_express_matrix` (roe.py:430-458) for a window of any numbers. -/
def restrictTimeSpan (m : Mat K) : Option (List K) → Except Err (Mat K)
  | none => .ok m
  | some tw =>
    match tw.head?, tw.getLast? with
    | some t0, some t1 =>
      let span : K := t1 - t0 + 1
      let c : ℕ → ℕ → K := fun i j =>
        let x := cumsum0 m i j - t0
        let x := if x < 0 then 0 else x
        if x > span then span else x
      .ok { m with e := fun i j => if i = 0 then c 0 j else c i j - c (i - 1) j }
    | _, _ => .error .indexError

/-- roe.py:508-554. `max_multiplier = (n_pixels + offset) / express` divides by zero when there are no pixels at all,
and `np.ndarray` refuses a negative length.  With `n_pixels ≤ 0` the conditions of lines 519 and 544 are false. -/
def expressFull (emptyFirst intDtype : Bool) (nPixels : ℤ) (express offset : ℕ) : Except Err (Mat K) :=
  let total := nPixels + offset
  if total < 0 then .error .valueError
  else if total = 0 then .error .zeroDivisionError
  else if nPixels < 0 then .ok (expressBase intDtype total.toNat (effectiveExpress express total.toNat))
  else .ok (Arctic.expressFull emptyFirst intDtype nPixels.toNat express offset)

/-- `ROE.express_matrix_and_monitor_traps_matrix_from_pixels_and_express` (roe.py:460-583). -/
def roeExpress (emptyFirst intDtype : Bool) (window : List ℤ) (express offset : ℕ)
    (timeWindow : Option (List K)) : Except Err (Mat K × Mat Bool) :=
  match window.max? with
  | none => .error .valueError
  | some a => do
    let full ← expressFull emptyFirst intDtype (a + 1) express offset
    let monitor : Mat Bool := ⟨full.nr, full.nc, fun i j => decide (full.e i j > 0)⟩
    let monitor ← selectCols (dropCols monitor offset) window
    let m ← restrictTimeSpan full timeWindow
    let m ← selectCols (dropCols m offset) window
    .ok (m, monitor)

/-- `ROEChargeInjection.express_matrix_and_monitor_traps_matrix_from_pixels_and_express` (roe.py:673-721).
`np.zeros` refuses negative lengths. -/
def injectionExpress (intDtype : Bool) (nPixelTransfers : Option ℤ) (window : List ℤ)
    (express offset : ℕ) (timeWindow : Option (List K)) :
    Except Err ((Mat K × Mat Bool) × ℤ) :=
  match window.max? with
  | none => .error .valueError
  | some a => do
    let nPixels := a + 1
    let nTransfers : ℤ := nPixelTransfers.getD (nPixels + offset)
    let express : ℤ := if express = 0 then nTransfers else min (express : ℤ) nTransfers
    if express < 0 ∨ nPixels < 0 then .error .valueError
    else if express = 0 then .error .zeroDivisionError
    else if intDtype then .error .nameError
    else do
      let m : Mat K := ⟨express.toNat, nPixels.toNat, fun _ _ => (nTransfers : K) / (express : K)⟩
      let monitor : Mat Bool := ⟨m.nr, m.nc, fun i j => decide (m.e i j > 0)⟩
      let m ← restrictTimeSpan m timeWindow
      .ok ((m, monitor), nTransfers)

/-- Dispatch, as `Roe.express`. -/
def express (r : Roe K) (window : List ℤ) (express offset : ℕ) (tw : Option (List K)) :
    Except Err (Mat K × Mat Bool × Roe K) :=
  match r with
  | .standard _ ef _ _ i => do
    let (m, mon) ← roeExpress ef i window express offset tw
    .ok (m, mon, r)
  | .injection d n b f i => do
    -- the matrices only exist for positive numbers of transfers
    let ((m, mon), n') ← injectionExpress i (n.map fun (n : ℕ) => (n : ℤ)) window express offset tw
    .ok (m, mon, .injection d (some n'.toNat) b f i)
  | .pumping _ n ef i => do
    let (m, mon) ← pumpingExpress ef i n window.length express
    .ok (m, mon, r)

/-! ## The clocking loops (main_utils.pyx:174-257) -/

variable {S : Type}

/-- `image[r, c]` with unchecked bounds. -/
def read (img : Image K) (r c : ℤ) : Except Err K :=
  if 0 ≤ c then img.read r c.toNat else .error .outOfBounds

/-- main_utils.pyx:236-247 -/
def writeBack (img : Image K) (r c : ℤ) (delta : K) : Except Err (Image K) := do
  let old ← read img r c
  .ok (img.set r.toNat c.toNat (if old + delta < 0 then 0 else old + delta))

/-- main_utils.pyx:227-247 -/
def writeAll (img : Image K) (row0 c : ℤ) (net mult : K) : List (ℤ × K) → Except Err (Image K)
  | [] => .ok img
  | (off, frac) :: rest => do
    let img ← writeBack img (row0 + off) c (net * frac * mult)
    writeAll img row0 c net mult rest

/-- main_utils.pyx:195-247; `rows` is `window_row_range`, in place of `cfg.rowWindow`. -/
def phaseBody (sys : TrapSys K S) (cfg : ClockCfg K) (rows : List ℤ) (c : ℤ) (rowIdx : ℕ) (mult : K) (step : ℕ)
    (st : Image K × S) (phase : ℕ) : Except Err (Image K × S) :=
  match cfg.clockSeq[step]?.bind (fun l => l[phase]?), rows[rowIdx]?, cfg.dwell[step]? with
  | some ph, some row0, some dwell => do
    let v ← read st.1 (row0 + ph.captureFrom) c
    let nFree := v * (if ph.isHigh then 1 else 0)
    let (net, s) ← sys.react st.2 phase nFree dwell
    if mult = 0 then .ok (st.1, s)
    else do
      let img ← writeAll st.1 row0 c net mult ph.release
      .ok (img, s)
  | l, _, _ => .error (lookupErr l)

/-- main_utils.pyx:192-247 -/
def stepBody (sys : TrapSys K S) (cfg : ClockCfg K) (rows : List ℤ) (c : ℤ) (rowIdx : ℕ) (mult : K)
    (st : Image K × S) (step : ℕ) : Except Err (Image K × S) :=
  cfg.phases.foldlM (phaseBody sys cfg rows c rowIdx mult step) st

/-- main_utils.pyx:188-251 -/
def rowBody (sys : TrapSys K S) (cfg : ClockCfg K) (rows : List ℤ) (c : ℤ) (k : ℕ)
    (st : Image K × S) (rowIdx : ℕ) : Except Err (Image K × S) := do
  let st ← cfg.steps.foldlM (stepBody sys cfg rows c rowIdx (cfg.expr.e k rowIdx)) st
  .ok (if cfg.saveMat.e k rowIdx then (st.1, sys.save st.2) else st)

/-- main_utils.pyx:177-251 -/
def expressBody (sys : TrapSys K S) (cfg : ClockCfg K) (rows : List ℤ) (c : ℤ)
    (st : Image K × S) (k : ℕ) : Except Err (Image K × S) :=
  (monitoredRows cfg k).foldlM (rowBody sys cfg rows c k) (st.1, sys.restore st.2)

/-- main_utils.pyx:174-257 -/
def columnBody (sys : TrapSys K S) (cfg : ClockCfg K) (rows : List ℤ)
    (st : Image K × S) (c : ℤ) : Except Err (Image K × S) := do
  let st ← (List.range cfg.expr.nr).foldlM (expressBody sys cfg rows c) st
  let s := if cfg.emptyBetween then sys.emptyAll st.2 else st.2
  .ok (st.1, sys.save s)

/-- main_utils.pyx:174-257 -/
def clockLoops (sys : TrapSys K S) (cfg : ClockCfg K) (rows columns : List ℤ)
    (st : Image K × S) : Except Err (Image K × S) :=
  columns.foldlM (columnBody sys cfg rows) st

/-- main_utils.pyx:110-148; the row window is kept apart from the configuration. -/
def clockCfg (roe : Roe K) (ccd : CcdView K) (e offset : ℕ) (rows : List ℤ)
    (tw : Option (List K)) : Except Err (ClockCfg K × Roe K) := do
  let (m, mon, roe') ← express roe rows e offset tw
  let sv ← roe.save m
  .ok ({ expr := m, monitor := mon, saveMat := sv, clockSeq := roe.clockSequence,
         dwell := roe.dwell, steps := positiveIndices roe.dwell,
         phases := positiveIndices ccd.fractions, rowWindow := [],
         emptyBetween := roe.emptyBetween }, roe')

/-- `cy_clock_charge_in_one_direction` (main_utils.pyx:14-264). -/
def clockCharge (img : Image K) (ccd : CcdView K) (roe : Roe K) (groups : List (Group K))
    (e offset : ℕ) (rows columns : List ℤ) (tw : Option (List K)) : Except Err (Image K × Roe K) := do
  let (cfg, roe') ← clockCfg roe ccd e offset rows tw
  let n := nPadding roe.accessed
  let (out, _) ← clockLoops (atmSys ccd.fill) cfg rows columns
    (img.pad n, ATM.new groups ccd.fractions (maxNTransfers roe cfg))
  .ok (out.unpad n, roe')

/-! ## `add_cti` (main.py:36-233) -/

/-- `range(lo, hi)` -/
def pyRange (lo hi : ℤ) : List ℤ := (List.range (hi - lo).toNat).map fun (i : ℕ) => lo + i

variable [FloorRing K]

/-- `int(x)` of a Python number: towards zero. -/
def pyInt (x : K) : ℤ := if 0 ≤ x then ⌊x⌋ else ⌈x⌉

/-- `serial_window_column_range` for a given time window (main.py:170-175). -/
def serialColumns (rows : List ℤ) (tw : List K) (offset : ℕ) : Except Err (List ℤ) :=
  match rows.head?, rows.getLast?, tw.head?, tw.getLast? with
  | some r0, some r1, some t0, some t1 =>
    .ok (pyRange (pyInt (max (r0 : K) (t0 - offset))) (pyInt (min (r1 : K) (t1 - offset)) + 1))
  | _, _, _, _ => .error .indexError

/-- `add_cti` (main.py:36-233). -/
def addCti (img : Image K) (par : Option (Direction K)) (parOffset : ℕ) (parWindow : ZWindow)
    (ser : Option (Direction K)) (serWindow : ZWindow) (timeWindow : Option (List K)) :
    Except Err (Image K × Option (Direction K) × Option (Direction K)) := do
  let rows := parWindow.resolve img.nr
  let cols := serWindow.resolve img.nc
  let tw := timeWindow.getD ((List.range (img.nr + parOffset)).map fun (i : ℕ) => (i : K))
  let serCols ← match timeWindow with
    | none => .ok rows
    | some tw => serialColumns rows tw parOffset
  let (img, par') ← match par with
    | none => .ok (img, none)
    | some d => do
      let (out, roe') ← clockCharge img d.ccd d.roe d.groups d.express parOffset rows cols (some tw)
      .ok (out, some { d with roe := roe' })
  match ser with
  | none => .ok (img, par', none)
  | some d => do
    let (out, roe') ←
      clockCharge img.transpose d.ccd d.roe d.groups d.express d.offset cols serCols none
    .ok (out.transpose, par', some { d with roe := roe' })

end
end Arctic.Win
