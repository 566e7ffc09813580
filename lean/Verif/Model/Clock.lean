import Verif.Model.Roe
import Verif.Model.AllTrapManager

/-!
# `cy_clock_charge_in_one_direction` (arcticpy/main_utils.pyx:14-264)

The nested loops are written over an abstract trap system `TrapSys` (the interface of
`AllTrapManager` used by the loops) and then instantiated at `ATM`.
-/

namespace Arctic

/-- A 2D image: `px row column`, meaningful for `row < nr`, `column < nc`. -/
structure Image (K : Type) where
  nr : ℕ
  nc : ℕ
  px : ℕ → ℕ → K

/-- The operations of `AllTrapManager` used by the clocking loops. -/
structure TrapSys (K S : Type) where
  restore : S → S
  save : S → S
  emptyAll : S → S
  /-- phase, number of free electrons, dwell time -/
  react : S → ℕ → K → K → Except Err (K × S)

/-- Everything the clocking loops read but do not change (main_utils.pyx:110-148). -/
structure ClockCfg (K : Type) where
  expr : Mat K
  monitor : Mat Bool
  saveMat : Mat Bool
  clockSeq : List (List (Phase K))
  dwell : List K
  /-- `steps_with_nonzero_dwell_time` (line 137) -/
  steps : List ℕ
  /-- `phases_with_traps` (line 134) -/
  phases : List ℕ
  rowWindow : List ℕ
  emptyBetween : Bool

section
variable {K : Type} [Field K] [LinearOrder K] {S : Type}

/-- `image[r, c]` with unchecked bounds. -/
def Image.read (img : Image K) (r : ℤ) (c : ℕ) : Except Err K :=
  if 0 ≤ r ∧ r < img.nr ∧ c < img.nc then .ok (img.px r.toNat c) else .error .outOfBounds

/-- `image[r, c] = v`. -/
def Image.set (img : Image K) (r c : ℕ) (v : K) : Image K :=
  { img with px := fun i j => if i = r ∧ j = c then v else img.px i j }

/-- One return of electrons and the truncation at zero (main_utils.pyx:236-247). -/
def writeBack (img : Image K) (r : ℤ) (c : ℕ) (delta : K) : Except Err (Image K) := do
  let old ← img.read r c
  .ok (img.set r.toNat c (if old + delta < 0 then 0 else old + delta))

/-- Loop over the pixels to release to (main_utils.pyx:227-247). -/
def writeAll (img : Image K) (row0 : ℤ) (c : ℕ) (net mult : K) :
    List (ℤ × K) → Except Err (Image K)
  | [] => .ok img
  | (off, frac) :: rest => do
    let img ← writeBack img (row0 + off) c (net * frac * mult)
    writeAll img row0 c net mult rest

/-- The error of a failed lookup in the body of the phase loop: see there. -/
def lookupErr {α : Type} : Option α → Err
  | none => .outOfBounds
  | some _ => .indexError

/-- Body of the phase loop (main_utils.pyx:195-247). `roe.clock_sequence` is a list of lists, whose items are fetched
without a bounds check (line 11: `boundscheck(False)` holds for exact lists indexed by a C integer); the window is a
`range` object, whose indices are checked. -/
def phaseBody (sys : TrapSys K S) (cfg : ClockCfg K) (c rowIdx : ℕ) (mult : K) (step : ℕ)
    (st : Image K × S) (phase : ℕ) : Except Err (Image K × S) :=
  match cfg.clockSeq[step]?.bind (fun l => l[phase]?), cfg.rowWindow[rowIdx]?, cfg.dwell[step]? with
  | some ph, some row0, some dwell => do
    let v ← st.1.read ((row0 : ℤ) + ph.captureFrom) c
    let nFree := v * (if ph.isHigh then 1 else 0)
    let (net, s) ← sys.react st.2 phase nFree dwell
    if mult = 0 then .ok (st.1, s)
    else do
      let img ← writeAll st.1 row0 c net mult ph.release
      .ok (img, s)
  | l, _, _ => .error (lookupErr l)

/-- Body of the clocking-step loop (main_utils.pyx:192-247). -/
def stepBody (sys : TrapSys K S) (cfg : ClockCfg K) (c rowIdx : ℕ) (mult : K)
    (st : Image K × S) (step : ℕ) : Except Err (Image K × S) :=
  cfg.phases.foldlM (phaseBody sys cfg c rowIdx mult step) st

/-- Body of the row loop (main_utils.pyx:188-251). -/
def rowBody (sys : TrapSys K S) (cfg : ClockCfg K) (c k : ℕ)
    (st : Image K × S) (rowIdx : ℕ) : Except Err (Image K × S) := do
  let st ← cfg.steps.foldlM (stepBody sys cfg c rowIdx (cfg.expr.e k rowIdx)) st
  .ok (if cfg.saveMat.e k rowIdx then (st.1, sys.save st.2) else st)

/-- `np.nonzero(monitor_traps_matrix[express_index])[0]` (main_utils.pyx:185). -/
def monitoredRows (cfg : ClockCfg K) (k : ℕ) : List ℕ :=
  (List.range cfg.monitor.nc).filter fun j => cfg.monitor.e k j

/-- Body of the express loop (main_utils.pyx:177-251). -/
def expressBody (sys : TrapSys K S) (cfg : ClockCfg K) (c : ℕ)
    (st : Image K × S) (k : ℕ) : Except Err (Image K × S) :=
  (monitoredRows cfg k).foldlM (rowBody sys cfg c k) (st.1, sys.restore st.2)

/-- Body of the column loop (main_utils.pyx:174-257). -/
def columnBody (sys : TrapSys K S) (cfg : ClockCfg K)
    (st : Image K × S) (c : ℕ) : Except Err (Image K × S) := do
  let st ← (List.range cfg.expr.nr).foldlM (expressBody sys cfg c) st
  let s := if cfg.emptyBetween then sys.emptyAll st.2 else st.2
  .ok (st.1, sys.save s)

/-- The loop over columns (main_utils.pyx:174-257). -/
def clockLoops (sys : TrapSys K S) (cfg : ClockCfg K) (columns : List ℕ)
    (st : Image K × S) : Except Err (Image K × S) :=
  columns.foldlM (columnBody sys cfg) st

/-- Append `n` zero rows (main_utils.pyx:164-171). -/
def Image.pad (img : Image K) (n : ℕ) : Image K :=
  ⟨img.nr + n, img.nc, fun r c => if r < img.nr then img.px r c else 0⟩

/-- Remove the padding (main_utils.pyx:259-262). -/
def Image.unpad (img : Image K) (n : ℕ) : Image K := { img with nr := img.nr - n }

/-- Indices `i` with `l[i] > 0` (main_utils.pyx:134-139). -/
def positiveIndices (l : List K) : List ℕ :=
  (List.range l.length).filter fun i => decide (0 < l.getD i 0)

/-- `n_rows_zero_padding` (main_utils.pyx:166-168). -/
def nPadding (accessed : List ℤ) : ℕ :=
  ((accessed.max?.getD 0) - (accessed.min?.getD 0)).toNat

/-- The trap system given by `AllTrapManager` and the well filling function of each phase. -/
def atmSys (fill : ℕ → K → K) : TrapSys K (ATM K) where
  restore := ATM.restore
  save := ATM.save
  emptyAll := ATM.emptyAll
  react := fun a phase nFree dwell => a.react phase nFree dwell (fill phase)

/-- A CCD as seen by the clocking code: the fractions of traps per phase and the well filling
functions (`Verif.Model.CCD` gives the actual ones). -/
structure CcdView (K : Type) where
  fractions : List K
  fill : ℕ → K → K

/-- The configuration computed at main_utils.pyx:110-148 (with the readout object afterwards). -/
def clockCfg (roe : Roe K) (ccd : CcdView K) (express offset : ℕ) (rows : List ℕ)
    (tw : Option (List ℕ)) : Except Err (ClockCfg K × Roe K) := do
  let (m, mon, roe') ← roe.express rows express offset tw
  let sv ← roe.save m
  .ok ({ expr := m, monitor := mon, saveMat := sv, clockSeq := roe.clockSequence,
         dwell := roe.dwell, steps := positiveIndices roe.dwell,
         phases := positiveIndices ccd.fractions, rowWindow := rows,
         emptyBetween := roe.emptyBetween }, roe')

/-- `max_n_transfers` (main_utils.pyx:151-158). -/
def maxNTransfers (roe : Roe K) (cfg : ClockCfg K) : ℕ :=
  (if roe.isPumping then cfg.expr.nr else cfg.expr.nc) * cfg.steps.length

/-- `cy_clock_charge_in_one_direction` (main_utils.pyx:14-264). Also returns the readout object. -/
def clockCharge (img : Image K) (ccd : CcdView K) (roe : Roe K) (groups : List (Group K))
    (express offset : ℕ) (rows columns : List ℕ) (tw : Option (List ℕ)) :
    Except Err (Image K × Roe K) := do
  let (cfg, roe') ← clockCfg roe ccd express offset rows tw
  let n := nPadding roe.accessed
  let (out, _) ← clockLoops (atmSys ccd.fill) cfg columns
    (img.pad n, ATM.new groups ccd.fractions (maxNTransfers roe cfg))
  .ok (out.unpad n, roe')

end
end Arctic
