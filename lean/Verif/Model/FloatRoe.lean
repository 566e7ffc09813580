import Verif.Model.Binary64
import Verif.Model.Roe

/-!
# Readout objects and express matrices over an arbitrary arithmetic

`arcticpy/roe.py` once more, over the operations `Arith` and with the conversions from Python integers made explicit.
With `express_matrix_dtype=int` numpy computes with integers and converts at the end (`.astype(float)`); only the division in the
multiplier is one of floating-point numbers.
-/

namespace Arctic.Fp

variable {F : Type}

/-- Conversions between integers and numbers. -/
structure Conv (F : Type) where
  /-- a Python integer in an expression with numbers; `.astype(float)` -/
  int : ℤ → F
  /-- `int(np.ceil(a / b))` -/
  ceilDiv : ℕ → ℕ → ℤ
  /-- `int(np.round(a / b))` -/
  roundDiv : ℕ → ℕ → ℤ

/-- Exact arithmetic. -/
def Conv.exact (K : Type) [Field K] : Conv K where
  int z := (z : K)
  ceilDiv a b := ((a ⌈/⌉ b : ℕ) : ℤ)
  roundDiv a b := ((roundHalfEven a b : ℕ) : ℤ)

/-- Integers as numbers: numpy arrays of dtype `int`. Nothing is divided in them. -/
def Arith.int : Arith ℤ where
  zero := 0
  one := 1
  add := (· + ·)
  sub := (· - ·)
  mul := (· * ·)
  div := (· / ·)
  neg := fun x => -x
  sum := List.sum
  lt a b := decide (a < b)
  le a b := decide (a ≤ b)
  eq a b := decide (a = b)

/-- `np.cumsum(m, axis=0)` at `(i, j)`. -/
def cumsum0 (A : Arith F) (m : Mat F) (j : ℕ) : ℕ → F
  | 0 => m.e 0 j
  | i + 1 => A.add (cumsum0 A m j i) (m.e (i + 1) j)

/-- roe.py:450-452 -/
def clipSpan (A : Arith F) (int : ℤ → F) (t0 span : ℤ) (x : F) : F :=
  let x := A.sub x (int t0)
  let x := if A.lt x A.zero then A.zero else x
  if A.lt (int span) x then int span else x

/-- `restrict_time_span_of_express_matrix` (roe.py:430-458). -/
def restrictTimeSpan (A : Arith F) (int : ℤ → F) (m : Mat F) : Option (List ℕ) → Except Err (Mat F)
  | none => .ok m
  | some tw =>
    match tw.head?, tw.getLast? with
    | some t0, some t1 =>
      let c : ℕ → ℕ → F := fun i j => clipSpan A int t0 ((t1 : ℤ) - (t0 : ℤ) + 1) (cumsum0 A m j i)
      .ok { m with e := fun i j => if i = 0 then c 0 j else A.sub (c i j) (c (i - 1) j) }
    | _, _ => .error .indexError

/-- Truncation of all values to `[0, max_multiplier]` (roe.py:538-539). -/
def truncate (A : Arith F) (m x : F) : F :=
  let x := if A.lt x A.zero then A.zero else x
  if A.lt m x then m else x

/-- roe.py:522-539 for `N = n_pixels + offset` columns and the multiplier `m`. -/
def expressBase (A : Arith F) (int : ℤ → F) (m : F) (N express : ℕ) : Mat F where
  nr := express
  nc := N
  e := fun k p => truncate A m (A.sub (int (p + 1 : ℕ)) (A.mul (int k) m))

/-- `n_nonzero` (roe.py:553). -/
def nNonzero (A : Arith F) (m : Mat F) (k : ℕ) : ℕ := ((List.range m.nc).filter fun j => A.lt A.zero (m.e k j)).length

/-- `express_matrix[n_nonzero, 1:] += express_matrix_small` (roe.py:554). -/
def insertRows (A : Arith F) (big small : Mat F) : Mat F :=
  { big with
    e := (List.range small.nr).foldl
      (fun cur k => fun i j =>
        if i = nNonzero A small k ∧ 1 ≤ j then A.add (big.e i j) (small.e k (j - 1)) else cur i j) big.e }

/-- `np.flipud(np.identity(N))` (roe.py:549-551). -/
def flipIdentity (A : Arith F) (N : ℕ) : Mat F := ⟨N, N, fun i j => if i + j + 1 = N then A.one else A.zero⟩

/-- roe.py:511-554, with the multiplier as a function of the number of columns and `express`. -/
def expressFull (A : Arith F) (int : ℤ → F) (mult : ℕ → ℕ → F) (emptyFirst : Bool) (nPixels express offset : ℕ) : Mat F :=
  let express := effectiveExpress express (nPixels + offset)
  let nPixels' := if emptyFirst = true ∧ express < nPixels then nPixels - 1 else nPixels
  let base := expressBase A int (mult (nPixels' + offset) express) (nPixels' + offset) express
  if emptyFirst = true ∧ express < nPixels' then
    insertRows A (flipIdentity A (nPixels' + 1 + offset)) base
  else base

/-- roe.py:507-579 for one dtype. -/
def roeExpressOf (A : Arith F) (int : ℤ → F) (mult : ℕ → ℕ → F) (emptyFirst : Bool) (window : List ℕ)
    (express offset : ℕ) (timeWindow : Option (List ℕ)) : Except Err (Mat F × Mat Bool) := do
  let nPixels ← nPixelsOfWindow window
  let full := expressFull A int mult emptyFirst nPixels express offset
  let monitor : Mat Bool := ⟨full.nr, full.nc, fun i j => A.lt A.zero (full.e i j)⟩
  let monitor ← selectCols (dropCols monitor offset) window
  let m ← restrictTimeSpan A int full timeWindow
  let m ← selectCols (dropCols m offset) window
  .ok (m, monitor)

/-- `.astype(float)` -/
def astype (C : Conv F) (m : Mat ℤ) : Mat F := ⟨m.nr, m.nc, fun i j => C.int (m.e i j)⟩

/-- `ROE.express_matrix_and_monitor_traps_matrix_from_pixels_and_express` (roe.py:460-583). -/
def roeExpress (A : Arith F) (C : Conv F) (emptyFirst intDtype : Bool) (window : List ℕ) (express offset : ℕ)
    (timeWindow : Option (List ℕ)) : Except Err (Mat F × Mat Bool) :=
  if intDtype then do
    let (m, mon) ← roeExpressOf Arith.int id C.ceilDiv emptyFirst window express offset timeWindow
    .ok (astype C m, mon)
  else roeExpressOf A C.int (fun a b => A.div (C.int a) (C.int b)) emptyFirst window express offset timeWindow

/-- roe.py:617-619 -/
def saveRow (A : Arith F) (row : ℕ → F) (nPixels : ℕ) : Option ℕ :=
  match (List.range (nPixels - 1)).find? fun r => A.lt A.zero (row (r + 1)) with
  | some r => some r
  | none => if nPixels ≤ 1 then none else some (nPixels - 2)

/-- `ROE.save_trap_states_matrix_from_express_matrix` (roe.py:585-624). -/
def roeSave (A : Arith F) (emptyFirst : Bool) (m : Mat F) : Except Err (Mat Bool) :=
  if emptyFirst then .ok ⟨m.nr, m.nc, fun _ _ => false⟩
  else if 2 ≤ m.nr ∧ m.nc ≤ 1 then .error .unboundLocalError
  else .ok ⟨m.nr, m.nc, fun i j =>
    decide (i < m.nr - 1 ∧ saveRow A (m.e (i + 1)) m.nc = some j)⟩

/-- `ROEChargeInjection.express_matrix_and_monitor_traps_matrix_from_pixels_and_express` (roe.py:673-721). -/
def injectionExpress (A : Arith F) (C : Conv F) (intDtype : Bool) (nPixelTransfers : Option ℕ) (window : List ℕ)
    (express offset : ℕ) (timeWindow : Option (List ℕ)) : Except Err ((Mat F × Mat Bool) × ℕ) := do
  let nPixels ← nPixelsOfWindow window
  let nTransfers := nPixelTransfers.getD (nPixels + offset)
  let express := effectiveExpress express nTransfers
  if express = 0 then .error .zeroDivisionError
  else if intDtype then .error .nameError
  else do
    let m : Mat F := ⟨express, nPixels, fun _ _ => A.div (C.int nTransfers) (C.int express)⟩
    let monitor : Mat Bool := ⟨m.nr, m.nc, fun i j => A.lt A.zero (m.e i j)⟩
    let m ← restrictTimeSpan A C.int m timeWindow
    .ok ((m, monitor), nTransfers)

/-- `express_multipliers` of `ROETrapPumping` (roe.py:829-853). -/
def pumpMultipliers (A : Arith F) (C : Conv F) (emptyFirst intDtype : Bool) (nPumps express : ℕ) : Except Err (List F) :=
  let express := effectiveExpress express nPumps
  let first := emptyFirst = true ∧ nPumps > 1 ∧ express < nPumps
  if express = 0 then .error .zeroDivisionError
  else if intDtype then
    let l : List ℤ :=
      if first then 1 :: List.replicate express (C.roundDiv (nPumps - 1) express)
      else List.replicate express (C.roundDiv nPumps express)
    let l := l.modify (l.length - 1) fun x => x + ((nPumps : ℤ) - l.sum)
    .ok (l.map C.int)
  else
    .ok (if first then A.one :: List.replicate express (A.div (C.int (nPumps - 1 : ℕ)) (C.int express))
      else List.replicate express (A.div (C.int nPumps) (C.int express)))

/-- `ROETrapPumping.express_matrix_and_monitor_traps_matrix_from_pixels_and_express` (roe.py:801-871). -/
def pumpingExpress (A : Arith F) (C : Conv F) (emptyFirst intDtype : Bool) (nPumps nPixels express : ℕ) :
    Except Err (Mat F × Mat Bool) := do
  let mult : List F ← pumpMultipliers A C emptyFirst intDtype nPumps express
  let n := mult.length
  let m : Mat F := ⟨n * nPixels, nPixels, fun r j =>
    if r / n = j ∧ j < nPixels then mult.getD (r % n) A.zero else A.zero⟩
  .ok (m, ⟨m.nr, m.nc, fun i j => A.lt A.zero (m.e i j)⟩)

/-- `ROETrapPumping.save_trap_states_matrix_from_express_matrix` (roe.py:873-896). -/
def pumpingSave (m : Mat F) : Except Err (Mat Bool) :=
  if 2 ≤ m.nc ∧ 1 ≤ m.nr then .error .indexError
  else .ok ⟨m.nr, m.nc, fun i j => decide (j = 0 ∧ i + 1 < m.nr)⟩

/-! ### readout objects -/

/-- `dwell_times` -/
def dwell : Roe F → List F
  | .standard d .. => d
  | .injection d .. => d
  | .pumping d .. => d

/-- The same readout object with other dwell times: everything that is not a number. -/
def shape : Roe F → Roe ℚ
  | .standard d a b c e => .standard (d.map fun _ => 1) a b c e
  | .injection d a b c e => .injection (d.map fun _ => 1) a b c e
  | .pumping d a b c => .pumping (d.map fun _ => 1) a b c

/-- `_generate_clock_sequence` (roe.py:142-315). The release fractions are `1 / n` (roe.py:279-281). -/
def clockSequence (A : Arith F) (C : Conv F) (roe : Roe F) : List (List (Phase F)) :=
  (shape roe).clockSequence.map fun phases => phases.map fun p =>
    ⟨p.isHigh, p.captureFrom, p.release.map fun x => (x.1, A.div A.one (C.int p.release.length))⟩

/-- Dispatch of `express_matrix_and_monitor_traps_matrix_from_pixels_and_express`. -/
def expressOf (A : Arith F) (C : Conv F) (r : Roe F) (window : List ℕ) (express offset : ℕ) (tw : Option (List ℕ)) :
    Except Err (Mat F × Mat Bool × Roe F) :=
  match r with
  | .standard _ ef _ _ i => do
    let (m, mon) ← roeExpress A C ef i window express offset tw
    .ok (m, mon, r)
  | .injection d n b f i => do
    let ((m, mon), n') ← injectionExpress A C i n window express offset tw
    .ok (m, mon, .injection d (some n') b f i)
  | .pumping _ n ef i => do
    let (m, mon) ← pumpingExpress A C ef i n window.length express
    .ok (m, mon, r)

/-- Dispatch of `save_trap_states_matrix_from_express_matrix`. -/
def saveOf (A : Arith F) (r : Roe F) (m : Mat F) : Except Err (Mat Bool) :=
  match r with
  | .standard _ ef _ _ _ => roeSave A ef m
  | .injection .. => .ok ⟨m.nr, m.nc, fun _ _ => false⟩
  | .pumping .. => pumpingSave m

/-- main_utils.pyx:110-148 -/
def clockCfg (A : Arith F) (C : Conv F) (roe : Roe F) (ccd : CcdView F) (express offset : ℕ) (rows : List ℕ)
    (tw : Option (List ℕ)) : Except Err (ClockCfg F × Roe F) := do
  let (m, mon, roe') ← expressOf A C roe rows express offset tw
  let sv ← saveOf A roe m
  .ok ({ expr := m, monitor := mon, saveMat := sv, clockSeq := clockSequence A C roe,
         dwell := dwell roe, steps := positiveIndices A (dwell roe),
         phases := positiveIndices A ccd.fractions, rowWindow := rows,
         emptyBetween := (shape roe).emptyBetween }, roe')

/-- `max_n_transfers` (main_utils.pyx:151-158). -/
def maxNTransfers (roe : Roe F) (cfg : ClockCfg F) : ℕ :=
  (if (shape roe).isPumping then cfg.expr.nr else cfg.expr.nc) * cfg.steps.length

/-- `cy_clock_charge_in_one_direction` (main_utils.pyx:14-264). -/
def clockDirection (A : Arith F) (C : Conv F) (img : Image F) (ccd : CcdView F) (roe : Roe F) (groups : List (Group F))
    (express offset : ℕ) (rows columns : List ℕ) (tw : Option (List ℕ)) : Except Err (Image F × Roe F) := do
  let (cfg, roe') ← clockCfg A C roe ccd express offset rows tw
  let out ← clockCharge A img ccd groups cfg (nPadding (shape roe).accessed) (maxNTransfers roe cfg) columns
  .ok (out, roe')

end Arctic.Fp

namespace Arctic

/-- Conversions to and from double precision. Python divides integers with one rounding. -/
def B64.conv : Fp.Conv B64 where
  int z := B64.pack z
  ceilDiv a b := ⌈B64.round ((a : ℚ) / b)⌉
  roundDiv a b := B64.toInt (B64.round ((a : ℚ) / b))

end Arctic
