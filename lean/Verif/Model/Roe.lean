import Verif.Model.Basic
import Mathlib.Algebra.Order.Floor.Div

/-!
# `arcticpy/roe.py`

Clock sequences, accessed pixels, express / monitor / save matrices of the three readout classes.

Simplifications: `pixels`, `express`, `offset`, `n_pumps` and window entries are natural numbers
(the documented domain); numpy integer and float arrays are both matrices over the field `K`
(integer entries are embedded), except where the integer dtype changes the computed values, which is
followed.  A `range` argument is the list of its elements.
-/

namespace Arctic

/-- A 2D numpy array. Entries outside `nr × nc` are meaningless. -/
structure Mat (α : Type) where
  nr : ℕ
  nc : ℕ
  e : ℕ → ℕ → α

/-- `ROEPhase` (roe.py:55-86). `release` pairs `release_to_which_pixels` with
`release_fraction_to_pixel`, which always have the same length (roe.py:270-281). -/
structure Phase (K : Type) where
  isHigh : Bool
  captureFrom : ℤ
  release : List (ℤ × K)
  deriving DecidableEq

section clockSequence
variable {K : Type} [Field K]

/-- `step_prime` (roe.py:247-249), `integration_step = 0`. -/
def stepPrime (nPhases step : ℕ) : ℤ :=
  |(((step + nPhases) % (nPhases * 2) : ℕ) : ℤ) - nPhases|

/-- `high_phase` (roe.py:253). -/
def highPhase (nPhases step : ℕ) : ℤ := stepPrime nPhases step % nPhases

/-- `split_release_phase` (roe.py:258-261). -/
def splitReleasePhase (nPhases step : ℕ) : Option ℤ :=
  if nPhases % 2 = 0 then some ((highPhase nPhases step + (nPhases / 2 : ℕ)) % nPhases) else none

/-- One `ROEPhase` of `_generate_clock_sequence` (roe.py:264-300). -/
def genPhase (nPhases : ℕ) (force : Bool) (step phase : ℕ) : Phase K :=
  let capture := (stepPrime nPhases step - phase + ((nPhases - 1) / 2 : ℕ)).fdiv nPhases
  let nRelease : ℕ := 1 + (if splitReleasePhase nPhases step = some (phase : ℤ) then 1 else 0)
  let shift : ℤ := if force = true ∧ (phase : ℤ) > highPhase nPhases step then 1 else 0
  { isHigh := decide ((phase : ℤ) = highPhase nPhases step)
    captureFrom := capture + shift
    release := (List.range nRelease).map fun (i : ℕ) => (capture + i + shift, 1 / (nRelease : K)) }

/-- `_generate_clock_sequence` (roe.py:142-315). -/
def genClockSequence (nSteps nPhases : ℕ) (force : Bool) : List (List (Phase K)) :=
  (List.range nSteps).map fun step =>
    (List.range nPhases).map fun phase => genPhase nPhases force step phase

/-- `_generate_pixels_accessed_during_clocking` (roe.py:317-334), without the final sort and removal
of duplicates (`np.unique`), which does not change the set. -/
def pixelsAccessed (seq : List (List (Phase K))) : List ℤ :=
  0 :: seq.flatMap fun phases => phases.flatMap fun p => p.captureFrom :: p.release.map Prod.fst

end clockSequence

section expressMatrix
variable {K : Type} [Field K] [LinearOrder K]

/-- `np.cumsum(m, axis=0)` at `(i, j)`. -/
def cumsum0 (m : Mat K) (i j : ℕ) : K := ((List.range (i + 1)).map fun i' => m.e i' j).sum

/-- `restrict_time_span_of_express_matrix` (roe.py:430-458). An empty window fails at
`time_window_range[-1]`. -/
def restrictTimeSpan (m : Mat K) : Option (List ℕ) → Except Err (Mat K)
  | none => .ok m
  | some tw =>
    match tw.head?, tw.getLast? with
    | some t0, some t1 =>
      -- an integer that may be negative for a decreasing `range`
      let span : K := ((((t1 : ℤ) - (t0 : ℤ) + 1) : ℤ) : K)
      -- lines 450-452
      let c : ℕ → ℕ → K := fun i j =>
        let x := cumsum0 m i j - (t0 : K)
        let x := if x < 0 then 0 else x
        if x > span then span else x
      -- line 455
      .ok { m with e := fun i j => if i = 0 then c 0 j else c i j - c (i - 1) j }
    | _, _ => .error .indexError

/-- Column selection `m[:, window_range]`; numpy checks the indices. -/
def selectCols {α : Type} (m : Mat α) (w : List ℕ) : Except Err (Mat α) :=
  if w.all (· < m.nc) then .ok ⟨m.nr, w.length, fun i j => m.e i (w.getD j 0)⟩
  else .error .indexError

/-- `m[:, offset:]`. -/
def dropCols {α : Type} (m : Mat α) (offset : ℕ) : Mat α :=
  ⟨m.nr, m.nc - offset, fun i j => m.e i (j + offset)⟩

/-- `max_multiplier` (roe.py:528-530); `N = n_pixels + offset`. -/
def maxMultiplier (intDtype : Bool) (N express : ℕ) : K :=
  if intDtype then ((N ⌈/⌉ express : ℕ) : K) else (N : K) / (express : K)

/-- Truncation of all values to `[0, max_multiplier]` (roe.py:538-539). -/
def truncate (m x : K) : K :=
  let x := if x < 0 then 0 else x
  if x > m then m else x

/-- The matrix of roe.py:522-539 for `N = n_pixels + offset` columns. -/
def expressBase (intDtype : Bool) (N express : ℕ) : Mat K where
  nr := express
  nc := N
  e := fun k p =>
    truncate (maxMultiplier intDtype N express)
      (((p + 1 : ℕ) : K) - (k : K) * maxMultiplier intDtype N express)

/-- `n_nonzero` (roe.py:553). -/
def nNonzero (m : Mat K) (k : ℕ) : ℕ := ((List.range m.nc).filter fun j => decide (m.e k j > 0)).length

/-- `express_matrix[n_nonzero, 1:] += express_matrix_small` (roe.py:554). Fancy-index `+=` reads the
old rows and assigns in order, so the last of several equal indices wins. -/
def insertRows (big small : Mat K) : Mat K :=
  { big with
    e := (List.range small.nr).foldl
      (fun cur k => fun i j =>
        if i = nNonzero small k ∧ 1 ≤ j then big.e i j + small.e k (j - 1) else cur i j) big.e }

/-- `np.flipud(np.identity(N))` (roe.py:549-551). -/
def flipIdentity (N : ℕ) : Mat K := ⟨N, N, fun i j => if i + j + 1 = N then 1 else 0⟩

/-- `express` after the defaulting of roe.py:511-515. -/
def effectiveExpress (express total : ℕ) : ℕ := if express = 0 then total else min express total

/-- roe.py:511-554: the full matrix over `n_pixels + offset` columns — or one column fewer, when the
decrement of line 520 is not undone at line 548 because the condition of line 544 is evaluated
on the decremented `n_pixels`. -/
def expressFull (emptyFirst intDtype : Bool) (nPixels express offset : ℕ) : Mat K :=
  let express := effectiveExpress express (nPixels + offset)
  let nPixels' := if emptyFirst = true ∧ express < nPixels then nPixels - 1 else nPixels
  let base := expressBase intDtype (nPixels' + offset) express
  if emptyFirst = true ∧ express < nPixels' then
    insertRows (flipIdentity (nPixels' + 1 + offset)) base
  else base

/-- `max(window_range) + 1` (roe.py:508, 690); `max` of an empty range raises `ValueError`. -/
def nPixelsOfWindow (w : List ℕ) : Except Err ℕ :=
  match w.max? with
  | some m => .ok (m + 1)
  | none => .error .valueError

/-- `ROE.express_matrix_and_monitor_traps_matrix_from_pixels_and_express` (roe.py:460-583). -/
def roeExpress (emptyFirst intDtype : Bool) (window : List ℕ) (express offset : ℕ)
    (timeWindow : Option (List ℕ)) : Except Err (Mat K × Mat Bool) := do
  let nPixels ← nPixelsOfWindow window
  let full := expressFull emptyFirst intDtype nPixels express offset
  -- lines 557-559
  let monitor : Mat Bool := ⟨full.nr, full.nc, fun i j => decide (full.e i j > 0)⟩
  let monitor ← selectCols (dropCols monitor offset) window
  -- lines 565-571
  let m ← restrictTimeSpan full timeWindow
  let m ← selectCols (dropCols m offset) window
  .ok (m, monitor)

/-- Value of `row_index` after the inner `for ... break` loop of roe.py:617-619. -/
def saveRow (row : ℕ → K) (nPixels : ℕ) : Option ℕ :=
  match (List.range (nPixels - 1)).find? fun r => decide (row (r + 1) > 0) with
  | some r => some r
  | none => if nPixels ≤ 1 then none else some (nPixels - 2)

/-- `ROE.save_trap_states_matrix_from_express_matrix` (roe.py:585-624). When the inner loop has no
iterations, `row_index` is unbound. -/
def roeSave (emptyFirst : Bool) (m : Mat K) : Except Err (Mat Bool) :=
  if emptyFirst then .ok ⟨m.nr, m.nc, fun _ _ => false⟩
  else if 2 ≤ m.nr ∧ m.nc ≤ 1 then .error .unboundLocalError
  else .ok ⟨m.nr, m.nc, fun i j =>
    decide (i < m.nr - 1 ∧ saveRow (m.e (i + 1)) m.nc = some j)⟩

/-- `ROEChargeInjection.express_matrix_and_monitor_traps_matrix_from_pixels_and_express`
(roe.py:673-721). Returns also the value left in `self.n_pixel_transfers`. With the integer dtype the
code refers to the modules `math` and `util`, which roe.py does not import. -/
def injectionExpress (intDtype : Bool) (nPixelTransfers : Option ℕ) (window : List ℕ)
    (express offset : ℕ) (timeWindow : Option (List ℕ)) :
    Except Err ((Mat K × Mat Bool) × ℕ) := do
  let nPixels ← nPixelsOfWindow window
  let nTransfers := nPixelTransfers.getD (nPixels + offset)
  let express := effectiveExpress express nTransfers
  if express = 0 then .error .zeroDivisionError
  else if intDtype then .error .nameError
  else do
    let m : Mat K := ⟨express, nPixels, fun _ _ => (nTransfers : K) / (express : K)⟩
    let monitor : Mat Bool := ⟨m.nr, m.nc, fun i j => decide (m.e i j > 0)⟩
    let m ← restrictTimeSpan m timeWindow
    .ok ((m, monitor), nTransfers)

/-- `ROEChargeInjection.save_trap_states_matrix_from_express_matrix` (roe.py:723-732). -/
def injectionSave (m : Mat K) : Mat Bool := ⟨m.nr, m.nc, fun _ _ => false⟩

/-- `np.round` of the nonnegative rational `a / b`: round half to even (used at roe.py:852). -/
def roundHalfEven (a b : ℕ) : ℕ :=
  let q := a / b
  let r := a % b
  if 2 * r < b then q else if b < 2 * r then q + 1 else if q % 2 = 0 then q else q + 1

/-- `express_multipliers` of `ROETrapPumping` (roe.py:829-853) as a list.
`n_pumps / 0` raises `ZeroDivisionError`. -/
def pumpMultipliers (emptyFirst intDtype : Bool) (nPumps express : ℕ) : Except Err (List K) :=
  let express := effectiveExpress express nPumps
  let first := emptyFirst = true ∧ nPumps > 1 ∧ express < nPumps
  if express = 0 then .error .zeroDivisionError
  else if intDtype then
    let l : List ℤ :=
      if first then 1 :: List.replicate express ((roundHalfEven (nPumps - 1) express : ℕ) : ℤ)
      else List.replicate express ((roundHalfEven nPumps express : ℕ) : ℤ)
    let l := l.modify (l.length - 1) fun x => x + ((nPumps : ℤ) - l.sum)
    .ok (l.map fun z => ((z : ℤ) : K))
  else
    .ok (if first then 1 :: List.replicate express (((nPumps - 1 : ℕ) : K) / (express : K))
      else List.replicate express ((nPumps : K) / (express : K)))

/-- `ROETrapPumping.express_matrix_and_monitor_traps_matrix_from_pixels_and_express`
(roe.py:801-871); only the number of pixels with traps matters. The loops assign
`express_matrix[j * n_express + i, j] = express_multipliers[i]`. -/
def pumpingExpress (emptyFirst intDtype : Bool) (nPumps nPixels express : ℕ) :
    Except Err (Mat K × Mat Bool) := do
  let mult : List K ← pumpMultipliers emptyFirst intDtype nPumps express
  let n := mult.length
  let m : Mat K := ⟨n * nPixels, nPixels, fun r j =>
    if r / n = j ∧ j < nPixels then mult.getD (r % n) 0 else 0⟩
  .ok (m, ⟨m.nr, m.nc, fun i j => decide (m.e i j > 0)⟩)

/-- `ROETrapPumping.save_trap_states_matrix_from_express_matrix` (roe.py:873-896). The row index
`j * n_express + i`, with `n_express` the *total* number of rows, is out of range for `j ≥ 1`. -/
def pumpingSave (m : Mat K) : Except Err (Mat Bool) :=
  if 2 ≤ m.nc ∧ 1 ≤ m.nr then .error .indexError
  else .ok ⟨m.nr, m.nc, fun i j => decide (j = 0 ∧ i + 1 < m.nr)⟩

end expressMatrix

/-! ## Readout objects -/

/-- The three readout classes with their constructor arguments
(roe.py:337-423, 627-671, 735-799). -/
inductive Roe (K : Type) where
  | standard (dwell : List K) (emptyFirst emptyBetween force intDtype : Bool)
  | injection (dwell : List K) (nPixelTransfers : Option ℕ) (emptyBetween force intDtype : Bool)
  | pumping (dwell : List K) (nPumps : ℕ) (emptyFirst intDtype : Bool)

namespace Roe
variable {K : Type} [Field K] [LinearOrder K]

/-- `dwell_times` -/
def dwell : Roe K → List K
  | standard d .. => d
  | injection d .. => d
  | pumping d .. => d

/-- The constructor's check (roe.py:793-802): an odd number of steps is refused for pumping. -/
def valid : Roe K → Except Err Unit
  | pumping d .. => if d.length % 2 = 1 then .error .exception else .ok ()
  | _ => .ok ()

/-- `n_steps` (roe.py:126-128). -/
def nSteps (r : Roe K) : ℕ := r.dwell.length

/-- `n_phases` (roe.py:426-428, 804-808). -/
def nPhases : Roe K → ℕ
  | standard d .. => d.length
  | injection d .. => d.length
  | pumping d .. => d.length / 2

/-- `force_release_away_from_readout` (roe.py:416, 780). -/
def force : Roe K → Bool
  | standard _ _ _ f _ => f
  | injection _ _ _ f _ => f
  | pumping .. => false

/-- `empty_traps_between_columns` (roe.py:415, 781). -/
def emptyBetween : Roe K → Bool
  | standard _ _ b _ _ => b
  | injection _ _ b _ _ => b
  | pumping .. => true

/-- `clock_sequence` -/
def clockSequence (r : Roe K) : List (List (Phase K)) := genClockSequence r.nSteps r.nPhases r.force

/-- `pixels_accessed_during_clocking` -/
def accessed (r : Roe K) : List ℤ := pixelsAccessed r.clockSequence

/-- Dispatch of `express_matrix_and_monitor_traps_matrix_from_pixels_and_express`
(called at main_utils.pyx:119-124). The third component is the readout object after the call:
charge injection stores `n_pixel_transfers` (roe.py:691-692). -/
def express (r : Roe K) (window : List ℕ) (express offset : ℕ) (tw : Option (List ℕ)) :
    Except Err (Mat K × Mat Bool × Roe K) :=
  match r with
  | standard _ ef _ _ i => do
    let (m, mon) ← roeExpress ef i window express offset tw
    .ok (m, mon, r)
  | injection d n b f i => do
    let ((m, mon), n') ← injectionExpress i n window express offset tw
    .ok (m, mon, injection d (some n') b f i)
  | pumping _ n ef i => do
    let (m, mon) ← pumpingExpress ef i n window.length express
    .ok (m, mon, r)

/-- Dispatch of `save_trap_states_matrix_from_express_matrix` (called at main_utils.pyx:128-130). -/
def save (r : Roe K) (m : Mat K) : Except Err (Mat Bool) :=
  match r with
  | standard _ ef _ _ _ => roeSave ef m
  | injection .. => .ok (injectionSave m)
  | pumping .. => pumpingSave m

/-- `isinstance(roe, ROETrapPumping)` (main_utils.pyx:151). -/
def isPumping : Roe K → Bool
  | pumping .. => true
  | _ => false

end Roe
end Arctic
