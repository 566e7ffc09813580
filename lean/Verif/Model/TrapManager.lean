import Verif.Model.Watermarks

/-!
# The three trap managers of `arcticpy/trap_managers.py`

A manager's `n_electrons_released_and_captured` becomes a function from the watermark array to
`Except Err (net electrons × new watermark array)`.  The fill probabilities for the dwell time
(trap_managers.py:302-349, modelled in `Verif.Model.Traps`) and the CCD filling function are
parameters.
-/

namespace Arctic

variable {K : Type} [Field K] [LinearOrder K] {s : ℕ}

/-- The triple returned by `fill_probabilities_from_dwell_time` (trap_managers.py:302-349). -/
structure Probs (K : Type) (s : ℕ) where
  fromEmpty : Fin s → K
  fromFull : Fin s → K
  fromRelease : Fin s → K

/-! ## `TrapManager` (slow capture) -/

/-- `TrapManager._n_electrons_released_and_captured__first_capture` (trap_managers.py:547-589). -/
def slowFirstCapture (dens : Fin s → K) (nFree cloud : K) (init : WM K s)
    (pEmpty : Fin s → K) (wm : WM K s) : K × WM K s :=
  let wm := wm.modify 0 fun _ => ⟨cloud, pEmpty⟩
  let init := setVol init 0 cloud
  let final := cyNTrapped wm dens
  if final = 0 then (0, wm)
  else
    let enough := nFree / final
    if enough < 1 then
      let wm := notEnough wm init enough
      (-cyNTrapped wm dens, wm)
    else (-final, wm)

/-- Local variables carried out of the "cloud below watermarks" helper. -/
structure BelowOut (K : Type) (s : ℕ) where
  nFree : K
  init : WM K s
  cloud : K
  idx : ℤ
  maxIdx : ℤ
  wm : WM K s

/-- Create a new watermark at the cloud's volume in both arrays unless it exists already
(trap_managers.py:609-626, 651-666, 981-997). Returns `(wm, init, maxIdx)`. -/
def splitAtCloud (cloud : K) (idx : ℤ) (maxIdx : ℤ) (wm init : WM K s) :
    Except Err (WM K s × WM K s × ℤ) :=
  if cloud > 0 ∧ ¬ (cyValueInCumsum cloud (wm.map Row.vol) = true) then do
    let wm' ← updateVolumes wm cloud idx
    let init' ← updateVolumes init cloud idx
    .ok (wm', init', maxIdx + 1)
  else .ok (wm, init, maxIdx)

/-- `TrapManager._n_electrons_released_and_captured__cloud_below_watermarks`
(trap_managers.py:591-674). -/
def slowCloudBelow (dens : Fin s → K) (fill : K → K) (nFree cloud : K) (init : WM K s)
    (idx maxIdx : ℤ) (pRelease : Fin s → K) (nInitial : K) (wm : WM K s) :
    Except Err (BelowOut K s) := do
  -- lines 608-626
  let (wm, init, maxIdx) ← splitAtCloud cloud idx maxIdx wm init
  -- lines 630-632
  let wm := mapFills (idx + 1).toNat (maxIdx + 1).toNat (fun j x => x * pRelease j) wm
  -- lines 635-638
  let nFree := nFree + (nInitial - cyNTrapped wm dens)
  -- lines 641-648
  let cloud := fill nFree
  let idx := watermarkIndexAboveCloud cloud wm maxIdx
  -- lines 651-666
  let (wm, init, maxIdx) ← splitAtCloud cloud idx maxIdx wm init
  .ok ⟨nFree, init, cloud, idx, maxIdx, wm⟩

/-- Final part of `TrapManager.n_electrons_released_and_captured` (trap_managers.py:809-844):
collapse, shortage tweak, collapse.  Shared verbatim (up to the sign of the result) with
`TrapManagerInstantCapture.n_electrons_captured` (trap_managers.py:1115-1150).
`trapped` counts the electrons of an array, `tweak` is `updated_watermarks_from_capture_not_enough`.
Returns `(n_final - n_initial, new array)`. -/
def finishCapture (filled : K) (trapped : WM K s → K)
    (tweak : WM K s → WM K s → K → Except Err (WM K s))
    (nFree nInitial : K) (wm init : WM K s) : Except Err (K × WM K s) := do
  let (wm, init) := collapseCopy filled wm init
  let final := trapped wm
  if final = nInitial then .ok (0, wm)
  else
    let enough := nFree / (final - nInitial)
    if 0 < enough ∧ enough < 1 then
      let wm ← tweak wm init enough
      let final := trapped wm
      .ok (final - nInitial, collapse filled wm)
    else .ok (final - nInitial, collapse filled wm)

/-- `self.watermarks[idx, 0] = cloud - np.sum(self.watermarks[:, 0])`, duplicated for the initial
array (trap_managers.py:790-797, 1098-1105). numpy checks the index. -/
def newTopWatermark (cloud : K) (idx : ℤ) (wm init : WM K s) : Except Err (WM K s × WM K s) :=
  if 0 ≤ idx ∧ idx < wm.length then
    let v := cloud - (wm.map Row.vol).sum
    .ok (setVol wm idx.toNat v, setVol init idx.toNat v)
  else .error .indexError

/-- `TrapManager.n_electrons_released_and_captured` (trap_managers.py:676-844). -/
def slowStep (dens : Fin s → K) (p : Probs K s) (fill : K → K) (nFree : K) (wm : WM K s) :
    Except Err (K × WM K s) := do
  let init := wm
  let nInitial := cyNTrapped wm dens
  let maxIdx := maxWatermarkIndex wm
  let cloud := fill nFree
  let idx := watermarkIndexAboveCloud cloud wm maxIdx
  if maxIdx = -1 ∧ nFree > 0 then
    .ok (slowFirstCapture dens nFree cloud init p.fromEmpty wm)
  else do
    let (nFree, init, idx, wm) ←
      (if idx ≤ maxIdx ∨ maxIdx = -1 then do
        let o ← slowCloudBelow dens fill nFree cloud init idx maxIdx p.fromRelease nInitial wm
        .ok (o.nFree, o.init, o.idx, o.wm)
      else do
        let (wm, init) ← newTopWatermark cloud idx wm init
        .ok (nFree, init, idx, wm) : Except Err (K × WM K s × ℤ × WM K s))
    -- lines 803-807
    let wm := mapFills 0 (idx + 1).toNat
      (fun j x => x * p.fromFull j + (1 - x) * p.fromEmpty j) wm
    -- lines 809-844
    let (captured, wm) ← finishCapture 1 (fun w => cyNTrapped w dens)
      (fun w w0 e => .ok (notEnough w w0 e)) nFree nInitial wm init
    .ok (-captured, wm)

/-! ## `TrapManagerInstantCapture` and `TrapManagerTrackTime`

The second inherits the first's control flow and overrides four members; `ICOps` is the record of
these members. -/

/-- The members overridden between `TrapManagerInstantCapture` and `TrapManagerTrackTime`. -/
structure ICOps (K : Type) (s : ℕ) where
  /-- `filled_watermark_value` (trap_managers.py:260-265, 1226-1229) -/
  filled : K
  /-- `update_watermark_values_for_release` for a given dwell time
  (trap_managers.py:854-877, 1346-1363) -/
  release : Fin s → K → K
  /-- `n_trapped_electrons_from_watermarks` (trap_managers.py:351-362, 1271-1286) -/
  trapped : WM K s → K
  /-- `updated_watermarks_from_capture_not_enough` (trap_managers.py:425-458, 1288-1344) -/
  tweak : WM K s → WM K s → K → Except Err (WM K s)

/-- `TrapManagerInstantCapture.n_electrons_released` (trap_managers.py:879-923). -/
def icRelease (ops : ICOps K s) (wm : WM K s) : K × WM K s :=
  let wm' := mapFills 0 (maxWatermarkIndex wm + 1).toNat ops.release wm
  (ops.trapped wm - ops.trapped wm', wm')

/-- `TrapManagerInstantCapture._n_electrons_captured__first_capture` (trap_managers.py:925-966). -/
def icFirstCapture (ops : ICOps K s) (nFree cloud : K) (init wm : WM K s) :
    Except Err (K × WM K s) := do
  let wm := wm.modify 0 fun _ => ⟨cloud, fun _ => ops.filled⟩
  let init := setVol init 0 cloud
  let final := ops.trapped wm
  if final = 0 then .ok (0, wm)
  else
    let enough := nFree / final
    if enough < 1 then
      let wm ← ops.tweak wm init enough
      .ok (ops.trapped wm, wm)
    else .ok (final, wm)

/-- `TrapManagerInstantCapture.n_electrons_captured` (trap_managers.py:1001-1150), with
`_n_electrons_captured__cloud_below_watermarks` (trap_managers.py:968-999) inlined as
`splitAtCloud`. -/
def icCapture (ops : ICOps K s) (fill : K → K) (nFree : K) (wm : WM K s) :
    Except Err (K × WM K s) := do
  let init := wm
  let nInitial := ops.trapped wm
  let maxIdx := maxWatermarkIndex wm
  let cloud := fill nFree
  let idx := watermarkIndexAboveCloud cloud wm maxIdx
  if maxIdx = -1 ∧ nFree > 0 then
    icFirstCapture ops nFree cloud init wm
  else do
    let (wm, init) ←
      (if idx ≤ maxIdx ∨ maxIdx = -1 then do
        let (wm, init, _) ← splitAtCloud cloud idx maxIdx wm init
        .ok (wm, init)
      else newTopWatermark cloud idx wm init : Except Err (WM K s × WM K s))
    -- lines 1111-1113
    let wm := mapFills 0 (idx + 1).toNat (fun _ _ => ops.filled) wm
    -- lines 1115-1150
    finishCapture ops.filled ops.trapped ops.tweak nFree nInitial wm init

/-- `TrapManagerInstantCapture.n_electrons_released_and_captured` (trap_managers.py:1152-1205). -/
def icStep (ops : ICOps K s) (fill : K → K) (nFree : K) (wm : WM K s) :
    Except Err (K × WM K s) := do
  let (released, wm) := icRelease ops wm
  let (captured, wm) ← icCapture ops fill (nFree + released) wm
  .ok (released - captured, wm)

/-- The members of `TrapManagerInstantCapture` (trap_managers.py:847-877 and inherited ones).
`pRelease` are the `fill_probabilities_from_release` for the dwell time. -/
def instantOps (dens : Fin s → K) (pRelease : Fin s → K) : ICOps K s where
  filled := 1
  release := fun j x => x * pRelease j
  trapped := fun wm => cyNTrapped wm dens
  tweak := fun w w0 e => .ok (notEnough w w0 e)

/-- `watermarks_converted_to_fill_fractions_from_elapsed_times` (trap_managers.py:1231-1249).
`conv j` is `fill_fraction_from_time_elapsed` of species `j`. -/
def toFillFractions (conv : Fin s → K → K) (wm : WM K s) : WM K s :=
  mapFills 0 (argmaxTrue (wm.map fun r => decide (r.vol = 0))) conv wm

/-- The members overridden by `TrapManagerTrackTime` (trap_managers.py:1208-1363).
`tweak` always raises: lines 1328-1335 call the bound parent method with an extra positional `self`
*and* the keyword `watermarks`, which Python rejects with `TypeError`. (The in-place conversions of
lines 1316-1325 before the raise are not observable.) -/
def trackTimeOps (dens : Fin s → K) (conv : Fin s → K → K) (dwell : K) : ICOps K s where
  filled := 0
  release := fun _ x => x + dwell
  trapped := fun wm => cyNTrapped (toFillFractions conv wm) dens
  tweak := fun _ _ _ => .error .typeError

/-! ## Manager objects -/

/-- Which class handles the group, with the species data it needs as functions of the dwell time. -/
inductive Kind (K : Type) (s : ℕ) where
  | slow (probs : K → Probs K s)
  | instant (pRelease : K → Fin s → K)
  | trackTime (conv : Fin s → K → K)

/-- A trap manager object (trap_managers.py:159-250): species densities, class, watermarks. -/
structure Mgr (K : Type) where
  s : ℕ
  dens : Fin s → K
  kind : Kind K s
  wm : WM K s

/-- `n_watermarks_per_transfer` (trap_managers.py:267-272, 850-852). -/
def Kind.perTransfer : Kind K s → ℕ
  | .slow _ => 2
  | .instant _ => 1
  | .trackTime _ => 1

/-- `n_electrons_released_and_captured` dispatched on the class. -/
def Mgr.step (m : Mgr K) (nFree dwell : K) (fill : K → K) : Except Err (K × Mgr K) := do
  let (net, wm) ← match m.kind with
    | .slow p => slowStep m.dens (p dwell) fill nFree m.wm
    | .instant p => icStep (instantOps m.dens (p dwell)) fill nFree m.wm
    | .trackTime c => icStep (trackTimeOps m.dens c dwell) fill nFree m.wm
  .ok (net, { m with wm := wm })

/-- `n_trapped_electrons_from_watermarks(self.watermarks)` dispatched on the class. -/
def Mgr.nTrapped (m : Mgr K) : K :=
  match m.kind with
  | .slow _ => cyNTrapped m.wm m.dens
  | .instant _ => cyNTrapped m.wm m.dens
  | .trackTime c => cyNTrapped (toFillFractions c m.wm) m.dens

/-- `empty_all_traps` (trap_managers.py:364-366). -/
def Mgr.empty (m : Mgr K) : Mgr K := { m with wm := m.wm.map fun _ => zeroRow K m.s }

/-- A fresh manager (trap_managers.py:206-216). -/
def Mgr.new {s : ℕ} (dens : Fin s → K) (kind : Kind K s) (maxNTransfers : ℕ) : Mgr K :=
  ⟨s, dens, kind, List.replicate (1 + maxNTransfers * kind.perTransfer) (zeroRow K s)⟩

end Arctic
