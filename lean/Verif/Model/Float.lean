import Verif.Model.Clock

/-!
# The clocking code over an arbitrary arithmetic

The other modules compute in an ordered field. Here the same functions are written once more over an arbitrary record
of operations `Arith`, so that floating-point arithmetic with its rounding, infinities and NaN is included: nothing is
assumed about the operations except what a theorem asks for, and every loop adds in the order of the code.
`Verif.Lemmas.FloatExact` proves that for the operations of an ordered field these functions are the ones of the other
modules.

Not repeated here: the ROE and the express matrices. They enter as data (`ClockCfg`), whose numbers are arbitrary.
-/

namespace Arctic

/-- The operations on numbers that the code uses. -/
structure Arith (F : Type) where
  zero : F
  one : F
  add : F → F → F
  sub : F → F → F
  mul : F → F → F
  div : F → F → F
  neg : F → F
  /-- `np.sum`, which adds in an order of its own -/
  sum : List F → F
  lt : F → F → Bool
  le : F → F → Bool
  /-- `==`: need not be equality (0.0 and -0.0, NaN) -/
  eq : F → F → Bool

/-- Exact arithmetic. -/
def Arith.exact (K : Type) [Field K] [LinearOrder K] : Arith K where
  zero := 0
  one := 1
  add := (· + ·)
  sub := (· - ·)
  mul := (· * ·)
  div := (· / ·)
  neg := (- ·)
  sum := List.sum
  lt a b := decide (a < b)
  le a b := decide (a ≤ b)
  eq a b := decide (a = b)

namespace Fp

variable {F : Type} {s : ℕ}

/-- An all-zero row. -/
def zeroRow (A : Arith F) (s : ℕ) : Row F s := ⟨A.zero, fun _ => A.zero⟩

/-! ## `trap_managers_utils.pyx` -/

/-- Loop of `cy_value_in_cumsum` (trap_managers_utils.pyx:48-56). -/
def valueInCumsumLoop (A : Arith F) (value total : F) : List F → Bool
  | [] => A.eq value total
  | a :: as => if A.eq value total then true else valueInCumsumLoop A value (A.add total a) as

/-- `cy_value_in_cumsum` (trap_managers_utils.pyx:42-56). -/
def cyValueInCumsum (A : Arith F) (value : F) : List F → Bool
  | [] => false
  | a :: as => valueInCumsumLoop A value a as

/-- `cy_n_trapped_electrons_from_watermarks` (trap_managers_utils.pyx:62-73): one running total over rows and species. -/
def cyNTrapped (A : Arith F) (wm : WM F s) (dens : Fin s → F) : F :=
  wm.foldl (fun t r => (List.finRange s).foldl
    (fun t j => A.add t (A.mul (A.mul r.vol (r.fill j)) (dens j))) t) A.zero

/-- Loop of `cy_watermark_index_above_cloud_from_cloud_fractional_volume` (trap_managers_utils.pyx:91-94). -/
def indexAboveLoop (A : Arith F) (cloud : F) : List F → F → ℕ → ℕ → F × ℕ
  | [], total, _, index => (total, index)
  | v :: vs, total, i, index =>
    let total' := A.add total v
    indexAboveLoop A cloud vs total' (i + 1) (if A.le cloud total' then min index i else index)

/-- `cy_watermark_index_above_cloud_from_cloud_fractional_volume` (trap_managers_utils.pyx:79-99). -/
def cyIndexAbove (A : Arith F) (cloud : F) (wm : WM F s) (maxIdx : ℤ) : ℤ :=
  let (total, index) := indexAboveLoop A cloud (wm.map Row.vol) A.zero 0 wm.length
  if A.lt total cloud then maxIdx + 1 else (index : ℤ)

/-- trap_managers.py:368-395 -/
def watermarkIndexAboveCloud (A : Arith F) (cloud : F) (wm : WM F s) (maxIdx : ℤ) : ℤ :=
  if A.eq cloud A.zero then -1 else cyIndexAbove A cloud wm maxIdx

/-- `watermarks[i, 0] = v`. -/
def setVol (wm : WM F s) (i : ℕ) (v : F) : WM F s := wm.modify i fun r => { r with vol := v }

/-- `cy_update_watermark_volumes_for_cloud_below_highest` (trap_managers_utils.pyx:105-141). -/
def cyUpdateVolumes (A : Arith F) (wm : WM F s) (cloud : F) (idx : ℕ) : Except Err (WM F s) :=
  if wm.length ≤ idx + 1 then .error .outOfBounds
  else
    let oldVol := (wm[idx]?.getD (zeroRow A s)).vol
    let cumVol := ((wm.take (idx + 1)).map Row.vol).foldl A.add A.zero
    let w1 := roll2dVertical1 wm
    let w2 :=
      if idx = 0 then w1.set 0 (w1[1]?.getD (zeroRow A s))
      else (List.range (idx + 1)).foldl
        (fun w i => w.set i (w[i + 1]?.getD (zeroRow A s))) w1
    let newVol := A.sub cloud (A.sub cumVol oldVol)
    let w3 := setVol w2 idx newVol
    .ok (setVol w3 (idx + 1) (A.sub oldVol newVol))

/-- trap_managers.py:397-423. A negative index would be an unchecked access in front of the buffer. -/
def updateVolumes (A : Arith F) (wm : WM F s) (cloud : F) (idx : ℤ) : Except Err (WM F s) :=
  if idx < 0 then .error .outOfBounds else cyUpdateVolumes A wm cloud idx.toNat

/-! ## The array methods of `trap_managers.py` -/

/-- `np.argmax(watermarks[:, 0] == 0) - 1` (trap_managers.py:735, 906, 1052). -/
def maxWatermarkIndex (A : Arith F) (wm : WM F s) : ℤ :=
  (argmaxTrue (wm.map fun r => A.eq r.vol A.zero) : ℤ) - 1

/-- trap_managers.py:425-458 -/
def notEnough (A : Arith F) (wm init : WM F s) (enough : F) : WM F s :=
  List.zipWith
    (fun r r0 => ⟨r.vol, fun j =>
      A.add (A.mul enough (r.fill j)) (A.mul (A.sub A.one enough) (r0.fill j))⟩) wm init

/-- trap_managers.py:493-498 -/
def indexNotFilled (A : Arith F) (filled : F) (wm : WM F s) : ℕ :=
  (((List.finRange s).map fun i =>
    argmaxTrue (wm.map fun r => !A.eq (r.fill i) filled)).min?).getD 0

/-- trap_managers.py:524-540 -/
def collapseRows (A : Arith F) (k : ℕ) (wm : WM F s) (row0 : Row F s) : WM F s :=
  ((List.replicate k (zeroRow A s) ++ wm.drop k).rotate (k - 1)).set 0 row0

/-- trap_managers.py:508 -/
def volumeFilled (A : Arith F) (k : ℕ) (wm : WM F s) : F := A.sum ((wm.take k).map Row.vol)

/-- trap_managers.py:460-545, without a copy -/
def collapse (A : Arith F) (filled : F) (wm : WM F s) : WM F s :=
  let k := indexNotFilled A filled wm
  if k ≤ 1 then wm
  else collapseRows A k wm ⟨volumeFilled A k wm, fun _ => filled⟩

/-- trap_managers.py:511-521: a numpy division, which does not raise -/
def copyFillValues (A : Arith F) (k : ℕ) (copy : WM F s) : Fin s → F := fun j =>
  A.div (A.sum ((copy.take k).map fun r => A.mul r.vol (r.fill j))) (volumeFilled A k copy)

/-- trap_managers.py:460-545, with a copy -/
def collapseCopy (A : Arith F) (filled : F) (wm copy : WM F s) : WM F s × WM F s :=
  let k := indexNotFilled A filled wm
  if k ≤ 1 then (wm, copy)
  else
    (collapseRows A k wm ⟨volumeFilled A k wm, fun _ => filled⟩,
     collapseRows A k copy ⟨volumeFilled A k wm, copyFillValues A k copy⟩)

/-- `watermarks[lo:hi, 1:] = g(watermarks[lo:hi, 1:])`. -/
def mapFills (lo hi : ℕ) (g : Fin s → F → F) (wm : WM F s) : WM F s :=
  wm.mapIdx fun i r => if lo ≤ i ∧ i < hi then { r with fill := fun j => g j (r.fill j) } else r

/-- Division of Python floats (the counts of electrons are Python floats: `cpdef` returns and C doubles passed to a
Python method): by zero it raises. -/
def pyDiv (A : Arith F) (a b : F) : Except Err F :=
  if A.eq b A.zero then .error .zeroDivisionError else .ok (A.div a b)

/-! ## `TrapManager` (slow capture) -/

/-- trap_managers.py:547-589 -/
def slowFirstCapture (A : Arith F) (dens : Fin s → F) (nFree cloud : F) (init : WM F s)
    (pEmpty : Fin s → F) (wm : WM F s) : Except Err (F × WM F s) :=
  let wm := wm.modify 0 fun _ => ⟨cloud, pEmpty⟩
  let init := setVol init 0 cloud
  let final := cyNTrapped A wm dens
  if A.eq final A.zero then .ok (A.zero, wm)
  else do
    let enough ← pyDiv A nFree final
    if A.lt enough A.one then
      let wm := notEnough A wm init enough
      .ok (A.neg (cyNTrapped A wm dens), wm)
    else .ok (A.neg final, wm)

/-- trap_managers.py:609-626, 651-666, 981-997 -/
def splitAtCloud (A : Arith F) (cloud : F) (idx : ℤ) (maxIdx : ℤ) (wm init : WM F s) :
    Except Err (WM F s × WM F s × ℤ) :=
  if A.lt A.zero cloud = true ∧ ¬ (cyValueInCumsum A cloud (wm.map Row.vol) = true) then do
    let wm' ← updateVolumes A wm cloud idx
    let init' ← updateVolumes A init cloud idx
    .ok (wm', init', maxIdx + 1)
  else .ok (wm, init, maxIdx)

/-- trap_managers.py:591-674 -/
def slowCloudBelow (A : Arith F) (dens : Fin s → F) (fill : F → F) (nFree cloud : F) (init : WM F s)
    (idx maxIdx : ℤ) (pRelease : Fin s → F) (nInitial : F) (wm : WM F s) :
    Except Err (BelowOut F s) := do
  let (wm, init, maxIdx) ← splitAtCloud A cloud idx maxIdx wm init
  let wm := mapFills (idx + 1).toNat (maxIdx + 1).toNat (fun j x => A.mul x (pRelease j)) wm
  let nFree := A.add nFree (A.sub nInitial (cyNTrapped A wm dens))
  let cloud := fill nFree
  let idx := watermarkIndexAboveCloud A cloud wm maxIdx
  let (wm, init, maxIdx) ← splitAtCloud A cloud idx maxIdx wm init
  .ok ⟨nFree, init, cloud, idx, maxIdx, wm⟩

/-- trap_managers.py:809-844, 1115-1150 -/
def finishCapture (A : Arith F) (filled : F) (trapped : WM F s → F)
    (tweak : WM F s → WM F s → F → Except Err (WM F s))
    (nFree nInitial : F) (wm init : WM F s) : Except Err (F × WM F s) := do
  let (wm, init) := collapseCopy A filled wm init
  let final := trapped wm
  if A.eq final nInitial then .ok (A.zero, wm)
  else do
    let enough ← pyDiv A nFree (A.sub final nInitial)
    if A.lt A.zero enough = true ∧ A.lt enough A.one = true then
      let wm ← tweak wm init enough
      let final := trapped wm
      .ok (A.sub final nInitial, collapse A filled wm)
    else .ok (A.sub final nInitial, collapse A filled wm)

/-- trap_managers.py:790-797, 1098-1105: numpy checks the index -/
def newTopWatermark (A : Arith F) (cloud : F) (idx : ℤ) (wm init : WM F s) : Except Err (WM F s × WM F s) :=
  if 0 ≤ idx ∧ idx < wm.length then
    let v := A.sub cloud (A.sum (wm.map Row.vol))
    .ok (setVol wm idx.toNat v, setVol init idx.toNat v)
  else .error .indexError

/-- trap_managers.py:676-844 -/
def slowStep (A : Arith F) (dens : Fin s → F) (p : Probs F s) (fill : F → F) (nFree : F) (wm : WM F s) :
    Except Err (F × WM F s) := do
  let init := wm
  let nInitial := cyNTrapped A wm dens
  let maxIdx := maxWatermarkIndex A wm
  let cloud := fill nFree
  let idx := watermarkIndexAboveCloud A cloud wm maxIdx
  if maxIdx = -1 ∧ A.lt A.zero nFree = true then
    slowFirstCapture A dens nFree cloud init p.fromEmpty wm
  else do
    let (nFree, init, idx, wm) ←
      (if idx ≤ maxIdx ∨ maxIdx = -1 then do
        let o ← slowCloudBelow A dens fill nFree cloud init idx maxIdx p.fromRelease nInitial wm
        .ok (o.nFree, o.init, o.idx, o.wm)
      else do
        let (wm, init) ← newTopWatermark A cloud idx wm init
        .ok (nFree, init, idx, wm) : Except Err (F × WM F s × ℤ × WM F s))
    let wm := mapFills 0 (idx + 1).toNat
      (fun j x => A.add (A.mul x (p.fromFull j)) (A.mul (A.sub A.one x) (p.fromEmpty j))) wm
    let (captured, wm) ← finishCapture A A.one (fun w => cyNTrapped A w dens)
      (fun w w0 e => .ok (notEnough A w w0 e)) nFree nInitial wm init
    .ok (A.neg captured, wm)

/-! ## `TrapManagerInstantCapture` and `TrapManagerTrackTime` -/

/-- trap_managers.py:879-923 -/
def icRelease (A : Arith F) (ops : ICOps F s) (wm : WM F s) : F × WM F s :=
  let wm' := mapFills 0 (maxWatermarkIndex A wm + 1).toNat ops.release wm
  (A.sub (ops.trapped wm) (ops.trapped wm'), wm')

/-- trap_managers.py:925-966 -/
def icFirstCapture (A : Arith F) (ops : ICOps F s) (nFree cloud : F) (init wm : WM F s) :
    Except Err (F × WM F s) := do
  let wm := wm.modify 0 fun _ => ⟨cloud, fun _ => ops.filled⟩
  let init := setVol init 0 cloud
  let final := ops.trapped wm
  if A.eq final A.zero then .ok (A.zero, wm)
  else do
    let enough ← pyDiv A nFree final
    if A.lt enough A.one then
      let wm ← ops.tweak wm init enough
      .ok (ops.trapped wm, wm)
    else .ok (final, wm)

/-- trap_managers.py:1001-1150 -/
def icCapture (A : Arith F) (ops : ICOps F s) (fill : F → F) (nFree : F) (wm : WM F s) :
    Except Err (F × WM F s) := do
  let init := wm
  let nInitial := ops.trapped wm
  let maxIdx := maxWatermarkIndex A wm
  let cloud := fill nFree
  let idx := watermarkIndexAboveCloud A cloud wm maxIdx
  if maxIdx = -1 ∧ A.lt A.zero nFree = true then
    icFirstCapture A ops nFree cloud init wm
  else do
    let (wm, init) ←
      (if idx ≤ maxIdx ∨ maxIdx = -1 then do
        let (wm, init, _) ← splitAtCloud A cloud idx maxIdx wm init
        .ok (wm, init)
      else newTopWatermark A cloud idx wm init : Except Err (WM F s × WM F s))
    let wm := mapFills 0 (idx + 1).toNat (fun _ _ => ops.filled) wm
    finishCapture A ops.filled ops.trapped ops.tweak nFree nInitial wm init

/-- trap_managers.py:1152-1205 -/
def icStep (A : Arith F) (ops : ICOps F s) (fill : F → F) (nFree : F) (wm : WM F s) :
    Except Err (F × WM F s) := do
  let (released, wm) := icRelease A ops wm
  let (captured, wm) ← icCapture A ops fill (A.add nFree released) wm
  .ok (A.sub released captured, wm)

/-- trap_managers.py:847-877 and inherited members -/
def instantOps (A : Arith F) (dens : Fin s → F) (pRelease : Fin s → F) : ICOps F s where
  filled := A.one
  release := fun j x => A.mul x (pRelease j)
  trapped := fun wm => cyNTrapped A wm dens
  tweak := fun w w0 e => .ok (notEnough A w w0 e)

/-- trap_managers.py:1231-1249 -/
def toFillFractions (A : Arith F) (conv : Fin s → F → F) (wm : WM F s) : WM F s :=
  mapFills 0 (argmaxTrue (wm.map fun r => A.eq r.vol A.zero)) conv wm

/-- trap_managers.py:1208-1363 -/
def trackTimeOps (A : Arith F) (dens : Fin s → F) (conv : Fin s → F → F) (dwell : F) : ICOps F s where
  filled := A.zero
  release := fun _ x => A.add x dwell
  trapped := fun wm => cyNTrapped A (toFillFractions A conv wm) dens
  tweak := fun _ _ _ => .error .typeError

/-! ## Managers -/

/-- `n_electrons_released_and_captured` dispatched on the class. -/
def step (A : Arith F) (m : Mgr F) (nFree dwell : F) (fill : F → F) : Except Err (F × Mgr F) := do
  let (net, wm) ← match m.kind with
    | .slow p => slowStep A m.dens (p dwell) fill nFree m.wm
    | .instant p => icStep A (instantOps A m.dens (p dwell)) fill nFree m.wm
    | .trackTime c => icStep A (trackTimeOps A m.dens c dwell) fill nFree m.wm
  .ok (net, { m with wm := wm })

/-- `n_trapped_electrons_from_watermarks` dispatched on the class. -/
def nTrapped (A : Arith F) (m : Mgr F) : F :=
  match m.kind with
  | .slow _ => cyNTrapped A m.wm m.dens
  | .instant _ => cyNTrapped A m.wm m.dens
  | .trackTime c => cyNTrapped A (toFillFractions A c m.wm) m.dens

/-- trap_managers.py:364-366 -/
def empty (A : Arith F) (m : Mgr F) : Mgr F := { m with wm := m.wm.map fun _ => zeroRow A m.s }

/-- trap_managers.py:206-216 -/
def newMgr (A : Arith F) (dens : Fin s → F) (kind : Kind F s) (maxNTransfers : ℕ) : Mgr F :=
  ⟨s, dens, kind, List.replicate (1 + maxNTransfers * kind.perTransfer) (zeroRow A s)⟩

/-! ## `AllTrapManager` -/

/-- trap_managers.py:83-116 -/
def newATM (A : Arith F) (groups : List (Group F)) (fractions : List F) (maxNTransfers : ℕ) : ATM F where
  data := fractions.map fun frac =>
    groups.map fun g => newMgr A (fun j => A.mul (g.dens j) frac) g.kind maxNTransfers
  saved := none
  inSave := A.zero
  previously := A.zero

/-- trap_managers.py:118-129: one running total over phases and groups -/
def currently (A : Arith F) (a : ATM F) : F :=
  a.data.foldl (fun t ms => ms.foldl (fun t m => A.add t (nTrapped A m)) t) A.zero

/-- trap_managers.py:131-135 -/
def emptyAll (A : Arith F) (a : ATM F) : ATM F := { a with data := a.data.map fun ms => ms.map (empty A) }

/-- trap_managers.py:137-142 -/
def save (A : Arith F) (a : ATM F) : ATM F := { a with saved := some a.data, inSave := currently A a }

/-- trap_managers.py:144-156 -/
def restore (A : Arith F) (a : ATM F) : ATM F :=
  let a' := { a with previously := A.add a.previously (A.sub (currently A a) a.inSave) }
  match a.saved with
  | none => emptyAll A a'
  | some d => { a' with data := d }

/-- The loop over the groups of one phase (main_utils.pyx:212-221) from the running total `acc`. -/
def groupsStep (A : Arith F) (nFree dwell : F) (fill : F → F) :
    F → List (Mgr F) → Except Err (F × List (Mgr F))
  | acc, [] => .ok (acc, [])
  | acc, m :: ms => do
    let (net, m') ← step A m nFree dwell fill
    let (total, ms') ← groupsStep A nFree dwell fill (A.add acc net) ms
    .ok (total, m' :: ms')

/-- main_utils.pyx:212-221 -/
def react (A : Arith F) (a : ATM F) (phase : ℕ) (nFree dwell : F) (fill : F → F) :
    Except Err (F × ATM F) :=
  match a.data[phase]? with
  | none => .error .indexError
  | some ms => do
    let (net, ms') ← groupsStep A nFree dwell fill A.zero ms
    .ok (net, { a with data := a.data.set phase ms' })

/-- The trap system given by `AllTrapManager`. -/
def atmSys (A : Arith F) (fill : ℕ → F → F) : TrapSys F (ATM F) where
  restore := restore A
  save := save A
  emptyAll := emptyAll A
  react := fun a phase nFree dwell => react A a phase nFree dwell (fill phase)

/-! ## The clocking loops (main_utils.pyx:174-257) -/

variable {S : Type}

/-- `image[r, c]` with unchecked bounds. -/
def read (img : Image F) (r : ℤ) (c : ℕ) : Except Err F :=
  if 0 ≤ r ∧ r < img.nr ∧ c < img.nc then .ok (img.px r.toNat c) else .error .outOfBounds

/-- `image[r, c] = v`. -/
def set (img : Image F) (r c : ℕ) (v : F) : Image F :=
  { img with px := fun i j => if i = r ∧ j = c then v else img.px i j }

/-- main_utils.pyx:236-247 -/
def writeBack (A : Arith F) (img : Image F) (r : ℤ) (c : ℕ) (delta : F) : Except Err (Image F) := do
  let old ← read img r c
  .ok (set img r.toNat c (if A.lt (A.add old delta) A.zero then A.zero else A.add old delta))

/-- main_utils.pyx:227-247 -/
def writeAll (A : Arith F) (img : Image F) (row0 : ℤ) (c : ℕ) (net mult : F) :
    List (ℤ × F) → Except Err (Image F)
  | [] => .ok img
  | (off, frac) :: rest => do
    let img ← writeBack A img (row0 + off) c (A.mul (A.mul net frac) mult)
    writeAll A img row0 c net mult rest

/-- main_utils.pyx:195-247 -/
def phaseBody (A : Arith F) (sys : TrapSys F S) (cfg : ClockCfg F) (c rowIdx : ℕ) (mult : F) (step : ℕ)
    (st : Image F × S) (phase : ℕ) : Except Err (Image F × S) :=
  match cfg.clockSeq[step]?.bind (fun l => l[phase]?), cfg.rowWindow[rowIdx]?, cfg.dwell[step]? with
  | some ph, some row0, some dwell => do
    let v ← read st.1 ((row0 : ℤ) + ph.captureFrom) c
    let nFree := A.mul v (if ph.isHigh then A.one else A.zero)
    let (net, s) ← sys.react st.2 phase nFree dwell
    if A.eq mult A.zero then .ok (st.1, s)
    else do
      let img ← writeAll A st.1 row0 c net mult ph.release
      .ok (img, s)
  | l, _, _ => .error (lookupErr l)

/-- main_utils.pyx:192-247 -/
def stepBody (A : Arith F) (sys : TrapSys F S) (cfg : ClockCfg F) (c rowIdx : ℕ) (mult : F)
    (st : Image F × S) (step : ℕ) : Except Err (Image F × S) :=
  cfg.phases.foldlM (phaseBody A sys cfg c rowIdx mult step) st

/-- main_utils.pyx:188-251 -/
def rowBody (A : Arith F) (sys : TrapSys F S) (cfg : ClockCfg F) (c k : ℕ)
    (st : Image F × S) (rowIdx : ℕ) : Except Err (Image F × S) := do
  let st ← cfg.steps.foldlM (stepBody A sys cfg c rowIdx (cfg.expr.e k rowIdx)) st
  .ok (if cfg.saveMat.e k rowIdx then (st.1, sys.save st.2) else st)

/-- main_utils.pyx:185 -/
def monitoredRows (cfg : ClockCfg F) (k : ℕ) : List ℕ :=
  (List.range cfg.monitor.nc).filter fun j => cfg.monitor.e k j

/-- main_utils.pyx:177-251 -/
def expressBody (A : Arith F) (sys : TrapSys F S) (cfg : ClockCfg F) (c : ℕ)
    (st : Image F × S) (k : ℕ) : Except Err (Image F × S) :=
  (monitoredRows cfg k).foldlM (rowBody A sys cfg c k) (st.1, sys.restore st.2)

/-- main_utils.pyx:174-257 -/
def columnBody (A : Arith F) (sys : TrapSys F S) (cfg : ClockCfg F)
    (st : Image F × S) (c : ℕ) : Except Err (Image F × S) := do
  let st ← (List.range cfg.expr.nr).foldlM (expressBody A sys cfg c) st
  let s := if cfg.emptyBetween then sys.emptyAll st.2 else st.2
  .ok (st.1, sys.save s)

/-- main_utils.pyx:174-257 -/
def clockLoops (A : Arith F) (sys : TrapSys F S) (cfg : ClockCfg F) (columns : List ℕ)
    (st : Image F × S) : Except Err (Image F × S) :=
  columns.foldlM (columnBody A sys cfg) st

/-- main_utils.pyx:164-171 -/
def pad (A : Arith F) (img : Image F) (n : ℕ) : Image F :=
  ⟨img.nr + n, img.nc, fun r c => if r < img.nr then img.px r c else A.zero⟩

/-- The indices `i` with `l[i] > 0` (main_utils.pyx:134-139). -/
def positiveIndices (A : Arith F) (l : List F) : List ℕ :=
  (List.range l.length).filter fun i => A.lt A.zero (l.getD i A.zero)

/-- `cy_clock_charge_in_one_direction` (main_utils.pyx:150-264) after the readout object has supplied the matrices:
`cfg` is what lines 110-148 computed, `padding` is `n_rows_zero_padding` and `transfers` is `max_n_transfers`. -/
def clockCharge (A : Arith F) (img : Image F) (ccd : CcdView F) (groups : List (Group F)) (cfg : ClockCfg F)
    (padding transfers : ℕ) (columns : List ℕ) : Except Err (Image F) := do
  let (out, _) ← clockLoops A (atmSys A ccd.fill) cfg columns
    (pad A img padding, newATM A groups ccd.fractions transfers)
  .ok { out with nr := out.nr - padding }

end Fp
end Arctic
