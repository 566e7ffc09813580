import Verif.Model.Basic

/-!
# `arcticpy/trap_managers_utils.pyx` and the watermark-array methods of `TrapManager`

Loops are folds over index lists; in-place mutation returns the new array.
Floating-point sums are exact field sums, so their order of summation is immaterial and
`List.sum`/`∑` is used for plain accumulation loops.
-/

namespace Arctic

variable {K : Type} [Field K] [LinearOrder K] {s : ℕ}

/-- `roll_2d_vertical_1` (trap_managers_utils.pyx:14-36): the loop that shifts each row down by one
index, starting from the end, and puts the saved last row at index 0. -/
def roll2dVertical1 {α : Type} (arr : List α) : List α :=
  match arr.getLast? with
  | none => arr
  | some last =>
    let n := arr.length
    let moved := (List.range' 1 (n - 1)).foldl
      (fun a i => match a[n - i - 1]? with
        | some r => a.set (n - i) r
        | none => a) arr
    moved.set 0 last

/-- Loop of `cy_value_in_cumsum` (trap_managers_utils.pyx:48-56) from running total `total`. -/
def valueInCumsumLoop (value total : K) : List K → Bool
  | [] => decide (value = total)
  | a :: as => if value = total then true else valueInCumsumLoop value (total + a) as

/-- `cy_value_in_cumsum` (trap_managers_utils.pyx:42-56). The arrays passed always have a first
element; the empty case is not reachable. -/
def cyValueInCumsum (value : K) : List K → Bool
  | [] => false
  | a :: as => valueInCumsumLoop value a as

/-- `cy_n_trapped_electrons_from_watermarks` (trap_managers_utils.pyx:62-73). -/
def cyNTrapped (wm : WM K s) (dens : Fin s → K) : K :=
  (wm.map fun r => ∑ j, r.vol * r.fill j * dens j).sum

/-- Loop of `cy_watermark_index_above_cloud_from_cloud_fractional_volume`
(trap_managers_utils.pyx:91-94): returns the final `(total, index)`. -/
def indexAboveLoop (cloud : K) : List K → K → ℕ → ℕ → K × ℕ
  | [], total, _, index => (total, index)
  | v :: vs, total, i, index =>
    let total' := total + v
    indexAboveLoop cloud vs total' (i + 1) (if cloud ≤ total' then min index i else index)

/-- `cy_watermark_index_above_cloud_from_cloud_fractional_volume`
(trap_managers_utils.pyx:79-99). -/
def cyIndexAbove (cloud : K) (wm : WM K s) (maxIdx : ℤ) : ℤ :=
  let (total, index) := indexAboveLoop cloud (wm.map Row.vol) 0 0 wm.length
  if total < cloud then maxIdx + 1 else (index : ℤ)

/-- `TrapManager.watermark_index_above_cloud_from_cloud_fractional_volume`
(trap_managers.py:368-395). -/
def watermarkIndexAboveCloud (cloud : K) (wm : WM K s) (maxIdx : ℤ) : ℤ :=
  if cloud = 0 then -1 else cyIndexAbove cloud wm maxIdx

/-- `watermarks[i, 0] = v`. -/
def setVol (wm : WM K s) (i : ℕ) (v : K) : WM K s :=
  wm.modify i fun r => { r with vol := v }

/-- `cy_update_watermark_volumes_for_cloud_below_highest` (trap_managers_utils.pyx:105-141).
Bounds checks are compiled out; the largest index accessed is `idx + 1`. -/
def cyUpdateVolumes (wm : WM K s) (cloud : K) (idx : ℕ) : Except Err (WM K s) :=
  if wm.length ≤ idx + 1 then .error .outOfBounds
  else
    -- lines 113-120
    let oldVol := (wm[idx]?.getD (zeroRow K s)).vol
    let cumVol := ((wm.take (idx + 1)).map Row.vol).sum
    -- line 123
    let w1 := roll2dVertical1 wm
    -- lines 126-132
    let w2 :=
      if idx = 0 then w1.set 0 (w1[1]?.getD (zeroRow K s))
      else (List.range (idx + 1)).foldl
        (fun w i => w.set i (w[i + 1]?.getD (zeroRow K s))) w1
    -- lines 135-141
    let newVol := cloud - (cumVol - oldVol)
    let w3 := setVol w2 idx newVol
    .ok (setVol w3 (idx + 1) (oldVol - newVol))

/-- Python-index version used by the callers (trap_managers.py:397-423). A negative index never
reaches the Cython function (it is only called when the cloud volume is positive); it is treated
as out of bounds. -/
def updateVolumes (wm : WM K s) (cloud : K) (idx : ℤ) : Except Err (WM K s) :=
  if idx < 0 then .error .outOfBounds else cyUpdateVolumes wm cloud idx.toNat

/-- `np.argmax(watermarks[:, 0] == 0) - 1`, the "highest active watermark"
(trap_managers.py:735, 906, 1052). -/
def maxWatermarkIndex (wm : WM K s) : ℤ :=
  (argmaxTrue (wm.map fun r => decide (r.vol = 0)) : ℤ) - 1

/-- `TrapManager.updated_watermarks_from_capture_not_enough` (trap_managers.py:425-458). -/
def notEnough (wm init : WM K s) (enough : K) : WM K s :=
  List.zipWith
    (fun r r0 => { r with fill := fun j => enough * r.fill j + (1 - enough) * r0.fill j }) wm init

/-- `watermark_index_not_filled` (trap_managers.py:493-498): the minimum over the species of the
first row whose value differs from the filled value. -/
def indexNotFilled (filled : K) (wm : WM K s) : ℕ :=
  (((List.finRange s).map fun i =>
    argmaxTrue (wm.map fun r => decide (r.fill i ≠ filled))).min?).getD 0

/-- Zero the rows `[:k]`, roll by `1 - k` and edit row 0
(trap_managers.py:524-540, for one of the two arrays). -/
def collapseRows (k : ℕ) (wm : WM K s) (row0 : Row K s) : WM K s :=
  ((List.replicate k (zeroRow K s) ++ wm.drop k).rotate (k - 1)).set 0 row0

/-- `fractional_volume_filled` (trap_managers.py:508). -/
def volumeFilled (k : ℕ) (wm : WM K s) : K := ((wm.take k).map Row.vol).sum

/-- `collapse_redundant_watermarks` without a copy (trap_managers.py:460-545). -/
def collapse (filled : K) (wm : WM K s) : WM K s :=
  let k := indexNotFilled filled wm
  if k ≤ 1 then wm
  else collapseRows k wm ⟨volumeFilled k wm, fun _ => filled⟩

/-- `copy_fill_values` (trap_managers.py:511-521). -/
def copyFillValues (k : ℕ) (copy : WM K s) : Fin s → K := fun j =>
  ((copy.take k).map fun r => r.vol * r.fill j).sum / volumeFilled k copy

/-- `collapse_redundant_watermarks` with a copy (trap_managers.py:460-545). -/
def collapseCopy (filled : K) (wm copy : WM K s) : WM K s × WM K s :=
  let k := indexNotFilled filled wm
  if k ≤ 1 then (wm, copy)
  else
    (collapseRows k wm ⟨volumeFilled k wm, fun _ => filled⟩,
     collapseRows k copy ⟨volumeFilled k wm, copyFillValues k copy⟩)

/-- `watermarks[lo:hi, 1:] = g(watermarks[lo:hi, 1:])` for a species-wise `g`. -/
def mapFills (lo hi : ℕ) (g : Fin s → K → K) (wm : WM K s) : WM K s :=
  wm.mapIdx fun i r => if lo ≤ i ∧ i < hi then { r with fill := fun j => g j (r.fill j) } else r

end Arctic
