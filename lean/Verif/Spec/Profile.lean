import Verif.Model.Basic

/-!
# Specification vocabulary for trap states

The physical meaning of a watermark array: the traps of species `j` at depth `d` inside the pixel
(depth measured as a fraction of the pixel volume, `0 < d`) are filled to the fraction `occ wm d j`.
Nothing here refers to how the code manipulates the array.
-/

namespace Arctic

variable {K : Type} [Field K] [LinearOrder K] {s : ℕ}

/-- Occupancy at depth `d`: walk up the levels until the one containing `d`. Above all levels the
traps are empty. -/
def occ : WM K s → K → Fin s → K
  | [], _, _ => 0
  | r :: rs, d, j => if d ≤ r.vol then r.fill j else occ rs (d - r.vol) j

/-- Number of empty traps at depths up to `c`: walk up the levels, counting `(1 - fill) * density` per
unit volume; above all levels every trap is empty. -/
def vacant (dens : Fin s → K) : K → WM K s → K
  | c, [] => c * ∑ j, dens j
  | c, r :: rs =>
    if c ≤ r.vol then c * ∑ j, (1 - r.fill j) * dens j
    else r.vol * ∑ j, (1 - r.fill j) * dens j + vacant dens (c - r.vol) rs

/-- Release above depth `c`: levels above `c` keep the fraction `p` of their electrons, the level
containing `c` is divided. -/
def releaseAbove (p : Fin s → K) : K → WM K s → WM K s
  | _, [] => []
  | c, r :: rs =>
    if c ≤ 0 then ⟨r.vol, fun j => r.fill j * p j⟩ :: releaseAbove p 0 rs
    else if r.vol ≤ c then r :: releaseAbove p (c - r.vol) rs
    else ⟨c, r.fill⟩ :: ⟨r.vol - c, fun j => r.fill j * p j⟩ :: releaseAbove p 0 rs

/-- Number of trapped electrons: volume times fill times density, summed over levels and species. -/
def electrons (dens : Fin s → K) (wm : WM K s) : K :=
  (wm.map fun r => r.vol * ∑ j, r.fill j * dens j).sum

/-- Sum of the volumes of all levels. -/
def volSum (wm : WM K s) : K := (wm.map Row.vol).sum

/-- A well-formed array: a block of levels with positive volume followed by rows of zero volume,
total volume at most one, all fill fractions between 0 and 1. -/
def WellFormed (wm : WM K s) : Prop :=
  (∃ act rest, wm = act ++ rest ∧ (∀ r ∈ act, 0 < r.vol) ∧ (∀ r ∈ rest, r.vol = 0)) ∧
    volSum wm ≤ 1 ∧ ∀ r ∈ wm, ∀ j, 0 ≤ r.fill j ∧ r.fill j ≤ 1

/-- Levels of non-zero volume, then at least one unused row. -/
def HasSpare (wm : WM K s) : Prop :=
  ∃ act rest, wm = act ++ rest ∧ (∀ r ∈ act, r.vol ≠ 0) ∧ rest ≠ [] ∧ ∀ r ∈ rest, r.vol = 0

/-- Volumes are non-zero and all partial sums (heights of levels), starting from `t`, lie in (0, 1]. -/
def NZ : K → WM K s → Prop
  | _, [] => True
  | t, r :: rs => r.vol ≠ 0 ∧ 0 < t + r.vol ∧ t + r.vol ≤ 1 ∧ NZ (t + r.vol) rs

/-- Number of rows in use. -/
def nActive (wm : WM K s) : ℕ := (wm.filter fun r => decide (r.vol ≠ 0)).length

/-- A well-filling model: cloud volumes between 0 and 1, no volume for an empty cloud.
(`CCD.well_filling_function`, see C40.) -/
structure FillModel (f : K → K) : Prop where
  nonneg : ∀ n, 0 ≤ f n
  le_one : ∀ n, f n ≤ 1
  empty : ∀ n, n ≤ 0 → f n = 0

end Arctic
