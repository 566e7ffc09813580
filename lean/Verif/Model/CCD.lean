import Verif.Model.Clock
import Mathlib.Analysis.SpecialFunctions.Pow.Real

/-!
# `arcticpy/ccd.py`
-/

namespace Arctic

/-- A constructor argument that is a number or a list (ccd.py:91-164). -/
inductive PyParam where
  | scalar (x : ℝ)
  | list (l : List ℝ)

/-- An element of `_well_bloom_level`: with the default `None` every element is the *list*
`full_well_depth` (ccd.py:162-164). -/
inductive Bloom where
  | num (x : ℝ)
  | list (l : List ℝ)

/-- A `CCD` object. -/
structure CCD where
  fractions : List ℝ
  fullWellDepth : List ℝ
  fillPower : List ℝ
  notchDepth : List ℝ
  bloomLevel : List Bloom

/-- Setter for `fraction_of_traps_per_phase` (ccd.py:90-98). -/
def PyParam.toFractions : PyParam → List ℝ
  | .scalar x => [x]
  | .list l => l

/-- The other setters (ccd.py:108-147). -/
def PyParam.perPhase (p : PyParam) (nPhases : ℕ) : Except Err (List ℝ) :=
  match p with
  | .scalar x => .ok (List.replicate nPhases x)
  | .list l => if l.length ≠ nPhases then .error .valueError else .ok l

/-- Setter for `well_bloom_level` (ccd.py:153-164). -/
def bloomPerPhase (p : Option PyParam) (fullWell : List ℝ) (nPhases : ℕ) :
    Except Err (List Bloom) :=
  match p with
  | none => .ok (List.replicate nPhases (.list fullWell))
  | some (.scalar x) => .ok (List.replicate nPhases (.num x))
  | some (.list l) => if l.length ≠ nPhases then .error .valueError else .ok (l.map .num)

/-- `CCD.__init__` (ccd.py:9-84). -/
def CCD.new (fractions fullWell notch power : PyParam) (bloom : Option PyParam) :
    Except Err CCD := do
  let fr := fractions.toFractions
  let fw ← fullWell.perPhase fr.length
  let fp ← power.perPhase fr.length
  let nd ← notch.perPhase fr.length
  let bl ← bloomPerPhase bloom fw fr.length
  .ok ⟨fr, fw, fp, nd, bl⟩

noncomputable section

/-- `well_filling_function(phase)(n_electrons, surface)` (ccd.py:192-265). The attribute
`blooming_level` does not exist. `0 ** beta` with negative `beta` raises. -/
def CCD.wellFilling (c : CCD) (phase : ℕ) (n : ℝ) (surface : Bool) : Except Err ℝ :=
  open Classical in
  if n = 0 then .ok 0
  else if surface then .error .attributeError
  else
    match c.notchDepth[phase]?, c.fillPower[phase]?, c.fullWellDepth[phase]? with
    | some empty, some beta, some full =>
      if full - empty = 0 then .error .zeroDivisionError
      else
        let x := setMinMax ((n - empty) / (full - empty)) 0 1
        if x = 0 ∧ beta < 0 then .error .zeroDivisionError else .ok (x ^ beta)
    | _, _, _ => .error .indexError

/-- `cloud_fractional_volume_from_n_electrons_and_phase` (ccd.py:166-190). -/
def CCD.cloudFractionalVolume (c : CCD) (n : ℝ) (phase : ℕ) (surface : Bool) : Except Err ℝ :=
  c.wellFilling phase n surface

/-- `CCDPhase` (ccd.py:268-277). -/
structure CCDPhase where
  fraction : ℝ
  fullWellDepth : ℝ
  fillPower : ℝ
  notchDepth : ℝ
  bloomLevel : Bloom
  fill : ℝ → Bool → Except Err ℝ

/-- `CCDPhase.__init__` (ccd.py:269-277). -/
def CCDPhase.new (c : CCD) (phase : ℕ) : Except Err CCDPhase :=
  match c.fractions[phase]?, c.fullWellDepth[phase]?, c.fillPower[phase]?, c.notchDepth[phase]?,
    c.bloomLevel[phase]? with
  | some fr, some fw, some fp, some nd, some bl =>
    .ok ⟨fr, fw, fp, nd, bl, fun n s => c.wellFilling phase n s⟩
  | _, _, _, _, _ => .error .indexError

/-- What the clocking code sees of a CCD (main_utils.pyx:134-136, 217-219). Errors of the filling
function are replaced by 0; for a CCD whose full wells differ from the notches and whose powers are
nonnegative there are none. -/
def CCD.view (c : CCD) : CcdView ℝ where
  fractions := c.fractions
  fill := fun phase n => match c.wellFilling phase n false with
    | .ok v => v
    | .error _ => 0

end
end Arctic
