import Verif.Model.AllTrapManager
import Mathlib.Analysis.SpecialFunctions.Exp
import Mathlib.Analysis.SpecialFunctions.Log.Basic
import Mathlib.Analysis.SpecialFunctions.Trigonometric.Arctan
import Mathlib.Analysis.SpecialFunctions.Pow.Real
import Mathlib.MeasureTheory.Integral.Bochner.Basic
import Mathlib.MeasureTheory.Integral.Bochner.Set
import Mathlib.MeasureTheory.Measure.Lebesgue.Basic

/-!
# `arcticpy/traps.py` and `TrapManager.fill_probabilities_from_dwell_time`

Real numbers; IEEE infinities and NaN only where the code relies on them (`ExtF`).
`scipy.integrate.quad(f, 0, inf)` is the Lebesgue integral over `(0, ∞)`.
-/

namespace Arctic
open MeasureTheory

/-! ## IEEE special values -/

/-- Extended floats: finite numbers, infinities, NaN (signed zeros are not distinguished). -/
inductive ExtF where
  | fin (x : ℝ)
  | inf
  | ninf
  | nan

namespace ExtF
noncomputable section

def neg : ExtF → ExtF
  | fin x => fin (-x)
  | inf => ninf
  | ninf => inf
  | nan => nan

def add : ExtF → ExtF → ExtF
  | fin x, fin y => fin (x + y)
  | nan, _ => nan
  | _, nan => nan
  | inf, ninf => nan
  | ninf, inf => nan
  | inf, _ => inf
  | _, inf => inf
  | ninf, _ => ninf
  | _, ninf => ninf

def sub (a b : ExtF) : ExtF := add a (neg b)

open Classical in
/-- `± inf * x` by the sign of `x`. -/
def infMul (x : ℝ) : ExtF := if 0 < x then inf else if x < 0 then ninf else nan

def mul : ExtF → ExtF → ExtF
  | fin x, fin y => fin (x * y)
  | nan, _ => nan
  | _, nan => nan
  | inf, fin y => infMul y
  | fin y, inf => infMul y
  | ninf, fin y => neg (infMul y)
  | fin y, ninf => neg (infMul y)
  | inf, inf => inf
  | ninf, ninf => inf
  | inf, ninf => ninf
  | ninf, inf => ninf

open Classical in
/-- numpy division (by zero: signed infinity or NaN). -/
def div : ExtF → ExtF → ExtF
  | nan, _ => nan
  | _, nan => nan
  | fin x, fin y => if y = 0 then infMul x else fin (x / y)
  | fin _, inf => fin 0
  | fin _, ninf => fin 0
  | inf, fin y => if 0 ≤ y then inf else ninf
  | ninf, fin y => if 0 ≤ y then ninf else inf
  | _, _ => nan

/-- `np.exp` -/
def exp : ExtF → ExtF
  | fin x => fin (Real.exp x)
  | inf => inf
  | ninf => fin 0
  | nan => nan

/-- `x[np.isnan(x)] = 1` -/
def nanToOne : ExtF → ExtF
  | nan => fin 1
  | x => x

end
end ExtF

/-! ## Trap species -/

/-- Trap objects (traps.py:7-53, 212-240, 243-299). `continuum` covers
`TrapLifetimeContinuumAbstract` and its log-normal subclass. -/
inductive Trap where
  | trap (density releaseTimescale captureTimescale : ℝ) (surface : Bool)
  | instant (density releaseTimescale : ℝ) (surface : Bool)
  | continuum (density : ℝ) (dist : ℝ → ℝ → ℝ → ℝ) (mu sigma : ℝ)

namespace Trap
noncomputable section

def density : Trap → ℝ
  | trap d _ _ _ => d
  | instant d _ _ => d
  | continuum d _ _ _ => d

/-- `release_timescale` (for a continuum it is `release_timescale_mu`, traps.py:273-275). -/
def releaseTimescale : Trap → ℝ
  | trap _ t _ _ => t
  | instant _ t _ => t
  | continuum _ _ mu _ => mu

/-- `capture_timescale` (0 for instant capture, traps.py:233-240). -/
def captureTimescale : Trap → ℝ
  | trap _ _ c _ => c
  | _ => 0

def surface : Trap → Bool
  | trap _ _ _ b => b
  | instant _ _ b => b
  | continuum .. => false

/-- `emission_rate` (traps.py:47). A zero timescale is refused by `Trap.valid`. -/
def emissionRate (t : Trap) : ℝ := 1 / t.releaseTimescale

open Classical in
/-- `capture_rate` (traps.py:49-52). -/
def captureRate (t : Trap) : ExtF :=
  if t.captureTimescale = 0 then .inf else .fin (1 / t.captureTimescale)

open Classical in
/-- The constructor fails with `ZeroDivisionError` for `release_timescale = 0` (traps.py:47). -/
def valid (t : Trap) : Except Err Unit :=
  if t.releaseTimescale = 0 then .error .zeroDivisionError else .ok ()

/-- `fill_fraction_from_time_elapsed` (traps.py:62-76, 281-313). -/
def fillFraction : Trap → ℝ → ℝ
  | trap _ τ _ _, t => Real.exp (-t / τ)
  | instant _ τ _, t => Real.exp (-t / τ)
  | continuum _ dist mu sigma, t =>
    ∫ τ in Set.Ioi (0 : ℝ), dist τ mu sigma * Real.exp (-t / τ)

/-- `time_elapsed_from_fill_fraction` of `Trap` (traps.py:78-91). `np.log` of a nonpositive number is
`-inf`/NaN; only positive arguments are meaningful here. -/
def timeElapsed (τ fillFraction : ℝ) : ℝ := -τ * Real.log fillFraction

/-- `time_elapsed_from_fill_fraction` of the continuum classes (traps.py:315-338):
`root` stands for whatever `scipy.optimize.fsolve` returns; the result is then checked. -/
def timeElapsedContinuum (t : Trap) (root fillFraction : ℝ) : Except Err ℝ :=
  open Classical in
  if |t.fillFraction root - fillFraction| < 1e-7 then .ok root else .error .assertionError

/-- `electrons_released_from_electrons_and_dwell_time` (traps.py:93-109). -/
def electronsReleased (t : Trap) (electrons dwell : ℝ) : ℝ :=
  electrons * (1 - t.fillFraction dwell)

/-- `electrons_released_from_time_elapsed_and_dwell_time` (traps.py:111-131, 340-379). -/
def electronsReleasedFromTime : Trap → ℝ → ℝ → ℝ
  | trap _ τ _ _, t, dwell => Real.exp (-t / τ) * (1 - Real.exp (-dwell / τ))
  | instant _ τ _, t, dwell => Real.exp (-t / τ) * (1 - Real.exp (-dwell / τ))
  | continuum _ dist mu sigma, t, dwell =>
    ∫ τ in Set.Ioi (0 : ℝ),
      dist τ mu sigma * Real.exp (-t / τ) * (1 - Real.exp (-dwell / τ))

/-- `delta_ellipticity` (traps.py:133-159). -/
def deltaEllipticity (t : Trap) : ℝ :=
  t.density * (0.05333
    + 0.03357 * Real.arctan ((Real.log t.releaseTimescale - 1.628) / 0.2951)
    + 0.09901 * Real.exp (-(Real.log t.releaseTimescale - 0.4553) ^ 2 / (2 * 0.4132 ^ 2)))

/-- `log_normal_distribution` (traps.py:385-405). -/
def logNormal (x median sigma : ℝ) : ℝ :=
  Real.exp (-(Real.log x - Real.log median) ^ 2 / (2 * sigma ^ 2)) /
    (x * sigma * Real.sqrt (2 * Real.pi))

/-- `TrapLogNormalLifetimeContinuum` (traps.py:382-415). -/
def logNormalTrap (density mu sigma : ℝ) : Trap := continuum density logNormal mu sigma

/-- The Poisson means `total_traps` handed to the generator (traps.py:187). -/
def poissonMeans (traps : List Trap) (nRows : ℕ) : List ℝ := traps.map fun t => t.density * nRows

open Classical in
/-- `poisson_trap` (traps.py:161-203). The random generator is a parameter: `draw c i` is the number
of traps of species `i` drawn for column `c`; it raises `ValueError` for a negative mean (once it is called).
Images without rows (division by zero) are not considered. -/
def poissonTrap (traps : List Trap) (nRows nColumns : ℕ) (draw : ℕ → ℕ → ℕ) : Except Err (List Trap) :=
  if 0 < nColumns ∧ ∃ m ∈ poissonMeans traps nRows, m < 0 then .error .valueError
  else .ok ((List.range nColumns).flatMap fun c =>
    traps.mapIdx fun i t => trap ((draw c i : ℝ) / (nRows : ℝ)) t.releaseTimescale 0 false)

/-- The species with another density (the setter of trap_managers.py:288-296). -/
def withDensity (t : Trap) (d : ℝ) : Trap :=
  match t with
  | trap _ r c b => trap d r c b
  | instant _ r b => instant d r b
  | continuum _ f m s => continuum d f m s

/-- `TrapManager.delta_ellipticity` (trap_managers.py:298-300) of a manager with these species. -/
def managerDeltaEllipticity (traps : List Trap) : ℝ := (traps.map deltaEllipticity).sum

end
end Trap

/-! ## `fill_probabilities_from_dwell_time` -/

noncomputable section

/-- `exponential_factor` (trap_managers.py:325-327) for one species. -/
def exponentialFactor (t : Trap) (dwell : ℝ) : ExtF :=
  let total := ExtF.add t.captureRate (.fin t.emissionRate)
  ExtF.div (ExtF.sub (.fin 1) (ExtF.exp (ExtF.mul (ExtF.neg total) (.fin dwell)))) total

/-- `fill_probabilities_from_empty` (trap_managers.py:335-337). -/
def fillFromEmpty (t : Trap) (dwell : ℝ) : ExtF :=
  ExtF.nanToOne (ExtF.mul t.captureRate (exponentialFactor t dwell))

/-- `fill_probabilities_from_full` (trap_managers.py:340). -/
def fillFromFull (t : Trap) (dwell : ℝ) : ExtF :=
  ExtF.sub (.fin 1) (ExtF.mul (.fin t.emissionRate) (exponentialFactor t dwell))

/-- `fill_probabilities_from_release` (trap_managers.py:343). -/
def fillFromRelease (t : Trap) (dwell : ℝ) : ℝ := Real.exp (-t.emissionRate * dwell)

/-- Forget that a number might have been special (0 if it is). -/
def ExtF.toReal : ExtF → ℝ
  | .fin x => x
  | _ => 0

/-- The probabilities as the slow manager uses them. For positive dwell times (the only ones the
clocking code passes) no special values occur, see `Verif.Props.Traps`. -/
def fillProbs {s : ℕ} (traps : Fin s → Trap) (dwell : ℝ) : Probs ℝ s where
  fromEmpty := fun j => (fillFromEmpty (traps j) dwell).toReal
  fromFull := fun j => (fillFromFull (traps j) dwell).toReal
  fromRelease := fun j => fillFromRelease (traps j) dwell

/-- Choice of the manager class from the first trap of a group (trap_managers.py:91-106). -/
def groupOfTraps (traps : List Trap) : Except Err (Group ℝ) :=
  match traps with
  | [] => .error .indexError
  | t :: _ =>
    let f : Fin traps.length → Trap := fun j => traps[j]
    .ok { s := traps.length
          dens := fun j => (f j).density
          kind := match t with
            | .continuum .. => .trackTime fun j => (f j).fillFraction
            | .instant .. => .instant fun dwell j => fillFromRelease (f j) dwell
            | .trap .. => .slow fun dwell => fillProbs f dwell }

/-- An element of a `traps` list: a trap or a list of traps. -/
inductive PyItem where
  | trap (t : Trap)
  | group (l : List Trap)

/-- A `traps` argument (trap_managers.py:35-47): "[[Trap]] (or Trap or [Trap])", possibly mixed. -/
inductive PyTraps where
  | one (t : Trap)
  | list (l : List PyItem)

/-- Lists of traps after the normalisation of trap_managers.py:76-81: an empty list has no element 0. -/
def PyTraps.normal : PyTraps → Except Err (List (List PyItem ⊕ Trap))
  | .one t => .ok [.inl [.trap t]]
  | .list [] => .error .indexError
  | .list (.trap t :: l) => .ok [.inl (.trap t :: l)]
  | .list (.group g :: l) => .ok ((PyItem.group g :: l).map fun x => match x with
    | .trap t => .inr t
    | .group g => .inl (g.map .trap))

/-- Making a manager of one element of the outer list (trap_managers.py:89-106, 199-224): a `Trap` cannot be
subscripted, a list among traps has no `capture_rate`. -/
def pyGroup : List PyItem ⊕ Trap → Except Err (List Trap)
  | .inr _ => .error .typeError
  | .inl [] => .error .indexError
  | .inl l => l.mapM fun x => match x with
    | .trap t => .ok t
    | .group _ => .error .attributeError

/-- `AllTrapManager.__init__` (trap_managers.py:23-116) from the `traps` argument; the loop body does not run for a
CCD without phases. -/
def allTrapManager (traps : PyTraps) (fractions : List ℝ) (maxNTransfers : ℕ) : Except Err (ATM ℝ) := do
  let outer ← traps.normal
  if fractions = [] then .ok (ATM.new [] [] maxNTransfers)
  else do
    let groups ← outer.mapM fun g => do groupOfTraps (← pyGroup g)
    .ok (ATM.new groups fractions maxNTransfers)

/-- `n_traps_per_pixel` of a manager (trap_managers.py:284-287). -/
def Mgr.nTrapsPerPixel (m : Mgr ℝ) : List ℝ := List.ofFn m.dens

end
end Arctic
