import Verif.Model.Clock
import Verif.Spec.Reference

/-!
# The reference traps as a trap system

The same interface as `AllTrapManager`, but every group of traps of a phase is a `Ref.Traps` and the state to restore
is always explicit.
-/

namespace Arctic

noncomputable section

/-- Groups of instant-capture traps, current and saved. -/
structure RefState where
  data : List (List Ref.Traps)
  saved : List (List Ref.Traps)

/-- The clocking loops run on reference traps. -/
def refSys (fill : ℕ → ℝ → ℝ) : TrapSys ℝ RefState where
  restore s := { s with data := s.saved }
  save s := { s with saved := s.data }
  emptyAll s := { s with data := s.data.map fun ts => ts.map Ref.Traps.empty }
  react s phase n dwell :=
    match s.data[phase]? with
    | none => .error .indexError
    | some ts =>
      let outs := ts.map fun t => t.transfer (fill phase) dwell n
      .ok ((outs.map Prod.fst).sum, { s with data := s.data.set phase (outs.map Prod.snd) })

/-- The traps of a group that are in a phase with this fraction of the traps, empty. -/
def Ref.Traps.inPhase (t : Ref.Traps) (frac : ℝ) : Ref.Traps :=
  { t with dens := fun j => t.dens j * frac, occ := fun _ _ => 0 }

/-- Empty traps in every phase. -/
def RefState.new (traps : List Ref.Traps) (fractions : List ℝ) : RefState :=
  let d := fractions.map fun frac => traps.map fun t => t.inPhase frac
  ⟨d, d⟩

/-- The group of trap species given to the code. -/
def Ref.Traps.group (t : Ref.Traps) : Group ℝ := ⟨t.s, t.dens, .instant t.keep⟩

end

end Arctic
