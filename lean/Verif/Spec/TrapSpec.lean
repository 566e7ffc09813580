import Verif.Model.Clock

/-!
# Descriptions of traps behind the interface of `AllTrapManager`

The clocking loops can be run on any description of the traps of a phase that says what a transfer does and what empty
traps are. The state to restore is always explicit.
-/

namespace Arctic

/-- What a transfer of `n` electrons staying for a dwell time does to a group of traps, and the group with no trap filled. -/
structure TrapSpec (K τ : Type) where
  step : τ → K → K → (K → K) → Except Err (K × τ)
  empty : τ → τ

/-- Groups of traps phase by phase, current and saved. -/
structure SpecState (τ : Type) where
  data : List (List τ)
  saved : List (List τ)

variable {K τ : Type} [Field K]

/-- All groups of a phase see the same electrons. -/
def TrapSpec.groups (sp : TrapSpec K τ) (n dwell : K) (f : K → K) : List τ → Except Err (K × List τ)
  | [] => .ok (0, [])
  | t :: ts => do
    let (x, t') ← sp.step t n dwell f
    let (y, ts') ← sp.groups n dwell f ts
    .ok (x + y, t' :: ts')

/-- The trap system. -/
def TrapSpec.sys (sp : TrapSpec K τ) (fill : ℕ → K → K) : TrapSys K (SpecState τ) where
  restore s := { s with data := s.saved }
  save s := { s with saved := s.data }
  emptyAll s := { s with data := s.data.map fun ts => ts.map sp.empty }
  react s phase n dwell :=
    match s.data[phase]? with
    | none => .error .indexError
    | some ts => (sp.groups n dwell (fill phase) ts).map fun o => (o.1, { s with data := s.data.set phase o.2 })

/-- The same groups in every phase, as made by `new` for the fraction of the traps in the phase. -/
def SpecState.new {α : Type} (new : α → K → τ) (groups : List α) (fractions : List K) : SpecState τ :=
  let d := fractions.map fun frac => groups.map fun g => new g frac
  ⟨d, d⟩

/-- Clocking in one direction with these traps, in the order of transfers of the code. -/
def TrapSpec.clock [LinearOrder K] (sp : TrapSpec K τ) (img : Image K) (ccd : CcdView K) (roe : Roe K) (st : SpecState τ)
    (express offset : ℕ) (rows columns : List ℕ) (tw : Option (List ℕ)) : Except Err (Image K × Roe K) := do
  let (cfg, roe') ← clockCfg roe ccd express offset rows tw
  let n := nPadding roe.accessed
  let (out, _) ← clockLoops (sp.sys ccd.fill) cfg columns (img.pad n, st)
  .ok (out.unpad n, roe')

end Arctic
