import Verif.Spec.RefMixed

/-!
# Reference simulation of a readout with traps of all sorts

The same passes over the rows of a column as for instant and slow capture (`Ref.stepReadout`), for groups of any sort.
-/

set_option linter.unusedSectionVars false
set_option linter.unusedVariables false

namespace Arctic.Ref

/-- Groups with instant capture, with slow capture, or with a distribution of lifetimes. -/
abbrev FullTraps := MixTraps ⊕ Clocks

noncomputable section

/-- A cloud of `n` electrons stays in the pixel for a dwell time: release, then capture by all traps inside the cloud, which
has electrons enough. -/
def Clocks.pass (f : ℝ → ℝ) (dw : ℝ) (t : Clocks) (n : ℝ) : ℝ × Clocks :=
  let w := t.wait dw
  let out := t.filled - w.filled
  let h := f (n + out)
  (out - w.vacant h, w.fill h)

/-- One transfer of a cloud of `n` electrons: what it gains, and the traps afterwards. -/
def FullTraps.transfer (f : ℝ → ℝ) (dw : ℝ) (t : FullTraps) (n : ℝ) : ℝ × FullTraps :=
  match t with
  | .inl t => ((MixTraps.transfer f dw t n).1, .inl (MixTraps.transfer f dw t n).2)
  | .inr t => ((t.pass f dw n).1, .inr (t.pass f dw n).2)

/-- All groups of a pixel see the same cloud. -/
def fullStep (f : ℝ → ℝ) (dw : ℝ) (ts : List FullTraps) (n : ℝ) : ℝ × List FullTraps :=
  ((ts.map fun t => (FullTraps.transfer f dw t n).1).sum, ts.map fun t => (FullTraps.transfer f dw t n).2)

end

end Arctic.Ref
