import Verif.Spec.RefSlow
import Verif.Spec.Reference

/-!
# Reference simulation of a readout with instant and with slow capture

The same passes over the rows of a column as for instant capture alone (`Ref.readout`), for groups of either sort.
-/

set_option linter.unusedSectionVars false
set_option linter.unusedVariables false

namespace Arctic.Ref

/-- Groups with instant capture or with slow capture. -/
abbrev MixTraps := Traps ⊕ Slow

noncomputable section

/-- One transfer of a cloud of `n` electrons: what it gains, and the traps afterwards. -/
def MixTraps.transfer (f : ℝ → ℝ) (dw : ℝ) (t : MixTraps) (n : ℝ) : ℝ × MixTraps :=
  match t with
  | .inl t => ((t.transfer f dw n).1, .inl (t.transfer f dw n).2)
  | .inr t => ((t.transfer n dw f).1, .inr (t.transfer n dw f).2)

/-- All groups of a pixel see the same cloud. -/
def mixStep (f : ℝ → ℝ) (dw : ℝ) (ts : List MixTraps) (n : ℝ) : ℝ × List MixTraps :=
  ((ts.map fun t => (MixTraps.transfer f dw t n).1).sum, ts.map fun t => (MixTraps.transfer f dw t n).2)

/-- One transfer of row `x.1` standing for `x.2` transfers, for any step function of the traps. -/
def stepRow {σ : Type} (step : σ → ℝ → ℝ × σ) (st : (ℕ → ℝ) × σ) (x : ℕ × ℝ) : (ℕ → ℝ) × σ :=
  (if x.2 = 0 then st.1 else Function.update st.1 x.1 (max 0 (st.1 x.1 + (step st.2 (st.1 x.1)).1 * x.2)),
    (step st.2 (st.1 x.1)).2)

/-- One pass, beginning with the traps `s`. -/
def stepPass {σ : Type} (step : σ → ℝ → ℝ × σ) (s : σ) (col : ℕ → ℝ) (todo : List (ℕ × ℝ)) : ℕ → ℝ :=
  (todo.foldl (stepRow step) (col, s)).1

/-- All passes. -/
def stepReadout {σ : Type} (step : σ → ℝ → ℝ × σ) (s : σ) (passes : List (List (ℕ × ℝ))) (col : ℕ → ℝ) : ℕ → ℝ :=
  passes.foldl (stepPass step s) col

end

end Arctic.Ref
