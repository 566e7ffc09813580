import Verif.Spec.Profile
import Mathlib.MeasureTheory.Integral.IntervalIntegral.Basic

/-!
# Reference simulation of charge transfer with instant capture

What the readout computes, written without watermarks: the traps of a pixel are described by the fraction of them that
is filled as a function of depth, numbers of electrons are integrals over the depth, and a readout is a sequence of
passes over the rows of a column. Nothing here refers to the model of the code.
-/

namespace Arctic.Ref

/-- The traps of one group of species in a pixel. -/
structure Traps where
  s : ℕ
  /-- traps per pixel -/
  dens : Fin s → ℝ
  /-- fraction of the filled traps that are still filled after a dwell time -/
  keep : ℝ → Fin s → ℝ
  /-- fraction of the traps at a depth that is filled -/
  occ : ℝ → Fin s → ℝ

noncomputable section

/-- Number of electrons in the traps. -/
def Traps.filled (t : Traps) : ℝ := ∑ j, t.dens j * ∫ d in (0 : ℝ)..1, t.occ d j

/-- Number of vacant traps up to depth `h`. -/
def Traps.vacant (t : Traps) (h : ℝ) : ℝ := ∑ j, t.dens j * ∫ d in (0 : ℝ)..h, (1 - t.occ d j)

/-- No trap is filled. -/
def Traps.empty (t : Traps) : Traps := { t with occ := fun _ _ => 0 }

/-- Release during a dwell time. -/
def Traps.release (t : Traps) (dwell : ℝ) : Traps := { t with occ := fun d j => t.occ d j * t.keep dwell j }

/-- Capture of up to `a` electrons by the traps up to depth `h`: all of them are filled if there are enough electrons;
otherwise all electrons are captured and the traps of a species end up equally filled at all these depths, their mean
occupancy raised by the same fraction of what is missing. -/
def Traps.capture (t : Traps) (h a : ℝ) : ℝ × Traps :=
  let w := t.vacant h
  if w ≤ a then (w, { t with occ := fun d j => if d ≤ h then 1 else t.occ d j })
  else
    (a, { t with occ := fun d j =>
      if d ≤ h then a / w + (1 - a / w) * ((∫ x in (0 : ℝ)..h, t.occ x j) / h) else t.occ d j })

/-- A cloud of `n` electrons stays in the pixel for a dwell time: release, then capture by the traps inside the cloud
(of depth `fill` of the number of electrons). Returns the electrons gained by the cloud. -/
def Traps.transfer (t : Traps) (fill : ℝ → ℝ) (dwell n : ℝ) : ℝ × Traps :=
  let r := t.release dwell
  let out := t.filled - r.filled
  let c := r.capture (fill (n + out)) (max 0 (n + out))
  (out - c.1, c.2)

/-- The charge in row `r` passes the traps; `mult` such transfers are represented by this one. Pixels are not left
negative. -/
def row (fill : ℝ → ℝ) (dwell : ℝ) (st : (ℕ → ℝ) × List Traps) (x : ℕ × ℝ) : (ℕ → ℝ) × List Traps :=
  let outs := st.2.map fun t => t.transfer fill dwell (st.1 x.1)
  (if x.2 = 0 then st.1 else Function.update st.1 x.1 (max 0 (st.1 x.1 + (outs.map Prod.fst).sum * x.2)),
    outs.map Prod.snd)

/-- One pass: the charge of the given rows, one after the other, passes traps that were empty before. -/
def pass (fill : ℝ → ℝ) (dwell : ℝ) (traps : List Traps) (col : ℕ → ℝ) (todo : List (ℕ × ℝ)) : ℕ → ℝ :=
  (todo.foldl (row fill dwell) (col, traps)).1

/-- A readout of one column: passes one after the other. -/
def readout (fill : ℝ → ℝ) (dwell : ℝ) (traps : List Traps) (passes : List (List (ℕ × ℝ))) (col : ℕ → ℝ) : ℕ → ℝ :=
  passes.foldl (pass fill dwell traps) col

/-- The passes of a readout of `n` rows at distance `offset` from the register that represents every transfer: row `r`
makes `r + offset + 1` transfers, pixel number `k` (from the far end) is passed by the charge of the rows beyond it. -/
def allPasses (n offset : ℕ) : List (List (ℕ × ℝ)) :=
  (List.range (n + offset)).map fun k => ((List.range n).filter fun r => k ≤ r + offset).map fun r => (r, 1)

end

end Arctic.Ref
