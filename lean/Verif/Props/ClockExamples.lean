import Verif.Model.Main
import Verif.Props.Managers

/-!
# Concrete images, CCDs and readouts used in examples and counterexamples
-/

namespace Arctic

/-- One group of one species: 10 traps per pixel, half of the filled traps release in one time unit. -/
def exGroup : Group ℚ := ⟨1, fun _ => 10, .instant fun _ _ => 1 / 2⟩

/-- One phase, full well 100 electrons. -/
def exCcd : CcdView ℚ := ⟨[1], fun _ => fill100⟩

/-- Three phases with a third of the traps each. -/
def exCcd3 : CcdView ℚ := ⟨[1 / 3, 1 / 3, 1 / 3], fun _ => fill100⟩

/-- Standard readout in one step. -/
def exRoe : Roe ℚ := .standard [1] false true true false

/-- Standard readout in three steps. -/
def exRoe3 : Roe ℚ := .standard [1, 1, 1] true true true false

/-- An image given by its rows. -/
def exImg (nr nc : ℕ) (rows : List (List ℚ)) : Image ℚ := ⟨nr, nc, fun r c => (rows.getD r []).getD c 0⟩

/-- The rows of an image. -/
def Image.rows {K : Type} (i : Image K) : List (List K) :=
  (List.range i.nr).map fun r => (List.range i.nc).map fun c => i.px r c

end Arctic
