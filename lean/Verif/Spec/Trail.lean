import Verif.Model.AllTrapManager
import Mathlib.Algebra.BigOperators.Group.Finset.Basic

/-!
# The trail of a bright pixel

What is expected of a bright pixel followed by pixels whose electrons do not meet traps: in every transfer it loses the
electrons captured by empty traps, and these are released into the pixels behind it by the release law of the traps.
-/

namespace Arctic

variable {K : Type} [Field K] [LinearOrder K]

/-- Electrons per unit volume of the cloud that traps captured when it passed and still hold `a` transfers later. -/
def Group.held (g : Group K) (dwell : K) (a : ℕ) : K :=
  match g.kind with
  | .instant p => ∑ j, g.dens j * p dwell j ^ a
  | .trackTime conv => ∑ j, g.dens j * conv j (a * dwell)
  | .slow p => ∑ j, g.dens j * ((p dwell).fromEmpty j * (p dwell).fromRelease j ^ a)

/-- The same for several groups. -/
def heldBy (gs : List (Group K)) (dwell : K) (a : ℕ) : K := (gs.map fun g => g.held dwell a).sum

/-- Electrons left in a bright pixel of `n` electrons after some transfers, each through empty traps. -/
def brightAfter (fill : K → K) (cap n : K) : ℕ → K
  | 0 => n
  | k + 1 => brightAfter fill cap n k - fill (brightAfter fill cap n k) * cap

/-- Electrons found in the `j`-th pixel behind the bright one (`j = 0, 1, …`) after the bright pixel made `t` transfers. -/
def trailAfter (fill : K → K) (held : ℕ → K) (n : K) (t j : ℕ) : K :=
  ∑ k ∈ Finset.range t, fill (brightAfter fill (held 0) n k) * (held j - held (j + 1))

end Arctic
