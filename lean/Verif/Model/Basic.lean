import Mathlib.Algebra.Order.Field.Basic
import Mathlib.Algebra.BigOperators.Fin
import Mathlib.Data.Rat.Init
import Mathlib.Algebra.Order.Field.Rat

/-!
# Shared vocabulary of the model

`Err` — the Python exceptions (and undefined behaviour) the modelled code can end in.
`Row`, `WM` — the watermark array of `arcticpy/trap_managers.py`.
Small numpy helpers.
-/

namespace Arctic

/-- Ways in which the modelled Python/Cython code can fail.
`outOfBounds` stands for an unchecked (`boundscheck(False)`, main_utils.pyx:11-13,
trap_managers_utils.pyx:11-13) memory access outside a buffer, i.e. undefined behaviour. -/
inductive Err where
  | indexError | valueError | typeError | nameError | unboundLocalError
  | zeroDivisionError | attributeError | assertionError | exception | outOfBounds
  deriving DecidableEq, Repr

/-- One row `[volume, fill, fill, ...]` of a watermark array with `s` trap species
(trap_managers.py:183-191). -/
structure Row (K : Type) (s : ℕ) where
  vol : K
  fill : Fin s → K
  deriving DecidableEq

/-- A watermark array (trap_managers.py:206-216): the list of its rows. -/
abbrev WM (K : Type) (s : ℕ) := List (Row K s)

/-- `np.argmax` of a boolean array: index of the first `True`, or 0 if there is none
(used e.g. at trap_managers.py:495, 735, 906, 1052). -/
def argmaxTrue (l : List Bool) : ℕ :=
  if l.findIdx id < l.length then l.findIdx id else 0

/-- `util.set_min_max` (util.py:4-11). -/
def setMinMax {K : Type} [LT K] [DecidableLT K] (value min max : K) : K :=
  if value < min then min else if max < value then max else value

section
variable {K : Type} [Field K] [LinearOrder K]

/-- An all-zero (inactive) row. -/
def zeroRow (K : Type) [Zero K] (s : ℕ) : Row K s := ⟨0, fun _ => 0⟩

instance {s : ℕ} : Inhabited (Row K s) := ⟨zeroRow K s⟩

end
end Arctic
