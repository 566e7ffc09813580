import Verif.Model.Clock
import Verif.Spec.Profile
import Mathlib.Algebra.BigOperators.Group.Finset.Defs

/-!
# Vocabulary for properties of the readout
-/

set_option linter.unusedVariables false

namespace Arctic
open Finset

variable {K : Type} [Field K] [LinearOrder K]

/-- Electrons in a column of the image. -/
def colSum (img : Image K) (c : ℕ) : K := ∑ r ∈ range img.nr, img.px r c

/-- A trap species group with instant capture whose parameters make physical sense: densities are not negative, the
probabilities to stay filled are probabilities (for the dwell times `T`); for elapsed times the fill fraction is 1 at
time 0, stays between 0 and 1 and does not increase. -/
def Kind.Ok {s : ℕ} (T : K → Prop) : Kind K s → Prop
  | .instant p => ∀ t, T t → ∀ j, 0 ≤ p t j ∧ p t j ≤ 1
  | .trackTime conv => (∀ j, conv j 0 = 1) ∧ (∀ j x, 0 ≤ x → 0 ≤ conv j x ∧ conv j x ≤ 1) ∧
      ∀ j x y, 0 ≤ x → x ≤ y → conv j y ≤ conv j x
  | .slow _ => False

/-- Elapsed times are tracked instead of fill fractions. -/
def Kind.isTrack {s : ℕ} : Kind K s → Prop
  | .trackTime _ => True
  | _ => False

/-- Conditions on a CCD: for every phase, a cloud of electrons fills a positive fraction of the pixel. -/
def GoodFill (ccd : CcdView K) : Prop :=
  (∀ x ∈ ccd.fractions, 0 ≤ x) ∧
    ∀ ph < ccd.fractions.length, FillModel (ccd.fill ph) ∧ ∀ n, 0 < n → 0 < ccd.fill ph n

/-- The time window covers the whole readout. -/
def Covering (o : ℕ) (rows : List ℕ) (tw : Option (List ℕ)) : Prop :=
  tw = none ∨ ∃ N, tw = some (List.range (N + o)) ∧ ∀ x ∈ rows, x < N

/-- Readouts that, with `express = 0`, follow every transfer of every pixel with traps in the state they are in: the
standard readout if traps are emptied for first transfers or if there is nothing between the first processed row and
the readout register; charge injection; trap pumping. -/
def FullReadout (o : ℕ) (rows : List ℕ) (tw : Option (List ℕ)) : Roe K → Prop
  | .standard _ ef _ _ _ => Covering o rows tw ∧ (ef = true ∨ o = 0 ∧ rows.head? = some 0)
  | .injection .. => tw = none
  | .pumping .. => True

/-- No trap states are carried over from one pass to the next. -/
def NoSaves : Roe K → Prop
  | .standard _ ef _ _ _ => ef = true
  | .injection .. => True
  | .pumping .. => False

end Arctic
