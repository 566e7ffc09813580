import Verif.Spec.Profile
import Verif.Model.TrapManager

/-!
# What one transfer should do

Specifications of one transfer in terms of the occupancy as a function of depth (`occ`) and electron
counts, independent of how the code finds, splits and merges rows.
-/

namespace Arctic

variable {K : Type} [Field K] [LinearOrder K] {s : ℕ}

/-- The traps after a release everywhere: species `j` keeps the fraction `p j` of its electrons. -/
def released (p : Fin s → K) (wm : WM K s) : WM K s := wm.map fun r => ⟨r.vol, fun j => r.fill j * p j⟩

/-- Electrons available for capture: those in the cloud and those just released. -/
def available (dens p : Fin s → K) (n : K) (wm : WM K s) : K :=
  n + (electrons dens wm - electrons dens (released p wm))

/-- The occupancy after one transfer with instant capture, when there are enough electrons: release
everywhere, then completely full up to the height of the cloud. -/
def ProfileSpec (dens p : Fin s → K) (f : K → K) (n : K) (wm wm' : WM K s) : Prop :=
  let a := available dens p n wm
  vacant dens (f a) (released p wm) ≤ max 0 a → ∀ d, 0 < d → ∀ j,
    occ wm' d j = if d ≤ f a then 1 else occ wm d j * p j

/-- The electrons captured (released minus net) are the smaller of those available and the vacant
traps in the cloud. -/
def CaptureSpec (dens p : Fin s → K) (f : K → K) (n : K) (wm : WM K s) (net : K) : Prop :=
  let a := available dens p n wm
  (electrons dens wm - electrons dens (released p wm)) - net =
    min (max 0 a) (vacant dens (f a) (released p wm))

/-- Elapsed times read as fill fractions. -/
def asFractions (conv : Fin s → K → K) (wm : WM K s) : WM K s :=
  wm.map fun r => ⟨r.vol, fun j => conv j (r.fill j)⟩

/-- The same, a time `dwell` later. -/
def asFractionsAfter (conv : Fin s → K → K) (dwell : K) (wm : WM K s) : WM K s :=
  wm.map fun r => ⟨r.vol, fun j => conv j (r.fill j + dwell)⟩

/-- Fewer electrons available than traps to fill. -/
def Shortage (dens : Fin s → K) (conv : Fin s → K → K) (dwell : K) (f : K → K) (n : K) (wm : WM K s) : Prop :=
  let F1 := asFractionsAfter conv dwell wm
  let a := n + (electrons dens (asFractions conv wm) - electrons dens F1)
  max 0 a < vacant dens (f a) F1

/-- Specification of one slow-capture transfer: `w1` is the state after the release above the first
cloud, `a` the electrons then available, `T` the state with the Lindegren update applied below the
new cloud. -/
def SlowSpec (dens : Fin s → K) (p : Probs K s) (f : K → K) (n : K) (wm : WM K s) (net : K)
    (wm' : WM K s) : Prop :=
  let w1 := releaseAbove p.fromRelease (f n) wm
  let a := n + (electrons dens wm - electrons dens w1)
  ∃ T : WM K s, (∀ r ∈ T, 0 < r.vol) ∧ volSum T ≤ 1 ∧ (∀ r ∈ T, ∀ j, 0 ≤ r.fill j ∧ r.fill j ≤ 1) ∧
    (∀ d, 0 < d → ∀ j, occ T d j =
      if d ≤ f a then occ w1 d j * p.fromFull j + (1 - occ w1 d j) * p.fromEmpty j else occ w1 d j) ∧
    net = electrons dens wm - electrons dens wm' ∧
    electrons dens wm' - electrons dens wm = min a (electrons dens T - electrons dens wm) ∧
    (electrons dens T - electrons dens wm ≤ a → ∀ d, 0 < d → ∀ j, occ wm' d j = occ T d j)

/-- Capture probabilities are probabilities. -/
structure ProbsOk (p : Probs K s) : Prop where
  empty : ∀ j, 0 ≤ p.fromEmpty j ∧ p.fromEmpty j ≤ 1
  full : ∀ j, 0 ≤ p.fromFull j ∧ p.fromFull j ≤ 1
  release : ∀ j, 0 ≤ p.fromRelease j ∧ p.fromRelease j ≤ 1

end Arctic
