import Verif.Model.Traps
import Verif.Model.CCD

/-!
# `model_for_HST_ACS` (arcticpy/main.py:316-396)
-/

namespace Arctic
noncomputable section

/-- `total_trap_density` (main.py:349-356). -/
def hstTotalDensity (date : ℝ) : ℝ :=
  open Classical in
  if date < 2454968 then 0.017845 + 3.5488e-4 * (date - 2452334.5)
  else -0.246591 * 1.011 + 0.000558980 * 1.011 * (date - 2452334.5)

/-- `trap_densities` (main.py:357-359); `w` is the species' weight. -/
def hstDensity (date w : ℝ) : ℝ := w / (1.27 + 3.38 + 2.85) * hstTotalDensity date

/-- `operating_temperature` (main.py:362-365). -/
def hstTemperature (date : ℝ) : ℝ :=
  open Classical in if date < 2453920 then 273.15 - 77 else 273.15 - 81

/-- `trap_release_times` (main.py:366-377) for base time `τ` and energy `dE`. -/
def hstReleaseTime (date τ dE : ℝ) : ℝ :=
  τ * (hstTemperature date / (273.15 - 81)) *
    Real.exp (dE / (8.617343e-5 * (273.15 - 81) * hstTemperature date)
      * (hstTemperature date - (273.15 - 81)))

/-- `model_for_HST_ACS` (main.py:316-396). -/
def modelForHstAcs (date : ℝ) : Except Err (List Trap × CCD × Roe ℝ) :=
  open Classical in
  if ¬ (date ≥ 2452334.5) then .error .assertionError
  else do
    let traps :=
      [ .instant (hstDensity date 1.27) (hstReleaseTime date 0.74 0.31) false,
        .instant (hstDensity date 3.38) (hstReleaseTime date 7.7 0.34) false,
        .instant (hstDensity date 2.85) (hstReleaseTime date 37 0.44) false ]
    let ccd ← CCD.new (.list [1]) (.scalar 84700) (.scalar 0) (.scalar 0.478) none
    .ok (traps, ccd, .standard [1] true true true false)

end
end Arctic
