import Verif.Spec.RefClocks

/-!
# Reference simulation of traps that need time to capture

Inside a cloud vacant traps are filled and filled ones emptied at finite rates; outside they only release. The fractions
after a dwell time are parameters (for trap objects they are the solutions of the rate equations, see C25).
-/

namespace Arctic.Ref

/-- The traps of one group of species in a pixel. -/
structure Slow where
  s : ℕ
  /-- traps per pixel -/
  dens : Fin s → ℝ
  /-- fraction of the vacant traps inside a cloud that is filled after a dwell time -/
  take : ℝ → Fin s → ℝ
  /-- fraction of the filled traps inside a cloud that is filled after a dwell time -/
  hold : ℝ → Fin s → ℝ
  /-- fraction of the filled traps outside a cloud that is filled after a dwell time -/
  keep : ℝ → Fin s → ℝ
  /-- fraction of the traps at a depth that is filled -/
  occ : ℝ → Fin s → ℝ

noncomputable section

/-- Number of electrons in the traps. -/
def Slow.filled (t : Slow) : ℝ := ∑ j, t.dens j * ∫ d in (0 : ℝ)..1, t.occ d j

/-- Number of traps. -/
def Slow.total (t : Slow) : ℝ := ∑ j, t.dens j

/-- No trap is filled. -/
def Slow.empty (t : Slow) : Slow := { t with occ := fun _ _ => 0 }

/-- Release during a dwell time from the traps beyond depth `h`. -/
def Slow.release (t : Slow) (dwell h : ℝ) : Slow :=
  { t with occ := fun d j => if d ≤ h then t.occ d j else t.occ d j * t.keep dwell j }

/-- Release and capture during a dwell time by the traps up to depth `h`. -/
def Slow.exchange (t : Slow) (dwell h : ℝ) : Slow :=
  { t with occ := fun d j =>
      if d ≤ h then t.occ d j * t.hold dwell j + (1 - t.occ d j) * t.take dwell j else t.occ d j }

/-- A cloud of `n` electrons stays in the pixel for a dwell time: the traps outside it release, and those inside the cloud
that includes the released electrons exchange electrons with it. Returns the electrons gained by the cloud. -/
def Slow.transfer (t : Slow) (n dwell : ℝ) (fill : ℝ → ℝ) : ℝ × Slow :=
  let r := t.release dwell (fill n)
  let u := r.exchange dwell (fill (n + (t.filled - r.filled)))
  (t.filled - u.filled, u)

/-- The traps of a group that are in a phase with this fraction of the traps, empty. -/
def Slow.inPhase (t : Slow) (frac : ℝ) : Slow :=
  { t with dens := fun j => t.dens j * frac, occ := fun _ _ => 0 }

/-- The group of trap species given to the code. -/
def Slow.group (t : Slow) : Group ℝ := ⟨t.s, t.dens, .slow fun x => ⟨t.take x, t.hold x, t.keep x⟩⟩

/-- Densities are not negative, fractions are fractions. -/
structure Slow.Ok (t : Slow) : Prop where
  dens : ∀ j, 0 ≤ t.dens j
  fractions : ∀ x, 0 < x → ∀ j, (0 ≤ t.take x j ∧ t.take x j ≤ 1) ∧ (0 ≤ t.hold x j ∧ t.hold x j ≤ 1) ∧
    (0 ≤ t.keep x j ∧ t.keep x j ≤ 1)

/-- Groups of all sorts: instant capture, lifetime distributions, slow capture. -/
abbrev EveryTraps := AnyTraps ⊕ Slow

/-- All sorts of traps. -/
def everySpec : TrapSpec ℝ EveryTraps where
  step t n dwell fill :=
    match t with
    | .inl t => (anySpec.step t n dwell fill).map fun o => (o.1, .inl o.2)
    | .inr t => .ok ((t.transfer n dwell fill).1, .inr (t.transfer n dwell fill).2)
  empty t :=
    match t with
    | .inl t => .inl (anySpec.empty t)
    | .inr t => .inr t.empty

/-- The group of trap species given to the code. -/
def EveryTraps.group : EveryTraps → Group ℝ
  | .inl t => AnyTraps.group t
  | .inr t => t.group

/-- The traps of a phase, empty. -/
def EveryTraps.inPhase (t : EveryTraps) (frac : ℝ) : EveryTraps :=
  match t with
  | .inl t => .inl (AnyTraps.inPhase t frac)
  | .inr t => .inr (t.inPhase frac)

end

end Arctic.Ref
