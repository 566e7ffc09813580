import Verif.Spec.TrapSpec
import Verif.Spec.RefSystem

/-!
# Reference simulation of traps whose release depends on the time since they were filled

Traps with a distribution of lifetimes do not release at a rate that depends on the number of filled traps only, so the
reference keeps the time since the traps at each depth were filled.
-/

namespace Arctic.Ref

/-- The traps of one group of species in a pixel. -/
structure Clocks where
  s : ℕ
  /-- traps per pixel -/
  dens : Fin s → ℝ
  /-- fraction of the traps still filled some time after all of them were filled -/
  law : Fin s → ℝ → ℝ
  /-- time since the traps at a depth were filled, if ever -/
  age : ℝ → Fin s → Option ℝ

noncomputable section

/-- Fraction of the traps at a depth that is filled. -/
def Clocks.occ (t : Clocks) (d : ℝ) (j : Fin t.s) : ℝ := (t.age d j).elim 0 (t.law j)

/-- Number of electrons in the traps. -/
def Clocks.filled (t : Clocks) : ℝ := ∑ j, t.dens j * ∫ d in (0 : ℝ)..1, t.occ d j

/-- Number of vacant traps up to depth `h`. -/
def Clocks.vacant (t : Clocks) (h : ℝ) : ℝ := ∑ j, t.dens j * ∫ d in (0 : ℝ)..h, (1 - t.occ d j)

/-- No trap was ever filled. -/
def Clocks.empty (t : Clocks) : Clocks := { t with age := fun _ _ => none }

/-- Time passes. -/
def Clocks.wait (t : Clocks) (dwell : ℝ) : Clocks := { t with age := fun d j => (t.age d j).map (· + dwell) }

/-- All traps up to depth `h` are filled now. -/
def Clocks.fill (t : Clocks) (h : ℝ) : Clocks := { t with age := fun d j => if d ≤ h then some 0 else t.age d j }

/-- A cloud of `n` electrons stays in the pixel for a dwell time: release, then capture by all traps inside the cloud.
If there are too few electrons for that, no time describes the traps and the transfer fails. -/
def Clocks.transfer (t : Clocks) (n dwell : ℝ) (fill : ℝ → ℝ) : Except Err (ℝ × Clocks) :=
  let w := t.wait dwell
  let out := t.filled - w.filled
  let h := fill (n + out)
  if w.vacant h ≤ max 0 (n + out) then .ok (out - w.vacant h, w.fill h) else .error .typeError

/-- The traps of a group that are in a phase with this fraction of the traps, never filled. -/
def Clocks.inPhase (t : Clocks) (frac : ℝ) : Clocks :=
  { t with dens := fun j => t.dens j * frac, age := fun _ _ => none }

/-- The group of trap species given to the code. -/
def Clocks.group (t : Clocks) : Group ℝ := ⟨t.s, t.dens, .trackTime t.law⟩

/-- Sensible traps: densities are not negative, and the law starts at one and stays between zero and one. -/
structure Clocks.Ok (t : Clocks) : Prop where
  dens : ∀ j, 0 ≤ t.dens j
  start : ∀ j, t.law j 0 = 1
  law : ∀ j x, 0 ≤ x → 0 ≤ t.law j x ∧ t.law j x ≤ 1

/-- A group of either sort. -/
abbrev AnyTraps := Traps ⊕ Clocks

/-- Both sorts of traps. -/
def anySpec : TrapSpec ℝ AnyTraps where
  step t n dwell fill :=
    match t with
    | .inl t => .ok ((t.transfer fill dwell n).1, .inl (t.transfer fill dwell n).2)
    | .inr t => (t.transfer n dwell fill).map fun o => (o.1, .inr o.2)
  empty t :=
    match t with
    | .inl t => .inl t.empty
    | .inr t => .inr t.empty

/-- The group of trap species given to the code. -/
def AnyTraps.group : AnyTraps → Group ℝ
  | .inl t => t.group
  | .inr t => t.group

/-- The traps of a phase, empty. -/
def AnyTraps.inPhase (t : AnyTraps) (frac : ℝ) : AnyTraps :=
  match t with
  | .inl t => .inl (t.inPhase frac)
  | .inr t => .inr (t.inPhase frac)

end

end Arctic.Ref
