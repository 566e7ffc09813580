import Verif.Model.Objects

/-!
# Arguments of `add_cti` in other units

Numbers of electrons are multiplied by `lam`, times by `mu`. Fractions, powers and numbers of pixels stay.
-/

namespace Arctic

section
variable {K : Type} [Field K] [LinearOrder K]

/-- The image with every value multiplied by `lam`. -/
def Image.scale (lam : K) (img : Image K) : Image K := { img with px := fun r c => lam * img.px r c }

/-- A readout object with dwell times in another unit. -/
def Roe.scaleTime (mu : K) : Roe K → Roe K
  | .standard dw a b c d => .standard (dw.map fun t => mu * t) a b c d
  | .injection dw n b c d => .injection (dw.map fun t => mu * t) n b c d
  | .pumping dw n b c => .pumping (dw.map fun t => mu * t) n b c

/-- A group with its densities in another unit of charge. -/
def Group.scaleCharge (lam : K) (g : Group K) : Group K := { g with dens := fun j => lam * g.dens j }

/-- A CCD with its filling functions in another unit of charge. -/
def CcdView.scaleCharge (lam : K) (c : CcdView K) : CcdView K := { c with fill := fun ph n => c.fill ph (n / lam) }

/-- One direction with everything in another unit of charge. -/
def Direction.scaleCharge (lam : K) (d : Direction K) : Direction K :=
  { d with ccd := d.ccd.scaleCharge lam, groups := d.groups.map (Group.scaleCharge lam) }

end

noncomputable section

/-- A bloom level in another unit. -/
def Bloom.scale (lam : ℝ) : Bloom → Bloom
  | .num x => .num (lam * x)
  | .list l => .list (l.map fun x => lam * x)

/-- A CCD with full well depths, notches and bloom levels in another unit of charge. -/
def CCD.scaleCharge (lam : ℝ) (c : CCD) : CCD :=
  { c with
    fullWellDepth := c.fullWellDepth.map fun x => lam * x
    notchDepth := c.notchDepth.map fun x => lam * x
    bloomLevel := c.bloomLevel.map (Bloom.scale lam) }

/-- A trap species with its density and its timescales in other units. A distribution of lifetimes is a density per unit
of time. -/
def Trap.rescale (lam mu : ℝ) : Trap → Trap
  | .trap d τ c b => .trap (lam * d) (mu * τ) (mu * c) b
  | .instant d τ b => .instant (lam * d) (mu * τ) b
  | .continuum d dist m σ => .continuum (lam * d) (fun τ m σ => dist (τ / mu) (m / mu) σ / mu) (mu * m) σ

def PyItem.map (g : Trap → Trap) : PyItem → PyItem
  | .trap t => .trap (g t)
  | .group l => .group (l.map g)

/-- Every trap object of a `traps` argument replaced. -/
def PyTraps.map (g : Trap → Trap) : PyTraps → PyTraps
  | .one t => .one (g t)
  | .list l => .list (l.map (PyItem.map g))

/-- The arguments of one direction in other units. -/
def PyDirection.rescale (lam mu : ℝ) (d : PyDirection) : PyDirection :=
  { d with
    ccd := d.ccd.map (CCD.scaleCharge lam)
    roe := d.roe.map (Roe.scaleTime mu)
    traps := d.traps.map (PyTraps.map (Trap.rescale lam mu)) }

end
end Arctic
