import Verif.Model.FloatMain
import Lean.Data.Json

/-!
Runs the model in the machine's own double precision on the inputs of the project's test-suite and compares with what
the tests expect (`test_arcticpy/*.py`). This is a test of the model, not a proof, and no theorem depends on it.
Started by `tools/conformance.py`, which passes the expected images of `test_main.py` as JSON.

The definitions run are the ones of `Verif.Model.FloatMain` (`C70_exact` proves that in exact arithmetic they are the
ones of `Verif.Model.Main`). Only the following is written here for machine numbers: the arithmetic itself, the well
filling function (`CCD.wellFilling`), the fill probabilities (`fillProbs`) and the quadrature of a lifetime continuum,
which the library has over ℝ.
-/

open Arctic

namespace Conformance

def A : Arith Float where
  zero := 0
  one := 1
  add := (· + ·)
  sub := (· - ·)
  mul := (· * ·)
  div := (· / ·)
  neg := fun x => -x
  sum l := l.foldl (· + ·) 0
  lt a b := a < b
  le a b := a ≤ b
  eq a b := a == b

def conv : Fp.Conv Float where
  int z := Float.ofInt z
  ceilDiv a b := Int.ofNat (Float.ofNat a / Float.ofNat b).ceil.toUInt64.toNat
  roundDiv a b := ((roundHalfEven a b : ℕ) : ℤ)

/-! ### CCDs and traps (ccd.py:192-265, trap_managers.py:302-345) -/

structure Ccd where
  power : Float
  full : Float
  notch : Float := 1e-9
  fractions : List Float := [1]

def Ccd.fill (c : Ccd) (n : Float) : Float :=
  if n == 0 then 0
  else
    let x := (n - c.notch) / (c.full - c.notch)
    let x := if x < 0 then 0 else if 1 < x then 1 else x
    x.pow c.power

def Ccd.view (c : Ccd) : CcdView Float := ⟨c.fractions, fun _ n => c.fill n⟩

inductive FTrap where
  | trap (density release : Float) (capture : Float := 0)
  | instant (density release : Float)
  /-- log-normal distribution of lifetimes -/
  | continuum (density mu sigma : Float)

def FTrap.density : FTrap → Float
  | .trap d .. => d
  | .instant d _ => d
  | .continuum d .. => d

def FTrap.release : FTrap → Float
  | .trap _ r _ => r
  | .instant _ r => r
  | .continuum _ m _ => m

def FTrap.capture : FTrap → Float
  | .trap _ _ c => c
  | _ => 0

/-- The integral over log-normal lifetimes, by the trapezoidal rule in `log τ`. -/
def logNormalAverage (mu sigma : Float) (f : Float → Float) : Float := Id.run do
  let n := 2000
  let mut num : Float := 0
  let mut den : Float := 0
  for i in [0:n + 1] do
    let z := -10 + 20 * Float.ofNat i / Float.ofNat n
    let w := (-(z * z) / 2).exp
    num := num + w * f (mu * (sigma * z).exp)
    den := den + w
  return num / den

def FTrap.fillFraction : FTrap → Float → Float
  | .trap _ r _, t => (-t / r).exp
  | .instant _ r, t => (-t / r).exp
  | .continuum _ mu s, t => logNormalAverage mu s fun r => (-t / r).exp

def FTrap.probs (t : FTrap) (dwell : Float) : Float × Float × Float :=
  let c := if t.capture == 0 then (1 : Float) / 0 else 1 / t.capture
  let e := 1 / t.release
  let total := c + e
  let factor := (1 - (-total * dwell).exp) / total
  let empty := c * factor
  let empty := if empty.isNaN then 1 else empty
  (empty, 1 - e * factor, (-e * dwell).exp)

def group (traps : List FTrap) : Arctic.Group Float :=
  let f : Fin traps.length → FTrap := fun j => traps[j]
  { s := traps.length
    dens := fun j => (f j).density
    kind := match traps.head? with
      | some (.continuum ..) => .trackTime fun j => (f j).fillFraction
      | some (.instant ..) => .instant fun dwell j => ((f j).probs dwell).2.2
      | _ => .slow fun dwell => ⟨fun j => ((f j).probs dwell).1, fun j => ((f j).probs dwell).2.1,
          fun j => ((f j).probs dwell).2.2⟩ }

/-! ### arrays instead of functions, so that nothing is computed twice -/

@[noinline] def rowOf {s : ℕ} (v : Float) (a : Array Float) : Row Float s := ⟨v, fun j => a.getD j 0⟩

def forceWM {s : ℕ} (wm : WM Float s) : WM Float s := wm.map fun r => rowOf r.vol (Array.ofFn r.fill)

def forceMgr (m : Mgr Float) : Mgr Float := { m with wm := forceWM m.wm }

def forceATM (a : ATM Float) : ATM Float := { a with data := a.data.map fun l => l.map forceMgr }

@[noinline] def matOf {α : Type} (nr nc : ℕ) (d : α) (a : Array α) : Mat α := ⟨nr, nc, fun i j => if j < nc then a.getD (i * nc + j) d else d⟩

def forceMat {α : Type} (d : α) (m : Mat α) : Mat α :=
  matOf m.nr m.nc d (((List.range m.nr).flatMap fun i => (List.range m.nc).map fun j => m.e i j).toArray)

@[noinline] def imgOf (nr nc : ℕ) (a : Array Float) : Image Float := ⟨nr, nc, fun i j => if j < nc then a.getD (i * nc + j) 0 else 0⟩

def forceImg (m : Image Float) : Image Float :=
  imgOf m.nr m.nc (((List.range m.nr).flatMap fun i => (List.range m.nc).map fun j => m.px i j).toArray)

def forceCfg (c : ClockCfg Float) : ClockCfg Float :=
  { c with expr := forceMat 0 c.expr, monitor := forceMat false c.monitor, saveMat := forceMat false c.saveMat }

def sys (fill : ℕ → Float → Float) : TrapSys Float (ATM Float) :=
  let s := Fp.atmSys A fill
  { s with react := fun a p n d => do
      let (x, a) ← s.react a p n d
      .ok (x, forceATM a) }

/-- `Fp.clockDirection` on forced data -/
def clockDirection (img : Image Float) (ccd : CcdView Float) (roe : Roe Float) (groups : List (Arctic.Group Float))
    (express offset : ℕ) (rows columns : List ℕ) (tw : Option (List ℕ)) : Except Err (Image Float) := do
  let (cfg, _) ← Fp.clockCfg A conv roe ccd express offset rows tw
  let cfg := forceCfg cfg
  let padding := nPadding (Fp.shape roe).accessed
  let (out, _) ← columns.foldlM (fun st c => do
      let st ← Fp.columnBody A (sys ccd.fill) cfg st c
      .ok (forceImg st.1, st.2))
    (forceImg (Fp.pad A img padding), Fp.newATM A groups ccd.fractions (Fp.maxNTransfers roe cfg))
  .ok (forceImg { out with nr := out.nr - padding })

structure Dir where
  traps : List (List FTrap)
  ccd : Ccd
  roe : Roe Float := .standard [1] true true true false
  express : ℕ := 0
  offset : ℕ := 0

def Dir.direction (d : Dir) : Direction Float :=
  { ccd := d.ccd.view, roe := d.roe, groups := d.traps.map group, express := d.express, offset := d.offset }

/-- `Fp.addCti` on forced data -/
def add (img : Image Float) (par : Option Dir) (ser : Option Dir := none) (window serWindow : Window := .all)
    (tw : Option (List ℕ) := none) : Except Err (Image Float) := do
  let rows := window.resolve img.nr
  let cols := serWindow.resolve img.nc
  let off := (par.map Dir.offset).getD 0
  let t := tw.getD (List.range (img.nr + off))
  let serCols ← match tw with
    | none => .ok rows
    | some tw => serialColumns rows tw off
  let img ← match par with
    | none => .ok img
    | some d => clockDirection img d.ccd.view d.roe (d.traps.map group) d.express off rows cols (some t)
  match ser with
  | none => .ok img
  | some d => do
    let out ← clockDirection (Fp.transpose img) d.ccd.view d.roe (d.traps.map group) d.express d.offset cols serCols none
    .ok (forceImg (Fp.transpose out))

/-- `Fp.addCti` itself -/
def addPlain (img : Image Float) (par : Option Dir) (ser : Option Dir := none) (window serWindow : Window := .all)
    (tw : Option (List ℕ) := none) : Except Err (Image Float) := do
  let (out, _) ← Fp.addCti A conv img (par.map Dir.direction) ((par.map Dir.offset).getD 0) window
    (ser.map Dir.direction) serWindow tw
  .ok (forceImg out)

def remove (img : Image Float) (iterations : ℕ) (par : Option Dir) (ser : Option Dir := none) :
    Except Err (Image Float) := do
  let (out, _) ← Fp.removeIter A (S := Unit) (fun cur _ => do .ok (← add (forceImg cur) par ser, ())) img iterations (img, ())
  .ok (forceImg out)

/-! ### comparisons -/

def image (nr nc : ℕ) (f : ℕ → ℕ → Float) : Image Float := forceImg ⟨nr, nc, f⟩

def vals (img : Image Float) : List Float := (List.range img.nr).flatMap fun i => (List.range img.nc).map fun j => img.px i j

def region (r0 r1 c0 c1 : ℕ) : List (ℕ × ℕ) :=
  (List.range (r1 - r0)).flatMap fun i => (List.range (c1 - c0)).map fun j => (r0 + i, c0 + j)

/-- `pytest.approx` -/
def near (x y : Float) (rel : Float := 1e-6) (abs : Float := 1e-12) : Bool :=
  x == y || (x - y).abs ≤ max (rel * y.abs) abs

def nears (l l' : List Float) (rel : Float := 1e-6) (abs : Float := 1e-12) : Bool :=
  l.length == l'.length && (l.zip l').all fun (x, y) => near x y rel abs

abbrev M := StateT (ℕ × ℕ) IO

def check (name : String) (b : Bool) : M Unit := do
  let (ok, bad) ← get
  if b then set (ok + 1, bad) else do
    set (ok, bad + 1)
    IO.println s!"FAILED {name}"

def run {α : Type} (name : String) (x : Except Err α) (f : α → M Unit) : M Unit := do
  match x with
  | .ok a => f a
  | .error _ => check (name ++ " (exception)") false

def half : Float := -1 / (0.5 : Float).log

/-! ### test_roe.py: the exact model over ℚ -/

def rowsOf {α : Type} (m : Mat α) : List (List α) := (List.range m.nr).map fun i => (List.range m.nc).map fun j => m.e i j

def colSums (m : Mat ℚ) : List ℚ := (List.range m.nc).map fun j => ((List.range m.nr).map fun i => m.e i j).sum

def upper (n : ℕ) : List (List ℚ) := (List.range n).map fun i => (List.range n).map fun j => if i ≤ j then 1 else 0

def expressCheck (name : String) (roe : Roe ℚ) (pixels : List ℕ) (express offset : ℕ) (tw : Option (List ℕ))
    (p : Mat ℚ → Mat Bool → Bool) : M Unit :=
  run name (roe.express pixels express offset tw) fun (m, mon, _) => check name (p m mon)

def roeTests : M Unit := do
  let std (emptyFirst int : Bool) : Roe ℚ := .standard [1] emptyFirst true true int
  let px := List.range 12
  let b (l : List (List ℕ)) : List (List Bool) := l.map fun r => r.map (· != 0)
  -- test__express_matrix_from_pixels
  expressCheck "express 1" (std false true) px 1 0 none fun m _ => rowsOf m = [(List.range 12).map fun i => ((i + 1 : ℕ) : ℚ)]
  expressCheck "express 4" (std false true) px 4 0 none fun m _ => rowsOf m =
    [[1, 2, 3, 3, 3, 3, 3, 3, 3, 3, 3, 3], [0, 0, 0, 1, 2, 3, 3, 3, 3, 3, 3, 3],
     [0, 0, 0, 0, 0, 0, 1, 2, 3, 3, 3, 3], [0, 0, 0, 0, 0, 0, 0, 0, 0, 1, 2, 3]]
  expressCheck "express 12" (std false true) px 12 0 none fun m _ => rowsOf m = upper 12
  -- test__express_matrix__offset
  for off in [1, 5, 11] do
    for e in [1, 3, 12, 0] do
      run "offset" ((std false true).express px e off none) fun (m, _, _) =>
        run "offset" ((std false true).express (List.range (12 + off)) e 0 none) fun (m', _, _) =>
          check s!"matrix offset {off} {e}" (rowsOf m = (rowsOf m').map fun r => r.drop off)
  -- test__express_matrix__dtype
  expressCheck "dtype 1" (std false false) px 1 0 none fun m _ => rowsOf m = [(List.range 12).map fun i => ((i + 1 : ℕ) : ℚ)]
  expressCheck "dtype 4" (std true false) px 4 0 none fun m _ => rowsOf m =
    [[0, 0, 0, 0, 0, 0, 0, 0, 0, 0, 0, 1], [0, 0, 0, 0, 0, 0, 0, 0, 0, 0, 1, 0], [0, 0, 0, 0, 0, 0, 0, 0, 0, 1, 0, 0],
     [0, 0, 0, 0, 0, 0, 0, 0, 1, 3/4, 7/4, 11/4], [0, 0, 0, 0, 0, 0, 0, 1, 0, 0, 0, 0], [0, 0, 0, 0, 0, 0, 1, 0, 0, 0, 0, 0],
     [0, 0, 0, 0, 0, 1, 1/2, 3/2, 5/2, 11/4, 11/4, 11/4], [0, 0, 0, 0, 1, 0, 0, 0, 0, 0, 0, 0],
     [0, 0, 0, 1, 0, 0, 0, 0, 0, 0, 0, 0], [0, 0, 1, 1/4, 5/4, 9/4, 11/4, 11/4, 11/4, 11/4, 11/4, 11/4],
     [0, 1, 0, 0, 0, 0, 0, 0, 0, 0, 0, 0], [1, 1, 2, 11/4, 11/4, 11/4, 11/4, 11/4, 11/4, 11/4, 11/4, 11/4]]
  expressCheck "dtype 12" (std true false) px 12 0 none fun m _ => rowsOf m = upper 12
  -- test__express_matrix__empty_traps_for_first_transfers
  expressCheck "first 1" (std true true) px 1 0 none fun m _ => rowsOf m = (List.range 12).map fun (i : ℕ) => (List.range 12).map fun (j : ℕ) =>
    (if i + j = 11 then (1 : ℚ) else 0) + (if i = 11 then (j : ℚ) else 0)
  expressCheck "first 4" (std true true) px 4 0 none fun m _ => rowsOf m =
    [[0, 0, 0, 0, 0, 0, 0, 0, 0, 0, 0, 1], [0, 0, 0, 0, 0, 0, 0, 0, 0, 0, 1, 0], [0, 0, 0, 0, 0, 0, 0, 0, 0, 1, 1, 2],
     [0, 0, 0, 0, 0, 0, 0, 0, 1, 0, 0, 0], [0, 0, 0, 0, 0, 0, 0, 1, 0, 0, 0, 0], [0, 0, 0, 0, 0, 0, 1, 1, 2, 3, 3, 3],
     [0, 0, 0, 0, 0, 1, 0, 0, 0, 0, 0, 0], [0, 0, 0, 0, 1, 0, 0, 0, 0, 0, 0, 0], [0, 0, 0, 1, 1, 2, 3, 3, 3, 3, 3, 3],
     [0, 0, 1, 0, 0, 0, 0, 0, 0, 0, 0, 0], [0, 1, 0, 0, 0, 0, 0, 0, 0, 0, 0, 0], [1, 1, 2, 3, 3, 3, 3, 3, 3, 3, 3, 3]]
  expressCheck "first 12" (std true true) px 12 0 none fun m _ => rowsOf m = upper 12
  -- test__express_matrix_always_sums_to_n_transfers
  for n in [5, 7, 17] do
    for e in [0, 1, 2, 7] do
      for off in [0, 1, 13] do
        for int in [true, false] do
          for first in [true, false] do
            expressCheck s!"sums {n} {e} {off} {int} {first}" (std first int) (List.range n) e off none fun m _ =>
              colSums m = (List.range n).map fun i => ((i + 1 + off : ℕ) : ℚ)
  -- test__monitor_traps_matrix
  expressCheck "monitor 1" (std false false) px 1 0 none fun _ mon => rowsOf mon = [List.replicate 12 true]
  expressCheck "monitor 4" (std false false) px 4 0 none fun _ mon => rowsOf mon = b
    [[1, 1, 1, 1, 1, 1, 1, 1, 1, 1, 1, 1], [0, 0, 0, 1, 1, 1, 1, 1, 1, 1, 1, 1],
     [0, 0, 0, 0, 0, 0, 1, 1, 1, 1, 1, 1], [0, 0, 0, 0, 0, 0, 0, 0, 0, 1, 1, 1]]
  expressCheck "monitor 12" (std false false) px 12 0 none fun _ mon => rowsOf mon = (upper 12).map fun r => r.map (· != 0)
  -- test__express_matrix_monitor_and_traps_matrix__time_window
  let w (lo hi : ℕ) : Option (List ℕ) := some ((List.range (hi - lo)).map (· + lo))
  let e (tw : Option (List ℕ)) := (std true true).express (List.range 8) 2 2 tw
  run "time" (e (w 0 6)) fun (ma, na, _) => run "time" (e (w 6 9)) fun (mb, nb, _) =>
    run "time" (e (w 9 10)) fun (mc, nc, _) => run "time" (e none) fun (md, nd, _) => do
      check "time window monitor" (rowsOf na = rowsOf nb ∧ rowsOf na = rowsOf nc ∧ rowsOf na = rowsOf nd)
      check "time window" (rowsOf ⟨ma.nr, ma.nc, fun i j => ma.e i j + mb.e i j + mc.e i j⟩ = rowsOf md ∧
        colSums md = (List.range 8).map fun i => ((i + 3 : ℕ) : ℚ))
  -- test__save_trap_states_matrix
  run "save" ((std true false).express px 1 0 none) fun (m, _, _) => run "save" ((std true false).save m) fun s =>
    check "save first" ((rowsOf s).all fun r => r.all (! ·))
  run "save" ((std false false).express px 4 0 none) fun (m, _, _) => run "save" ((std false false).save m) fun s =>
    check "save 4" (rowsOf s = b
      [[0, 0, 1, 0, 0, 0, 0, 0, 0, 0, 0, 0], [0, 0, 0, 0, 0, 1, 0, 0, 0, 0, 0, 0],
       [0, 0, 0, 0, 0, 0, 0, 0, 1, 0, 0, 0], [0, 0, 0, 0, 0, 0, 0, 0, 0, 0, 0, 0]])
  -- TestClockingSequences
  let seq (n : ℕ) (force : Bool) : Roe ℚ := .standard (List.replicate n 1) true true force false
  let pump (n : ℕ) : Roe ℚ := .pumping (List.replicate (2 * n) 1) 1 true false
  let ph (r : Roe ℚ) (s p : ℕ) : Phase ℚ := ((r.clockSequence.getD s []).getD p ⟨false, 99, []⟩)
  let rel (r : Roe ℚ) (s p : ℕ) : List ℤ := (ph r s p).release.map Prod.fst
  for n in [1, 2, 3, 5, 8] do
    check s!"fractions {n}" ((seq n true).clockSequence.all fun l => l.all fun p => (p.release.map Prod.snd).sum = 1)
  for (n, force, acc) in [(1, true, [(0 : ℤ)]), (1, false, [0]), (2, false, [-1, 0, 1]), (2, true, [0, 1]), (3, false, [-1, 0, 1]),
      (3, true, [0, 1]), (4, false, [-1, 0, 1]), (4, true, [0, 1])] do
    let r := seq n force
    check s!"accessed {n} {force}" (r.accessed.all (· ∈ acc) && acc.all (· ∈ r.accessed) && r.nPhases == n && r.nSteps == n)
    for s in List.range n do
      check s!"high {n} {force} {s}" ((ph r s s).isHigh && (ph r s s).captureFrom == 0 && rel r s s == [0])
  let expected : List (ℕ × Bool × List (ℕ × ℕ × List ℤ)) :=
    [(2, false, [(0, 1, [-1, 0]), (1, 0, [0, 1])]), (2, true, [(0, 1, [0, 1]), (1, 0, [0, 1])]),
     (3, false, [(0, 1, [0]), (0, 2, [-1]), (1, 0, [0]), (1, 2, [0]), (2, 0, [1]), (2, 1, [0])]),
     (3, true, [(0, 1, [1]), (0, 2, [0]), (1, 0, [0]), (1, 2, [1]), (2, 0, [1]), (2, 1, [0])]),
     (4, false, [(0, 1, [0]), (0, 2, [-1, 0]), (0, 3, [-1]), (1, 0, [0]), (1, 2, [0]), (1, 3, [-1, 0]), (2, 0, [0, 1]),
       (2, 1, [0]), (2, 3, [0]), (3, 0, [1]), (3, 1, [0, 1]), (3, 2, [0])]),
     (4, true, [(0, 1, [1]), (0, 2, [0, 1]), (0, 3, [0]), (1, 0, [0]), (1, 2, [1]), (1, 3, [0, 1]), (2, 0, [0, 1]),
       (2, 1, [0]), (2, 3, [1]), (3, 0, [1]), (3, 1, [0, 1]), (3, 2, [0])])]
  for (n, force, l) in expected do
    for (s, p, v) in l do
      check s!"release {n} {force} {s} {p}" (rel (seq n force) s p == v)
  for (n, high) in [(3, [0, 1, 2, 0, 2, 1]), (4, [0, 1, 2, 3, 0, 3, 2, 1])] do
    let r := pump n
    check s!"pump {n}" (r.nPhases == n && r.nSteps == 2 * n && r.accessed.all (· ∈ [(-1 : ℤ), 0, 1]) &&
      [(-1 : ℤ), 0, 1].all (· ∈ r.accessed) && (List.range (2 * n)).all fun s => (ph r s (high.getD s 0)).isHigh)
  let r := pump 3
  check "pump release" (rel r 3 0 == [1] && rel r 3 1 == [1] && rel r 3 2 == [0] && (List.range 3).all fun p =>
    rel r 4 p == rel r 2 p && (ph r 4 p).captureFrom == (ph r 2 p).captureFrom &&
    rel r 5 p == rel r 1 p && (ph r 5 p).captureFrom == (ph r 1 p).captureFrom)
  -- TestChargeInjection, TestTrapPumping
  let inj (n : Option ℕ) : Roe ℚ := .injection [1] n true true false
  let const (nr nc : ℕ) (x : ℚ) : List (List ℚ) := List.replicate nr (List.replicate nc x)
  for (n, ex, off, nr, x) in [(some 12, 0, 0, 12, (1 : ℚ)), (some 12, 1, 0, 1, 12), (some 24, 4, 0, 4, 6), (none, 4, 6, 4, 18 / 4)] do
    expressCheck s!"injection {ex} {off}" (inj n) px ex off none fun m mon =>
      rowsOf m = const nr 12 x ∧ rowsOf mon = List.replicate nr (List.replicate 12 true)
  let pr : Roe ℚ := .pumping (List.replicate 6 1) 12 true false
  expressCheck "pumping 0" pr [2] 0 0 none fun m mon => rowsOf m = const 12 1 1 ∧ rowsOf mon = List.replicate 12 [true]
  for ex in [1, 4, 7] do
    expressCheck s!"pumping {ex}" pr [5] ex 0 none fun m mon =>
      rowsOf m = [1] :: List.replicate ex [(11 : ℚ) / (ex : ℚ)] ∧ rowsOf mon = List.replicate (ex + 1) [true]
  for (ex, n) in [(0, 11), (1, 1), (4, 4), (7, 7)] do
    run "pumping save" (pr.express [2] ex 0 none) fun (m, _, _) => run "pumping save" (pr.save m) fun s =>
      check s!"pumping save {ex}" (rowsOf s = List.replicate n [true] ++ [[false]])

/-! ### test_main.py -/

/-- `TestCompareOldArCTIC` -/
def oldArctic (cases : List (String × ℕ × ℕ × Float × Float × Float × List (ℕ × List Float))) : M Unit := do
  for (name, n, bright, release, power, tol, l) in cases do
    for (express, expected) in l do
      let img := image n 1 fun i _ => if i = bright then 800 else 0
      let d : Dir := { traps := [[.instant 10 release]], ccd := ⟨power, 1000, 0, [1]⟩,
                       roe := .standard [1] false true true true, express := express }
      let nm := s!"{name} express={express}"
      run nm (add img (some d)) fun out => do
        let worst := ((vals out).zip expected).foldl (fun w (x, y) => if y == 0 then w else max w ((x - y).abs / y)) 0
        IO.println s!"{nm}: largest relative difference {worst} (the test allows {tol})"
        check nm (nears (vals out) expected tol)

/-- `TestExpress` -/
def express : M Unit := do
  let img := image 20 1 fun i _ => if i = 2 then 800 else 0
  let d : Dir := { traps := [[.instant 10 half]], ccd := ⟨1, 1000, 0, [1]⟩ }
  run "express" (add img (some d)) fun out0 => do
    for (e, tol) in [(1, (2.5 : Float)), (2, 1.8), (5, 0.4), (10, 0.3)] do
      run s!"express {e}" (add img (some { d with express := e })) fun out =>
        check s!"express {e}" (nears (vals out) (vals out0) tol)
    run "express plain" (addPlain img (some { d with express := 5 })) fun out =>
      run "express forced" (add img (some { d with express := 5 })) fun out' =>
        check "the definitions of the library" (vals out == vals out')

/-- `TestOffsetsAndWindows` -/
def offsets : M Unit := do
  let d : Dir := { traps := [[.instant 10 half]], ccd := ⟨1, 1000, 0, [1]⟩, roe := .standard [1] false true true false }
  let img := image 12 1 fun i _ => if i = 2 then 800 else 0
  for off in [1, 5, 11] do
    for e in [1, 3, 12, 0] do
      let img' := image (12 + off) 1 fun i _ => if i = 2 + off then 800 else 0
      run "offset" (add img (some { d with express := e, offset := off })) fun a =>
        run "offset manual" (add img' (some { d with express := e })) fun b =>
          check s!"offset {off} {e}" (nears (vals a) ((vals b).drop off))
  run "windows" (add img (some d)) fun full => do
    run "windows" (add img (some d) none (.range ((List.range 9).map (· + 3)))) fun w =>
      check "window after the bright pixel" (nears (vals w) (vals img))
    for (lo, hi) in [(1, 5), (1, 9), (1, 12), (0, 12)] do
      run "windows" (add img (some d) none (.range ((List.range (hi - lo)).map (· + lo)))) fun w =>
        check s!"window {lo} {hi}" (nears (((vals w).take hi).drop lo) (((vals full).take hi).drop lo))
  for e in [1, 3, 12] do
    run "split" (add img (some { d with express := e })) fun full =>
      run "split" (add img (some { d with express := e }) none .all .all (some (List.range 5))) fun a =>
        run "split" (add a (some { d with express := e }) none .all .all (some ((List.range 7).map (· + 5)))) fun b =>
          check s!"split {e}" (nears (vals b) (vals full) 0.01 1)
  let img := image 4 10 fun i j => if i = 0 ∧ j = 1 then 10000 else 0
  let s : Dir := { traps := [[.trap 10 10]], ccd := ⟨0.8, 100000, 0, [1]⟩, roe := .standard [1] false true true false, express := 2 }
  run "split serial" (add img none (some s) .all .all (some (List.range 7))) fun a =>
    run "split serial" (add a none (some s) .all .all (some [7, 8, 9])) fun b =>
      run "split serial" (add img none (some s)) fun full =>
        check "split serial" (nears (((vals b).zip (vals img)).map fun (x, y) => x - y)
          (((vals full).zip (vals img)).map fun (x, y) => x - y))

/-- `TestChargeInjection` -/
def injection : M Unit := do
  let img := image 12 1 fun i _ => if i % 4 = 0 then 800 else 0
  let d : Dir := { traps := [[.instant 10 half]], ccd := ⟨1, 1000, 0, [1]⟩ }
  let lt (a b : List Float) : Bool := (a.zip b).all fun (x, y) => x < y
  run "injection" (add img (some { d with roe := .injection [1] (some 12) true true false })) fun ci =>
    run "injection" (add img (some d)) fun std => do
      let c := vals ci
      let s := vals std
      check "ci 1" (nears (c.take 4) ((c.drop 4).take 4) 0.02)
      check "ci 2" (nears ((c.drop 4).take 4) (c.drop 8) 0.02)
      check "ci 3" (lt (c.take 4) ((c.drop 4).take 4))
      check "ci 4" (lt ((c.drop 4).take 4) (c.drop 8))
      check "std 1" (s[4]! < s[0]! && s[8]! < s[4]!)
      check "std 2" (lt ((s.drop 1).take 3) ((s.drop 5).take 3))
      check "std 3" (lt ((s.drop 5).take 3) (s.drop 9))
  let roe : Roe Float := .injection [1] (some 24) true true false
  run "injection" (add img (some { d with roe := roe })) fun out0 => do
    for (e, tol) in [(1, (0.09 : Float)), (3, 0.05), (8, 0.02), (12, 0.01)] do
      run "injection" (add img (some { d with roe := roe, express := e })) fun out =>
        check s!"injection express {e}" (nears (vals out) (vals out0) tol)

/-- `TestTrapPumping` -/
def pumping : M Unit := do
  let img := image 5 1 fun _ _ => 1000
  let d (fr : List Float) (n : ℕ) : Dir :=
    { traps := [[.instant 100 3]], ccd := ⟨0.5, 2e5, 1e-9, fr⟩, roe := .pumping [1, 1, 1, 1, 1, 1] n true false }
  run "pumping" (add img (some (d [1, 0, 0] 2)) none (.pixel 2)) fun o => do
    let v := vals o
    check "phase 0" (v[2]! < 1000 && v[3]! < 1000 && near v[3]! 1000 2e-5 && near v[0]! 1000 && near v[1]! 1000 && near v[4]! 1000)
  run "pumping" (add img (some (d [0, 1, 0] 2)) none (.pixel 2)) fun o => do
    let v := vals o
    check "phase 1" (v[2]! < 1000 && v[3]! > 1000 && near v[0]! 1000 && near v[1]! 1000 && near v[4]! 1000)
  run "pumping" (add img (some (d [0, 0, 1] 2)) none (.pixel 2)) fun o => do
    let v := vals o
    check "phase 2" (v[2]! < 1000 && v[1]! > 1000 && near v[0]! 1000 && near v[3]! 1000 && near v[4]! 1000)
  run "pumping" (add img (some (d [1, 1, 1] 20)) none (.pixel 2)) fun o0 => do
    for (e, tol) in [(1, (3e-3 : Float)), (2, 4e-4), (5, 3e-4), (10, 2e-4)] do
      run "pumping" (add img (some { d [1, 1, 1] 20 with express := e }) none (.pixel 2)) fun o =>
        check s!"pumping express {e}" (nears (vals o) (vals o0) tol)

def allAt (img : Image Float) (l : List (ℕ × ℕ)) (p : Float → Bool) : Bool := l.all fun (r, c) => p (img.px r c)

def diff (a b : Image Float) : Image Float := forceImg ⟨a.nr, a.nc, fun i j => a.px i j - b.px i j⟩

/-- `TestAddCTIParallelOnly` and the parallel part of `TestCorrectCTIParallelOnly` -/
def parallelOnly : M Unit := do
  let ccd : Ccd := ⟨0.8, 84700, 0.01, [1]⟩
  let d : Dir := { traps := [[.trap 0.1 1]], ccd := ccd }
  let zero (x : Float) : Bool := x == 0
  let neg (x : Float) : Bool := x < 0
  let pos (x : Float) : Bool := x > 0
  for (nr, nc) in [(5, 5), (5, 7), (4, 6), (4, 7), (5, 6), (5, 3), (6, 4), (6, 3), (5, 4)] do
    let img := image nr nc fun i _ => if i = 2 then 100 else 0
    run "horizontal" (add img (some d)) fun out => do
      let df := diff out img
      check s!"horizontal {nr} {nc}" (allAt df (region 0 2 0 nc) zero && allAt df (region 2 3 0 nc) neg &&
        allAt df (region 3 (nr - 1) 0 nc) pos)
      run "correct" (remove out 1 (some d)) fun cor =>
        check s!"correct horizontal {nr} {nc}" ((vals (diff cor img)).zip (vals df) |>.all fun (x, y) => x ≤ y.abs)
    let img := image nr nc fun _ j => if j = 2 then 100 else 0
    run "vertical" (add img (some d)) fun out => do
      let df := diff out img
      check s!"vertical {nr} {nc}" (allAt df (region 0 nr 0 2) zero && allAt df (region 0 nr 3 (nc - 1)) zero &&
        allAt df (region 0 nr 2 3) neg)
      run "correct" (remove out 1 (some d)) fun cor =>
        check s!"correct vertical {nr} {nc}" ((vals (diff cor img)).zip (vals df) |>.all fun (x, y) => x ≤ y.abs)
  for (nr, nc) in [(5, 5), (5, 7), (6, 8), (6, 7), (5, 6)] do
    let img := image nr nc fun i j => if (i, j) ∈ [(1, 1), (3, 3), (2, 4)] then 100 else 0
    run "deltas" (add img (some d)) fun out => do
      let df := diff out img
      check s!"deltas {nr} {nc}" (allAt df (region 0 nr 0 1) zero && zero (df.px 0 1) && neg (df.px 1 1) &&
        allAt df (region 2 5 1 2) pos && allAt df (region 0 nr 2 3) zero && allAt df (region 0 3 3 4) zero &&
        neg (df.px 3 3) && pos (df.px 4 3) && allAt df (region 0 2 4 5) zero && neg (df.px 2 4) &&
        allAt df (region 3 5 4 5) pos && allAt df (region 0 nr 5 nc) zero)
      run "correct" (remove out 1 (some d)) fun cor =>
        check s!"correct deltas {nr} {nc}" ((vals (diff cor img)).zip (vals df) |>.all fun (x, y) => x ≤ y.abs)
  let img := image 5 5 fun i _ => if i = 2 then 100 else 0
  run "line" (add img (some d)) fun o0 => do
    run "double density" (add img (some { d with traps := [[.trap 0.2 1]] })) fun o1 =>
      check "double density" (allAt o0 (region 0 2 0 5) zero && allAt o1 (region 0 2 0 5) zero &&
        (List.range 5).all fun j => o0.px 2 j > o1.px 4 j)
    run "double lifetime" (add img (some { d with traps := [[.trap 0.1 2]] })) fun o1 =>
      check "double lifetime" (allAt o1 (region 0 2 0 5) zero && (List.range 5).all fun j => o0.px 2 j == o1.px 2 j && o0.px 3 j > o1.px 3 j)
    run "beta" (add img (some { d with ccd := { ccd with power := 0.9 } })) fun o1 =>
      check "beta" (allAt o1 (region 0 2 0 5) zero && (List.range 5).all fun j => o0.px 2 j < o1.px 2 j && o0.px 3 j > o1.px 3 j)
    run "two traps" (add img (some { d with traps := [[.trap 0.05 1, .trap 0.05 1]] })) fun o1 =>
      check "two traps" (vals o0 == vals o1)
    run "iterations" (remove o0 5 (some d)) fun c5 =>
      run "iterations" (remove o0 3 (some d)) fun c3 =>
        check "iterations" ((vals (diff c5 img)).zip (vals (diff c3 img)) |>.all fun (x, y) => x.abs ≤ y.abs)
  let dm : Dir := { traps := [[.instant 0.1 1]], ccd := { ccd with fractions := [0.5, 0.2, 0.2, 0.1] },
                    roe := .standard [0.5, 0.2, 0.2, 0.1] true true true false }
  run "multiphase" (add img (some dm)) fun out => do
    let df := diff out img
    check "multiphase" (allAt df (region 0 2 0 5) zero && allAt df (region 2 3 0 5) neg && allAt df (region 3 4 0 5) pos)

/-- `TestAddCTIParallelAndSerial`, `TestCorrectCTIParallelAndSerial` -/
def bothDirections : M Unit := do
  let dir (density release power : Float) (notch : Float := 1e-5) : Dir :=
    { traps := [[.trap density release]], ccd := ⟨power, 84700, notch, [1]⟩, express := 5 }
  let zero (x : Float) : Bool := x == 0
  let small (x : Float) : Bool := near x 0 1e-4
  let neg (x : Float) : Bool := x < 0
  let pos (x : Float) : Bool := x > 0
  let img := image 5 5 fun i j => if i = 2 ∧ 1 ≤ j ∧ j < 4 then 100 else 0
  run "both" (add img (some (dir 0.4 1 0.8)) (some (dir 0.2 2 0.4))) fun out => do
    let df := diff out img
    check "both horizontal" (allAt df (region 0 2 0 5) zero && allAt df (region 2 3 1 4) neg && allAt df (region 3 5 1 4) pos &&
      allAt df (region 2 5 0 1) small && allAt df (region 2 5 4 5) pos &&
      ((List.range 3).all fun j => df.px 3 (j + 1) > df.px 4 (j + 1)) && df.px 3 4 > df.px 4 4)
  let img := image 5 5 fun i j => if j = 2 ∧ 1 ≤ i ∧ i < 4 then 100 else 0
  run "both" (add img (some (dir 0.4 1 0.8 1e-6)) (some (dir 0.2 2 0.4 1e-6))) fun out => do
    let df := diff out img
    check "both vertical" (allAt df (region 0 1 0 5) zero && allAt df (region 1 4 2 3) neg && pos (df.px 4 2) &&
      allAt df (region 0 5 0 2) small && allAt df (region 1 5 3 5) pos && df.px 3 3 > df.px 3 4 && df.px 4 3 > df.px 4 4)
  let img := image 5 5 fun i j => if i = 2 ∧ j = 2 then 100 else 0
  run "both" (add img (some (dir 0.4 1 0.8)) (some (dir 0.2 2 0.4))) fun out => do
    let df := diff out img
    check "both pixel" (allAt df (region 0 2 0 5) small && allAt df (region 0 5 0 2) small && neg (df.px 2 2) &&
      allAt df (region 3 5 2 3) pos && allAt df (region 2 3 3 5) pos && allAt df (region 3 5 3 5) pos)
  run "both" (add img (some (dir 0.4 1 0.8)) (some (dir 0.2 2 0.8))) fun o0 =>
    run "both" (add img (some (dir 0.8 1 0.8)) (some (dir 0.4 2 0.8))) fun o1 => do
      let df := diff o1 o0
      check "both density" (allAt df (region 0 2 0 5) small && allAt df (region 0 5 0 2) small && neg (df.px 2 2) &&
        allAt df (region 3 5 2 3) pos && allAt df (region 2 3 3 5) pos && allAt df (region 3 5 3 5) pos)
  run "both" (add img (some (dir 0.1 1 0.8)) (some (dir 0.1 1 0.8))) fun o0 => do
    run "both" (add img (some (dir 0.1 20 0.8)) (some (dir 0.1 20 0.8))) fun o1 => do
      let df := diff o1 o0
      check "both lifetime" (allAt df (region 0 2 0 5) small && allAt df (region 0 5 0 2) small && small (df.px 2 2) &&
        allAt df (region 3 5 2 3) neg && allAt df (region 2 3 3 5) neg && allAt df (region 3 5 3 5) neg)
    run "both" (add img (some (dir 0.1 1 0.9)) (some (dir 0.1 1 0.9))) fun o1 => do
      let df := diff o1 o0
      check "both beta" (allAt df (region 0 2 0 5) small && allAt df (region 0 5 0 2) small && pos (df.px 2 2) &&
        allAt df (region 3 5 2 3) neg && allAt df (region 2 3 3 5) neg && allAt df (region 3 5 3 5) neg)
  let rows : List (List Float) :=
    [[0, 0, 0, 0, 0, 0, 0], [0, 9, 5, 9.5, 3.2, 9, 0], [0, 0, 0, 0, 0, 0, 0], [0, 9, 5, 9.5, 352, 9.4, 0],
     [0, 9, 5, 9.5, 0, 9, 0], [0, 9, 9.1, 9.3, 9.2, 9, 0], [0, 0, 0, 0, 0, 0, 0]]
  let img := image 7 7 fun i j => (rows.getD i []).getD j 0
  run "both" (add img (some (dir 0.4 1 0.8)) (some (dir 0.2 2 0.4))) fun out =>
    run "both" (remove img 1 (some (dir 0.4 1 0.8)) (some (dir 0.2 2 0.4))) fun cor =>
      check "both correct" ((vals (diff cor img)).zip (vals (diff out img)) |>.all fun (x, y) => x.abs ≤ y.abs)

/-! ### test_traps.py -/

def wmOf (s : ℕ) (l : List (List Float)) : WM Float s := l.map fun r => ⟨r.headD 0, fun j => r.getD (j + 1) 0⟩

def wmVals {s : ℕ} (wm : WM Float s) : List Float := wm.flatMap fun r => r.vol :: List.ofFn r.fill

def mgrWith (traps : List FTrap) (l : List (List Float)) : Mgr Float :=
  let g := group traps
  { s := g.s, dens := g.dens, kind := g.kind, wm := wmOf g.s l }

/-- the same species in a `TrapManagerTrackTime` -/
def timeMgr (traps : List FTrap) (l : List (List Float)) : Mgr Float :=
  let g := group traps
  let f : Fin traps.length → FTrap := fun j => traps[j]
  { s := traps.length, dens := fun j => (f j).density, kind := .trackTime fun j => (f j).fillFraction, wm := wmOf _ l }

def stepOf (m : Mgr Float) (n dwell : Float) (ccd : Ccd) : Except Err (Float × Mgr Float) := Fp.step A m n dwell ccd.fill

def fills (m : Mgr Float) : List Float :=
  match m with
  | ⟨_, _, .trackTime c, wm⟩ => wmVals (Fp.toFillFractions A c wm)
  | ⟨_, _, _, wm⟩ => wmVals wm

def instantOps (traps : List FTrap) (dwell : Float) : ICOps Float traps.length :=
  Fp.instantOps A (fun j => (traps[j]).density) (fun j => ((traps[j]).probs dwell).2.2)

def traps : M Unit := do
  let t1 : FTrap := .instant 10 half
  let t2 : FTrap := .instant 8 (-1 / (0.2 : Float).log)
  -- test__single_trap_release, test__single_trap_release__change_time
  for (t, dwell) in [(t1, (1 : Float)), (FTrap.instant 10 (half / 2), 0.5)] do
    let (x, w) := Fp.icRelease A (instantOps [t] dwell) (wmOf 1 [[0.5, 0.8], [0.2, 0.4], [0.1, 0.2], [0, 0], [0, 0], [0, 0], [0, 0]])
    check "release" (near x 2.5 && nears (wmVals w) [0.5, 0.4, 0.2, 0.2, 0.1, 0.1, 0, 0, 0, 0, 0, 0, 0, 0])
  -- test__multiple_traps_release
  let (x, w) := Fp.icRelease A (instantOps [t1, t2] 1)
    (wmOf 2 [[0.5, 0.8, 0.3], [0.2, 0.4, 0.2], [0.1, 0.2, 0.1], [0, 0, 0], [0, 0, 0], [0, 0, 0], [0, 0, 0]])
  check "release 2" (near x (2.5 + 1.28) && nears ((wmVals w).take 9) [0.5, 0.4, 0.06, 0.2, 0.2, 0.04, 0.1, 0.1, 0.02])
  let c : Ccd := ⟨0.5, 10000, 1e-7, [1]⟩
  -- test__first_capture
  run "first capture" (Fp.icCapture A (instantOps [t1] 1) c.fill 2500 (wmOf 1 (List.replicate 7 [0, 0]))) fun (x, w) =>
    check "first capture" (near x 5 && nears (wmVals w) (0.5 :: 1 :: List.replicate 12 0))
  -- test__multiple_traps_capture
  let w0 : List (List Float) := [[0.5, 0.8, 0.7], [0.2, 0.4, 0.3], [0.1, 0.3, 0.2], [0, 0, 0], [0, 0, 0], [0, 0, 0]]
  run "capture 2" (Fp.icCapture A (instantOps [t1, t2] 1) c.fill 3600 (wmOf 2 w0)) fun (x, w) =>
    check "capture 2" (near x ((0.1 + 0.06) * 10 + (0.15 + 0.07) * 8) &&
      nears (wmVals w) ([0.6, 1, 1, 0.1, 0.4, 0.3, 0.1, 0.3, 0.2] ++ List.replicate 9 0))
  -- test__not_enough__first_capture
  run "not enough" (Fp.icCapture A (instantOps [t1] 1) c.fill 2.5e-3 (wmOf 1 (List.replicate 7 [0, 0]))) fun (x, w) =>
    check "not enough" (near x 0.0025 && nears (wmVals w) ([4.9999e-4, 0.50001] ++ List.replicate 12 0))
  -- test__not_enough__multiple_traps_capture
  run "not enough 2" (Fp.icCapture A (instantOps [t1, t2] 1) c.fill 4.839e-4 (wmOf 2 w0)) fun (x, w) =>
    check "not enough 2" (near x (2.199545e-4 * (0.1 * 10 + 0.15 * 8)) &&
      nears (wmVals w) ([2.199545e-4, 0.9, 0.85, 0.5 - 2.199545e-4, 0.8, 0.7, 0.2, 0.4, 0.3, 0.1, 0.3, 0.2] ++ List.replicate 6 0))
  -- TestTrapManagerTrackTime
  let el (τ f : Float) : Float := -τ * f.log
  let ccd : Ccd := ⟨0.8, 8.47e4, 1e-7, [1]⟩
  let wf : List (List Float) := [[0.5, 0.8], [0.2, 0.4], [0.1, 0.2], [0, 0], [0, 0], [0, 0]]
  let wt (τ : Float) : List (List Float) := [[0.5, el τ 0.8], [0.2, el τ 0.4], [0.1, el τ 0.2], [0, 0], [0, 0], [0, 0]]
  check "fill fractions" (nears (fills (timeMgr [.instant 10 2] (wt 2))) (wf.flatMap id))
  run "time" (stepOf (mgrWith [t1] wf) 5e4 1 ccd) fun (x, m) =>
    run "time" (stepOf (timeMgr [t1] (wt half)) 5e4 1 ccd) fun (y, m') =>
      check "time" (near x y && nears (fills m) (fills m'))
  let t2' : FTrap := .instant 10 (2 * half)
  run "time 2" (stepOf (mgrWith [t1, t2'] [[0.5, 0.8, 0.6], [0.2, 0.4, 0.2], [0.1, 0.3, 0.1], [0, 0, 0], [0, 0, 0], [0, 0, 0]]) 1e3 1 ccd)
    fun (x, m) => run "time 2" (stepOf (timeMgr [t1, t2'] [[0.5, el half 0.8, el (2 * half) 0.6],
        [0.2, el half 0.4, el (2 * half) 0.2], [0.1, el half 0.3, el (2 * half) 0.1], [0, 0, 0], [0, 0, 0], [0, 0, 0]]) 1e3 1 ccd)
      fun (y, m') => check "time 2" (near x y && nears (fills m) (fills m'))
  -- TestTrapLifetimeContinuum
  check "narrow continuum" (near ((FTrap.continuum 10 1 0.1).fillFraction 1) ((FTrap.instant 10 1).fillFraction 1) 0.01)
  run "continuum" (stepOf (timeMgr [.instant 10 1] (wt 1)) 5e4 1 ccd) fun (x, m) =>
    run "continuum" (stepOf (mgrWith [.continuum 10 1 0.01] (wt 1)) 5e4 1 ccd) fun (y, m') => do
      check "continuum" (near y x 1e-4 && nears (wmVals m'.wm) (wmVals m.wm) 1e-4)
  -- TestElectronsReleasedAndCapturedIncludingSlowTraps
  let ccd : Ccd := ⟨0.8, 8.47e4, 0, [1]⟩
  let inst := mgrWith [.instant 10 1]
  let fast := mgrWith [.trap 10 1 0]
  let slow := mgrWith [.trap 10 1 0.1]
  let e6 : List (List Float) := List.replicate 7 [0, 0]
  run "first slow" (stepOf (inst e6) 5e4 1 ccd) fun (ni, mi) =>
    run "first slow" (stepOf (fast e6) 5e4 1 ccd) fun (nf, mf) =>
      run "first slow" (stepOf (slow e6) 5e4 1 ccd) fun (ns, ms) =>
        check "first slow" (nears (wmVals mf.wm) (wmVals mi.wm) && nf == ni &&
          nears (ms.wm.map Row.vol) (mi.wm.map Row.vol) && ni < ns)
  let volsOf (m : Mgr Float) : List Float := m.wm.map Row.vol
  let fillsOf (m : Mgr Float) : List Float := m.wm.map fun r => (List.ofFn r.fill).headD 0
  let sum (l : List Float) : Float := l.foldl (· + ·) 0
  for (n, c) in [((5e3 : Float), ccd), (5e4, ccd), (7e4, ccd), (0, ⟨0.5, 10000, 1e-7, [1]⟩)] do
    let nm := s!"slow {n}"
    run nm (stepOf (inst wf) n 1 c) fun (ni, mi) =>
      run nm (stepOf (fast wf) n 1 c) fun (nf, mf) =>
        run nm (stepOf (slow wf) n 1 c) fun (ns, ms) => do
          check (nm ++ " watermarks") (nears (wmVals mf.wm) (wmVals mi.wm) 1e-3)
          check (nm ++ " net") (near nf ni 1e-3)
          check (nm ++ " slower") (nf < ns)
          let v := volsOf ms
          let f := fillsOf ms
          if n == 5e3 then
            check nm (sum (v.take 3) == 0.5 && f[0]! > 0.8 && f[2]! < 0.8 && nears (v.drop 3) [0.2, 0.1, 0] &&
              f[3]! ≤ 0.4 && f[4]! ≤ 0.2 && f[5]! ≤ 0)
          if n == 5e4 then
            check nm (v[0]! == 0.5 && f[0]! > 0.8 && sum ((v.drop 1).take 3) == 0.2 && f[1]! > 0.4 && f[2]! > 0.4 && f[3]! < 0.4 &&
              nears (v.drop 4) [0.1, 0] && f[4]! ≤ 0.2 && f[5]! ≤ 0)
          if n == 7e4 then
            check nm (v.take 3 == [0.5, 0.2, 0.1] && f[0]! > 0.8 && f[1]! > 0.4 && f[2]! > 0.2 && v[3]! > 0 && f[3]! > 0)
          if n == 0 then
            check nm (sum (v.take 2) == 0.5 && f[0]! > 0.8 && f[1]! < 0.8 && nears (v.drop 2) [0.2, 0.1, 0, 0] &&
              f[2]! ≤ 0.4 && f[3]! ≤ 0.2 && f[4]! ≤ 0)
            check (nm ++ " net exact") (near nf ni)
  -- test__collapse_redundant_watermarks
  let z : List (List Float) := [[0, 0], [0, 0], [0, 0]]
  let z3 : List (List Float) := [[0, 0, 0], [0, 0, 0], [0, 0, 0]]
  for (a, b) in [([[0.5, 0.8], [0.2, 0.4], [0.1, 0.2]] ++ z, [[0.5, 0.8], [0.2, 0.4], [0.1, 0.2]] ++ z),
      ([[0.5, 1], [0.2, 0.4], [0.1, 0.2]] ++ z, [[0.5, 1], [0.2, 0.4], [0.1, 0.2]] ++ z),
      ([[0.5, 1], [0.2, 1], [0.1, 0.2]] ++ z, [[0.7, 1], [0.1, 0.2], [0, 0]] ++ z),
      ([[0.5, 1], [0.2, 1], [0.1, 1]] ++ z, [[0.8, 1], [0, 0], [0, 0]] ++ z)] do
    check "collapse" (nears (wmVals (Fp.collapse A 1 (wmOf 1 a))) (b.flatMap id))
  let (a, b) := Fp.collapseCopy A 1 (wmOf 1 ([[0.5, 1], [0.2, 1], [0.1, 0.2]] ++ z)) (wmOf 1 ([[0.5, 0.5], [0.2, 0.5], [0.1, 0.1]] ++ z))
  check "collapse copy" (nears (wmVals a) ([0.7, 1, 0.1, 0.2] ++ List.replicate 8 0) && nears (wmVals b) ([0.7, 0.5, 0.1, 0.1] ++ List.replicate 8 0))
  let (a, b) := Fp.collapseCopy A 1 (wmOf 2 ([[0.4, 1, 1], [0.2, 1, 1], [0.1, 0.2, 0.3]] ++ z3))
    (wmOf 2 ([[0.4, 0.5, 0.8], [0.2, 0.5, 0.4], [0.1, 0.1, 0.2]] ++ z3))
  check "collapse copy 2" (nears (wmVals a) ([0.6, 1, 1, 0.1, 0.2, 0.3] ++ List.replicate 12 0) &&
    nears (wmVals b) ([0.6, 0.5, 2 / 3, 0.1, 0.1, 0.2] ++ List.replicate 12 0))
  let a := Fp.collapse A 1 (wmOf 2 ([[0.4, 1, 1], [0.3, 1, 1], [0.2, 1, 0.9], [0.1, 0.2, 0.3]] ++ z3.drop 1))
  check "collapse 2" (nears (wmVals a) ([0.7, 1, 1, 0.2, 1, 0.9, 0.1, 0.2, 0.3] ++ List.replicate 9 0))
  -- test__updated_watermarks_from_capture_not_enough
  check "not enough fills" (nears (wmVals (Fp.notEnough A (wmOf 1 [[0.5, 0.9], [0.1, 0.8], [0.1, 0.4], [0.1, 0.2], [0, 0], [0, 0]])
    (wmOf 1 [[0.5, 0.8], [0.1, 0.4], [0.1, 0.4], [0.1, 0.2], [0, 0], [0, 0]]) 0.5))
    [0.5, 0.85, 0.1, 0.6, 0.1, 0.4, 0.1, 0.2, 0, 0, 0, 0])
  -- test__n_trapped_electrons_from_watermarks
  check "trapped" (near (Fp.nTrapped A (mgrWith [.trap 10 1] [[0.5, 0.8], [0.2, 0.4], [0.1, 0.3], [0, 0], [0, 0], [0, 0]])) 5.1)
  -- test__initial_watermark_array__uses_n_pixels_and_total_traps_to_set_size
  for (s, n, rows) in [(1, 3, 7), (5, 3, 7), (2, 5, 11)] do
    let g := group (List.replicate s (.trap 1 1))
    let m := Fp.newMgr A g.dens g.kind n
    check "initial" (m.wm.length == rows && wmVals m.wm == List.replicate (rows * (s + 1)) 0)
  -- test__electron_fractional_height_from_electrons__gives_correct_value
  for (c, n, v) in [((⟨1, 10000, 0, [1]⟩ : Ccd), (100 : Float), (0.01 : Float)), (⟨1, 10000, 0, [1]⟩, 1000, 0.1), (⟨1, 10000, 0, [1]⟩, 1000000, 1),
      (⟨0.5, 10000, 0, [1]⟩, 100, (0.01 : Float).sqrt), (⟨0.5, 10000, 0, [1]⟩, 1000, (0.1 : Float).sqrt), (⟨1, 100, 90, [1]⟩, 100, 1), (⟨1, 100, 90, [1]⟩, 9, 0)] do
    check "height" (near (c.fill n) v)
  -- test__multiple_trap_managers
  let img := image 6 2 fun i j => if i = 2 ∧ j = 1 then 1000 else 0
  let ccd : Ccd := ⟨0.8, 8.47e4, 1e-7, [1]⟩
  run "managers" (add img (some { traps := [[.trap 10 half, .trap 5 half]], ccd := ccd })) fun a =>
    run "managers" (add img (some { traps := [[.trap 10 half], [.trap 5 half]], ccd := ccd })) fun b =>
      check "managers" (nears (vals a) (vals b) 1e-2)
  -- test__trails_from_continuum_traps_compare_with_distributions_of_single_traps
  let n := 100
  let lifes : List Float := (List.range n).map fun i => (10 : Float).pow (-3 + 8 * Float.ofNat i / Float.ofNat (n - 1))
  let life (i : ℕ) : Float := lifes.getD i 1
  let width (i : ℕ) : Float :=
    if i = 0 then (0.5 * ((life 1).log + (life 0).log)).exp
    else if i = n - 1 then (0.5 * ((life (n - 1)).log + (life (n - 2)).log)).exp
    else (0.5 * ((life (i + 1)).log + (life (i - 1)).log)).exp
  let dist (x : Float) : Float := (-((x.log - (5 : Float).log) ^ (2 : Float)) / 2).exp / (x * (2 * 3.141592653589793 : Float).sqrt)
  let raw := (List.range n).map fun i => dist (life i) * width i
  let tot := sum raw
  let ts := (List.range n).map fun i => FTrap.instant (raw.getD i 0 * 10 / tot) (life i)
  let img := image 10 1 fun i _ => if i = 1 then 1e4 else 0
  run "continuum trail" (add img (some { traps := [[.continuum 10 5 1]], ccd := ccd })) fun a =>
    run "continuum trail" (add img (some { traps := [ts], ccd := ccd })) fun b =>
      check "continuum trail" (nears (vals a) (vals b))

def parse (j : Lean.Json) : Except String (List (String × ℕ × ℕ × Float × Float × Float × List (ℕ × List Float))) := do
  let l ← j.getArr?
  l.toList.mapM fun o => do
    let name ← (← o.getObjVal? "name").getStr?
    let n ← (← o.getObjVal? "rows").getNat?
    let b ← (← o.getObjVal? "bright").getNat?
    let num (k : String) : Except String Float := do .ok (← (← o.getObjVal? k).getNum?).toFloat
    let cs ← (← o.getObjVal? "cases").getArr?
    let cs ← cs.toList.mapM fun c => do
      let e ← (← c.getObjVal? "express").getNat?
      let v ← (← c.getObjVal? "expected").getArr?
      let v ← v.toList.mapM fun x => do .ok (← x.getNum?).toFloat
      .ok (e, v)
    .ok (name, n, b, ← num "release", ← num "power", ← num "tolerance", cs)

end Conformance

open Conformance in
def main (args : List String) : IO UInt32 := do
  let text ← IO.FS.readFile (args.headD "")
  let cases ← IO.ofExcept (Lean.Json.parse text >>= parse)
  let (_, ok, bad) ← (do
    roeTests
    traps
    express
    offsets
    injection
    pumping
    parallelOnly
    bothDirections
    oldArctic cases : M Unit).run (0, 0)
  IO.println s!"{ok} comparisons hold, {bad} fail"
  return if bad == 0 then 0 else 1
