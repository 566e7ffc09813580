import Verif.Model.TrapManager

/-!
# Histories of a trap manager

A history is a list of transfers; each offers a cloud of `n` electrons for a dwell time `t`.
-/

namespace Arctic

variable {K : Type} [Field K] [LinearOrder K]

/-- Feed a history to a manager: the list of returned net electrons and the manager afterwards, or the
first exception. -/
def Mgr.run (fill : K → K) : Mgr K → List (K × K) → Except Err (List K × Mgr K)
  | m, [] => .ok ([], m)
  | m, (n, t) :: h => do
    let (net, m) ← m.step n t fill
    let (nets, m) ← m.run fill h
    .ok (net :: nets, m)

end Arctic
