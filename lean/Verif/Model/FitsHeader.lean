import Verif.Model.Basic

/-!
# `update_fits_header_info` (arcticpy/util.py:14-90)

A header is the list of `set` calls, oldest first, with natural-number iteration counts and opaque
values.  Comments are dropped.  Objects are those of arcticpy: a trap list contains `Trap` objects,
which cannot be unpacked by `for i, trap in traps`; a CCD has no attribute `well_fill_beta`.
-/

namespace Arctic

/-- A header value: an iteration count or the notch-depth list of one of the CCDs. -/
inductive HVal where
  | iterations (n : ℕ)
  | notch (serial : Bool)
  deriving DecidableEq

abbrev Header := List (String × HVal)

/-- Arguments of `update_fits_header_info`: iteration counts of the clockers, lengths of the trap
lists, presence of the CCDs. -/
structure HdrArgs where
  parallelClocker : Option ℕ
  serialClocker : Option ℕ
  parallelTraps : Option ℕ
  serialTraps : Option ℕ
  parallelCcd : Bool
  serialCcd : Bool

/-- `add_trap` (util.py:45-56): unpacking the first `Trap` raises `TypeError`. -/
def addTrap (n : ℕ) : Option Err := if n = 0 then none else some .typeError

/-- `update_fits_header_info` (util.py:14-90): the header after the call and the exception, if any. -/
def updateFitsHeader (h : Header) (a : HdrArgs) : Header × Option Err :=
  -- lines 31-36
  let h := match a.parallelClocker with
    | some n => h ++ [("cte_pite", .iterations n)]
    | none => h
  match a.serialClocker with
  | none => (h, none)
  | some n =>
    -- lines 38-43
    let h := h ++ [("cte_site", .iterations n)]
    -- lines 58-62
    match (a.parallelTraps.bind addTrap), (a.serialTraps.bind addTrap) with
    | some e, _ => (h, some e)
    | none, some e => (h, some e)
    | none, none =>
      -- lines 64-86
      if a.serialCcd then (h ++ [("cte_swln", .notch true)], some .attributeError)
      else if a.parallelCcd then (h ++ [("cte_pwln", .notch false)], some .attributeError)
      else (h, none)

end Arctic
