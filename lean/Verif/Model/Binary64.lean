import Verif.Model.Float
import Mathlib.Data.Rat.Floor

/-!
# IEEE 754 double precision

The arithmetic that numpy and the compiled loops use (`np.float64`, C `double`, Python `float`): binary64 with rounding to
nearest, ties to even, gradual underflow, signed zeros, infinities and one NaN. `np.sum` adds in an order that depends on
the build of numpy, so it is a parameter.
-/

namespace Arctic

namespace B64

/-- The exponent of a positive rational: `2 ^ e ≤ q < 2 ^ (e + 1)`. -/
def log2 (q : ℚ) : ℤ :=
  let e : ℤ := (Nat.log2 q.num.natAbs : ℤ) - Nat.log2 q.den
  if (2 : ℚ) ^ e ≤ q then e else e - 1

/-- The exponent of the unit in the last place. -/
def ulpExp (q : ℚ) : ℤ := max (log2 q) (-1022) - 52

/-- To the nearest integer, ties to even. -/
def toInt (x : ℚ) : ℤ :=
  let f := ⌊x⌋
  if x - f < 1 / 2 then f else if 1 / 2 < x - f then f + 1 else if f % 2 = 0 then f else f + 1

/-- Rounding of a number that is not negative, without a limit for the exponent. -/
def roundPos (q : ℚ) : ℚ := toInt (q / 2 ^ ulpExp q) * 2 ^ ulpExp q

/-- Rounding. -/
def round (q : ℚ) : ℚ := if q = 0 then 0 else if q < 0 then -roundPos (-q) else roundPos q

/-- Numbers from here on are infinite. -/
def limit : ℚ := 2 ^ 1024

/-- A finite double. -/
def Rep (q : ℚ) : Prop := round q = q ∧ |q| < limit

instance (q : ℚ) : Decidable (Rep q) := by unfold Rep; infer_instance

end B64

/-- A double. `fin 0` is `0.0`. -/
inductive B64 where
  | nan
  | inf (neg : Bool)
  | negZero
  | fin (q : ℚ) (h : B64.Rep q)
  deriving DecidableEq

namespace B64

/-- The double nearest to a number: infinite if it is too large (`round q` has 53 bits: `rep_round` in
`Verif.Lemmas.Binary64`), a zero of the right sign if it is too small. -/
def pack (q : ℚ) : B64 :=
  if round q = 0 ∧ q < 0 then .negZero
  else if h : Rep (round q) then .fin (round q) h else .inf (decide (q < 0))

/-- The sign bit. -/
def isNeg : B64 → Bool
  | .nan => false
  | .inf s => s
  | .negZero => true
  | .fin q _ => decide (q < 0)

/-- `0.0` -/
def zero : B64 := .fin 0 (by decide +kernel)

/-- `1.0` -/
def one : B64 := .fin 1 (by decide +kernel)

/-- A zero with a sign. -/
def signedZero (neg : Bool) : B64 := if neg then .negZero else zero

/-- `-x` -/
def neg : B64 → B64
  | .nan => .nan
  | .inf s => .inf !s
  | .negZero => zero
  | .fin q _ => if q = 0 then .negZero else pack (-q)

/-- The number represented by a finite double. -/
def val : B64 → ℚ
  | .fin q _ => q
  | _ => 0

/-- `x + y` -/
def add : B64 → B64 → B64
  | .nan, _ => .nan
  | _, .nan => .nan
  | .inf s, .inf s' => if s = s' then .inf s else .nan
  | .inf s, _ => .inf s
  | _, .inf s => .inf s
  | .negZero, y => y
  | x, .negZero => x
  | .fin a _, .fin b _ => pack (a + b)

/-- `x - y` -/
def sub (x y : B64) : B64 := add x (neg y)

/-- `x * y` -/
def mul : B64 → B64 → B64
  | .nan, _ => .nan
  | _, .nan => .nan
  | .inf s, .inf s' => .inf (s != s')
  | .inf s, y => if val y = 0 then .nan else .inf (s != isNeg y)
  | x, .inf s => if val x = 0 then .nan else .inf (isNeg x != s)
  | x, y => if val x * val y = 0 then signedZero (isNeg x != isNeg y) else pack (val x * val y)

/-- `x / y`, without an exception -/
def div : B64 → B64 → B64
  | .nan, _ => .nan
  | _, .nan => .nan
  | .inf _, .inf _ => .nan
  | .inf s, y => .inf (s != isNeg y)
  | x, .inf s => signedZero (isNeg x != s)
  | x, y =>
    if val y = 0 then if val x = 0 then .nan else .inf (isNeg x != isNeg y)
    else if val x = 0 then signedZero (isNeg x != isNeg y) else pack (val x / val y)

/-- The place in the order, with infinities outside; NaN has none. -/
def key : B64 → Option (ℤ × ℚ)
  | .nan => none
  | .inf true => some (-1, 0)
  | .inf false => some (1, 0)
  | .negZero => some (0, 0)
  | .fin q _ => some (0, q)

/-- `x < y` -/
def lt (x y : B64) : Bool :=
  match key x, key y with
  | some (a, p), some (b, q) => decide (a < b ∨ (a = b ∧ p < q))
  | _, _ => false

/-- `x == y` -/
def eq (x y : B64) : Bool :=
  match key x, key y with
  | some u, some v => decide (u = v)
  | _, _ => false

/-- `x <= y` -/
def le (x y : B64) : Bool := lt x y || eq x y

/-- Double precision, with an order of addition for `np.sum`. -/
def arith (sum : List B64 → B64) : Arith B64 where
  zero := zero
  one := one
  add := add
  sub := sub
  mul := mul
  div := div
  neg := neg
  sum := sum
  lt := lt
  le := le
  eq := eq

/-- Addition from left to right, as numpy does for fewer than eight numbers. -/
def sumLeft : List B64 → B64
  | [] => zero
  | x :: xs => xs.foldl add x

end B64
end Arctic
