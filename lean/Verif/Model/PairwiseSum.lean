import Verif.Model.Binary64

/-!
# `np.sum`

numpy adds eight and more doubles in an order of its own (`pairwise_sum` in its `loops_utils.h.src`). numpy is not part of
/repo; the theorems that use these definitions hold for every order of addition (`Verif.Lemmas.FloatOrder`), and
`sumPairwise` shows that the order of numpy is among them.
-/

namespace Arctic.B64

/-- `out` is the result of adding the numbers of a list in some order, with any placing of parentheses, and possibly zeros
added. -/
inductive Added : List B64 → B64 → Prop
  | zero : Added [] zero
  | negZero : Added [] negZero
  | one (x : B64) : Added [x] x
  | add {l l' : List B64} {a b : B64} : Added l a → Added l' b → Added (l ++ l') (B64.add a b)
  | perm {l l' : List B64} {a : B64} : l.Perm l' → Added l a → Added l' a

/-- A way to add: every order of addition is allowed, and it may depend on the numbers. -/
class AnyOrder (sum : List B64 → B64) : Prop where
  added : ∀ l, Added l (sum l)

/-- The loop over blocks of eight: one running total for every place in the block. -/
def lanes : List B64 → List B64 → List B64
  | r, a :: b :: c :: d :: e :: f :: g :: h :: l => lanes (List.zipWith B64.add r [a, b, c, d, e, f, g, h]) l
  | r, l => match r with
    | [r0, r1, r2, r3, r4, r5, r6, r7] =>
      [l.foldl B64.add (B64.add (B64.add (B64.add r0 r1) (B64.add r2 r3)) (B64.add (B64.add r4 r5) (B64.add r6 r7)))]
    | _ => []

/-- Up to 128 numbers. -/
def sumBlock (l : List B64) : B64 :=
  if l.length < 8 then l.foldl B64.add zero
  else ((lanes (l.take 8) (l.drop 8)).head?).getD zero

/-- `pairwise_sum`: longer lists are cut into two at a multiple of eight. -/
def sumPairwise (l : List B64) : B64 :=
  if h : l.length ≤ 128 then sumBlock l
  else B64.add (sumPairwise (l.take (l.length / 2 - l.length / 2 % 8))) (sumPairwise (l.drop (l.length / 2 - l.length / 2 % 8)))
termination_by l.length
decreasing_by
  · rw [List.length_take]; omega
  · rw [List.length_drop]; omega

end Arctic.B64
