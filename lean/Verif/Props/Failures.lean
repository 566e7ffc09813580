import Verif.Model.Failures
import Verif.Props.RoeObject
import Verif.Props.Windows

/-!
# C77: the readout objects after a call that raises
-/

set_option linter.unusedSectionVars false
set_option linter.unusedVariables false

namespace Arctic

variable {K : Type} [Field K] [LinearOrder K] [IsStrictOrderedRing K]

/-- Do the call; the result and the readout objects afterwards, whether it returned or raised. -/
def Call.runAfter (heap : Heap K) (c : Call K) : Except Err (Image K) × Heap K :=
  addCtiAfter c.img heap c.par c.offset c.parWindow c.ser c.serWindow c.timeWindow

/-! ## One direction -/

theorem express_entered {r r' : Roe K} {rows : List ℕ} {e o : ℕ} {tw : Option (List ℕ)} {m : Mat K} {mon : Mat Bool}
    (h : r.express rows e o tw = .ok (m, mon, r')) : r' = r.entered rows o := by
  rcases (express_attrs r r' rows e o tw m mon h).2.2.2.2 with rfl | ⟨d, eb, f, i, n, rfl, rfl⟩
  · unfold Roe.entered
    split
    · rename_i d b f i
      unfold Roe.express at h
      obtain ⟨x, -, h⟩ := bind_eq_ok h
      simp only [Except.ok.injEq, Prod.mk.injEq] at h
      cases h.2.2
    · rfl
  · unfold Roe.express at h
    obtain ⟨⟨⟨m1, mon1⟩, n'⟩, h1, h⟩ := bind_eq_ok h
    simp only [Except.ok.injEq, Prod.mk.injEq, Roe.injection.injEq, Option.some.injEq] at h
    obtain ⟨-, -, -, rfl, -⟩ := h
    unfold injectionExpress nPixelsOfWindow at h1
    unfold Roe.entered
    cases hm : rows.max? with
    | none => rw [hm] at h1; cases h1
    | some a =>
      rw [hm] at h1
      simp only [bind, Except.bind] at h1
      split at h1
      · cases h1
      split at h1
      · cases h1
      split at h1
      · cases h1
      · simp only [Except.ok.injEq, Prod.mk.injEq, Option.getD_none] at h1
        simp only [← h1.2]

theorem clockChargeObj_entered {img out : Image K} {ccd : CcdView K} {obj obj' : RoeObj K} {groups : List (Group K)}
    {e o : ℕ} {rows columns : List ℕ} {tw : Option (List ℕ)}
    (h : clockChargeObj img ccd obj groups e o rows columns tw = .ok (out, obj')) :
    obj' = { obj with attrs := obj.attrs.entered rows o } := by
  unfold clockChargeObj at h
  obtain ⟨⟨cfg, o'⟩, h1, h⟩ := bind_eq_ok h
  simp only at h
  obtain ⟨st, h2, h⟩ := bind_eq_ok h
  simp only [Except.ok.injEq, Prod.mk.injEq] at h
  obtain ⟨-, rfl⟩ := h
  unfold clockCfgObj at h1
  obtain ⟨⟨m, mon, r'⟩, f1, h1⟩ := bind_eq_ok h1
  simp only at h1
  obtain ⟨sv, f2, h1⟩ := bind_eq_ok h1
  simp only [Except.ok.injEq, Prod.mk.injEq] at h1
  obtain ⟨-, rfl⟩ := h1
  rw [express_entered f1]

theorem entered_settled {r : Roe K} (h : r.Settled) (rows : List ℕ) (o : ℕ) : r.entered rows o = r := by
  unfold Roe.entered
  split
  · exact h.elim
  · rfl

/-- What a call may do to a readout object: nothing, or store `n_pixel_transfers` where there was none. -/
def RoeObj.MayBecome (x y : RoeObj K) : Prop :=
  y = x ∨ ∃ d n b f i, x.attrs = .injection d none b f i ∧ y = { x with attrs := .injection d (some n) b f i }

theorem entered_mayBecome (x : RoeObj K) (rows : List ℕ) (o : ℕ) :
    x.MayBecome { x with attrs := x.attrs.entered rows o } := by
  obtain ⟨r, eb, cs, ac⟩ := x
  unfold Roe.entered
  dsimp only
  split
  · rename_i d b f i
    split
    · rename_i a ha
      exact Or.inr ⟨d, _, b, f, i, rfl, rfl⟩
    · exact Or.inl rfl
  · exact Or.inl rfl

theorem RoeObj.MayBecome.trans {x y z : RoeObj K} (h1 : x.MayBecome y) (h2 : y.MayBecome z) : x.MayBecome z := by
  rcases h1 with rfl | ⟨d, n, b, f, i, e1, rfl⟩
  · exact h2
  · rcases h2 with rfl | ⟨d', n', b', f', i', e2, rfl⟩
    · exact Or.inr ⟨d, n, b, f, i, e1, rfl⟩
    · cases e2

/-! ## A call -/

/-- **C77**: what is said here of a call is what `addCtiHeap` says of it: the same image or the same exception, and after
a call that returns the same objects. -/
theorem C77_agree (heap : Heap K) (c : Call K) :
    (c.runAfter heap).1 = (c.run heap).map Prod.fst ∧
      ∀ out heap', c.run heap = .ok (out, heap') → (c.runAfter heap).2 = heap' := by
  obtain ⟨img, par, o, pw, ser, sw, tw⟩ := c
  -- one direction, for any continuation
  have key : ∀ (img : Image K) (ccd : CcdView K) (obj : RoeObj K) (gs : List (Group K)) (e o : ℕ) (rows cols : List ℕ)
      (tw : Option (List ℕ)),
      (∃ er, clockChargeObj img ccd obj gs e o rows cols tw = .error er ∧
        (clockChargeAfter img ccd obj gs e o rows cols tw).1 = .error er) ∨
      ∃ out, clockChargeObj img ccd obj gs e o rows cols tw =
          .ok (out, (clockChargeAfter img ccd obj gs e o rows cols tw).2) ∧
        (clockChargeAfter img ccd obj gs e o rows cols tw).1 = .ok out := by
    intro img ccd obj gs e o rows cols tw
    unfold clockChargeAfter
    cases h : clockChargeObj img ccd obj gs e o rows cols tw with
    | error er => exact Or.inl ⟨er, rfl, rfl⟩
    | ok x => exact Or.inr ⟨x.1, by rw [← clockChargeObj_entered h], rfl⟩
  unfold Call.runAfter Call.run addCtiAfter addCtiHeap
  simp only [bind, Except.bind]
  rcases tw with - | t
  on_goal 2 => rcases hsc : serialColumns (pw.resolve img.nr) t o with er | cols
  on_goal 2 => simp only [hsc]; exact ⟨rfl, fun _ _ h => by cases h⟩
  on_goal 2 => simp only [hsc]
  all_goals
    rcases par with - | dp
    · rcases ser with - | ds
      · exact ⟨rfl, fun _ _ h => by cases h; rfl⟩
      · dsimp only
        rcases key img.transpose ds.ccd (heap ds.roe) ds.groups ds.express ds.offset (sw.resolve img.nc) _ none with
          ⟨er, h1, h2⟩ | ⟨out, h1, h2⟩
        · rw [h1, h2]; exact ⟨rfl, fun _ _ h => by cases h⟩
        · rw [h1, h2]; exact ⟨rfl, fun _ _ h => by cases h; rfl⟩
    · dsimp only
      rcases key img dp.ccd (heap dp.roe) dp.groups dp.express o (pw.resolve img.nr) (sw.resolve img.nc) (some _) with
        ⟨er, h1, h2⟩ | ⟨out, h1, h2⟩
      · rw [h1, h2]; exact ⟨rfl, fun _ _ h => by cases h⟩
      · rw [h1, h2]
        rcases ser with - | ds
        · exact ⟨rfl, fun _ _ h => by cases h; rfl⟩
        · dsimp only
          rcases key out.transpose ds.ccd (Function.update heap dp.roe (clockChargeAfter img dp.ccd (heap dp.roe)
            dp.groups dp.express o (pw.resolve img.nr) (sw.resolve img.nc) (some _)).2 ds.roe) ds.groups ds.express
            ds.offset (sw.resolve img.nc) _ none with ⟨er, h3, h4⟩ | ⟨out', h3, h4⟩
          · rw [h3, h4]; exact ⟨rfl, fun _ _ h => by cases h⟩
          · rw [h3, h4]; exact ⟨rfl, fun _ _ h => by cases h; rfl⟩

/-- **C77**, what a call may change at most, whether it returns or raises: it stores `n_pixel_transfers` in charge
injection objects without it that were given to this call. -/
theorem C77_at_most (heap : Heap K) (c : Call K) (q : ℕ) :
    (heap q).MayBecome ((c.runAfter heap).2 q) ∧
      ((∀ d ∈ c.par, d.roe ≠ q) → (∀ d ∈ c.ser, d.roe ≠ q) → (c.runAfter heap).2 q = heap q) := by
  obtain ⟨img, par, o, pw, ser, sw, tw⟩ := c
  -- storing what one direction leaves
  have key : ∀ (h : Heap K) (d : RefDirection K) (rows : List ℕ) (o : ℕ),
      (h q).MayBecome (Function.update h d.roe { h d.roe with attrs := (h d.roe).attrs.entered rows o } q) ∧
      (d.roe ≠ q → Function.update h d.roe { h d.roe with attrs := (h d.roe).attrs.entered rows o } q = h q) := by
    intro h d rows o
    by_cases e : d.roe = q
    · subst e
      rw [Function.update_self]
      exact ⟨entered_mayBecome _ _ _, fun h => absurd rfl h⟩
    · rw [Function.update_of_ne (Ne.symm e)]
      exact ⟨Or.inl rfl, fun _ => rfl⟩
  unfold Call.runAfter addCtiAfter
  dsimp only
  rcases tw with - | t
  on_goal 2 => rcases hsc : serialColumns (pw.resolve img.nr) t o with er | cols
  on_goal 2 => simp only [hsc]; exact ⟨Or.inl rfl, fun _ _ => trivial⟩
  on_goal 2 => simp only [hsc]
  all_goals
    rcases par with - | dp
    · rcases ser with - | ds
      · exact ⟨Or.inl rfl, fun _ _ => rfl⟩
      · exact ⟨(key heap ds _ _).1, fun _ h => (key heap ds _ _).2 (h ds rfl)⟩
    · have k1 := key heap dp (pw.resolve img.nr) o
      dsimp only
      split
      · exact ⟨k1.1, fun h _ => k1.2 (h dp rfl)⟩
      · exact ⟨k1.1, fun h _ => k1.2 (h dp rfl)⟩
      · rename_i ds _
        have k2 := key (Function.update heap dp.roe { heap dp.roe with
          attrs := (heap dp.roe).attrs.entered (pw.resolve img.nr) o }) ds (sw.resolve img.nc) ds.offset
        exact ⟨k1.1.trans k2.1, fun h1 h2 => (k2.2 (h2 ds rfl)).trans (k1.2 (h1 dp rfl))⟩

/-- **C77**: a call leaves every readout object as it was, whether it returns or raises, unless one is charge injection
without `n_pixel_transfers`. -/
theorem C77_unchanged (heap : Heap K) (c : Call K) (hset : ∀ r, (heap r).attrs.Settled) : (c.runAfter heap).2 = heap := by
  funext q
  rcases (C77_at_most heap c q).1 with h | ⟨d, n, b, f, i, h, -⟩
  · exact h
  · have := hset q
    rw [h] at this
    exact this.elim

/-- **C77**: the result of a call does not depend on the calls made before, even if some of them raised and the program
caught the exceptions. -/
theorem C77_history (heap : Heap K) (calls : List (Call K)) (hset : ∀ r, (heap r).attrs.Settled) (c : Call K) :
    c.runAfter (calls.foldl (fun hp (c : Call K) => (c.runAfter hp).2) heap) = c.runAfter heap := by
  have key : calls.foldl (fun hp (c : Call K) => (c.runAfter hp).2) heap = heap := by
    induction calls with
    | nil => rfl
    | cons a l ih => rw [List.foldl_cons, C77_unchanged heap a hset, ih]
  rw [key]

/-- **C77**, for one object, whatever the others are: an object that has its number of transfers keeps it. -/
theorem C77_once (heap : Heap K) (c : Call K) (q : ℕ) (hs : (heap q).attrs.Settled) : (c.runAfter heap).2 q = heap q := by
  rcases (C77_at_most heap c q).1 with h | ⟨d, n, b, f, i, h, -⟩
  · exact h
  · rw [h] at hs
    exact hs.elim

/-! ## Examples and charge injection -/

/-- The attribute `n_pixel_transfers`. -/
def Roe.nPixelTransfers : Roe K → Option ℕ
  | .injection _ n _ _ _ => n
  | _ => none

/-- A call with the object `0` for the parallel direction, on an image of three rows. -/
def exCall3 (w : Window) : Call ℚ :=
  ⟨exImg 3 1 [[40], [80], [10]], some ⟨exCcd, 0, [exGroup], 0, 0⟩, 0, w, none, .all, none⟩

/-- Settled objects and a call that raises after the matrices were computed (an injection of rows `1, 2` only). -/
example :
    let heap : Heap ℚ := fun _ => .init (.injection [1] (some 3) true true false)
    (((exCall3 (.range [1, 2])).runAfter heap).1.map Image.rows = .error .indexError) ∧
      ∀ r, (heap r).attrs.Settled := ⟨by decide +kernel, fun _ => trivial⟩

/-- **C77** is *false* for charge injection without `n_pixel_transfers`: a call that raises `IndexError` leaves the number
of transfers of its own window behind. The same call on the whole image then makes two transfers instead of three. -/
theorem C77_injection_false :
    let heap : Heap ℚ := fun _ => .init (.injection [1] none true true false)
    let failed := (exCall3 (.pixel 1)).runAfter heap
    failed.1.map Image.rows = .error .indexError ∧
    (failed.2 0).attrs.nPixelTransfers = some 2 ∧
    ((exCall3 .all).runAfter heap).1.map Image.rows = .ok [[729 / 25], [33777 / 500], [1525643 / 80000]] ∧
    ((exCall3 .all).runAfter failed.2).1.map Image.rows = .ok [[162 / 5], [1791 / 25], [13129 / 800]] := by
  refine ⟨by decide +kernel, by decide +kernel, by decide +kernel, by decide +kernel⟩

/-- **C77** is *false* in the same way for windows that count from the end: if the last row is given as `-1`, or any window
whose largest number is `a < 0` with `a + offset < 0`, the number stored is not positive. From then on the object cannot be
used any more: every call raises, whatever the window, express, offset and time window. -/
theorem C77_poison_false (i : Bool) (window : List ℤ) (offset : ℕ) (a : ℤ) (ha : window.max? = some a) (hn : a + offset < 0) :
    ∃ n : ℤ, Win.storedTransfers none window offset = some n ∧ n ≤ 0 ∧
      ∀ (w : List ℤ) (e o : ℕ) (tw : Option (List K)),
        Win.injectionExpress (K := K) i (some n) w e o tw = .error .valueError ∨
        Win.injectionExpress (K := K) i (some n) w e o tw = .error .zeroDivisionError := by
  refine ⟨a + 1 + offset, by simp [Win.storedTransfers, ha], by omega, fun w e o tw => ?_⟩
  unfold Win.injectionExpress
  cases w.max? with
  | none => exact Or.inl rfl
  | some b =>
    simp only [Option.getD_some]
    generalize hx : (if e = 0 then a + 1 + (offset : ℤ) else min (e : ℤ) (a + 1 + offset)) = x
    have hx0 : x ≤ 0 := by
      rw [← hx]
      split
      · omega
      · exact (min_le_right _ _).trans (by omega)
    by_cases h1 : x < 0 ∨ b + 1 < 0
    · rw [if_pos h1]; exact Or.inl rfl
    · rw [if_neg h1, if_pos (by omega)]; exact Or.inr rfl

/-- The same object not used before clocks such an image well (three transfers). -/
example : Win.storedTransfers none [-1] 0 = some 0 ∧
    (Win.injectionExpress (K := ℚ) false none [0, 1, 2] 0 0 none).toBool = true ∧
    (Win.injectionExpress (K := ℚ) false (some 0) [0, 1, 2] 0 0 none).toBool = false := by decide +kernel

end Arctic
