import Verif.Props.Windows
import Mathlib.Algebra.BigOperators.Fin
import Mathlib.Tactic.Linarith

/-!
# C76: time windows of any numbers

Only the first and the last entry of `time_window_range` are used (main.py:170-175, roe.py:445-457), and they need not
be integers: the project's own test passes `[0, 0.25]` and `[0.25, 1]`.  A window from `a` to `b` stands for the
transfers between the times `a` and `b + 1`.
-/

set_option linter.unusedSectionVars false
set_option linter.unusedVariables false

namespace Arctic
open Win

section
variable {K : Type} [Field K] [LinearOrder K] [IsStrictOrderedRing K]

/-- Specification: the length of the part of `[lo, hi]` that lies in `[0, P]`. -/
def overlap (lo hi P : K) : K := max 0 (min hi P - max lo 0)

/-- `x` moved into `[0, s]`, from below first (roe.py:451-452). -/
def clampSpan (s x : K) : K := if (if x < 0 then 0 else x) > s then s else (if x < 0 then 0 else x)

/-- The entries under a time window from `a` to `b` (roe.py:449-455). -/
def spanEntry (m : Mat K) (a b : K) (i j : ℕ) : K :=
  if i = 0 then clampSpan (b - a + 1) (cumsum0 m 0 j - a)
  else clampSpan (b - a + 1) (cumsum0 m i j - a) - clampSpan (b - a + 1) (cumsum0 m (i - 1) j - a)

theorem win_restrict_eq (m : Mat K) (tw : List K) (a b : K) (ha : tw.head? = some a) (hb : tw.getLast? = some b) :
    Win.restrictTimeSpan m (some tw) = .ok { m with e := spanEntry m a b } := by
  simp only [Win.restrictTimeSpan, ha, hb]
  rfl

theorem sum_telescope (c : ℕ → K) (n : ℕ) : ∑ i ∈ Finset.range (n + 1), (if i = 0 then c 0 else c i - c (i - 1)) = c n := by
  induction n with
  | zero => simp
  | succ n ih =>
    rw [Finset.sum_range_succ, ih, if_neg (by omega), Nat.add_sub_cancel]
    ring

/-- Inversion of a call with a window of natural numbers and any time window. -/
theorem win_roeExpress_nat {ef i : Bool} {w : List ℕ} {e o : ℕ} {tw : Option (List K)} {m : Mat K} {mon : Mat Bool}
    (h : Win.roeExpress (K := K) ef i (ints w) e o tw = .ok (m, mon)) :
    ∃ a, w.max? = some a ∧ ¬ ShortMatrix ef w e ∧
      ∃ r, Win.restrictTimeSpan (expressFull (K := K) ef i (a + 1) e o) tw = .ok r ∧
        m = ⟨r.nr, w.length, fun k j => r.e k (w.getD j 0 + o)⟩ := by
  unfold Win.roeExpress at h
  rw [ints_max?] at h
  cases hw : w.max? with
  | none => rw [hw] at h; cases h
  | some a =>
    rw [hw] at h
    simp only [Option.map_some] at h
    have hx := expressFull_nat (K := K) ef i (a + 1) e o (by omega)
    push_cast at hx
    rw [hx] at h
    obtain ⟨full, h0, h⟩ := bind_eq_ok h
    injection h0 with h0
    subst h0
    obtain ⟨mon', h1, h⟩ := bind_eq_ok h
    obtain ⟨r, h2, h⟩ := bind_eq_ok h
    obtain ⟨m', h3, h⟩ := bind_eq_ok h
    injection h with h
    injection h with h4 h5
    subst h4 h5
    rw [selectCols_ints] at h1 h3
    have hs : ¬ ShortMatrix ef w e := by
      intro hs
      have hn := (short_iff (o := o) hw).2 hs
      unfold Arctic.selectCols at h1
      split at h1
      · rename_i hall
        rw [List.all_eq_true] at hall
        have := hall a (List.max?_mem hw)
        rw [decide_eq_true_eq] at this
        change a < (expressFull (K := K) ef i (a + 1) e o).nc - o at this
        rw [expressFull_nc ef i (a + 1) e o (by omega), if_pos hn] at this
        omega
      · cases h1
    refine ⟨a, rfl, hs, r, h2, ?_⟩
    unfold Arctic.selectCols at h3
    split at h3
    · injection h3 with h3
      rw [← h3]
      rfl
    · cases h3

/-- The number of transfers given to a pixel by a time window from `a` to `b`, whatever these numbers are. -/
theorem C76_total (ef i : Bool) (w : List ℕ) (e o : ℕ) (tw : List K) (a b : K) (ha : tw.head? = some a)
    (hb : tw.getLast? = some b) (m : Mat K) (mon : Mat Bool)
    (h : Win.roeExpress ef i (ints w) e o (some tw) = .ok (m, mon)) (j : ℕ) (hj : j < w.length) :
    ∑ k ∈ Finset.range m.nr, m.e k j = clampSpan (b - a + 1) ((w[j] : K) + o + 1 - a) := by
  obtain ⟨x, hw, hs, r, hr, rfl⟩ := win_roeExpress_nat h
  rw [win_restrict_eq _ tw a b ha hb] at hr
  injection hr with hr
  have hx := fun hc => hs ((short_iff (o := o) hw).1 hc)
  have hle : w[j] ≤ x := (max?_spec hw).2 _ (List.getElem_mem hj)
  have hsum := sum_expressFull (K := K) ef i (x + 1) e o (w[j] + o) (by omega) (by omega) hx
  have hnr : 0 < (expressFull (K := K) ef i (x + 1) e o).nr := by
    by_contra hc
    have hz : (expressFull (K := K) ef i (x + 1) e o).nr = 0 := by omega
    rw [hz] at hsum
    simp only [Finset.range_zero, Finset.sum_empty] at hsum
    have : (0 : K) < ((w[j] + o : ℕ) : K) + 1 := by positivity
    linarith
  obtain ⟨n, hn⟩ : ∃ n, (expressFull (K := K) ef i (x + 1) e o).nr = n + 1 := ⟨_, (Nat.succ_pred_eq_of_pos hnr).symm⟩
  rw [← hr]
  simp only
  rw [List.getD_eq_getElem _ _ hj, hn]
  unfold spanEntry
  rw [sum_telescope (fun k => clampSpan (b - a + 1) (cumsum0 (expressFull (K := K) ef i (x + 1) e o) k (w[j] + o) - a)) n]
  rw [cumsum0_eq, ← hn, hsum]
  push_cast
  rfl

/-- **C76**. A time window whose entries start with `a ≥ 0` and end with `b`, integers or not, gives every pixel the
transfers between the times `a` and `b + 1`, out of the `row + offset + 1` transfers that the pixel undergoes. -/
theorem C76_transfers (ef i : Bool) (w : List ℕ) (e o : ℕ) (tw : List K) (a b : K) (ha : tw.head? = some a)
    (hb : tw.getLast? = some b) (h0 : 0 ≤ a) (hab : a ≤ b + 1) (m : Mat K) (mon : Mat Bool)
    (h : Win.roeExpress ef i (ints w) e o (some tw) = .ok (m, mon)) (j : ℕ) (hj : j < w.length) :
    ∑ k ∈ Finset.range m.nr, m.e k j = overlap a (b + 1) ((w[j] : K) + o + 1) := by
  rw [C76_total ef i w e o tw a b ha hb m mon h j hj]
  have hP : (0 : K) ≤ (w[j] : K) + o + 1 := by positivity
  generalize (w[j] : K) + o + 1 = P at hP ⊢
  unfold overlap clampSpan
  rw [max_eq_left h0]
  by_cases h1 : P - a < 0
  · rw [if_pos h1, if_neg (by linarith), max_eq_left]
    have := min_le_right (b + 1) P
    linarith
  · rw [if_neg h1]
    by_cases h2 : P - a > b - a + 1
    · rw [if_pos h2, min_eq_left (by linarith), max_eq_right (by linarith)]; ring
    · rw [if_neg h2, min_eq_right (by linarith), max_eq_right (by linarith)]

/-- **C76** is false for a window that starts before the readout: `range(-5, n)` adds five transfers to every pixel that
the readout does not have. -/
theorem C76_negative_start_false (ef i : Bool) (w : List ℕ) (e o : ℕ) (tw : List K) (a b : K)
    (ha : tw.head? = some a) (hb : tw.getLast? = some b) (h0 : a < 0) (m : Mat K) (mon : Mat Bool)
    (h : Win.roeExpress ef i (ints w) e o (some tw) = .ok (m, mon)) (j : ℕ) (hj : j < w.length)
    (hcov : (w[j] : K) + o ≤ b) :
    ∑ k ∈ Finset.range m.nr, m.e k j = ((w[j] : K) + o + 1) + |a| ∧
      overlap a (b + 1) ((w[j] : K) + o + 1) = (w[j] : K) + o + 1 := by
  rw [C76_total ef i w e o tw a b ha hb m mon h j hj]
  have hP : (0 : K) ≤ (w[j] : K) + o := by positivity
  generalize (w[j] : K) + o = P at hP hcov ⊢
  constructor
  · unfold clampSpan
    rw [if_neg (by linarith : ¬ P + 1 - a < 0), if_neg (by linarith), abs_of_neg h0]
    ring
  · unfold overlap
    rw [max_eq_right h0.le, min_eq_right (by linarith), sub_zero, max_eq_right (by linarith)]

theorem clampSpan_split (a b c x : K) (h1 : a ≤ b) (h2 : b ≤ c) :
    clampSpan (b - a) (x - a) + clampSpan (c - b) (x - b) = clampSpan (c - a) (x - a) := by
  unfold clampSpan
  split_ifs <;> linarith

/-- **C76**. Windows fit together if the second starts one after the end of the first, as consecutive `range`s do: entry
by entry. -/
theorem C76_consecutive (ef i : Bool) (w : List ℕ) (e o : ℕ) (t₁ t₂ t₃ : List K) (a b c : K)
    (ha : t₁.head? = some a) (hb : t₁.getLast? = some b) (hb' : t₂.head? = some (b + 1)) (hc : t₂.getLast? = some c)
    (ha' : t₃.head? = some a) (hc' : t₃.getLast? = some c) (hab : a ≤ b + 1) (hbc : b ≤ c)
    (m₁ m₂ m₃ : Mat K) (mon₁ mon₂ mon₃ : Mat Bool)
    (h₁ : Win.roeExpress ef i (ints w) e o (some t₁) = .ok (m₁, mon₁))
    (h₂ : Win.roeExpress ef i (ints w) e o (some t₂) = .ok (m₂, mon₂))
    (h₃ : Win.roeExpress ef i (ints w) e o (some t₃) = .ok (m₃, mon₃)) (k j : ℕ) :
    m₁.e k j + m₂.e k j = m₃.e k j := by
  obtain ⟨x, hw, hs, r₁, hr₁, rfl⟩ := win_roeExpress_nat h₁
  obtain ⟨x', hw', -, r₂, hr₂, rfl⟩ := win_roeExpress_nat h₂
  obtain ⟨x'', hw'', -, r₃, hr₃, rfl⟩ := win_roeExpress_nat h₃
  obtain rfl : x = x' := by rw [hw] at hw'; simpa using hw'
  obtain rfl : x = x'' := by rw [hw] at hw''; simpa using hw''
  rw [win_restrict_eq _ t₁ a b ha hb] at hr₁
  rw [win_restrict_eq _ t₂ (b + 1) c hb' hc] at hr₂
  rw [win_restrict_eq _ t₃ a c ha' hc'] at hr₃
  injection hr₁ with hr₁
  injection hr₂ with hr₂
  injection hr₃ with hr₃
  subst hr₁ hr₂ hr₃
  simp only [spanEntry]
  have key : ∀ y : K, clampSpan (b - a + 1) (y - a) + clampSpan (c - (b + 1) + 1) (y - (b + 1)) =
      clampSpan (c - a + 1) (y - a) := by
    intro y
    have := clampSpan_split a (b + 1) (c + 1) y hab (by linarith)
    rw [show b - a + 1 = b + 1 - a by ring, show c - (b + 1) + 1 = c + 1 - (b + 1) by ring,
      show c - a + 1 = c + 1 - a by ring]
    exact this
  split
  · exact key _
  · rw [← key, ← key]; ring

/-- **C76** is false for windows that share their end: the transfer between `b` and `b + 1` is made in both calls. -/
theorem C76_shared_end_false (ef i : Bool) (w : List ℕ) (e o : ℕ) (t₁ t₂ : List K) (a b c : K)
    (ha : t₁.head? = some a) (hb : t₁.getLast? = some b) (hb' : t₂.head? = some b) (hc : t₂.getLast? = some c)
    (h0 : 0 ≤ a) (hab : a ≤ b) (hbc : b ≤ c) (m₁ m₂ : Mat K) (mon₁ mon₂ : Mat Bool)
    (h₁ : Win.roeExpress ef i (ints w) e o (some t₁) = .ok (m₁, mon₁))
    (h₂ : Win.roeExpress ef i (ints w) e o (some t₂) = .ok (m₂, mon₂)) (j : ℕ) (hj : j < w.length) :
    ∑ k ∈ Finset.range m₁.nr, m₁.e k j + ∑ k ∈ Finset.range m₂.nr, m₂.e k j =
      overlap a (c + 1) ((w[j] : K) + o + 1) + overlap b (b + 1) ((w[j] : K) + o + 1) := by
  rw [C76_transfers ef i w e o t₁ a b ha hb h0 (by linarith) m₁ mon₁ h₁ j hj,
    C76_transfers ef i w e o t₂ b c hb' hc (by linarith) (by linarith) m₂ mon₂ h₂ j hj]
  have hP : (0 : K) ≤ (w[j] : K) + o + 1 := by positivity
  generalize (w[j] : K) + o + 1 = P at hP ⊢
  unfold overlap
  rw [max_eq_left h0, max_eq_left (h0.trans hab)]
  rcases le_total P a with h | h
  · rw [min_eq_right (by linarith), min_eq_right (by linarith), max_eq_left (by linarith), max_eq_left (by linarith)]
  rcases le_total P b with h' | h'
  · rw [min_eq_right (by linarith), min_eq_right (by linarith), max_eq_left (by linarith : P - b ≤ 0)]
  rcases le_total P (b + 1) with h1 | h1
  · rw [min_eq_right h1, min_eq_right (by linarith)]
  · rw [min_eq_left h1, max_eq_right (by linarith : (0 : K) ≤ b + 1 - a), max_eq_right (by linarith : (0 : K) ≤ b + 1 - b)]
    rcases le_total P (c + 1) with h2 | h2
    · rw [min_eq_right h2, max_eq_right (by linarith), max_eq_right (by linarith)]; ring
    · rw [min_eq_left h2, max_eq_right (by linarith), max_eq_right (by linarith)]; ring

/-- **C76** is false for fractions of the readout, as the project's `test__split_parallel_and_serial_readout_by_time`
uses them: the windows `[0, s]` and `[s, 1]` together make two transfers and one of them twice — no pixel gets more than
three, however large the image. -/
theorem C76_fractions_false (ef i : Bool) (w : List ℕ) (e o : ℕ) (s : K) (h0 : 0 ≤ s) (h1 : s ≤ 1)
    (m₁ m₂ : Mat K) (mon₁ mon₂ : Mat Bool)
    (h₁ : Win.roeExpress ef i (ints w) e o (some [0, s]) = .ok (m₁, mon₁))
    (h₂ : Win.roeExpress ef i (ints w) e o (some [s, 1]) = .ok (m₂, mon₂)) (j : ℕ) (hj : j < w.length) :
    (∑ k ∈ Finset.range m₁.nr, m₁.e k j + ∑ k ∈ Finset.range m₂.nr, m₂.e k j =
      overlap 0 2 ((w[j] : K) + o + 1) + overlap s (s + 1) ((w[j] : K) + o + 1)) ∧
    ∑ k ∈ Finset.range m₁.nr, m₁.e k j + ∑ k ∈ Finset.range m₂.nr, m₂.e k j ≤ 3 := by
  have h := C76_shared_end_false ef i w e o [0, s] [s, 1] 0 s 1 rfl rfl rfl rfl le_rfl h0 h1 m₁ m₂ mon₁ mon₂ h₁ h₂ j hj
  rw [show (1 : K) + 1 = 2 by norm_num] at h
  refine ⟨h, ?_⟩
  rw [h]
  have hP : (0 : K) ≤ (w[j] : K) + o + 1 := by positivity
  generalize (w[j] : K) + o + 1 = P at hP ⊢
  have b1 : overlap 0 2 P ≤ 2 := by
    unfold overlap
    rw [max_self, sub_zero]
    exact max_le (by norm_num) (min_le_left _ _)
  have b2 : overlap s (s + 1) P ≤ 1 := by
    unfold overlap
    rw [max_eq_left h0]
    refine max_le (by norm_num) ?_
    have := min_le_left (s + 1) P
    linarith
  linarith

/-! ## Serial clocking under a time window of fractions -/

variable [FloorRing K]

theorem pyInt_frac (s : K) (h0 : 0 ≤ s) (h1 : s < 1) : Win.pyInt s = 0 := by
  unfold Win.pyInt
  rw [if_pos h0, Int.floor_eq_iff]
  simp only [Int.cast_zero, zero_add]
  exact ⟨h0, h1⟩

/-- **C76** is false for fractions and serial clocking: under `[0, s]` with `s < 1` only row 0 is clocked serially. -/
theorem C76_serial_first_false (img : Image K) (d : Direction K) (s : K) (h0 : 0 ≤ s) (h1 : s < 1) (hr : 2 ≤ img.nr) :
    Win.addCti img none 0 .all (some d) .all (some [0, s]) = Arctic.addCti img none 0 (.pixel 0) (some d) .all none := by
  have hs : Win.serialColumns ((List.range img.nr).map fun (i : ℕ) => (i : ℤ)) [0, s] 0 = .ok [0] := by
    unfold Win.serialColumns
    rw [List.head?_map, List.getLast?_map, List.head?_range, List.getLast?_range, if_neg (by omega), if_neg (by omega)]
    simp only [Option.map_some, List.head?_cons, List.getLast?_cons_cons, List.getLast?_singleton]
    have e1 : max ((((0 : ℕ) : ℤ) : K)) (0 - ((0 : ℕ) : K)) = (((0 : ℤ) : ℤ) : K) := by simp
    have e2 : min (((((img.nr - 1 : ℕ) : ℕ) : ℤ) : K)) (s - ((0 : ℕ) : K)) = s := by
      rw [Nat.cast_zero, sub_zero, min_eq_right]
      have : (1 : K) ≤ ((img.nr - 1 : ℕ) : K) := by exact_mod_cast (by omega : 1 ≤ img.nr - 1)
      push_cast
      linarith
    rw [e1, e2, pyInt_int, pyInt_frac s h0 h1]
    rfl
  have := C75_natural img none (some d) 0 (.pixel 0) .all none
  rw [← this]
  unfold Win.addCti ZWindow.ofNat ZWindow.resolve
  simp only [bind, Except.bind, Option.map_none]
  rw [hs]
  rfl

/-- … and under `[s, 1]` the rows 0 and 1: row 0 is clocked in both calls, all further rows in none. -/
theorem C76_serial_second_false (img : Image K) (d : Direction K) (s : K) (h0 : 0 ≤ s) (h1 : s < 1) (hr : 2 ≤ img.nr) :
    Win.addCti img none 0 .all (some d) .all (some [s, 1]) =
      Arctic.addCti img none 0 (.range [0, 1]) (some d) .all none := by
  have hs : Win.serialColumns ((List.range img.nr).map fun (i : ℕ) => (i : ℤ)) [s, 1] 0 = .ok [0, 1] := by
    unfold Win.serialColumns
    rw [List.head?_map, List.getLast?_map, List.head?_range, List.getLast?_range, if_neg (by omega), if_neg (by omega)]
    simp only [Option.map_some, List.head?_cons, List.getLast?_cons_cons, List.getLast?_singleton]
    have e1 : max ((((0 : ℕ) : ℤ) : K)) (s - ((0 : ℕ) : K)) = s := by simp [h0]
    have e2 : min (((((img.nr - 1 : ℕ) : ℕ) : ℤ) : K)) (1 - ((0 : ℕ) : K)) = (((1 : ℤ) : ℤ) : K) := by
      rw [Nat.cast_zero, sub_zero, min_eq_right]
      · simp
      · have : (1 : K) ≤ ((img.nr - 1 : ℕ) : K) := by exact_mod_cast (by omega : 1 ≤ img.nr - 1)
        push_cast
        linarith
    rw [e1, e2, pyInt_int, pyInt_frac s h0 h1]
    rfl
  have := C75_natural img none (some d) 0 (.range [0, 1]) .all none
  rw [← this]
  unfold Win.addCti ZWindow.ofNat ZWindow.resolve
  simp only [bind, Except.bind, Option.map_none]
  rw [hs]
  rfl

end

/-! ## Examples -/

/-- The matrix of four rows under a time window: the entries of each pass, and the sum of each column. -/
def exSpan (tw : List ℚ) : Except Err (List (List ℚ) × List ℚ) :=
  (Win.roeExpress true false [0, 1, 2, 3] 0 0 (some tw)).map fun r =>
    ((List.range r.1.nr).map fun k => (List.range 4).map fun j => r.1.e k j,
     (List.range 4).map fun j => ((List.range r.1.nr).map fun k => r.1.e k j).sum)

example : (exSpan [0, 1, 2, 3]).map Prod.snd = .ok [1, 2, 3, 4] := by decide +kernel
example : (exSpan [1 / 2, 3 / 2]).map Prod.snd = .ok [1 / 2, 3 / 2, 2, 2] := by decide +kernel
example : (exSpan [0, 1 / 4]).map Prod.snd = .ok [1, 5 / 4, 5 / 4, 5 / 4] := by decide +kernel
example : (exSpan [1 / 4, 1]).map Prod.snd = .ok [3 / 4, 7 / 4, 7 / 4, 7 / 4] := by decide +kernel
example : (exSpan [5 / 4, 3]).map Prod.snd = .ok [0, 3 / 4, 7 / 4, 11 / 4] := by decide +kernel
example : (exSpan [-5, 3]).map Prod.snd = .ok [6, 7, 8, 9] := by decide +kernel
example : overlap (1 / 2 : ℚ) (5 / 2) 2 = 3 / 2 := by decide +kernel

end Arctic
