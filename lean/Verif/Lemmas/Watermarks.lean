import Verif.Model.TrapManager
import Mathlib.Data.List.GetD
import Mathlib.Tactic.Ring
import Mathlib.Tactic.Linarith
import Mathlib.Tactic.FieldSimp
import Mathlib.Tactic.Positivity
import Mathlib.Tactic.Set

/-!
# Index-level facts about the watermark helpers
-/

set_option linter.unusedSectionVars false
set_option linter.unusedVariables false

namespace Arctic

variable {K : Type} [Field K] [LinearOrder K] [IsStrictOrderedRing K] {s : ℕ}

/-! ### `roll_2d_vertical_1` -/

theorem rollLoop_spec {α : Type} (arr : List α) (k : ℕ) (hk : k ≤ arr.length - 1) :
    let moved := (List.range' 1 k).foldl
      (fun a i => match a[arr.length - i - 1]? with
        | some r => a.set (arr.length - i) r
        | none => a) arr
    moved.length = arr.length ∧
      ∀ m, moved[m]? = if arr.length - k ≤ m ∧ m < arr.length then arr[m - 1]? else arr[m]? := by
  induction k with
  | zero =>
    refine ⟨rfl, fun m => ?_⟩
    rw [if_neg (by omega)]; rfl
  | succ k ih =>
    have ih := ih (by omega)
    simp only at ih ⊢
    rw [List.range'_concat, List.foldl_append]
    simp only [List.foldl_cons, List.foldl_nil, Nat.one_mul]
    generalize hmv : (List.range' 1 k).foldl
      (fun a i => match a[arr.length - i - 1]? with
        | some r => a.set (arr.length - i) r
        | none => a) arr = mv at ih ⊢
    obtain ⟨hl, hg⟩ := ih
    have hget : mv[arr.length - (1 + k) - 1]? = arr[arr.length - (1 + k) - 1]? := by
      rw [hg, if_neg (by omega)]
    rw [hget]
    have hlt : arr.length - (1 + k) - 1 < arr.length := by omega
    rw [List.getElem?_eq_getElem hlt]
    simp only
    refine ⟨by rw [List.length_set]; exact hl, fun m => ?_⟩
    rw [List.getElem?_set]
    by_cases h1 : arr.length - (1 + k) = m
    · rw [if_pos h1, if_pos (by omega), if_pos (by omega), ← h1,
        List.getElem?_eq_getElem (by omega)]
    · rw [if_neg h1, hg]
      by_cases h2 : arr.length - k ≤ m ∧ m < arr.length
      · rw [if_pos h2, if_pos (by omega)]
      · rw [if_neg h2, if_neg (by omega)]

theorem roll_eq {α : Type} (arr : List α) (h : arr ≠ []) :
    roll2dVertical1 arr = arr.getLast h :: arr.dropLast := by
  unfold roll2dVertical1
  rw [List.getLast?_eq_some_getLast h]
  simp only
  have hs := rollLoop_spec arr (arr.length - 1) le_rfl
  generalize hmv : (List.range' 1 (arr.length - 1)).foldl _ arr = mv
  have hl : mv.length = arr.length := by rw [← hmv]; exact hs.1
  have hg : ∀ m, mv[m]? = if arr.length - (arr.length - 1) ≤ m ∧ m < arr.length then arr[m - 1]?
      else arr[m]? := by rw [← hmv]; exact hs.2
  apply List.ext_getElem?
  intro m
  have hpos : 0 < arr.length := List.length_pos_iff.2 h
  rw [List.getElem?_set, hl, hg]
  cases m with
  | zero => simp [hpos]
  | succ m =>
    rw [if_neg (by omega), List.getElem?_cons_succ, List.getElem?_dropLast]
    by_cases h1 : m < arr.length - 1
    · rw [if_pos h1, if_pos (by omega), Nat.add_sub_cancel]
    · rw [if_neg (by omega), if_neg h1]
      exact List.getElem?_eq_none (by omega)

/-! ### `cy_value_in_cumsum` -/

theorem valueInCumsumLoop_iff (v : K) (as : List K) (t : K) :
    valueInCumsumLoop v t as = true ↔ ∃ i ≤ as.length, v = t + (as.take i).sum := by
  induction as generalizing t with
  | nil =>
    simp only [valueInCumsumLoop, decide_eq_true_eq, List.length_nil, Nat.le_zero]
    constructor
    · rintro rfl; exact ⟨0, rfl, by simp⟩
    · rintro ⟨i, rfl, h⟩; simpa using h
  | cons a as ih =>
    unfold valueInCumsumLoop
    split
    · rename_i h; simp only [true_iff]; exact ⟨0, by simp, by simpa using h⟩
    · rename_i h
      rw [ih]
      constructor
      · rintro ⟨i, hi, e⟩
        refine ⟨i + 1, by simpa using hi, ?_⟩
        rw [List.take_succ_cons, List.sum_cons, e]; ring
      · rintro ⟨i, hi, e⟩
        cases i with
        | zero => simp at e; exact absurd e h
        | succ i =>
          refine ⟨i, by simpa using hi, ?_⟩
          rw [List.take_succ_cons, List.sum_cons] at e; rw [e]; ring

theorem cyValueInCumsum_iff (v : K) (arr : List K) :
    cyValueInCumsum v arr = true ↔ ∃ i < arr.length, v = (arr.take (i + 1)).sum := by
  cases arr with
  | nil => simp [cyValueInCumsum]
  | cons a as =>
    unfold cyValueInCumsum
    rw [valueInCumsumLoop_iff]
    simp only [List.take_succ_cons, List.sum_cons, List.length_cons, Nat.lt_succ_iff]

/-! ### index above the cloud -/

theorem indexAboveLoop_total (cloud : K) (vs : List K) (t : K) (i index : ℕ) :
    (indexAboveLoop cloud vs t i index).1 = t + vs.sum := by
  induction vs generalizing t i index with
  | nil => simp [indexAboveLoop]
  | cons v vs ih => simp only [indexAboveLoop]; rw [ih, List.sum_cons]; ring

/-- The loop keeps the smaller of the initial index and the first level reaching the cloud. -/
theorem indexAboveLoop_index (cloud : K) (vs : List K) (t : K) (i index : ℕ) :
    ((∀ j < vs.length, t + (vs.take (j + 1)).sum < cloud) →
      (indexAboveLoop cloud vs t i index).2 = index) ∧
    (∀ j < vs.length, cloud ≤ t + (vs.take (j + 1)).sum →
      (∀ j' < j, t + (vs.take (j' + 1)).sum < cloud) →
        (indexAboveLoop cloud vs t i index).2 = min index (i + j)) := by
  induction vs generalizing t i index with
  | nil => simp [indexAboveLoop]
  | cons v vs ih =>
    simp only [indexAboveLoop]
    have hs : ∀ j, t + ((v :: vs).take (j + 1)).sum = (t + v) + (vs.take j).sum := by
      intro j; rw [List.take_succ_cons, List.sum_cons]; ring
    constructor
    · intro h
      rw [if_neg]
      · apply (ih _ _ _).1
        intro j hj
        have := h (j + 1) (by simpa using hj)
        rwa [hs] at this
      · have := h 0 (by simp)
        rw [hs] at this
        simpa using this
    · intro j hj hle hlt
      cases j with
      | zero =>
        rw [hs] at hle
        simp only [List.take_zero, List.sum_nil, add_zero] at hle
        rw [if_pos hle, add_zero]
        -- once found, later levels cannot lower the index
        have key : ∀ (vs : List K) (t : K) (i' idx : ℕ), idx ≤ i' →
            (indexAboveLoop cloud vs t i' idx).2 = idx := by
          intro vs
          induction vs with
          | nil => intros; rfl
          | cons v vs ih' =>
            intro t i' idx hidx
            simp only [indexAboveLoop]
            split
            · rw [min_eq_left hidx]; exact ih' _ _ _ (by omega)
            · exact ih' _ _ _ (by omega)
        exact key vs _ _ _ (by omega)
      | succ j =>
        have h0 := hlt 0 (by omega)
        rw [hs] at h0
        simp only [List.take_zero, List.sum_nil, add_zero] at h0
        rw [if_neg (not_le.2 h0)]
        rw [hs] at hle
        rw [(ih (t + v) (i + 1) index).2 j (by simpa using hj) hle]
        · congr 1; omega
        · intro j' hj'
          have := hlt (j' + 1) (by omega)
          rwa [hs] at this

theorem cyIndexAbove_total (cloud : K) (wm : WM K s) (maxIdx : ℤ)
    (h : (wm.map Row.vol).sum < cloud) : cyIndexAbove cloud wm maxIdx = maxIdx + 1 := by
  unfold cyIndexAbove
  have := indexAboveLoop_total cloud (wm.map Row.vol) 0 0 wm.length
  rw [zero_add] at this
  simp only [this]
  rw [if_pos h]

theorem cyIndexAbove_first (cloud : K) (wm : WM K s) (maxIdx : ℤ) (i : ℕ) (hi : i < wm.length)
    (h : cloud ≤ (wm.map Row.vol).sum)
    (h1 : cloud ≤ ((wm.map Row.vol).take (i + 1)).sum)
    (h2 : ∀ j < i, ((wm.map Row.vol).take (j + 1)).sum < cloud) :
    cyIndexAbove cloud wm maxIdx = i := by
  unfold cyIndexAbove
  have ht := indexAboveLoop_total cloud (wm.map Row.vol) 0 0 wm.length
  have hx := (indexAboveLoop_index cloud (wm.map Row.vol) 0 0 wm.length).2 i (by simpa using hi)
    (by simpa using h1) (by simpa using h2)
  rw [zero_add] at ht
  simp only [ht, hx]
  rw [if_neg (not_lt.2 h)]
  have : min wm.length (0 + i) = i := by omega
  rw [this]

/-! ### splitting a watermark -/

theorem shiftLoop_spec (d : Row K s) (w1 : WM K s) (k : ℕ) (hk : k < w1.length) :
    let w2 := (List.range k).foldl (fun w i => w.set i (w[i + 1]?.getD d)) w1
    w2.length = w1.length ∧ ∀ m, w2[m]? = if m < k then w1[m + 1]? else w1[m]? := by
  induction k with
  | zero => exact ⟨rfl, fun m => by rw [if_neg (by omega)]; rfl⟩
  | succ k ih =>
    have ih := ih (by omega)
    simp only at ih ⊢
    rw [List.range_succ, List.foldl_append]
    simp only [List.foldl_cons, List.foldl_nil]
    generalize (List.range k).foldl (fun w i => w.set i (w[i + 1]?.getD d)) w1 = w2 at ih ⊢
    obtain ⟨hl, hg⟩ := ih
    refine ⟨by rw [List.length_set]; exact hl, fun m => ?_⟩
    rw [List.getElem?_set, hg (k + 1), if_neg (show ¬ k + 1 < k by omega)]
    by_cases h1 : k = m
    · subst h1
      rw [if_pos rfl, if_pos (by omega), if_pos (by omega), List.getElem?_eq_getElem (by omega)]
      rfl
    · rw [if_neg h1, hg m]
      by_cases h2 : m < k
      · rw [if_pos h2, if_pos (by omega)]
      · rw [if_neg h2, if_neg (by omega)]

theorem modify_append {α : Type} (pre l : List α) (k : ℕ) (f : α → α) :
    (pre ++ l).modify (pre.length + k) f = pre ++ l.modify k f := by
  induction pre with
  | nil => simp
  | cons a pre ih =>
    rw [List.cons_append, List.length_cons, show pre.length + 1 + k = (pre.length + k) + 1 by omega,
      List.modify_succ_cons, ih, List.cons_append]

theorem cyUpdateVolumes_eq (pre rest : WM K s) (r : Row K s) (cloud : K) (hrest : rest ≠ []) :
    cyUpdateVolumes (pre ++ r :: rest) cloud pre.length =
      .ok (pre ++ ⟨cloud - (pre.map Row.vol).sum, r.fill⟩ ::
        ⟨r.vol - (cloud - (pre.map Row.vol).sum), r.fill⟩ :: rest.dropLast) := by
  have hrl : 0 < rest.length := List.length_pos_iff.2 hrest
  unfold cyUpdateVolumes
  rw [if_neg (by rw [List.length_append, List.length_cons]; omega)]
  have hne : pre ++ r :: rest ≠ [] := by simp
  have h1 : (pre ++ r :: rest)[pre.length]? = some r := by
    rw [List.getElem?_append_right le_rfl]; simp
  have h2 : ((pre ++ r :: rest).take (pre.length + 1)).map Row.vol = pre.map Row.vol ++ [r.vol] := by
    rw [List.take_append]; simp
  simp only [h1, h2, Option.getD_some, List.sum_append, List.sum_cons, List.sum_nil, add_zero]
  rw [roll_eq _ hne]
  -- the shifting loop undoes the roll up to and including index `pre.length`
  set L := (pre ++ r :: rest).getLast hne with hL
  have hdl : (pre ++ r :: rest).dropLast = pre ++ r :: rest.dropLast := by
    rw [List.dropLast_append_of_ne_nil (by simp), List.dropLast_cons_of_ne_nil hrest]
  rw [hdl]
  have hw2 : (if pre.length = 0 then
        (L :: (pre ++ r :: rest.dropLast)).set 0
          ((L :: (pre ++ r :: rest.dropLast))[1]?.getD (zeroRow K s))
      else (List.range (pre.length + 1)).foldl
        (fun w i => w.set i (w[i + 1]?.getD (zeroRow K s))) (L :: (pre ++ r :: rest.dropLast))) =
      pre ++ r :: r :: rest.dropLast := by
    split
    · rename_i h0
      have : pre = [] := List.length_eq_zero_iff.1 h0
      subst this
      simp
    · have hlen : pre.length + 1 < (L :: (pre ++ r :: rest.dropLast)).length := by
        simp
      obtain ⟨hl, hg⟩ := shiftLoop_spec (zeroRow K s) (L :: (pre ++ r :: rest.dropLast))
        (pre.length + 1) hlen
      apply List.ext_getElem?
      intro m
      rw [hg m]
      by_cases hm : m < pre.length + 1
      · rw [if_pos hm, List.getElem?_cons_succ]
        rcases Nat.lt_succ_iff_lt_or_eq.1 hm with h | h
        · rw [List.getElem?_append_left h, List.getElem?_append_left h]
        · subst h
          rw [List.getElem?_append_right le_rfl, List.getElem?_append_right le_rfl]; simp
      · rw [if_neg hm]
        obtain ⟨q, rfl⟩ : ∃ q, m = pre.length + 1 + q := ⟨m - (pre.length + 1), by omega⟩
        rw [show pre.length + 1 + q = (pre.length + q) + 1 by omega, List.getElem?_cons_succ,
          List.getElem?_append_right (by omega), List.getElem?_append_right (by omega)]
        rw [show pre.length + q - pre.length = q by omega,
          show pre.length + q + 1 - pre.length = q + 1 by omega, List.getElem?_cons_succ]
  rw [hw2]
  unfold setVol
  congr 1
  have m1 : ∀ (f : Row K s → Row K s) (x : Row K s) (xs : WM K s),
      (pre ++ x :: xs).modify pre.length f = pre ++ f x :: xs := by
    intro f x xs
    exact modify_append pre (x :: xs) 0 f
  rw [m1]
  have m2 : ∀ (f : Row K s → Row K s) (x y : Row K s) (xs : WM K s),
      (pre ++ x :: y :: xs).modify (pre.length + 1) f = pre ++ x :: f y :: xs := by
    intro f x y xs
    exact modify_append pre (x :: y :: xs) 1 f
  rw [m2]
  have e : cloud - ((pre.map Row.vol).sum + r.vol - r.vol) = cloud - (pre.map Row.vol).sum := by ring
  rw [e]

end Arctic
