import Verif.Lemmas.Express
import Mathlib.Data.List.GetD
import Mathlib.Algebra.BigOperators.Group.Finset.Basic

/-!
# Properties of the express matrices of the standard readout (C01–C08)

All statements are about `roeExpress`, the model of
`ROE.express_matrix_and_monitor_traps_matrix_from_pixels_and_express` (roe.py:460-583).
-/

set_option linter.unusedSectionVars false
set_option linter.unusedVariables false

namespace Arctic
open Finset

variable {K : Type} [Field K] [LinearOrder K] [IsStrictOrderedRing K]

/-! ### Unfolding the call -/

theorem max?_spec {w : List ℕ} {a : ℕ} (h : w.max? = some a) : a ∈ w ∧ ∀ x ∈ w, x ≤ a :=
  List.max?_eq_some_iff.1 h

/-- The condition under which the matrix is one column short. -/
def ShortMatrix (ef : Bool) (w : List ℕ) (e : ℕ) : Prop := ef = true ∧ e ≠ 0 ∧ w.max? = some e

theorem short_iff {ef : Bool} {w : List ℕ} {e o a : ℕ} (hw : w.max? = some a) :
    (ef = true ∧ effectiveExpress e (a + 1 + o) + 1 = a + 1) ↔ ShortMatrix ef w e := by
  unfold ShortMatrix
  rw [hw, Option.some_inj]
  unfold effectiveExpress
  constructor
  · rintro ⟨h1, h2⟩
    split at h2 <;> exact ⟨h1, by omega, by omega⟩
  · rintro ⟨h1, h2, h3⟩
    rw [if_neg h2]
    exact ⟨h1, by omega⟩

theorem all_lt_iff {w : List ℕ} {a c : ℕ} (hw : w.max? = some a) :
    (w.all (· < c) = true) ↔ a < c := by
  obtain ⟨h1, h2⟩ := max?_spec hw
  rw [List.all_eq_true]
  constructor
  · intro h; simpa using h a h1
  · intro h x hx; have := h2 x hx; simp; omega

/-- What a call of `roeExpress` does. -/
theorem roeExpress_eq (ef i : Bool) (w : List ℕ) (e o : ℕ) (tw : Option (List ℕ)) (a : ℕ)
    (hw : w.max? = some a) (hs : ¬ ShortMatrix ef w e) :
    roeExpress (K := K) ef i w e o tw =
      (restrictTimeSpan (expressFull ef i (a + 1) e o) tw).bind fun m =>
        .ok (⟨m.nr, w.length, fun k j => m.e k (w.getD j 0 + o)⟩,
          ⟨(expressFull (K := K) ef i (a + 1) e o).nr, w.length,
            fun k j => decide ((expressFull (K := K) ef i (a + 1) e o).e k (w.getD j 0 + o) > 0)⟩) := by
  have hnc := expressFull_nc (K := K) ef i (a + 1) e o (by omega)
  rw [if_neg (fun h => hs ((short_iff hw).1 h))] at hnc
  have hall : (w.all (· < (a + 1 + o) - o) = true) := (all_lt_iff hw).2 (by omega)
  unfold roeExpress nPixelsOfWindow
  rw [hw]
  simp only [bind, Except.bind, selectCols, dropCols, hnc, hall, if_true]
  cases hr : restrictTimeSpan (expressFull (K := K) ef i (a + 1) e o) tw with
  | error err => rfl
  | ok m =>
    have hm : m.nc = (expressFull (K := K) ef i (a + 1) e o).nc := by
      cases tw with
      | none => simp only [restrictTimeSpan] at hr; cases hr; rfl
      | some l =>
        simp only [restrictTimeSpan] at hr
        split at hr
        · cases hr; rfl
        · cases hr
    simp only [hm, hnc, hall, if_true]

theorem roeExpress_short (ef i : Bool) (w : List ℕ) (e o : ℕ) (tw : Option (List ℕ))
    (hs : ShortMatrix ef w e) : roeExpress (K := K) ef i w e o tw = .error .indexError := by
  obtain ⟨h1, h2, h3⟩ := hs
  have hnc := expressFull_nc (K := K) ef i (e + 1) e o (by omega)
  rw [if_pos ((short_iff h3).2 ⟨h1, h2, h3⟩)] at hnc
  unfold roeExpress nPixelsOfWindow
  rw [h3]
  simp only [bind, Except.bind, selectCols, dropCols, hnc]
  rw [if_neg]
  rw [all_lt_iff h3]; omega

theorem roeExpress_empty (ef i : Bool) (e o : ℕ) (tw : Option (List ℕ)) :
    roeExpress (K := K) ef i [] e o tw = .error .valueError := rfl

/-- Inversion of a successful call. -/
theorem roeExpress_ok {ef i : Bool} {w : List ℕ} {e o : ℕ} {tw : Option (List ℕ)}
    {m : Mat K} {mon : Mat Bool} (h : roeExpress (K := K) ef i w e o tw = .ok (m, mon)) :
    ∃ a, w.max? = some a ∧ ¬ ShortMatrix ef w e ∧
      ∃ r, restrictTimeSpan (expressFull (K := K) ef i (a + 1) e o) tw = .ok r ∧
        m = ⟨r.nr, w.length, fun k j => r.e k (w.getD j 0 + o)⟩ ∧
        mon = ⟨(expressFull (K := K) ef i (a + 1) e o).nr, w.length,
            fun k j => decide ((expressFull (K := K) ef i (a + 1) e o).e k (w.getD j 0 + o) > 0)⟩ := by
  cases hw : w.max? with
  | none =>
    rw [List.max?_eq_none_iff] at hw; subst hw
    rw [roeExpress_empty] at h; cases h
  | some a =>
    have hs : ¬ ShortMatrix ef w e := by
      intro hs; rw [roeExpress_short ef i w e o tw hs] at h; cases h
    refine ⟨a, rfl, hs, ?_⟩
    rw [roeExpress_eq ef i w e o tw a hw hs] at h
    cases hr : restrictTimeSpan (expressFull (K := K) ef i (a + 1) e o) tw with
    | error err => rw [hr] at h; cases h
    | ok r =>
      rw [hr] at h
      simp only [Except.bind, Except.ok.injEq, Prod.mk.injEq] at h
      exact ⟨r, rfl, h.1.symm, h.2.symm⟩

theorem window_le {w : List ℕ} {a j : ℕ} (hw : w.max? = some a) : w.getD j 0 ≤ a := by
  obtain ⟨_, h2⟩ := max?_spec hw
  by_cases hj : j < w.length
  · rw [List.getD_eq_getElem _ _ hj]; exact h2 _ (List.getElem_mem hj)
  · rw [List.getD_eq_default _ _ (by omega)]; omega

/-! ### C01 -/

/-- **C01.** Whenever `ROE` returns an express matrix, the multipliers of the pixel `w[j]` summed
over the passes equal its number of transfers, `w[j] + 1 + offset`. -/
theorem C01_column_sum (ef i : Bool) (w : List ℕ) (e o : ℕ) (m : Mat K) (mon : Mat Bool)
    (h : roeExpress ef i w e o none = .ok (m, mon)) (j : ℕ) (hj : j < w.length) :
    ∑ k ∈ range m.nr, m.e k j = (w[j] : K) + 1 + o := by
  obtain ⟨a, hw, hs, r, hr, rfl, rfl⟩ := roeExpress_ok h
  simp only [restrictTimeSpan, Except.ok.injEq] at hr
  subst hr
  have hx := fun hc => hs ((short_iff (o := o) hw).1 hc)
  have hle := window_le (j := j) hw
  have := sum_expressFull (K := K) ef i (a + 1) e o (w.getD j 0 + o) (by omega) (by omega) hx
  simp only
  rw [this, List.getD_eq_getElem _ _ hj]
  push_cast; ring

/-! ### C02 -/

/-- **C02 (characterisation).** For a non-empty window the call fails exactly when the first
transfers are handled separately and `express` equals the index of the window's last pixel
(`n_pixels - 1`), and then with `IndexError`. -/
theorem C02_fails_iff (ef i : Bool) (w : List ℕ) (hw : w ≠ []) (e o : ℕ) :
    (∃ err, roeExpress (K := K) ef i w e o none = .error err) ↔
      (ef = true ∧ e ≠ 0 ∧ w.max? = some e) := by
  constructor
  · rintro ⟨err, h⟩
    by_contra hs
    cases hm : w.max? with
    | none => exact hw (List.max?_eq_none_iff.1 hm)
    | some a =>
      rw [roeExpress_eq ef i w e o none a hm hs] at h
      cases h
  · intro hs; exact ⟨_, roeExpress_short ef i w e o none hs⟩

/-- **C02** is false as stated: the default `ROE` on a two-row image with `express = 1` raises. -/
theorem C02_counterexample : ∃ err, roeExpress (K := ℚ) true false [0, 1] 1 0 none = .error err :=
  (C02_fails_iff true false [0, 1] (by simp) 1 0).2 (by decide)

/-- The error is an `IndexError`, whatever the time window. -/
theorem C02_index_error (ef i : Bool) (w : List ℕ) (e o : ℕ) (tw : Option (List ℕ))
    (h : ef = true ∧ e ≠ 0 ∧ w.max? = some e) :
    roeExpress (K := K) ef i w e o tw = .error .indexError := roeExpress_short ef i w e o tw h

/-- Without the separate first transfers every non-empty window works. -/
theorem C02_total_without_first (i : Bool) (w : List ℕ) (hw : w ≠ []) (e o : ℕ) :
    ∃ m mon, roeExpress (K := K) false i w e o none = .ok (m, mon) := by
  cases h : roeExpress (K := K) false i w e o none with
  | ok r => exact ⟨r.1, r.2, rfl⟩
  | error err =>
    have := (C02_fails_iff (K := K) false i w hw e o).1 ⟨err, h⟩
    simp at this

/-! ### C03 -/

theorem expressBase_whole (N E k p : ℕ) : ∃ z : ℕ, (expressBase (K := K) true N E).e k p = z := by
  unfold expressBase
  simp only
  rw [truncate_eq _ _ (maxMultiplier_nonneg true N E)]
  unfold maxMultiplier
  simp only [if_true]
  refine ⟨min (N ⌈/⌉ E) ((p + 1) - k * (N ⌈/⌉ E)), ?_⟩
  push_cast
  congr 1
  rcases le_total (k * (N ⌈/⌉ E)) (p + 1) with h | h
  · rw [Nat.cast_sub h]
    have : ((k * (N ⌈/⌉ E) : ℕ) : K) ≤ ((p + 1 : ℕ) : K) := by exact_mod_cast h
    push_cast at this ⊢
    rw [max_eq_right (by linarith)]
  · rw [Nat.sub_eq_zero_of_le h]
    have : ((p + 1 : ℕ) : K) ≤ ((k * (N ⌈/⌉ E) : ℕ) : K) := by exact_mod_cast h
    push_cast at this ⊢
    rw [max_eq_left (by linarith)]

theorem expressBase_mono (i : Bool) (N E k p q : ℕ) (h : p ≤ q) :
    (expressBase (K := K) i N E).e k p ≤ (expressBase (K := K) i N E).e k q := by
  unfold expressBase
  simp only
  rw [truncate_eq _ _ (maxMultiplier_nonneg i N E), truncate_eq _ _ (maxMultiplier_nonneg i N E)]
  have : ((p + 1 : ℕ) : K) ≤ ((q + 1 : ℕ) : K) := by exact_mod_cast Nat.succ_le_succ h
  gcongr

/-- The inserted rows contribute at most one entry. -/
theorem inserted_sum (i : Bool) (N E j r : ℕ) (hE : 0 < E) (h : E ≤ N) (hj : j < N) :
    (∑ k ∈ (range (expressBase (K := K) i N E).nr).filter
      (fun k => nNonzero (expressBase (K := K) i N E) k = r), (expressBase (K := K) i N E).e k j) = 0 ∨
    ∃ k, nNonzero (expressBase (K := K) i N E) k = r ∧
     (∑ k ∈ (range (expressBase (K := K) i N E).nr).filter
      (fun k => nNonzero (expressBase (K := K) i N E) k = r), (expressBase (K := K) i N E).e k j)
        = (expressBase (K := K) i N E).e k j := by
  set s := (range (expressBase (K := K) i N E).nr).filter
      (fun k => nNonzero (expressBase (K := K) i N E) k = r) with hsdef
  by_cases hs : s.Nonempty
  · right
    have hmem := s.max'_mem hs
    refine ⟨s.max' hs, (Finset.mem_filter.1 hmem).2, ?_⟩
    rw [Finset.sum_eq_single_of_mem _ hmem]
    intro b hb hne
    have hlt : b < s.max' hs := lt_of_le_of_ne (s.le_max' _ hb) hne
    exact base_dup_zero i N E j hE h hj b _ hlt (Finset.mem_range.1 (Finset.mem_filter.1 hmem).1)
      ((Finset.mem_filter.1 hb).2.trans (Finset.mem_filter.1 hmem).2.symm)
  · left
    rw [Finset.not_nonempty_iff_eq_empty] at hs
    rw [hs]; simp

/-- Where the separate first transfer of a pixel is booked, no other transfer is. -/
theorem inserted_zero_on_diagonal (i : Bool) (N E k p : ℕ) (hp : p < N)
    (hk : nNonzero (expressBase (K := K) i N E) k + p + 1 = N) :
    (expressBase (K := K) i N E).e k p = 0 := by
  by_contra hne
  have hpos : 0 < (expressBase (K := K) i N E).e k p :=
    lt_of_le_of_ne (expressBase_nonneg i N E k p) (Ne.symm hne)
  rw [nNonzero_eq_card] at hk
  have hsub : Finset.Ico p N ⊆ (range N).filter fun j => (expressBase (K := K) i N E).e k j > 0 := by
    intro q hq
    rw [Finset.mem_Ico] at hq
    rw [Finset.mem_filter]
    exact ⟨Finset.mem_range.2 hq.2, lt_of_lt_of_le hpos (expressBase_mono i N E k p q hq.1)⟩
  have := Finset.card_le_card hsub
  rw [Nat.card_Ico] at this
  change _ ≤ (((range (expressBase (K := K) i N E).nc).filter
    fun j => (expressBase (K := K) i N E).e k j > 0)).card at this
  omega

theorem maxMultiplier_le_ceil (i : Bool) (N M E : ℕ) (hE : 0 < E) (h : N ≤ M) :
    (maxMultiplier i N E : K) ≤ ((M ⌈/⌉ E : ℕ) : K) := by
  have hE' : (0 : K) < E := by exact_mod_cast hE
  have h2 : N ⌈/⌉ E ≤ M ⌈/⌉ E := by
    rw [ceilDiv_le_iff_le_smul hE]
    exact h.trans (le_smul_ceilDiv hE)
  have h3 : ((N ⌈/⌉ E : ℕ) : K) ≤ ((M ⌈/⌉ E : ℕ) : K) := by exact_mod_cast h2
  cases i
  · unfold maxMultiplier
    simp only [Bool.false_eq_true, if_false]
    refine le_trans ?_ h3
    rw [div_le_iff₀ hE', mul_comm]
    have := le_smul_ceilDiv (b := N) hE
    rw [smul_eq_mul] at this
    exact_mod_cast this
  · unfold maxMultiplier; simpa using h3

/-- **C03 (bounds).** With `n = max(window) + 1` pixels, all multipliers lie between 0 and
`⌈(n + offset) / passes⌉`, where `passes` is the requested number of passes (`express`, or all
`n + offset` transfers). -/
theorem C03_bounds (ef i : Bool) (w : List ℕ) (e o a : ℕ) (m : Mat K) (mon : Mat Bool)
    (h : roeExpress ef i w e o none = .ok (m, mon)) (ha : w.max? = some a)
    (k j : ℕ) (hj : j < w.length) :
    0 ≤ m.e k j ∧
      m.e k j ≤ (((a + 1 + o) ⌈/⌉ (if e = 0 then a + 1 + o else min e (a + 1 + o)) : ℕ) : K) := by
  obtain ⟨a', hw, hs, r, hr, rfl, rfl⟩ := roeExpress_ok h
  obtain rfl : a' = a := by rw [hw] at ha; simpa using ha
  simp only [restrictTimeSpan, Except.ok.injEq] at hr
  subst hr
  have hx := fun hc => hs ((short_iff (o := o) hw).1 hc)
  have hle := window_le (j := j) hw
  simp only
  refine ⟨expressFull_nonneg ef i (a' + 1) e o k _ (by omega) (by omega) hx, ?_⟩
  have hE := effectiveExpress_pos e (a' + 1 + o) (by omega)
  change _ ≤ (((a' + 1 + o) ⌈/⌉ effectiveExpress e (a' + 1 + o) : ℕ) : K)
  have hone : (1 : K) ≤ (((a' + 1 + o) ⌈/⌉ effectiveExpress e (a' + 1 + o) : ℕ) : K) := by
    have h1 := maxMultiplier_ge_one (K := K) true (a' + 1 + o) _ hE (effectiveExpress_le e _)
    exact h1.trans (maxMultiplier_le_ceil true _ _ _ hE le_rfl)
  rcases expressFull_cases (K := K) ef i (a' + 1) e o with ⟨h, heq⟩ | ⟨h1, h2, heq⟩ | ⟨h1, h2, heq⟩
  · rw [heq]
    exact (expressBase_le _ _ _ _ _).trans (maxMultiplier_le_ceil i _ _ _ hE le_rfl)
  · exact absurd ⟨h1, h2⟩ hx
  · rw [heq]
    generalize hq : w.getD j 0 + o = q
    rcases q with _ | p
    · rw [insertRows_col0]
      unfold flipIdentity; simp only
      split
      · exact hone
      · exact zero_le_one.trans hone
    · rw [insertRows_e _ _ _ (base_dup_zero i _ _ p hE (by omega) (by omega))]
      rcases inserted_sum (K := K) i (a' + 1 - 1 + o) (effectiveExpress e (a' + 1 + o)) p k hE
        (by omega) (by omega) with h0 | ⟨k', hk', hsum⟩
      · rw [h0, add_zero]
        unfold flipIdentity; simp only
        split
        · exact hone
        · exact zero_le_one.trans hone
      · rw [hsum]
        unfold flipIdentity
        simp only
        split
        · rename_i hd
          rw [inserted_zero_on_diagonal i _ _ k' p (by omega) (by omega), add_zero]
          exact hone
        · rw [zero_add]
          exact (expressBase_le _ _ _ _ _).trans (maxMultiplier_le_ceil i _ _ _ hE (by omega))

/-- **C03 (integrality).** With the integer dtype all multipliers are whole numbers. -/
theorem C03_int_whole (ef : Bool) (w : List ℕ) (e o : ℕ) (m : Mat K) (mon : Mat Bool)
    (h : roeExpress ef true w e o none = .ok (m, mon)) (k j : ℕ) (hj : j < w.length) :
    ∃ z : ℕ, m.e k j = z := by
  obtain ⟨a, hw, hs, r, hr, rfl, rfl⟩ := roeExpress_ok h
  simp only [restrictTimeSpan, Except.ok.injEq] at hr
  subst hr
  have hx := fun hc => hs ((short_iff (o := o) hw).1 hc)
  have hle := window_le (j := j) hw
  have hE := effectiveExpress_pos e (a + 1 + o) (by omega)
  simp only
  rcases expressFull_cases (K := K) ef true (a + 1) e o with ⟨h, heq⟩ | ⟨h1, h2, heq⟩ | ⟨h1, h2, heq⟩
  · rw [heq]; exact expressBase_whole _ _ _ _
  · exact absurd ⟨h1, h2⟩ hx
  · rw [heq]
    have hid : ∀ q, ∃ z : ℕ, (flipIdentity (K := K) (a + 1 + o)).e k q = z := by
      intro q; unfold flipIdentity; simp only; split
      · exact ⟨1, by simp⟩
      · exact ⟨0, by simp⟩
    generalize hq : w.getD j 0 + o = q
    rcases q with _ | p
    · rw [insertRows_col0]; exact hid 0
    · rw [insertRows_e _ _ _ (base_dup_zero true _ _ p hE (by omega) (by omega))]
      obtain ⟨z1, hz1⟩ := hid (p + 1)
      choose f hf using fun k => expressBase_whole (K := K) (a + 1 - 1 + o)
        (effectiveExpress e (a + 1 + o)) k p
      rw [hz1, Finset.sum_congr rfl fun k _ => hf k]
      exact ⟨z1 + ∑ k' ∈ _, f k', by push_cast; rfl⟩

/-- **C03 (order).** Without the separate first transfers, multipliers never decrease with the
distance from readout; so the monitored pixels of each pass are those beyond some distance. -/
theorem C03_monotone (i : Bool) (w : List ℕ) (e o : ℕ) (m : Mat K) (mon : Mat Bool)
    (h : roeExpress false i w e o none = .ok (m, mon)) (k j j' : ℕ) (hj : j < w.length)
    (hj' : j' < w.length) (hle : w[j] ≤ w[j']) :
    m.e k j ≤ m.e k j' ∧ (mon.e k j = true → mon.e k j' = true) := by
  obtain ⟨a, hw, hs, r, hr, rfl, rfl⟩ := roeExpress_ok h
  simp only [restrictTimeSpan, Except.ok.injEq] at hr
  subst hr
  simp only
  rcases expressFull_cases (K := K) false i (a + 1) e o with ⟨h, heq⟩ | ⟨h1, h2, heq⟩ | ⟨h1, h2, heq⟩
  · rw [heq, List.getD_eq_getElem _ _ hj, List.getD_eq_getElem _ _ hj']
    have := expressBase_mono (K := K) i (a + 1 + o) (effectiveExpress e (a + 1 + o)) k
      (w[j] + o) (w[j'] + o) (by omega)
    refine ⟨this, ?_⟩
    simp only [decide_eq_true_eq]
    intro hp
    exact lt_of_lt_of_le hp this
  · cases h1
  · cases h1

/-- The traps are monitored exactly where the (untruncated) multiplier is positive. -/
theorem C03_monitor_iff_pos (ef i : Bool) (w : List ℕ) (e o : ℕ) (m : Mat K) (mon : Mat Bool)
    (h : roeExpress ef i w e o none = .ok (m, mon)) (k j : ℕ) :
    mon.nr = m.nr ∧ mon.nc = w.length ∧ m.nc = w.length ∧ (mon.e k j = true ↔ 0 < m.e k j) := by
  obtain ⟨a, hw, hs, r, hr, rfl, rfl⟩ := roeExpress_ok h
  simp only [restrictTimeSpan, Except.ok.injEq] at hr
  subst hr
  simp

/-! ### C04 -/

/-- **C04 (alias).** `express = 0`, `express = n_pixels + offset` and anything larger give the same
result (matrix and monitored positions, errors included), for every time window. -/
theorem C04_alias (ef i : Bool) (w : List ℕ) (e o a : ℕ) (tw : Option (List ℕ))
    (ha : w.max? = some a) (he : a + 1 + o ≤ e) :
    roeExpress (K := K) ef i w e o tw = roeExpress ef i w 0 o tw := by
  unfold roeExpress nPixelsOfWindow
  rw [ha]
  have : expressFull (K := K) ef i (a + 1) e o = expressFull ef i (a + 1) 0 o := by
    unfold expressFull effectiveExpress
    have : e ≠ 0 := by omega
    simp only [this, if_false, if_true, Nat.min_eq_right he]
  simp only [bind, Except.bind, this]

/-- **C04 (entries).** With `express = 0` there are `n_pixels + offset` passes and pass `k` moves
exactly the pixels `p` with `p + offset ≥ k`, by one transfer. -/
theorem C04_entries (ef i : Bool) (w : List ℕ) (o a : ℕ) (ha : w.max? = some a) :
    ∃ (m : Mat K) (mon : Mat Bool), roeExpress ef i w 0 o none = .ok (m, mon) ∧
      m.nr = a + 1 + o ∧ m.nc = w.length ∧ ∀ k j, (hj : j < w.length) →
        m.e k j = if k ≤ w[j] + o then 1 else 0 := by
  have hs : ¬ ShortMatrix ef w 0 := by rintro ⟨_, h, _⟩; exact h rfl
  rw [roeExpress_eq ef i w 0 o none a ha hs]
  have hE : effectiveExpress 0 (a + 1 + o) = a + 1 + o := by simp [effectiveExpress]
  have hfull : expressFull (K := K) ef i (a + 1) 0 o = expressBase i (a + 1 + o) (a + 1 + o) := by
    rcases expressFull_cases (K := K) ef i (a + 1) 0 o with ⟨h, heq⟩ | ⟨h1, h2, heq⟩ | ⟨h1, h2, heq⟩
    · rw [heq, hE]
    · rw [hE] at h2; omega
    · rw [hE] at h2; omega
  refine ⟨_, _, rfl, ?_, rfl, ?_⟩
  · rw [hfull]; rfl
  · intro k j hj
    simp only
    rw [hfull, List.getD_eq_getElem _ _ hj]
    have hm : maxMultiplier (K := K) i (a + 1 + o) (a + 1 + o) = 1 := by
      unfold maxMultiplier
      split
      · have : (a + 1 + o) ⌈/⌉ (a + 1 + o) = 1 := by
          rw [Nat.ceilDiv_eq_add_pred_div]
          apply Nat.div_eq_of_lt_le <;> omega
        rw [this]; simp
      · rw [div_self]; positivity
    unfold expressBase
    simp only
    rw [hm, mul_one, truncate_eq _ _ zero_le_one]
    split
    · rename_i hk
      have : (k : K) ≤ ((w[j] + o : ℕ) : K) := by exact_mod_cast hk
      push_cast at this ⊢
      rw [max_eq_right (by linarith), min_eq_left (by linarith)]
    · rename_i hk
      have : ((w[j] + o + 1 : ℕ) : K) ≤ k := by exact_mod_cast (by omega : w[j] + o + 1 ≤ k)
      rw [max_eq_left (by linarith), min_eq_right zero_le_one]

/-! ### C05, C06 -/

/-- Python's `range(a, b)`. -/
def rangeAB (a b : ℕ) : List ℕ := List.range' a (b - a)

theorem rangeAB_head {a b : ℕ} (h : a < b) : (rangeAB a b).head? = some a := by
  unfold rangeAB
  obtain ⟨n, hn⟩ : ∃ n, b - a = n + 1 := ⟨b - a - 1, by omega⟩
  rw [hn, List.range'_succ]; rfl

theorem rangeAB_last {a b : ℕ} (h : a < b) : (rangeAB a b).getLast? = some (b - 1) := by
  unfold rangeAB
  rw [List.getLast?_range', if_neg (by omega)]
  congr 1; omega

/-- The cumulative number of transfers booked inside a time window. -/
def windowed (a b x : K) : K := min (b - a) (max 0 (x - a))

theorem restrict_eq (m : Mat K) {a b : ℕ} (h : a < b) :
    restrictTimeSpan m (some (rangeAB a b)) = .ok ⟨m.nr, m.nc, fun i j =>
      if i = 0 then windowed (a : K) b (cumsum0 m 0 j)
      else windowed (a : K) b (cumsum0 m i j) - windowed (a : K) b (cumsum0 m (i - 1) j)⟩ := by
  unfold restrictTimeSpan
  simp only [rangeAB_head h, rangeAB_last h]
  have hspan : ((((b - 1 : ℕ) : ℤ) - (a : ℤ) + 1 : ℤ) : K) = (b : K) - a := by
    have : (((b - 1 : ℕ) : ℤ) - (a : ℤ) + 1 : ℤ) = (b : ℤ) - a := by omega
    rw [this]; push_cast; rfl
  rw [hspan]
  have hnn : (0 : K) ≤ (b : K) - a := by
    have : (a : K) ≤ b := by exact_mod_cast h.le
    linarith
  have hc : ∀ x : K, (if (if x - (a : K) < 0 then 0 else x - (a : K)) > (b : K) - a then (b : K) - a else
      (if x - (a : K) < 0 then 0 else x - (a : K))) = windowed (a : K) b x := by
    intro x
    exact truncate_eq ((b : K) - a) (x - a) hnn
  simp only [hc]

theorem windowed_add (a b c x : K) (hab : a ≤ b) (hbc : b ≤ c) :
    windowed a b x + windowed b c x = windowed a c x := by
  unfold windowed
  rcases le_total x a with h1 | h1
  · rw [max_eq_left (by linarith), max_eq_left (by linarith), min_eq_right (by linarith),
      min_eq_right (by linarith), min_eq_right (by linarith)]; ring
  rcases le_total x b with h2 | h2
  · rw [max_eq_right (by linarith), max_eq_left (by linarith), min_eq_right (by linarith),
      min_eq_right (by linarith), min_eq_right (by linarith)]; ring
  rcases le_total x c with h3 | h3
  · rw [max_eq_right (by linarith), max_eq_right (by linarith), min_eq_left (by linarith),
      min_eq_right (by linarith), min_eq_right (by linarith)]; ring
  · rw [max_eq_right (by linarith), max_eq_right (by linarith), min_eq_left (by linarith),
      min_eq_left (by linarith), min_eq_left (by linarith)]; ring

/-- **C05 (partition).** For consecutive time windows `range(a, b)` and `range(b, c)` the express
matrices add up, entry by entry, to the matrix of `range(a, c)`, all three have the same shape and
monitor the same positions. -/
theorem C05_partition (ef i : Bool) (w : List ℕ) (e o a b c : ℕ) (hab : a < b) (hbc : b < c)
    (m₁ m₂ m₃ : Mat K) (mon₁ mon₂ mon₃ : Mat Bool)
    (h₁ : roeExpress ef i w e o (some (rangeAB a b)) = .ok (m₁, mon₁))
    (h₂ : roeExpress ef i w e o (some (rangeAB b c)) = .ok (m₂, mon₂))
    (h₃ : roeExpress ef i w e o (some (rangeAB a c)) = .ok (m₃, mon₃)) :
    (∀ k j, m₁.e k j + m₂.e k j = m₃.e k j) ∧ m₁.nr = m₃.nr ∧ m₂.nr = m₃.nr ∧
      mon₁ = mon₃ ∧ mon₂ = mon₃ := by
  obtain ⟨x, hw, hs, r₁, hr₁, rfl, rfl⟩ := roeExpress_ok h₁
  obtain ⟨x', hw', _, r₂, hr₂, rfl, rfl⟩ := roeExpress_ok h₂
  obtain ⟨x'', hw'', _, r₃, hr₃, rfl, rfl⟩ := roeExpress_ok h₃
  obtain rfl : x = x' := by rw [hw] at hw'; simpa using hw'
  obtain rfl : x = x'' := by rw [hw] at hw''; simpa using hw''
  rw [restrict_eq _ hab] at hr₁
  rw [restrict_eq _ hbc] at hr₂
  rw [restrict_eq _ (hab.trans hbc)] at hr₃
  cases hr₁; cases hr₂; cases hr₃
  refine ⟨fun k j => ?_, rfl, rfl, rfl, rfl⟩
  have h1 : (a : K) ≤ b := by exact_mod_cast hab.le
  have h2 : (b : K) ≤ c := by exact_mod_cast hbc.le
  have hadd := fun x => windowed_add (a : K) b c x h1 h2
  simp only
  split
  · exact hadd _
  · rw [← hadd, ← hadd]; ring

/-- **C05 (monitoring).** Whether the call succeeds and where the traps are monitored does not
depend on the (non-empty) time window. -/
theorem C05_monitor_same (ef i : Bool) (w : List ℕ) (e o a b : ℕ) (hab : a < b)
    (m : Mat K) (mon : Mat Bool) (h : roeExpress ef i w e o none = .ok (m, mon)) :
    ∃ m' : Mat K, roeExpress ef i w e o (some (rangeAB a b)) = .ok (m', mon) ∧ m'.nr = m.nr ∧ m'.nc = m.nc := by
  obtain ⟨x, hw, hs, r, hr, rfl, rfl⟩ := roeExpress_ok h
  rw [roeExpress_eq ef i w e o _ x hw hs, restrict_eq (expressFull (K := K) ef i (x + 1) e o) hab]
  simp only [restrictTimeSpan, Except.ok.injEq] at hr
  subst hr
  exact ⟨_, rfl, rfl, rfl⟩

theorem cumsum0_eq (m : Mat K) (k j : ℕ) : cumsum0 m k j = ∑ k' ∈ range (k + 1), m.e k' j := by
  unfold cumsum0
  rw [Finset.sum_list_map_count]
  rw [List.toFinset_range]
  apply Finset.sum_congr rfl
  intro x hx
  rw [List.count_eq_one_of_mem List.nodup_range (by simpa using hx)]
  simp

/-- **C06 / C05 (whole readout).** A time window `range(T)` that covers all `max(window)+1+offset`
transfers gives the same matrix as no time window. -/
theorem C06_covering_time_window (ef i : Bool) (w : List ℕ) (e o a T : ℕ) (ha : w.max? = some a)
    (hT : a + 1 + o ≤ T) (m : Mat K) (mon : Mat Bool)
    (h : roeExpress ef i w e o none = .ok (m, mon)) :
    ∃ m' : Mat K, roeExpress ef i w e o (some (List.range T)) = .ok (m', mon) ∧ m'.nr = m.nr ∧
      m'.nc = m.nc ∧ ∀ k < m.nr, ∀ j, m'.e k j = m.e k j := by
  obtain ⟨x, hw, hs, r, hr, rfl, rfl⟩ := roeExpress_ok h
  obtain rfl : x = a := by rw [hw] at ha; simpa using ha
  have hx := fun hc => hs ((short_iff (o := o) hw).1 hc)
  have hrange : List.range T = rangeAB 0 T := by
    unfold rangeAB; rw [List.range_eq_range', Nat.sub_zero]
  rw [roeExpress_eq ef i w e o _ x hw hs, hrange, restrict_eq _ (by omega)]
  simp only [restrictTimeSpan, Except.ok.injEq] at hr
  subst hr
  refine ⟨_, rfl, rfl, rfl, fun k hk j => ?_⟩
  simp only at hk ⊢
  have hle := window_le (j := j) hw
  set p := w.getD j 0 + o with hp
  -- inside the covered span `windowed` is the identity
  have hid : ∀ k' < (expressFull (K := K) ef i (x + 1) e o).nr,
      windowed ((0 : ℕ) : K) T (cumsum0 (expressFull (K := K) ef i (x + 1) e o) k' p)
        = cumsum0 (expressFull (K := K) ef i (x + 1) e o) k' p := by
    intro k' hk'
    have hnn : ∀ q, 0 ≤ (expressFull (K := K) ef i (x + 1) e o).e q p := fun q =>
      expressFull_nonneg ef i (x + 1) e o q p (by omega) (by omega) hx
    rw [cumsum0_eq]
    have h1 : (0 : K) ≤ ∑ q ∈ range (k' + 1), (expressFull (K := K) ef i (x + 1) e o).e q p :=
      Finset.sum_nonneg fun q _ => hnn q
    have h2 : ∑ q ∈ range (k' + 1), (expressFull (K := K) ef i (x + 1) e o).e q p ≤ (p : K) + 1 := by
      rw [← sum_expressFull (K := K) ef i (x + 1) e o p (by omega) (by omega) hx]
      apply Finset.sum_le_sum_of_subset_of_nonneg
      · intro q hq; rw [Finset.mem_range] at hq ⊢; omega
      · intro q _ _; exact hnn q
    have h3 : (p : K) + 1 ≤ T := by exact_mod_cast (by omega : p + 1 ≤ T)
    unfold windowed
    push_cast
    rw [sub_zero, sub_zero, max_eq_right h1, min_eq_right (h2.trans h3)]
  split
  · rename_i h0
    subst h0
    rw [hid 0 hk, cumsum0_eq]; simp
  · rename_i h0
    rw [hid k hk, hid (k - 1) (by omega), cumsum0_eq, cumsum0_eq]
    obtain ⟨q, rfl⟩ : ∃ q, k = q + 1 := ⟨k - 1, by omega⟩
    rw [Finset.sum_range_succ]; simp

/-- **C06.** The default time window `range(n_rows + offset)` of `add_cti` (main.py:166) gives, for
every window inside the image, the same express matrix as no time window. -/
theorem C06_default_time_window (ef i : Bool) (w : List ℕ) (e o nRows : ℕ)
    (hw : ∀ x ∈ w, x < nRows) (m : Mat K) (mon : Mat Bool)
    (h : roeExpress ef i w e o none = .ok (m, mon)) :
    ∃ m' : Mat K, roeExpress ef i w e o (some (List.range (nRows + o))) = .ok (m', mon) ∧ m'.nr = m.nr ∧
      m'.nc = m.nc ∧ ∀ k < m.nr, ∀ j, m'.e k j = m.e k j := by
  obtain ⟨x, hx, -⟩ := roeExpress_ok h
  have := hw x (max?_spec hx).1
  exact C06_covering_time_window ef i w e o x (nRows + o) hx (by omega) m mon h

/-! ### C07, C08 -/

/-- **C07.** An offset is the same as embedding the image in one that is taller by `offset` rows and
looking at the corresponding rows: same passes, same entries, same monitored positions. With
separate first transfers this needs `express` not to lie between `n_pixels - 1` and
`n_pixels + offset - 1` (see `C07_counterexample`). -/
theorem C07_offset_is_embedding (ef i : Bool) (w : List ℕ) (e o a : ℕ) (tw : Option (List ℕ))
    (hw : w.max? = some a) (he : ef = true → e = 0 ∨ e < a ∨ a + 1 + o ≤ e)
    (m m' : Mat K) (mon mon' : Mat Bool)
    (h : roeExpress ef i w e o tw = .ok (m, mon))
    (h' : roeExpress ef i (w.map (· + o)) e 0 tw = .ok (m', mon')) :
    m.nr = m'.nr ∧ ∀ k j, j < w.length → m.e k j = m'.e k j ∧ mon.e k j = mon'.e k j := by
  obtain ⟨x, hx, hs, r, hr, rfl, rfl⟩ := roeExpress_ok h
  obtain ⟨x', hx', hs', r', hr', rfl, rfl⟩ := roeExpress_ok h'
  obtain rfl : x = a := by rw [hw] at hx; simpa using hx.symm
  have hmax : (w.map (· + o)).max? = some (x + o) := by
    obtain ⟨h1, h2⟩ := max?_spec hw
    rw [List.max?_eq_some_iff]
    refine ⟨List.mem_map.2 ⟨x, h1, rfl⟩, ?_⟩
    intro b hb
    obtain ⟨y, hy, rfl⟩ := List.mem_map.1 hb
    have := h2 y hy; omega
  obtain rfl : x' = x + o := by rw [hmax] at hx'; simpa using hx'.symm
  have hfull : expressFull (K := K) ef i (x + 1) e o = expressFull ef i (x + o + 1) e 0 := by
    have hN : x + o + 1 = x + 1 + o := by omega
    have hE : ef = true → effectiveExpress e (x + 1 + o) < x ∨
        x + 1 + o ≤ effectiveExpress e (x + 1 + o) := by
      intro h; have := he h
      unfold effectiveExpress
      split <;> omega
    have h2 := expressFull_cases (K := K) ef i (x + 1 + o) e 0
    rw [hN]
    have e1 : x + 1 + o - 1 + 0 = x + 1 - 1 + o := by omega
    rw [e1, add_zero] at h2
    rcases expressFull_cases (K := K) ef i (x + 1) e o with ⟨a1, a2⟩ | ⟨a1, a2, a3⟩ | ⟨a1, a2, a3⟩
    · rcases h2 with ⟨b1, b2⟩ | ⟨b1, b2, b3⟩ | ⟨b1, b2, b3⟩
      · rw [a2, b2]
      · rcases hE b1 with hE | hE
        · exact absurd ⟨b1, by omega⟩ a1
        · omega
      · rcases hE b1 with hE | hE
        · exact absurd ⟨b1, by omega⟩ a1
        · omega
    · rcases hE a1 with hE | hE <;> omega
    · rcases h2 with ⟨b1, b2⟩ | ⟨b1, b2, b3⟩ | ⟨b1, b2, b3⟩
      · exact absurd ⟨a1, by omega⟩ b1
      · rcases hE a1 with hE | hE <;> omega
      · rw [a3, b3]
  rw [hfull] at hr
  rw [hr] at hr'
  cases hr'
  refine ⟨rfl, fun k j hj => ?_⟩
  have hget : (w.map (· + o)).getD j 0 = w.getD j 0 + o := by
    rw [List.getD_eq_getElem _ _ hj, List.getD_eq_getElem _ _ (by simpa using hj)]
    simp
  simp only [hget, hfull, add_zero, and_self]

/-- **C07** fails for the default readout when `express` lies between the number of image rows and
the number of rows including the offset: 2 rows with offset 3 and `express = 2` make 2 passes, the
corresponding 5-row image makes 5. -/
theorem C07_counterexample :
    ∃ (m m' : Mat ℚ) (mon mon' : Mat Bool),
      roeExpress true false [0, 1] 2 3 none = .ok (m, mon) ∧
      roeExpress true false [3, 4] 2 0 none = .ok (m', mon') ∧ m.nr = 2 ∧ m'.nr = 5 := by
  refine ⟨_, _, _, _, rfl, rfl, rfl, rfl⟩

/-- **C08.** The matrix for a window is the matrix for the full range up to the window's last pixel,
restricted to the window's pixels, for every time window; so are the monitored positions, and one
call fails iff the other does. -/
theorem C08_window_selects (ef i : Bool) (w : List ℕ) (e o a : ℕ) (tw : Option (List ℕ))
    (hw : w.max? = some a) (m' : Mat K) (mon' : Mat Bool)
    (h' : roeExpress ef i (List.range (a + 1)) e o tw = .ok (m', mon')) :
    ∃ (m : Mat K) (mon : Mat Bool), roeExpress ef i w e o tw = .ok (m, mon) ∧
      m.nr = m'.nr ∧ m.nc = w.length ∧ ∀ k j, (hj : j < w.length) →
        m.e k j = m'.e k w[j] ∧ mon.e k j = mon'.e k w[j] := by
  have hmax : (List.range (a + 1)).max? = some a := by
    rw [List.max?_eq_some_iff]; simp
  obtain ⟨x', hx', hs', r', hr', rfl, rfl⟩ := roeExpress_ok h'
  obtain rfl : x' = a := by rw [hmax] at hx'; simpa using hx'.symm
  have hs : ¬ ShortMatrix ef w e := by
    intro hc; apply hs'; unfold ShortMatrix at hc ⊢; rw [hmax, ← hw]; exact hc
  rw [roeExpress_eq ef i w e o tw x' hw hs, hr']
  refine ⟨_, _, rfl, rfl, rfl, fun k j hj => ?_⟩
  have hle := window_le (j := j) hw
  rw [List.getD_eq_getElem _ _ hj] at hle
  simp only [List.getD_eq_getElem _ _ hj]
  rw [List.getD_eq_getElem _ _ (by simp; omega)]
  simp

theorem C08_window_fails_iff (ef i : Bool) (w : List ℕ) (e o a : ℕ) (tw : Option (List ℕ))
    (hw : w.max? = some a) (err : Err) :
    roeExpress (K := K) ef i w e o tw = .error err ↔
      roeExpress (K := K) ef i (List.range (a + 1)) e o tw = .error err := by
  have hmax : (List.range (a + 1)).max? = some a := by
    rw [List.max?_eq_some_iff]; simp
  by_cases hs : ShortMatrix ef w e
  · have hs' : ShortMatrix ef (List.range (a + 1)) e := by
      unfold ShortMatrix at hs ⊢; rw [hmax, ← hw]; exact hs
    rw [roeExpress_short ef i w e o tw hs, roeExpress_short ef i _ e o tw hs']
  · have hs' : ¬ ShortMatrix ef (List.range (a + 1)) e := by
      intro hc; apply hs; unfold ShortMatrix at hc ⊢; rw [hw, ← hmax]; exact hc
    rw [roeExpress_eq ef i w e o tw a hw hs, roeExpress_eq ef i _ e o tw a hmax hs']
    cases restrictTimeSpan (expressFull (K := K) ef i (a + 1) e o) tw <;> simp [Except.bind]

/-! ### Concrete cases -/

/-- Non-vacuity: the default readout on a window of a tall image with few passes succeeds. -/
example : ∃ (m : Mat ℚ) (mon : Mat Bool),
    roeExpress true false [3, 4, 5, 6] 2 1 none = .ok (m, mon) ∧ m.nr = 8 ∧ m.nc = 4 ∧
      (List.range 8).map (fun k => m.e k 2) = [0, 1, 0, 0, 5/2, 0, 0, 7/2] := by
  refine ⟨_, _, rfl, rfl, rfl, ?_⟩
  decide +kernel

/-- Integer multipliers, no separate first transfers. -/
example : ∃ (m : Mat ℚ) (mon : Mat Bool),
    roeExpress false true [0, 1, 2, 3, 4] 3 0 none = .ok (m, mon) ∧ m.nr = 3 ∧
      (List.range 3).map (fun k => m.e k 4) = [2, 2, 1] := by
  refine ⟨_, _, rfl, rfl, ?_⟩
  decide +kernel

/-- A time window cuts passes at both ends. -/
example : ∃ (m : Mat ℚ) (mon : Mat Bool),
    roeExpress false false [0, 1, 2, 3, 4] 2 0 (some (rangeAB 1 4)) = .ok (m, mon) ∧
      (List.range 2).map (fun k => m.e k 4) = [3/2, 3/2] ∧ mon.e 1 4 = true := by
  refine ⟨_, _, rfl, ?_, ?_⟩ <;> decide +kernel

end Arctic
