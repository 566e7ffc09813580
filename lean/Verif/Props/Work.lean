import Verif.Lemmas.Columns
import Verif.Props.Express
import Mathlib.Algebra.BigOperators.Ring.Finset

/-!
# C56 — how much work `express` saves

How often the passes compute the transfer of one pixel, and how often one run of the clocking loops calls
`n_electrons_released_and_captured`.
-/

set_option linter.unusedSectionVars false
set_option linter.unusedVariables false

namespace Arctic
open Finset

/-! ## Specification -/

/-- Number of passes that compute the pixel of column `j` of the matrix. -/
def Mat.timesComputed (mon : Mat Bool) (j : ℕ) : ℕ := ((range mon.nr).filter fun k => mon.e k j = true).card

/-- A trap system that counts the calls of `n_electrons_released_and_captured`. -/
def TrapSys.counted {K S : Type} (sys : TrapSys K S) : TrapSys K (S × ℕ) where
  restore s := (sys.restore s.1, s.2)
  save s := (sys.save s.1, s.2)
  emptyAll s := (sys.emptyAll s.1, s.2)
  react s phase n dwell := (sys.react s.1 phase n dwell).map fun r => (r.1, r.2, s.2 + 1)

variable {K : Type} [Field K] [LinearOrder K]

/-! ## Counting calls -/

section count
variable {S : Type}

/-- A fold whose steps each add a known amount to a counter. -/
theorem foldlM_counts {α σ : Type} (μ : σ → ℕ) (g : α → ℕ) (f : σ → α → Except Err σ) (l : List α)
    (h : ∀ a ∈ l, ∀ s s', f s a = .ok s' → μ s' = μ s + g a) :
    ∀ s s', l.foldlM f s = .ok s' → μ s' = μ s + (l.map g).sum := by
  induction l with
  | nil => intro s s' h'; rw [foldlM_nil] at h'; injection h' with h'; subst h'; simp
  | cons a l ih =>
    intro s s' h'
    rw [foldlM_cons] at h'
    obtain ⟨s1, h1, h2⟩ := bind_eq_ok h'
    rw [ih (fun b hb => h b (List.mem_cons_of_mem _ hb)) s1 s' h2, h a List.mem_cons_self s s1 h1]
    simp [add_assoc]

theorem sum_map_const {α : Type} (l : List α) (n : ℕ) : (l.map fun _ => n).sum = l.length * n := by
  simp

theorem phaseBody_count (sys : TrapSys K S) (cfg : ClockCfg K) (c j : ℕ) (mult : K) (step phase : ℕ)
    (st st' : Image K × S × ℕ) (h : phaseBody sys.counted cfg c j mult step st phase = .ok st') :
    st'.2.2 = st.2.2 + 1 := by
  unfold phaseBody at h
  split at h
  · obtain ⟨v, -, h⟩ := bind_eq_ok h
    obtain ⟨⟨net, s⟩, h2, h⟩ := bind_eq_ok h
    have hs : s.2 = st.2.2 + 1 := by
      unfold TrapSys.counted at h2
      simp only at h2
      revert h2
      generalize sys.react st.2.1 phase _ _ = x
      intro h2
      cases x with
      | error e => cases h2
      | ok r =>
        injection h2 with h2
        have := congrArg (fun y : K × S × ℕ => y.2.2) h2
        exact this.symm
    simp only at h
    split at h
    · injection h with h; subst h; exact hs
    · obtain ⟨i1, -, h⟩ := bind_eq_ok h
      injection h with h; subst h; exact hs
  · cases h

/-- Calls in all passes over one column. -/
def callsPerColumn (cfg : ClockCfg K) : ℕ :=
  ((List.range cfg.expr.nr).map fun k => (monitoredRows cfg k).length * (cfg.steps.length * cfg.phases.length)).sum

theorem clockLoops_count (sys : TrapSys K S) (cfg : ClockCfg K) (columns : List ℕ) (st st' : Image K × S × ℕ)
    (h : clockLoops sys.counted cfg columns st = .ok st') :
    st'.2.2 = st.2.2 + columns.length * callsPerColumn cfg := by
  rw [← sum_map_const]
  refine foldlM_counts (fun s : Image K × S × ℕ => s.2.2) (fun _ => callsPerColumn cfg) _ _ ?_ st st' h
  intro c _ s s' h
  unfold columnBody at h
  obtain ⟨s1, h1, h⟩ := bind_eq_ok h
  have e1 : s'.2.2 = s1.2.2 := by
    injection h with h
    rw [← h]
    simp only
    split <;> rfl
  rw [e1]
  refine foldlM_counts (fun s : Image K × S × ℕ => s.2.2) _ _ _ ?_ s s1 h1
  intro k _ s s' h
  unfold expressBody at h
  rw [← sum_map_const]
  refine foldlM_counts (fun s : Image K × S × ℕ => s.2.2) (fun _ => cfg.steps.length * cfg.phases.length) _ _ ?_
    (s.1, sys.counted.restore s.2) s' h
  intro j _ s s' h
  unfold rowBody at h
  obtain ⟨s1, h1, h⟩ := bind_eq_ok h
  have e1 : s'.2.2 = s1.2.2 := by
    injection h with h
    rw [← h]
    split <;> rfl
  rw [e1, ← sum_map_const]
  refine foldlM_counts (fun s : Image K × S × ℕ => s.2.2) (fun _ => cfg.phases.length) _ _ ?_ s s1 h1
  intro step _ s s' h
  unfold stepBody at h
  have := foldlM_counts (fun s : Image K × S × ℕ => s.2.2) (fun _ => 1) _ _
    (fun phase _ s s' h => phaseBody_count sys cfg c j _ step phase s s' h) s s' h
  simpa using this

/-- Counting does not change what is computed. -/
theorem clockLoops_counted (sys : TrapSys K S) (cfg : ClockCfg K) (columns : List ℕ) (img : Image K) (s : S) (n : ℕ) :
    ExRel (fun a b => a.1 = b.1 ∧ a.2.1 = b.2) (clockLoops sys.counted cfg columns (img, s, n))
      (clockLoops sys cfg columns (img, s)) := by
  refine clockLoops_rel (RS := fun (a : S × ℕ) b => a.1 = b)
    (RS0 := fun (a : S × ℕ) b => a.1 = b) (RI := (· = ·)) ⟨?_, ?_, ?_, ?_⟩ cfg columns
    (fun c _ => imgRel_eq c) ?_ _ _ ⟨rfl, rfl⟩
  · rintro s t rfl phase x dwell
    unfold TrapSys.counted
    simp only
    cases sys.react s.1 phase x dwell with
    | error e => rfl
    | ok r => exact ⟨rfl, rfl⟩
  · rintro s t rfl; rfl
  · rintro s t rfl; rfl
  · rintro s t rfl; rfl
  · rintro s t rfl
    split <;> rfl

theorem callsPerColumn_eq (cfg : ClockCfg K) (hnr : cfg.monitor.nr = cfg.expr.nr) :
    callsPerColumn cfg =
      (∑ j ∈ range cfg.monitor.nc, cfg.monitor.timesComputed j) * (cfg.steps.length * cfg.phases.length) := by
  have hlen : ∀ k, (monitoredRows cfg k).length = ∑ j ∈ range cfg.monitor.nc, if cfg.monitor.e k j = true then 1 else 0 := by
    intro k
    unfold monitoredRows
    rw [← Finset.card_filter, ← List.toFinset_card_of_nodup (List.nodup_range.filter _)]
    congr 1
    ext j
    simp
  have htimes : ∀ j, cfg.monitor.timesComputed j = ∑ k ∈ range cfg.expr.nr, if cfg.monitor.e k j = true then 1 else 0 := by
    intro j
    unfold Mat.timesComputed
    rw [Finset.card_filter, hnr]
  unfold callsPerColumn
  have e : ∀ (f : ℕ → ℕ) n, ((List.range n).map f).sum = ∑ k ∈ range n, f k := by
    intro f n
    induction n with
    | zero => rfl
    | succ n ih => rw [List.range_succ, Finset.sum_range_succ, ← ih]; simp
  rw [e, ← Finset.sum_mul]
  simp only [hlen, htimes]
  rw [Finset.sum_comm]

end count

/-! ## The matrices -/

theorem times_full (ef i : Bool) [IsStrictOrderedRing K] (n e o p : ℕ) (hn : 0 < n) (hp : p < n + o)
    (hx : ¬ (ef = true ∧ effectiveExpress e (n + o) + 1 = n)) :
    1 ≤ ((range (expressFull (K := K) ef i n e o).nr).filter fun k => 0 < (expressFull (K := K) ef i n e o).e k p).card ∧
      ((range (expressFull (K := K) ef i n e o).nr).filter fun k => 0 < (expressFull (K := K) ef i n e o).e k p).card ≤
        effectiveExpress e (n + o) + (if ef = true then 1 else 0) := by
  constructor
  · rw [Nat.one_le_iff_ne_zero, Ne, Finset.card_eq_zero, Finset.filter_eq_empty_iff]
    intro hc
    have h1 := sum_expressFull (K := K) ef i n e o p hn hp hx
    have h2 := Finset.sum_nonpos fun k hk => not_lt.1 (hc hk)
    rw [h1] at h2
    have : (0 : K) ≤ p := Nat.cast_nonneg p
    linarith
  · have hE := effectiveExpress_pos e (n + o) (by omega)
    rcases expressFull_cases (K := K) ef i n e o with ⟨h, heq⟩ | ⟨h1, h2, heq⟩ | ⟨h1, h2, heq⟩
    · rw [heq]
      refine (Finset.card_filter_le _ _).trans ?_
      rw [Finset.card_range]
      exact Nat.le_add_right _ _
    · exact absurd ⟨h1, h2⟩ hx
    · rw [heq, if_pos h1]
      rcases p with _ | p
      · simp_rw [insertRows_col0]
        refine le_trans (Finset.card_le_one.2 ?_) (by omega)
        intro a ha b hb
        rw [Finset.mem_filter] at ha hb
        have key : ∀ a, 0 < (flipIdentity (K := K) (n + o)).e a 0 → a + 1 = n + o := by
          intro a ha
          unfold flipIdentity at ha
          simp only at ha
          split at ha
          · omega
          · exact absurd ha (lt_irrefl 0)
        have := key a ha.2
        have := key b hb.2
        omega
      · refine (Finset.card_le_card (t := insert (n + o - 2 - p)
          ((range (effectiveExpress e (n + o))).image (nNonzero (expressBase (K := K) i (n - 1 + o)
            (effectiveExpress e (n + o)))))) ?_).trans ?_
        · intro k hk
          rw [Finset.mem_filter] at hk
          rw [insertRows_e _ _ _ (base_dup_zero i _ _ p hE (by omega) (by omega))] at hk
          rw [Finset.mem_insert, Finset.mem_image]
          by_contra hcon
          obtain ⟨c1, c2⟩ := not_or.1 hcon
          have z1 : (flipIdentity (K := K) (n + o)).e k (p + 1) = 0 := by
            unfold flipIdentity
            exact if_neg (by omega)
          have z2 : ((range (expressBase (K := K) i (n - 1 + o) (effectiveExpress e (n + o))).nr).filter
              fun k' => nNonzero (expressBase (K := K) i (n - 1 + o) (effectiveExpress e (n + o))) k' = k) = ∅ := by
            rw [Finset.filter_eq_empty_iff]
            intro k' hk' hc
            exact c2 ⟨k', hk', hc⟩
          rw [z1, z2] at hk
          simp at hk
        · refine (Finset.card_insert_le _ _).trans ?_
          have := Finset.card_image_le (s := range (effectiveExpress e (n + o)))
            (f := nNonzero (expressBase (K := K) i (n - 1 + o) (effectiveExpress e (n + o))))
          rw [Finset.card_range] at this
          omega

/-! ## C56 -/

section main
variable [IsStrictOrderedRing K]

/-- **C56**, `ROE`: the transfer of every pixel is computed at least once, and at most as often as `express` says, plus
once for the first transfer if that is done separately. With `express = 0` every transfer is computed. -/
theorem C56_passes (ef i : Bool) (w : List ℕ) (e o a : ℕ) (tw : Option (List ℕ)) (m : Mat K) (mon : Mat Bool)
    (h : roeExpress ef i w e o tw = .ok (m, mon)) (ha : w.max? = some a) (j : ℕ) (hj : j < w.length) :
    1 ≤ mon.timesComputed j ∧
      mon.timesComputed j ≤ (if e = 0 then a + 1 + o else min e (a + 1 + o)) + (if ef = true then 1 else 0) ∧
      (e = 0 → mon.timesComputed j = w[j] + 1 + o) := by
  obtain ⟨a', hw, hs, r, hr, rfl, rfl⟩ := roeExpress_ok h
  obtain rfl : a' = a := by rw [hw] at ha; simpa using ha
  have hx := fun hc => hs ((short_iff (o := o) hw).1 hc)
  have hle := window_le (j := j) hw
  have key := times_full (K := K) ef i (a' + 1) e o (w.getD j 0 + o) (by omega) (by omega) hx
  have e1 : ∀ k, (decide ((expressFull (K := K) ef i (a' + 1) e o).e k (w.getD j 0 + o) > 0) = true) ↔
      0 < (expressFull (K := K) ef i (a' + 1) e o).e k (w.getD j 0 + o) := fun k => by simp
  unfold Mat.timesComputed
  simp only [e1]
  refine ⟨key.1, key.2, ?_⟩
  rintro rfl
  obtain ⟨m0, mon0, g1, g2, g3, g4⟩ := C04_entries (K := K) ef i w o a' hw
  obtain ⟨a2, hw2, -, r0, hr0, rfl, -⟩ := roeExpress_ok g1
  obtain rfl : a2 = a' := by rw [hw] at hw2; simpa using hw2.symm
  simp only [restrictTimeSpan, Except.ok.injEq] at hr0
  subst hr0
  simp only at g2 g4
  have : ((range (expressFull (K := K) ef i (a2 + 1) 0 o).nr).filter
      fun k => 0 < (expressFull (K := K) ef i (a2 + 1) 0 o).e k (w.getD j 0 + o)) = range (w[j] + 1 + o) := by
    ext k
    rw [Finset.mem_filter, Finset.mem_range, Finset.mem_range, g2, g4 k j hj]
    have : w[j] ≤ a2 := by rw [List.getD_eq_getElem _ _ hj] at hle; exact hle
    split
    · simp; omega
    · simp; omega
  rw [this, Finset.card_range]

theorem restrict_nr {m r : Mat K} {tw : Option (List ℕ)} (h : restrictTimeSpan m tw = .ok r) : r.nr = m.nr := by
  cases tw with
  | none => simp only [restrictTimeSpan] at h; cases h; rfl
  | some l =>
    simp only [restrictTimeSpan] at h
    split at h
    · cases h; rfl
    · cases h

/-- Both matrices have the same number of rows, one for each pass. -/
theorem express_nr (roe : Roe K) (w : List ℕ) (e o : ℕ) (tw : Option (List ℕ)) (m : Mat K)
    (mon : Mat Bool) (roe' : Roe K) (h : roe.express w e o tw = .ok (m, mon, roe')) : mon.nr = m.nr := by
  cases roe with
  | standard d ef eb f i =>
    unfold Roe.express at h
    obtain ⟨⟨m1, mon1⟩, h1, h⟩ := bind_eq_ok h
    simp only [Except.ok.injEq, Prod.mk.injEq] at h
    obtain ⟨rfl, rfl, -⟩ := h
    obtain ⟨a, hw, hs, r, hr, rfl, rfl⟩ := roeExpress_ok h1
    exact (restrict_nr hr).symm
  | injection d n eb f i =>
    unfold Roe.express at h
    obtain ⟨⟨⟨m1, mon1⟩, n'⟩, h1, h⟩ := bind_eq_ok h
    simp only [Except.ok.injEq, Prod.mk.injEq] at h
    obtain ⟨rfl, rfl, -⟩ := h
    unfold injectionExpress at h1
    obtain ⟨np, -, h1⟩ := bind_eq_ok h1
    simp only at h1
    split at h1
    · cases h1
    split at h1
    · cases h1
    obtain ⟨r, hr, h1⟩ := bind_eq_ok h1
    simp only [Except.ok.injEq, Prod.mk.injEq] at h1
    obtain ⟨⟨rfl, rfl⟩, -⟩ := h1
    exact (restrict_nr hr).symm
  | pumping d n ef i =>
    unfold Roe.express at h
    obtain ⟨⟨m1, mon1⟩, h1, h⟩ := bind_eq_ok h
    simp only [Except.ok.injEq, Prod.mk.injEq] at h
    obtain ⟨rfl, rfl, -⟩ := h
    unfold pumpingExpress at h1
    obtain ⟨mult, hm, h1⟩ := bind_eq_ok h1
    simp only [Except.ok.injEq, Prod.mk.injEq] at h1
    obtain ⟨rfl, rfl⟩ := h1
    rfl

/-- All three readout classes: at most `express + 1` times. -/
theorem express_times (roe : Roe K) (w : List ℕ) (e o : ℕ) (he : 0 < e) (tw : Option (List ℕ)) (m : Mat K)
    (mon : Mat Bool) (roe' : Roe K) (h : roe.express w e o tw = .ok (m, mon, roe')) (j : ℕ) (hj : j < mon.nc) :
    mon.timesComputed j ≤ e + 1 := by
  cases roe with
  | standard d ef eb f i =>
    unfold Roe.express at h
    obtain ⟨⟨m1, mon1⟩, h1, h⟩ := bind_eq_ok h
    injection h with h
    injection h with e1 e2
    injection e2 with e2 e3
    subst e1 e2
    obtain ⟨a, hw, hs, r, hr, e1, e2⟩ := roeExpress_ok h1
    have hj' : j < w.length := by rw [e2] at hj; exact hj
    have := (C56_passes ef i w e o a tw m1 mon1 h1 hw j hj').2.1
    rw [if_neg (by omega)] at this
    refine this.trans ?_
    have : min e (a + 1 + o) ≤ e := min_le_left _ _
    split <;> omega
  | injection d n eb f i =>
    unfold Roe.express at h
    obtain ⟨⟨⟨m1, mon1⟩, n'⟩, h1, h⟩ := bind_eq_ok h
    injection h with h
    injection h with e1 e2
    injection e2 with e2 e3
    subst e1 e2
    unfold injectionExpress at h1
    obtain ⟨np, -, h1⟩ := bind_eq_ok h1
    simp only at h1
    split at h1
    · cases h1
    split at h1
    · cases h1
    obtain ⟨r, hr, h1⟩ := bind_eq_ok h1
    simp only [Except.ok.injEq, Prod.mk.injEq] at h1
    obtain ⟨⟨rfl, rfl⟩, -⟩ := h1
    unfold Mat.timesComputed
    refine (Finset.card_filter_le _ _).trans ?_
    rw [Finset.card_range]
    change effectiveExpress e (n.getD (np + o)) ≤ e + 1
    unfold effectiveExpress
    rw [if_neg (by omega)]
    have : min e (n.getD (np + o)) ≤ e := min_le_left _ _
    omega
  | pumping d n ef i =>
    unfold Roe.express at h
    obtain ⟨⟨m1, mon1⟩, h1, h⟩ := bind_eq_ok h
    injection h with h
    injection h with e1 e2
    injection e2 with e2 e3
    subst e1 e2
    unfold pumpingExpress at h1
    obtain ⟨mult, hm, h1⟩ := bind_eq_ok h1
    injection h1 with h1
    injection h1 with e1 e2
    subst e1 e2
    have hlen : mult.length ≤ e + 1 := by
      have hle : effectiveExpress e n ≤ e := by
        unfold effectiveExpress
        rw [if_neg (by omega)]
        exact min_le_left _ _
      unfold pumpMultipliers at hm
      simp only at hm
      split at hm
      · cases hm
      split at hm
      · injection hm with hm
        rw [← hm, List.length_map, List.length_modify]
        split
        · simp; omega
        · simp; omega
      · injection hm with hm
        rw [← hm]
        split
        · simp; omega
        · simp; omega
    refine le_trans ?_ hlen
    unfold Mat.timesComputed
    refine (Finset.card_le_card (t := (range mult.length).image fun x => mult.length * j + x) ?_).trans
      (Finset.card_image_le.trans (by rw [Finset.card_range]))
    intro k hk
    rw [Finset.mem_filter] at hk
    obtain ⟨-, hk⟩ := hk
    simp only [decide_eq_true_eq] at hk
    split at hk
    · rename_i hc
      rw [Finset.mem_image]
      refine ⟨k % mult.length, ?_, ?_⟩
      · rw [Finset.mem_range]
        refine Nat.mod_lt _ ?_
        rcases Nat.eq_zero_or_pos mult.length with h0 | h0
        · rw [List.length_eq_zero_iff] at h0
          rw [h0] at hk
          simp at hk
        · exact h0
      · rw [← hc.1]
        exact Nat.div_add_mod k mult.length
    · exact absurd hk (lt_irrefl 0)

/-- **C56**, the calls made by `cy_clock_charge_in_one_direction`: while one column is read,
`n_electrons_released_and_captured` is called once for each computed transfer, clock step with a dwell time and phase
with traps, which with `express > 0` is at most `express + 1` times the number of pixels, steps and phases. (Counting
does not change the result: `C56_counting`.) -/
theorem C56_calls {S : Type} (sys : TrapSys K S) (roe roe' : Roe K) (ccd : CcdView K) (e o : ℕ) (rows columns : List ℕ)
    (tw : Option (List ℕ)) (cfg : ClockCfg K) (h : clockCfg roe ccd e o rows tw = .ok (cfg, roe'))
    (img out : Image K) (s s' : S) (n : ℕ)
    (hrun : clockLoops sys.counted cfg columns (img, s, 0) = .ok (out, s', n)) :
    n = columns.length * ((∑ j ∈ range cfg.monitor.nc, cfg.monitor.timesComputed j) *
        ((positiveIndices roe.dwell).length * (positiveIndices ccd.fractions).length)) ∧
      (0 < e → n ≤ columns.length * (cfg.monitor.nc * (e + 1) * (roe.dwell.length * ccd.fractions.length))) := by
  obtain ⟨h1, -, -, -, h5, h6, -, -⟩ := clockCfg_fields h
  have hc := clockLoops_count sys cfg columns _ _ hrun
  simp only [zero_add] at hc
  have hnr := express_nr roe rows e o tw _ _ _ h1
  rw [callsPerColumn_eq cfg hnr, h5, h6] at hc
  refine ⟨hc, fun he => ?_⟩
  rw [hc]
  have pos : ∀ l : List K, (positiveIndices l).length ≤ l.length := fun l => by
    unfold positiveIndices
    exact (List.length_filter_le _ _).trans (by simp)
  refine Nat.mul_le_mul_left _ (Nat.mul_le_mul ?_ (Nat.mul_le_mul (pos _) (pos _)))
  refine (Finset.sum_le_card_nsmul _ _ (e + 1) fun j hj => ?_).trans (by simp)
  exact express_times roe rows e o he tw _ _ _ h1 j (Finset.mem_range.1 hj)

/-- Counting leaves the computation as it was. -/
theorem C56_counting {S : Type} (sys : TrapSys K S) (cfg : ClockCfg K) (columns : List ℕ) (img : Image K) (s : S) :
    (clockLoops sys.counted cfg columns (img, s, 0)).map (fun r => (r.1, r.2.1)) = clockLoops sys cfg columns (img, s) := by
  have := clockLoops_counted sys cfg columns img s 0
  revert this
  cases clockLoops sys.counted cfg columns (img, s, 0) <;> cases clockLoops sys cfg columns (img, s) <;> intro this
  · exact congrArg _ this
  · exact this.elim
  · exact this.elim
  · exact congrArg _ (Prod.ext this.1 this.2)

end main

/-! ### examples -/

/-- Six pixels, `express = 2`: the last pixel is computed three times, the first once; with `express = 0`, six times. -/
example : (roeExpress (K := ℚ) true false (List.range 6) 2 0 none).map (fun m => (m.2.timesComputed 5, m.2.timesComputed 0)) =
      .ok (3, 1) ∧
    (roeExpress (K := ℚ) true false (List.range 6) 0 0 none).map (fun m => m.2.timesComputed 5) = .ok 6 := by
  decide +kernel

/-- A run over two columns of four pixels with `express = 1`: 2 · (1 + 2 + 2 + 2) calls. -/
example : (do
    let (cfg, _) ← clockCfg (K := ℚ) (.standard [1] true true true false) ⟨[1], fun _ _ => 0⟩ 1 0 [0, 1, 2, 3] none
    let r ← clockLoops (TrapSys.counted ⟨id, id, id, fun _ _ _ _ => .ok (0, ())⟩) cfg [0, 1] (⟨4, 2, fun _ _ => 5⟩, (), 0)
    (.ok r.2.2 : Except Err ℕ)) = .ok 14 := by
  decide +kernel

end Arctic
