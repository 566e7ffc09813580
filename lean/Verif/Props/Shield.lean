import Verif.Lemmas.Shield
import Verif.Props.Saturation
import Verif.Props.CaptureTime

/-!
# C90 — a saturated pixel shields what lies behind it
-/

set_option linter.unusedSectionVars false
set_option linter.unusedVariables false

namespace Arctic
open Finset

variable {K : Type} [Field K] [LinearOrder K] [IsStrictOrderedRing K]

/-! ### the rows of one pass lie next to each other -/

theorem base_pos_of_count (i : Bool) (N E k q r : ℕ) (hN : N - 1 - q < nNonzero (expressBase (K := K) i N E) k) (hq : q < N) :
    0 < (expressBase (K := K) i N E).e k q := by
  by_contra hc
  have hsub : ((range N).filter fun j => (expressBase (K := K) i N E).e k j > 0) ⊆ (range N).filter fun j => q < j := by
    intro j hj
    rw [mem_filter] at hj ⊢
    refine ⟨hj.1, ?_⟩
    by_contra hjq
    exact hc (lt_of_lt_of_le hj.2 (expressBase_mono i N E k j q (not_lt.1 hjq)))
  have h1 := card_le_card hsub
  have h2 : ((range N).filter fun j => q < j).card = N - 1 - q := by
    have : (range N).filter (fun j => q < j) = Ioo q N := by
      ext j; simp [mem_filter, mem_Ioo]; tauto
    rw [this, Nat.card_Ioo]
    omega
  rw [nNonzero_eq_card] at hN
  change N - 1 - q < ((range N).filter fun j => (expressBase (K := K) i N E).e k j > 0).card at hN
  omega

theorem expressFull_convex (i : Bool) (n e o k p q r : ℕ) (hn : 0 < n) (hpq : p < q) (hqr : q < r) (hr : r < n + o)
    (hs : effectiveExpress e (n + o) + 1 ≠ n)
    (h1 : 0 < (expressFull (K := K) true i n e o).e k p) (h2 : 0 < (expressFull (K := K) true i n e o).e k r) :
    0 < (expressFull (K := K) true i n e o).e k q := by
  rcases expressFull_cases (K := K) true i n e o with ⟨-, h⟩ | ⟨-, h, -⟩ | ⟨-, hlt, h⟩
  · rw [h] at h1 ⊢
    exact lt_of_lt_of_le h1 (expressBase_mono i _ _ k p q hpq.le)
  · exact absurd h hs
  · rw [h] at h1 h2 ⊢
    set E := effectiveExpress e (n + o) with hE
    have hE0 : 0 < E := effectiveExpress_pos e (n + o) (by omega)
    set N := n - 1 + o with hN
    have hnn : n + o = N + 1 := by omega
    rw [hnn] at h1 h2 ⊢
    obtain ⟨q', rfl⟩ : ∃ q', q = q' + 1 := ⟨q - 1, by omega⟩
    obtain ⟨r', rfl⟩ : ∃ r', r = r' + 1 := ⟨r - 1, by omega⟩
    have hEN : E ≤ N := by omega
    have hq : q' < N := by omega
    have hr' : r' < N := by omega
    rw [insertRows_e _ _ r' (base_dup_zero i N E r' hE0 hEN hr')] at h2
    rw [insertRows_e _ _ q' (base_dup_zero i N E q' hE0 hEN hq)]
    have hflip : ∀ a b, 0 ≤ (flipIdentity (K := K) (N + 1)).e a b := by
      intro a b; unfold flipIdentity; simp only; split <;> norm_num
    -- a row whose entry in column `q'` is positive
    have key : ∀ k' < E, nNonzero (expressBase (K := K) i N E) k' = k → 0 < (expressBase (K := K) i N E).e k' q' →
        0 < (flipIdentity (K := K) (N + 1)).e k (q' + 1) + ∑ k' ∈ (range (expressBase (K := K) i N E).nr).filter
          (fun k' => nNonzero (expressBase (K := K) i N E) k' = k), (expressBase (K := K) i N E).e k' q' := by
      intro k' hk' hk hpos
      refine add_pos_of_nonneg_of_pos (hflip _ _) ?_
      refine lt_of_lt_of_le hpos (single_le_sum (f := fun k' => (expressBase (K := K) i N E).e k' q')
        (fun x _ => expressBase_nonneg i N E x q') ?_)
      rw [mem_filter, mem_range]
      exact ⟨hk', hk⟩
    have pick : ∀ j, 0 < (∑ k' ∈ (range (expressBase (K := K) i N E).nr).filter
        (fun k' => nNonzero (expressBase (K := K) i N E) k' = k), (expressBase (K := K) i N E).e k' j) →
        ∃ k' < E, nNonzero (expressBase (K := K) i N E) k' = k ∧ 0 < (expressBase (K := K) i N E).e k' j := by
      intro j hj
      by_contra hc
      push Not at hc
      refine absurd (sum_nonpos fun k' hk' => ?_) (not_le.2 hj)
      rw [mem_filter, mem_range] at hk'
      exact hc k' hk'.1 hk'.2
    have hid : (flipIdentity (K := K) (N + 1)).e k p = 0 ∨ k + p + 1 = N + 1 := by
      unfold flipIdentity; simp only; split
      · right; assumption
      · left; rfl
    rcases hid with hid | hid
    · cases p with
      | zero =>
        rw [insertRows_col0, hid] at h1
        exact absurd h1 (lt_irrefl _)
      | succ p' =>
        rw [insertRows_e _ _ p' (base_dup_zero i N E p' hE0 hEN (by omega)), hid, zero_add] at h1
        obtain ⟨k', a1, a2, a3⟩ := pick p' h1
        exact key k' a1 a2 (lt_of_lt_of_le a3 (expressBase_mono i N E k' p' q' (by omega)))
    · have hz : (flipIdentity (K := K) (N + 1)).e k (r' + 1) = 0 := by
        unfold flipIdentity; simp only; rw [if_neg]; omega
      rw [hz, zero_add] at h2
      obtain ⟨k', a1, a2, a3⟩ := pick r' h2
      exact key k' a1 a2 (base_pos_of_count i N E k' q' 0 (by omega) hq)

theorem standard_contiguous {dw : List K} {i : Bool} {ccd : CcdView K} {e o : ℕ} {rows : List ℕ} {tw : Option (List ℕ)}
    {cfg : ClockCfg K} {roe' : Roe K} (h : clockCfg (.standard dw true true true i) ccd e o rows tw = .ok (cfg, roe'))
    (hinc : rows.Pairwise (· < ·)) {j0 : ℕ} (hj0 : j0 < rows.length) : Contiguous cfg j0 := by
  obtain ⟨f1, -⟩ := clockCfg_fields h
  simp only [Roe.express] at f1
  obtain ⟨⟨m1, mon1⟩, g1, g2⟩ := bind_eq_ok f1
  injection g2 with g2
  injection g2 with g3 g4
  injection g4 with g4 _
  simp only at g3 g4
  obtain ⟨a, ha, hs, x, -, -, hmon⟩ := roeExpress_ok g1
  subst g3
  subst g4
  have hmax := List.max?_eq_some_iff.1 ha
  have hlt : ∀ j j', j < j' → j' < rows.length → rows.getD j 0 < rows.getD j' 0 := by
    intro j j' h1 h2
    rw [List.getD_eq_getElem _ _ h2, List.getD_eq_getElem _ _ (h1.trans h2)]
    exact List.pairwise_iff_getElem.1 hinc j j' _ _ h1
  have hmem : ∀ k j, j ∈ monitoredRows cfg k ↔ j < rows.length ∧
      0 < (expressFull (K := K) true i (a + 1) e o).e k (rows.getD j 0 + o) := by
    intro k j
    unfold monitoredRows
    rw [List.mem_filter, List.mem_range, hmon]
    simp
  intro k hk
  by_contra hc
  push Not at hc
  obtain ⟨c1, ⟨j1, c2, c3⟩, ⟨j2, c4, c5⟩⟩ := hc
  have d1 : j0 ≠ j1 := fun hh => c1 (hh ▸ c2)
  have d2 : j0 ≠ j2 := fun hh => c1 (hh ▸ c4)
  rw [hmem] at c1 c2 c4
  have hshort : effectiveExpress e (a + 1 + o) + 1 ≠ a + 1 := fun hh => hs ((short_iff ha).1 ⟨rfl, hh⟩)
  refine c1 ⟨hj0, expressFull_convex i (a + 1) e o k (rows.getD j2 0 + o) _ (rows.getD j1 0 + o) (by omega) ?_ ?_ ?_ hshort
    c4.2 c2.2⟩
  · have := hlt j2 j0 (by omega) hj0; omega
  · have := hlt j0 j1 (by omega) c2.1; omega
  · have : rows.getD j1 0 ∈ rows := by
      rw [List.getD_eq_getElem _ _ c2.1]; exact List.getElem_mem _
    have := hmax.2 _ this
    omega

theorem injection_contiguous {dw : List K} {n : Option ℕ} {i : Bool} {ccd : CcdView K} {e o : ℕ} {rows : List ℕ}
    {tw : Option (List ℕ)} {cfg : ClockCfg K} {roe' : Roe K}
    (h : clockCfg (.injection dw n true true i) ccd e o rows tw = .ok (cfg, roe')) {j0 : ℕ} (hj0 : ∀ a, rows.max? = some a → j0 ≤ a) :
    Contiguous cfg j0 := by
  obtain ⟨f1, -⟩ := clockCfg_fields h
  simp only [Roe.express] at f1
  obtain ⟨⟨⟨m1, mon1⟩, n'⟩, g1, g2⟩ := bind_eq_ok f1
  injection g2 with g2
  injection g2 with g3 g4
  injection g4 with g4 _
  simp only at g3 g4
  subst g3
  subst g4
  unfold injectionExpress at g1
  obtain ⟨np, hnp, g1⟩ := bind_eq_ok g1
  have hj : j0 < np := by
    unfold nPixelsOfWindow at hnp
    cases ha : rows.max? with
    | none => rw [ha] at hnp; cases hnp
    | some a =>
      rw [ha] at hnp
      injection hnp with hnp
      have := hj0 a ha
      omega
  simp only at g1
  split at g1
  · cases g1
  · rename_i hE
    split at g1
    · cases g1
    · obtain ⟨m, -, g1⟩ := bind_eq_ok g1
      injection g1 with g1
      injection g1 with g1 _
      injection g1 with _ g1
      intro k hk
      by_cases hpos : (0 : K) < (n.getD (np + o) : ℕ) / (effectiveExpress e (n.getD (np + o)) : ℕ)
      · left
        unfold monitoredRows
        rw [List.mem_filter, List.mem_range, ← g1]
        exact ⟨hj, decide_eq_true hpos⟩
      · right; left
        intro j hjm
        unfold monitoredRows at hjm
        rw [List.mem_filter, ← g1] at hjm
        exact absurd (of_decide_eq_true hjm.2) hpos

/-! ### one direction -/

theorem one_phase_seq : genClockSequence (K := K) 1 1 true = [[⟨true, 0, [(0, 1)]⟩]] := by
  have h1 : highPhase 1 0 = 0 := by decide
  have h2 : stepPrime 1 0 = 0 := by decide
  have h3 : splitReleasePhase 1 0 = none := by decide
  simp [genClockSequence, genPhase, h1, h2, h3]

/-- Everything for one direction: `T` bounds the multipliers of row `r0` added over the passes. -/
theorem pixel_shielded (img img' out out' : Image K) (ccd : CcdView K) (roe roe' roe'' : Roe K) (groups : List (Group K))
    (e o : ℕ) (rows columns : List ℕ) (tw : Option (List ℕ)) {dw f : K} (hdwell : roe.dwell = [dw]) (hdw : 0 < dw)
    (hfrac : ccd.fractions = [f]) (hf0 : 0 < f) (hseq : roe.clockSequence = [[⟨true, 0, [(0, 1)]⟩]])
    (hacc : nPadding roe.accessed = 0) (hsave : ∀ m sv, roe.save m = .ok sv → ∀ k j, sv.e k j = false)
    (hns : NoSaves roe) (hb : roe.emptyBetween = true) (hlow : ∀ w ∈ rows, ∀ z ∈ roe.accessed, 0 ≤ (w : ℤ) + z)
    (hr : RowsFound rows roe) (hlen : 1 ≤ roe.nPhases) (hinc : rows.Pairwise (· < ·)) (hndc : columns.Nodup)
    (hrows : ∀ w ∈ rows, w < img.nr) (hcols : ∀ c ∈ columns, c < img.nc) (hfill : FillModel (ccd.fill 0))
    (hg : ∀ g ∈ groups, (∀ j, 0 ≤ g.dens j) ∧ g.kind.Ok (0 < ·) ∧ 0 < g.s ∧ ∃ p, g.kind = .instant p)
    {T : K} {j0 r0 c : ℕ} (hj0 : rows[j0]? = some r0)
    (hcont : ∀ cfg, clockCfg roe ccd e o rows tw = .ok (cfg, roe') → Contiguous cfg j0)
    (hsum : ∀ (m : Mat K) mon roe1, roe.express rows e o tw = .ok (m, mon, roe1) → ∑ k ∈ range m.nr, |m.e k j0| ≤ T)
    {L : K} (hL : Saturates ccd groups L) (hc : c < img.nc)
    (hnr : img'.nr = img.nr) (hnc : img'.nc = img.nc)
    (hbehind : ∀ r < img.nr, r0 < r → img'.px r c = img.px r c)
    (hbright : L + trapsPerPixel groups ccd.fractions * T ≤ img.px r0 c)
    (hbright' : L + trapsPerPixel groups ccd.fractions * T ≤ img'.px r0 c)
    (h : clockCharge img ccd roe groups e o rows columns tw = .ok (out, roe'))
    (h' : clockCharge img' ccd roe groups e o rows columns tw = .ok (out', roe'')) :
    ∀ r < img.nr, r0 < r → out'.px r c = out.px r c := by
  obtain ⟨cfg, st, h1, h2, rfl⟩ := clockCharge_ok h
  obtain ⟨cfg', st', h1', h2', rfl⟩ := clockCharge_ok h'
  have hcfg : cfg' = cfg := by
    rw [h1] at h1'
    injection h1' with h1'
    injection h1' with e1 _
    exact e1.symm
  subst hcfg
  rename' cfg' => cfg
  rw [hacc] at h2 h2'
  obtain ⟨f1, f2, f3, f4, f5, f6, f7, f8⟩ := clockCfg_fields h1
  have hb' : cfg.emptyBetween = true := f8.trans hb
  obtain ⟨N, pos, s1, s2⟩ := schedule_of h1 (Or.inl hns)
  have hphlen : ccd.fractions.length = 1 := by rw [hfrac]; rfl
  have hrun := runCfg_of h1 (fun ph hph => by
    obtain rfl : ph = 0 := by omega
    exact hfill) (by omega) hr img.nr hrows hlow
  rw [hacc] at hrun
  have hr0 : r0 ∈ rows := List.mem_of_getElem? hj0
  have hr0n := hrows r0 hr0
  intro r hrr hr0r
  simp only [Image.unpad]
  by_cases hcm : c ∈ columns
  swap
  · rw [(clockLoops_frame _ cfg h2).2.2 r c hcm, (clockLoops_frame _ cfg h2').2.2 r c hcm]
    simp only [Image.pad, hnr, if_pos hrr]
    exact hbehind r hrr hr0r
  have hg0 : ∀ g ∈ groups, ∀ j, 0 ≤ g.dens j := fun g hgm => (hg g hgm).1
  have hfr : ∀ x ∈ ccd.fractions, 0 ≤ x := by
    intro x hx
    rw [hfrac, List.mem_singleton] at hx
    rw [hx]; exact hf0.le
  have hone : OneStep cfg dw := by
    refine ⟨?_, ?_, ?_, ?_, fun k j => hsave _ _ f2 k j⟩
    · rw [f5, hdwell]; simp [positiveIndices, hdw]
    · rw [f6, hfrac]; simp [positiveIndices, hf0]
    · rw [f3, hseq]
    · rw [f4, hdwell]
  set M := maxNTransfers roe cfg with hM
  obtain ⟨ms0, hms, hplain⟩ : ∃ ms0, (ATM.new groups ccd.fractions M).data = [ms0] ∧ ∀ m ∈ ms0, m.Plain := by
    refine ⟨_, by unfold ATM.new; simp only [hfrac]; rfl, fun m hm => ?_⟩
    obtain ⟨g, hgm, rfl⟩ := List.mem_map.1 hm
    exact (hg g hgm).2.2
  have hfresh := fresh_new groups ccd.fractions M
  have htr := phaseTraps_le groups ccd.fractions M hg0 hfr 0
  have htot : 0 ≤ phaseTraps (ATM.new groups ccd.fractions M).data 0 := by
    rw [phaseTraps_new]
    refine mul_nonneg (groups_sum_nonneg hg0) ?_
    rw [hfrac]; exact hf0.le
  rw [hms] at htr htot
  have hstate : ∀ j : Image K, j.nr = img.nr → j.nc = img.nc → TrapState True [ms0] (N * cfg.steps.length)
      ccd.fractions.length (img.nr + 0) img.nc (fun _ => 0) 0 (j.pad 0, ATM.new groups ccd.fractions M) := by
    intro j hj1 hj2
    have h6 := dataOk_new (tr := True) (M := N * cfg.steps.length) groups ccd.fractions hfr
      fun g hgm => ⟨(hg g hgm).1, (hg g hgm).2.1, fun _ => trivial⟩
    refine ⟨⟨by simp [Image.pad, hj1], by simp [Image.pad, hj2], ?_, ?_⟩, by rw [← hms]; exact hfresh.1, ?_⟩
    · simp only [s2]; exact h6
    · simp only [s2, (fresh_new groups ccd.fractions (N * cfg.steps.length)).2.1]; exact h6
    · simp only; rw [hfresh.2.1, ← hms]; exact hfresh.2.2
  obtain ⟨o1, h3, h4⟩ := columns_split ccd.fill cfg hb' hndc hfresh h2 hfresh c hcm
  obtain ⟨o1', h3', h4'⟩ := columns_split ccd.fill cfg hb' hndc hfresh h2' hfresh c hcm
  rw [clockLoops_single] at h3 h3'
  have hfull : ∀ n, L ≤ n → ccd.fill 0 n = 1 := hL.full 0 (by omega)
  have b1 := columnBody_fullSys hrun s1 hc ms0 hL.pos hone.phases hfull (htr.trans hL.traps) hplain _
    (hstate img rfl rfl) h3
  have b2 := columnBody_fullSys hrun s1 hc ms0 hL.pos hone.phases hfull (htr.trans hL.traps) hplain _
    (hstate img' hnr hnc) h3'
  have hw : cfg.rowWindow[j0]? = some r0 := by rw [f7]; exact hj0
  have hinc' : ∀ j j' w w' : ℕ, cfg.rowWindow[j]? = some w → cfg.rowWindow[j']? = some w' → j < j' → w < w' := by
    intro j j' w w' q1 q2 q3
    rw [f7] at q1 q2
    obtain ⟨p1, rfl⟩ := List.getElem?_eq_some_iff.1 q1
    obtain ⟨p2, rfl⟩ := List.getElem?_eq_some_iff.1 q2
    exact List.pairwise_iff_getElem.1 hinc j j' _ _ q3
  have hsum' := hsum _ _ _ f1
  have hT : phaseTraps [ms0] 0 * ((List.range cfg.expr.nr).map fun k => |cfg.expr.e k j0|).sum ≤
      trapsPerPixel groups ccd.fractions * T := by
    rw [sum_range_list]
    exact mul_le_mul htr hsum' (sum_nonneg fun _ _ => abs_nonneg _) (htot.trans htr)
  have := columnBody_shielded hone hL.pos.le htot hw hinc' (hcont cfg h1)
    (st := (img.pad 0, ATM.new groups ccd.fractions M)) (st' := (img'.pad 0, ATM.new groups ccd.fractions M))
    ⟨by simp [Image.pad, hnr], by simp [Image.pad, hnc], rfl, fun x hx => by
      simp only [Image.pad, hnr]
      by_cases hxn : x < img.nr
      · simp only [if_pos hxn]; exact hbehind x hxn hx
      · simp only [if_neg hxn], by
      simp only [Image.pad, if_pos hr0n]; linarith, by
      simp only [Image.pad, hnr, if_pos hr0n]; linarith⟩ b1 b2 r hr0r
  rw [← h4.2.2 r, ← h4'.2.2 r]
  exact this

/-! ## C90 -/

/-- Two images of the same shape with the same rows behind row `r0`, which holds at least `L c` electrons in column `c` of
both. Nothing is said of the rows in front. -/
structure SameBehind (r0 : ℕ) (L : ℕ → K) (img img' : Image K) : Prop where
  nr : img'.nr = img.nr
  nc : img'.nc = img.nc
  behind : ∀ r < img.nr, r0 < r → ∀ c < img.nc, img'.px r c = img.px r c
  bright : ∀ c < img.nc, L c ≤ img.px r0 c ∧ L c ≤ img'.px r0 c

/-- **C90** for one direction with a standard readout: one phase, one step, instant-capture traps. If pixel `(r0, c)` is
saturated in both images — with a margin for what the traps can take on the way — the rows behind it of the column do not
depend on the rows in front. -/
theorem C90_clock (img img' out out' : Image K) (ccd : CcdView K) (dw f : K) (i : Bool) (roe' roe'' : Roe K)
    (groups : List (Group K)) (e o : ℕ) (rows columns : List ℕ) (tw : Option (List ℕ)) (hdw : 0 < dw)
    (hfrac : ccd.fractions = [f]) (hf0 : 0 < f) (hcov : Covering o rows tw) (hinc : rows.Pairwise (· < ·))
    (hndc : columns.Nodup) (hrows : ∀ w ∈ rows, w < img.nr) (hcols : ∀ c ∈ columns, c < img.nc)
    (hfill : FillModel (ccd.fill 0))
    (hg : ∀ g ∈ groups, (∀ j, 0 ≤ g.dens j) ∧ g.kind.Ok (0 < ·) ∧ 0 < g.s ∧ ∃ p, g.kind = .instant p)
    {L : K} (hL : Saturates ccd groups L) {r0 c : ℕ} (hr0 : r0 ∈ rows) (hc : c < img.nc)
    (hnr : img'.nr = img.nr) (hnc : img'.nc = img.nc)
    (hbehind : ∀ r < img.nr, r0 < r → img'.px r c = img.px r c)
    (hbright : L + trapsPerPixel groups ccd.fractions * ((r0 : K) + 1 + o) ≤ img.px r0 c)
    (hbright' : L + trapsPerPixel groups ccd.fractions * ((r0 : K) + 1 + o) ≤ img'.px r0 c)
    (h : clockCharge img ccd (.standard [dw] true true true i) groups e o rows columns tw = .ok (out, roe'))
    (h' : clockCharge img' ccd (.standard [dw] true true true i) groups e o rows columns tw = .ok (out', roe'')) :
    ∀ r < img.nr, r0 < r → out'.px r c = out.px r c := by
  obtain ⟨j0, hj0, rfl⟩ := List.getElem_of_mem hr0
  have hseq : (Roe.standard [dw] true true true i).clockSequence = [[⟨true, 0, [(0, 1)]⟩]] := one_phase_seq
  have hacc : (Roe.standard [dw] true true true i).accessed = [0, 0, 0] := by
    unfold Roe.accessed
    rw [hseq]
    rfl
  refine pixel_shielded img img' out out' ccd (.standard [dw] true true true i) roe' roe'' groups e o rows columns tw rfl hdw
    hfrac hf0 hseq (by rw [hacc]; rfl) (fun m sv hsv k j => ?_) rfl rfl
    (fun w _ z hz => by rw [hacc] at hz; simp at hz; omega) trivial le_rfl hinc hndc hrows hcols hfill hg
    (List.getElem?_eq_getElem hj0) (fun cfg hcfg => standard_contiguous hcfg hinc hj0) (fun m mon roe1 hm => ?_) hL hc hnr hnc
    hbehind hbright hbright' h h'
  · injection hsv with hsv
    rw [← hsv]
  · have := standard_multipliers hcov m mon roe1 hm j0 hj0
    rw [List.getD_eq_getElem _ _ hj0] at this
    exact this

/-- **C90** for charge injection with `n` transfers. -/
theorem C90_injection (img img' out out' : Image K) (ccd : CcdView K) (dw f : K) (n : ℕ) (i : Bool) (roe' roe'' : Roe K)
    (groups : List (Group K)) (e o : ℕ) (columns : List ℕ) (hdw : 0 < dw)
    (hfrac : ccd.fractions = [f]) (hf0 : 0 < f)
    (hndc : columns.Nodup) (hcols : ∀ c ∈ columns, c < img.nc) (hfill : FillModel (ccd.fill 0))
    (hg : ∀ g ∈ groups, (∀ j, 0 ≤ g.dens j) ∧ g.kind.Ok (0 < ·) ∧ 0 < g.s ∧ ∃ p, g.kind = .instant p)
    {L : K} (hL : Saturates ccd groups L) {r0 c : ℕ} (hr0 : r0 < img.nr) (hc : c < img.nc)
    (hnr : img'.nr = img.nr) (hnc : img'.nc = img.nc)
    (hbehind : ∀ r < img.nr, r0 < r → img'.px r c = img.px r c)
    (hbright : L + trapsPerPixel groups ccd.fractions * n ≤ img.px r0 c)
    (hbright' : L + trapsPerPixel groups ccd.fractions * n ≤ img'.px r0 c)
    (h : clockCharge img ccd (.injection [dw] (some n) true true i) groups e o (List.range img.nr) columns none =
      .ok (out, roe'))
    (h' : clockCharge img' ccd (.injection [dw] (some n) true true i) groups e o (List.range img.nr) columns none =
      .ok (out', roe'')) :
    ∀ r < img.nr, r0 < r → out'.px r c = out.px r c := by
  have hseq : (Roe.injection [dw] (some n) true true i).clockSequence = [[⟨true, 0, [(0, 1)]⟩]] := one_phase_seq
  have hacc : (Roe.injection [dw] (some n) true true i).accessed = [0, 0, 0] := by
    unfold Roe.accessed
    rw [hseq]
    rfl
  refine pixel_shielded img img' out out' ccd (.injection [dw] (some n) true true i) roe' roe'' groups e o
    (List.range img.nr) columns none rfl hdw
    hfrac hf0 hseq (by rw [hacc]; rfl) (fun m sv hsv k j => ?_) trivial rfl
    (fun w _ z hz => by rw [hacc] at hz; simp at hz; omega)
    (fun x hx => by rw [List.length_range]; exact List.mem_range.1 hx) le_rfl List.pairwise_lt_range hndc
    (fun w hw => List.mem_range.1 hw) hcols hfill hg (j0 := r0) (by rw [List.getElem?_range hr0])
    (fun cfg hcfg => injection_contiguous hcfg fun a ha => ?_) (fun m mon roe1 hm => ?_) hL hc hnr hnc
    hbehind hbright hbright' h h'
  · injection hsv with hsv
    rw [← hsv]
    rfl
  · exact (List.max?_eq_some_iff.1 ha).2 r0 (List.mem_range.2 hr0)
  · exact injection_multipliers m mon roe1 hm r0 (by rw [List.length_range]; exact hr0)

/-- A direction with one phase, one step and instant-capture traps. -/
structure OneStepDirection (d : Direction K) : Prop where
  dwell : ∃ dw, d.roe.dwell = [dw] ∧ 0 < dw
  fraction : ∃ f, d.ccd.fractions = [f] ∧ 0 < f
  groups : ∀ g ∈ d.groups, 0 < g.s ∧ ∃ p, g.kind = .instant p

theorem OneStepDirection.shielded {rows : List ℕ} {d : Direction K} (h1 : OneStepDirection d) (h : RunsDirection rows d)
    {img img' out out' : Image K} {o : ℕ} {columns : List ℕ} {tw : Option (List ℕ)} {roe' roe'' : Roe K}
    (hcov : Covering o rows tw) (hinc : rows.Pairwise (· < ·))
    (hndc : columns.Nodup) (hrows : ∀ w ∈ rows, w < img.nr) (hcols : ∀ c ∈ columns, c < img.nc) {L : K}
    (hL : Saturates d.ccd d.groups L) {r0 : ℕ} (hr0 : r0 ∈ rows)
    (hd : SameBehind r0 (fun _ => L + d.most (r0 + o + 1)) img img')
    (hr : clockCharge img d.ccd d.roe d.groups d.express o rows columns tw = .ok (out, roe'))
    (hr' : clockCharge img' d.ccd d.roe d.groups d.express o rows columns tw = .ok (out', roe'')) :
    ∀ r < img.nr, r0 < r → ∀ c < img.nc, out'.px r c = out.px r c := by
  obtain ⟨⟨dw, i, hroe, hlen⟩, h2, h3, h4, h5⟩ := h
  obtain ⟨⟨t, ht, ht0⟩, ⟨f, hf, hf0⟩, hg⟩ := h1
  rw [hroe] at hr hr' ht
  obtain rfl : dw = [t] := ht
  intro r hrr hr0r c hc
  have e : d.most (r0 + o + 1) = trapsPerPixel d.groups d.ccd.fractions * ((r0 : K) + 1 + o) := by
    unfold Direction.most
    rw [hroe]
    simp only [Roe.dwell, List.length_singleton]
    push_cast
    ring
  have hb := hd.bright c hc
  simp only [e] at hb
  exact C90_clock img img' out out' d.ccd t f i roe' roe'' d.groups d.express o rows columns tw ht0 hf hf0 hcov hinc hndc hrows
    hcols (h3 0 (by rw [hf]; exact Nat.one_pos)) (fun g hgm => ⟨(h4 g hgm).1, (h4 g hgm).2, hg g hgm⟩) hL hr0 hc hd.nr hd.nc
    (fun x hx hx0 => hd.behind x hx hx0 c hc) hb.1 hb.2 hr hr' r hrr hr0r

/-- Columns with the same content have the same result. -/
theorem clock_same_column {i j out out' : Image K} {ccd : CcdView K} {roe roe' roe'' : Roe K} {groups : List (Group K)}
    {e o : ℕ} {rows columns : List ℕ} {tw : Option (List ℕ)} (hb : roe.emptyBetween = true) (hnd : columns.Nodup)
    (hr : j.nr = i.nr) (hc : j.nc = i.nc) {c : ℕ} (hpx : ∀ r < i.nr, j.px r c = i.px r c)
    (h : clockCharge i ccd roe groups e o rows columns tw = .ok (out, roe'))
    (h' : clockCharge j ccd roe groups e o rows columns tw = .ok (out', roe'')) :
    ∀ r < i.nr, out'.px r c = out.px r c := by
  intro r hrr
  obtain ⟨a1, a2⟩ := C27_columns i ccd roe groups e o rows columns tw hb hnd out roe' h
  obtain ⟨b1, b2⟩ := C27_columns j ccd roe groups e o rows columns tw hb hnd out' roe'' h'
  by_cases hcm : c ∈ columns
  · obtain ⟨o1, p1, p2⟩ := a1 c hcm
    obtain ⟨o2, q1, q2⟩ := b1 c hcm
    obtain ⟨o3, s1, s2⟩ := C27_input i j ccd roe groups e o rows c tw hr.symm hc.symm (fun r hr => (hpx r hr).symm) o1 roe' p1
    rw [s1] at q1
    injection q1 with q1
    injection q1 with q1 _
    rw [← q2 r, ← p2 r, ← q1, s2 r]
  · rw [a2 c hcm r hrr, b2 c hcm r (by omega), hpx r hrr]

/-- **C90** for `add_cti`: a row that is saturated in all columns shields the rows behind it. Serial clocking, with any
number of phases and any traps, may follow. -/
theorem C90_add_cti (img img' out out' : Image K) (d : Direction K) (ser : Option (Direction K))
    (p1 p2 s1 s2 : Option (Direction K)) (o : ℕ) (pw sw : Window) (h1 : OneStepDirection d)
    (hp : RunsDirection (pw.resolve img.nr) d) (hs : ∀ d ∈ ser, d.roe.emptyBetween = true)
    (hinc : (pw.resolve img.nr).Pairwise (· < ·)) (hsn : (sw.resolve img.nc).Nodup)
    (hpr : ∀ w ∈ pw.resolve img.nr, w < img.nr) (hsr : ∀ w ∈ sw.resolve img.nc, w < img.nc) {L : K}
    (hL : Saturates d.ccd d.groups L) {r0 : ℕ} (hr0 : r0 ∈ pw.resolve img.nr)
    (hd : SameBehind r0 (fun _ => L + d.most (r0 + o + 1)) img img')
    (h : addCti img (some d) o pw ser sw none = .ok (out, p1, s1))
    (h' : addCti img' (some d) o pw ser sw none = .ok (out', p2, s2)) :
    ∀ r < img.nr, r0 < r → ∀ c < img.nc, out'.px r c = out.px r c := by
  obtain ⟨serCols, mid, hsc, g1, g2⟩ := addCti_ok h
  obtain ⟨serCols', mid', hsc', g1', g2'⟩ := addCti_ok h'
  have e1 : serCols = pw.resolve img.nr := by
    rcases hsc with ⟨-, e⟩ | ⟨t, e, -⟩
    · exact e
    · cases e
  have e2 : serCols' = pw.resolve img.nr := by
    rcases hsc' with ⟨-, e⟩ | ⟨t, e, -⟩
    · rw [e, hd.nr]
    · cases e
  subst e1
  subst e2
  rcases g1 with ⟨q, -, -⟩ | ⟨d1, roe1, q, -, hr⟩
  · cases q
  injection q with q
  subst q
  rcases g1' with ⟨q, -, -⟩ | ⟨d2, roe2, q, -, hr'⟩
  · cases q
  injection q with q
  subst q
  rw [hd.nr, hd.nc] at hr'
  have hm := h1.shielded hp (Or.inr ⟨img.nr, rfl, hpr⟩) hinc hsn hpr hsr hL hr0 hd hr hr'
  have sh := clockCharge_shape hr
  have sh' := clockCharge_shape hr'
  rw [hd.nr, hd.nc] at sh'
  rcases g2 with ⟨q1, rfl, -⟩ | ⟨d3, roe3, res, q1, -, rfl, hq⟩
  · rcases g2' with ⟨-, rfl, -⟩ | ⟨d4, roe4, res', q2, -, rfl, hq'⟩
    · exact hm
    · rw [q1] at q2; cases q2
  · rcases g2' with ⟨q2, rfl, -⟩ | ⟨d4, roe4, res', q2, -, rfl, hq'⟩
    · rw [q1] at q2; cases q2
    · rw [q1] at q2
      injection q2 with q2
      subst q2
      rw [hd.nc] at hq'
      intro r hrr hr0r c hc
      change res'.px c r = res.px c r
      refine clock_same_column (i := mid.transpose) (j := mid'.transpose) (hs _ q1)
        (hinc.imp fun h => h.ne) ?_ ?_ (c := r) (fun k hk => ?_) hq hq' c ?_
      · change mid'.nc = mid.nc; rw [sh.2, sh'.2]
      · change mid'.nr = mid.nr; rw [sh.1, sh'.1]
      · change mid'.px r k = mid.px r k
        change k < mid.nc at hk
        exact hm r hrr hr0r k (by rw [← sh.2]; exact hk)
      · change c < mid.nc; rw [sh.2]; exact hc

/-- **C90** for `remove_cti` with any number of iterations, if the saturated row holds twice the margin. -/
theorem C90_remove_cti (img img' out out' : Image K) (n : ℕ) (d : Direction K) (ser : Option (Direction K))
    (p1 p2 s1 s2 : Option (Direction K)) (o : ℕ) (pw sw : Window) (h1 : OneStepDirection d)
    (hp : RunsDirection (pw.resolve img.nr) d) (hs : ∀ d ∈ ser, RunsDirection (sw.resolve img.nc) d)
    (hinc : (pw.resolve img.nr).Pairwise (· < ·)) (hsn : (sw.resolve img.nc).Nodup)
    (hpr : ∀ w ∈ pw.resolve img.nr, w < img.nr) (hsr : ∀ w ∈ sw.resolve img.nc, w < img.nc) {L : K}
    (hL : Saturates d.ccd d.groups L) {r0 : ℕ} (hr0 : r0 ∈ pw.resolve img.nr)
    (hd : SameBehind r0 (fun c => L + 2 * mostChange (some d) ser o r0 c) img img')
    (h : removeCti img n (some d) o pw ser sw none = .ok (out, p1, s1))
    (h' : removeCti img' n (some d) o pw ser sw none = .ok (out', p2, s2)) :
    ∀ r < img.nr, r0 < r → ∀ c < img.nc, out'.px r c = out.px r c := by
  have hpn : (pw.resolve img.nr).Nodup := hinc.imp fun h => h.ne
  have hp' : ∀ x ∈ some d, RunsDirection (pw.resolve img.nr) x := fun x hx => by cases hx; exact hp
  have hm := mostChange_nonneg hp' hs o
  have hmd : ∀ c, d.most (r0 + o + 1) ≤ mostChange (some d) ser o r0 c := by
    intro c
    unfold mostChange
    simp only [Option.elim_some]
    refine le_add_of_nonneg_right ?_
    cases ser with
    | none => exact le_rfl
    | some d => exact (hs d rfl).most_nonneg _
  induction n generalizing out out' p1 p2 s1 s2 with
  | zero =>
    rw [C36_zero] at h h'
    injection h with h
    injection h with h _
    injection h' with h'
    injection h' with h' _
    subst h
    subst h'
    exact hd.behind
  | succ n ih =>
    obtain ⟨cur, p, s, added, a1, a2, a3, a4, a5⟩ := (C36_iteration img n (some d) ser o pw sw none out p1 s1).1 h
    obtain ⟨cur', p', s', added', b1, b2, b3, b4, b5⟩ := (C36_iteration img' n (some d) ser o pw sw none out' p2 s2).1 h'
    have hcur := ih cur cur' p p' s s' a1 b1
    obtain ⟨⟨c1, c2, rfl, rfl⟩, c4⟩ := C84_remove_cti img cur n (some d) ser p s o pw sw hp' hs hpn hsn hpr hsr a1
    obtain ⟨⟨d1, d2, rfl, rfl⟩, d4⟩ := C84_remove_cti img' cur' n (some d) s p' s' o pw sw (by rw [hd.nr]; exact hp')
      (by rw [hd.nc]; exact hs) (by rw [hd.nr]; exact hpn) (by rw [hd.nc]; exact hsn) (by rw [hd.nr]; exact hpr)
      (by rw [hd.nc]; exact hsr) b1
    rw [hd.nr] at d1 d4
    rw [hd.nc] at d2 d4
    have hr0n := hpr r0 hr0
    have hadd := C90_add_cti cur cur' added added' d s' p1 p2 s1 s2 o pw sw h1 (by rw [c1]; exact hp)
      (fun x hx => by obtain ⟨t, i, e, -⟩ := (hs x hx).roe; rw [e]; rfl)
      (by rw [c1]; exact hinc) (by rw [c2]; exact hsn) (by rw [c1]; exact hpr) (by rw [c2]; exact hsr) hL
      (by rw [c1]; exact hr0) ⟨d1.trans c1.symm, d2.trans c2.symm, fun r hrr hr0r c hc =>
        hcur r (by omega) hr0r c (by omega), fun c hc => by
        rw [c2] at hc
        obtain ⟨q1, q2⟩ := hd.bright c hc
        have x1 := hm r0 c
        have x2 := hmd c
        have x3 := hL.pos
        have x4 := (abs_le.1 (c4 r0 hr0n c hc (by linarith) (Or.inr (by linarith)))).1
        have x5 := (abs_le.1 (d4 r0 hr0n c hc (by linarith) (Or.inr (by linarith)))).1
        constructor <;> linarith⟩ a2 b2
    intro r hrr hr0r c hc
    rw [a5 r c, b5 r c, hcur r hrr hr0r c hc, hadd r (by omega) hr0r c (by omega), hd.behind r hrr hr0r c hc]

/-! ### Python objects and the HST preset -/

/-- **C90** with Python objects: instant-capture traps in any number of groups, no more of them in a pixel than the full
well holds. -/
theorem C90_objects {full power dw : ℝ} {gs : List (List Trap)} {i : Bool} {c : CCD} {o : ℕ} {d : PyDirection}
    (h : ExactObjects full power dw gs i c o d) (hfew : trapCount gs ≤ full) (img img' : Image ℝ)
    (e : ℕ) (he : e = 0 ∨ e + 1 ≠ img.nr) {r0 : ℕ} (hr0 : r0 < img.nr)
    (hd : SameBehind r0 (fun _ => full + trapCount gs * ((r0 + o + 1 : ℕ) : ℝ)) img img') :
    ∃ out out', addCtiPy img ⟨some c, some (.standard [dw] true true true i), some (.list (gs.map .group)), e, o⟩ .all
        .absent .all none = .ok (out, .standard [dw] true true true i, Roe.default) ∧
      addCtiPy img' ⟨some c, some (.standard [dw] true true true i), some (.list (gs.map .group)), e, o⟩ .all
        .absent .all none = .ok (out', .standard [dw] true true true i, Roe.default) ∧
      ∀ r < img.nr, r0 < r → ∀ k < img.nc, out'.px r k = out.px r k := by
  have hnr : 0 < img.nr := by omega
  obtain ⟨out, g1, g2⟩ := h.returns img hnr e he
  obtain ⟨out', g3, g4⟩ := h.returns img' (by rw [hd.nr]; exact hnr) e (by rw [hd.nr]; exact he)
  refine ⟨out, out', g1, g3, ?_⟩
  have hs : ¬ ShortMatrix true (List.range img.nr) e := by
    rintro ⟨-, h1, h2⟩
    have hmax : (List.range img.nr).max? = some (img.nr - 1) := by
      rw [List.max?_eq_some_iff]
      exact ⟨List.mem_range.2 (by omega), fun x hx => by have := List.mem_range.1 hx; omega⟩
    rw [hmax] at h2
    injection h2 with h2
    rcases he with he | he
    · exact h1 he
    · omega
  have hone : OneStepDirection (directionOf c dw i gs e o) := by
    refine ⟨⟨dw, rfl, h.dwell⟩, ⟨1, h.phase.1, one_pos⟩, fun g hg => ?_⟩
    obtain ⟨l, hl, rfl⟩ := List.mem_map.1 hg
    have h7 := h.groups.2 l hl
    rw [Ref.ofTraps_group h7.1 h7.2]
    exact ⟨List.length_pos_iff.2 h7.1, _, rfl⟩
  rw [hd.nr, hd.nc] at g4
  exact hone.shielded (img := img) (img' := img') (h.runs e o (List.range img.nr) hs)
    (Or.inr ⟨img.nr, rfl, fun x hx => List.mem_range.1 hx⟩)
    List.pairwise_lt_range List.nodup_range (fun w hw => List.mem_range.1 hw) (fun w hw => List.mem_range.1 hw)
    (h.saturates hfew) (List.mem_range.2 hr0)
    ⟨hd.nr, hd.nc, hd.behind, fun k hk => by rw [h.most]; exact hd.bright k hk⟩ g2 g4

/-- **C90** for the HST preset: as long as the traps of a date do not outnumber the full well of 84700 electrons. -/
theorem C90_hst (date : ℝ) (hdate : 2452334.5 ≤ date) (hfew : hstTotalDensity date ≤ 84700) (img img' : Image ℝ)
    (e o : ℕ) (he : e = 0 ∨ e + 1 ≠ img.nr) {r0 : ℕ} (hr0 : r0 < img.nr)
    (hd : SameBehind r0 (fun _ => 84700 + hstTotalDensity date * ((r0 + o + 1 : ℕ) : ℝ)) img img') :
    ∃ traps ccd roe out out', modelForHstAcs date = .ok (traps, ccd, roe) ∧
      addCtiPy img ⟨some ccd, some roe, some (.list (traps.map .trap)), e, o⟩ .all .absent .all none =
        .ok (out, roe, Roe.default) ∧
      addCtiPy img' ⟨some ccd, some roe, some (.list (traps.map .trap)), e, o⟩ .all .absent .all none =
        .ok (out', roe, Roe.default) ∧
      ∀ r < img.nr, r0 < r → ∀ k < img.nc, out'.px r k = out.px r k := by
  obtain ⟨traps, ccd, h, hne, hx⟩ := hst_exact date hdate o
  rw [← hst_count h] at hfew hd
  obtain ⟨out, out', g1, g2, g3⟩ := C90_objects hx hfew img img' e he hr0 hd
  exact ⟨traps, ccd, _, out, out', h, (addCtiPy_trap_list img ⟨some ccd, some (.standard [1] true true true false), none, e, o⟩
    traps hne .all .absent .all none).trans g1, (addCtiPy_trap_list img' ⟨some ccd, some (.standard [1] true true true false),
    none, e, o⟩ traps hne .all .absent .all none).trans g2, g3⟩

/-! ### examples -/

example : OneStepDirection exSafe :=
  ⟨⟨1, rfl, one_pos⟩, ⟨1, rfl, one_pos⟩, fun g hg => by
    rcases List.mem_singleton.1 hg with rfl
    exact ⟨Nat.one_pos, _, rfl⟩⟩

/-- The 500 and 800 electrons in the second row hide from the rows behind whether there are 20 or 70 in front. -/
example : ((addCti (exImg 4 1 [[20], [500], [30], [0]]) (some exSafe) 1 .all none .all none).map fun x => x.1.rows) =
      .ok [[81 / 5], [2369 / 5], [565497 / 16000], [4961223 / 512000]] ∧
    ((addCti (exImg 4 1 [[70], [800], [30], [0]]) (some exSafe) 1 .all none .all none).map fun x => x.1.rows) =
      .ok [[567 / 10], [7833 / 10], [565497 / 16000], [4961223 / 512000]] ∧
    SameBehind 1 (fun c => 100 + 2 * mostChange (some exSafe) none 1 1 c) (exImg 4 1 [[20], [500], [30], [0]])
      (exImg 4 1 [[70], [800], [30], [0]]) :=
  ⟨by decide +kernel, by decide +kernel, rfl, rfl, by decide +kernel, by decide +kernel⟩

/-- The same in two iterations of `remove_cti`. -/
example : ((removeCti (exImg 4 1 [[20], [500], [30], [0]]) 2 (some exSafe) 1 .all none .all none).map fun x => x.1.rows) =
      .ok [[12261 / 500], [262739 / 500], [29998295307 / 1280000000], [-4227584449167 / 256000000000]] ∧
    ((removeCti (exImg 4 1 [[70], [800], [30], [0]]) 2 (some exSafe) 1 .all none .all none).map fun x => x.1.rows) =
      .ok [[85827 / 1000], [814173 / 1000], [29998295307 / 1280000000], [-4227584449167 / 256000000000]] :=
  ⟨by decide +kernel, by decide +kernel⟩

/-- **C90** is *false* without the margin: 105 electrons fill the pixel, but not any more after the first transfer. -/
theorem C90_margin_false :
    ((addCti (exImg 3 1 [[0], [105], [0]]) (some exSafe) 0 .all none .all none).map fun x => x.1.rows) =
      .ok [[0], [171 / 2], [3249 / 400]] ∧
    ((addCti (exImg 3 1 [[105], [105], [0]]) (some exSafe) 0 .all none .all none).map fun x => x.1.rows) =
      .ok [[95], [95], [6669 / 800]] ∧
    SameBehind 1 (fun _ => 100) (exImg 3 1 [[0], [105], [0]]) (exImg 3 1 [[105], [105], [0]]) :=
  ⟨by decide +kernel, by decide +kernel, rfl, rfl, by decide +kernel, by decide +kernel⟩

/-- Three phases and three steps. -/
def exThree : Direction ℚ := ⟨exCcd3, exRoe3, [exGroup], 0, 0⟩

/-- **C90** is *false* with several phases: while one phase is high, the others release charge of the row in front, some
of it into the row behind. -/
theorem C90_phases_false :
    ((addCti (exImg 3 1 [[0], [500], [0]]) (some exThree) 0 .all none .all none).map fun x => x.1.rows) =
      .ok [[0], [4379 / 9], [161976267657601017130482677761959397 / 22186111067404369920000000000000000]] ∧
    ((addCti (exImg 3 1 [[500], [500], [0]]) (some exThree) 0 .all none .all none).map fun x => x.1.rows) =
      .ok [[8879 / 18], [1061881 / 2160],
        [231183532343739813693553107075421123 / 26623333280885243904000000000000000]] ∧
    SameBehind 1 (fun c => 100 + 2 * mostChange (some exThree) none 0 1 c) (exImg 3 1 [[0], [500], [0]])
      (exImg 3 1 [[500], [500], [0]]) :=
  ⟨by decide +kernel, by decide +kernel, rfl, rfl, by decide +kernel, by decide +kernel⟩

/-- Traps that take time to capture. -/
def exTardy : Direction ℚ := ⟨exCcd, .standard [1] true true true false, [exHalf], 0, 0⟩

/-- **C90** is *false* for traps with a capture time: a saturated pixel does not fill them in one transfer. -/
theorem C90_slow_false :
    ((addCti (exImg 3 1 [[0], [500], [0]]) (some exTardy) 0 .all none .all none).map fun x => x.1.rows) =
      .ok [[0], [490], [9133509 / 2048000]] ∧
    ((addCti (exImg 3 1 [[500], [500], [0]]) (some exTardy) 0 .all none .all none).map fun x => x.1.rows) =
      .ok [[495], [985 / 2], [9122261 / 1638400]] ∧
    SameBehind 1 (fun c => 100 + 2 * mostChange (some exTardy) none 0 1 c) (exImg 3 1 [[0], [500], [0]])
      (exImg 3 1 [[500], [500], [0]]) :=
  ⟨by decide +kernel, by decide +kernel, rfl, rfl, by decide +kernel, by decide +kernel⟩

end Arctic
