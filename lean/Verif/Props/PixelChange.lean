import Verif.Lemmas.PixelChange
import Verif.Props.Total
import Verif.Props.Remove

/-!
# C84 — a pixel changes by at most one trap-full per transfer
-/

set_option linter.unusedSectionVars false
set_option linter.unusedVariables false

namespace Arctic
open Finset

variable {K : Type} [Field K] [LinearOrder K] [IsStrictOrderedRing K]

/-! ### sums -/

theorem sum_range_list (n : ℕ) (f : ℕ → K) : ((List.range n).map f).sum = ∑ k ∈ range n, f k := by
  rw [← List.sum_toFinset f List.nodup_range, List.toFinset_range]

theorem sum_filter_le (n : ℕ) (p : ℕ → Bool) (f : ℕ → K) (hf : ∀ j, 0 ≤ f j) :
    (((List.range n).filter p).map f).sum ≤ ∑ j ∈ range n, f j := by
  rw [← List.sum_toFinset f (List.Nodup.filter _ List.nodup_range)]
  apply Finset.sum_le_sum_of_subset_of_nonneg
  · intro x hx
    rw [List.mem_toFinset, List.mem_filter, List.mem_range] at hx
    exact Finset.mem_range.2 hx.1
  · intro x _ _; exact hf x

/-- Bounds of weighted sums add up. -/
theorem weighted_list {α : Type} (s : Finset ℕ) (t : ℕ → K) (g : α → ℕ → K) (C : α → K) (l : List α)
    (h : ∀ a ∈ l, ∑ j ∈ s, t j * g a j ≤ C a) : ∑ j ∈ s, t j * (l.map fun a => g a j).sum ≤ (l.map C).sum := by
  induction l with
  | nil => simp
  | cons a l ih =>
    simp only [List.map_cons, List.sum_cons, mul_add, Finset.sum_add_distrib]
    exact add_le_add (h a List.mem_cons_self) (ih fun b hb => h b (List.mem_cons_of_mem _ hb))

theorem sum_map_le_length {α : Type} (l : List α) (f : α → K) (b : K) (h : ∀ a ∈ l, f a ≤ b) :
    (l.map f).sum ≤ l.length * b := by
  induction l with
  | nil => simp
  | cons a l ih =>
    simp only [List.map_cons, List.sum_cons, List.length_cons, Nat.cast_add, Nat.cast_one]
    have := h a List.mem_cons_self
    have := ih fun b hb => h b (List.mem_cons_of_mem _ hb)
    linarith

/-- What all rows together return to row `r`, when row `w` is processed `T w` times. -/
theorem visits_le {rows : List ℕ} (hnd : rows.Nodup) {T : ℕ → K} (hT0 : ∀ w, 0 ≤ T w) (hT : Monotone T)
    {rel : List (ℤ × K)} (hrel : ∀ x ∈ rel, 0 ≤ x.1 ∧ 0 ≤ x.2) (hsum : (rel.map Prod.snd).sum = 1) (r : ℕ) :
    ∑ j ∈ range rows.length, T (rows.getD j 0) * shareOf rel ((r : ℤ) - (rows.getD j 0 : ℕ)) ≤ T r := by
  unfold shareOf
  have key : ∀ x ∈ rel, ∑ j ∈ range rows.length, T (rows.getD j 0) *
      (if x.1 = (r : ℤ) - (rows.getD j 0 : ℕ) then |x.2| else 0) ≤ T r * x.2 := by
    intro x hx
    obtain ⟨h1, h2⟩ := hrel x hx
    rw [abs_of_nonneg h2]
    simp only [mul_ite, mul_zero]
    rw [← Finset.sum_filter]
    have hcard : (Finset.filter (fun j => x.1 = (r : ℤ) - (rows.getD j 0 : ℕ)) (range rows.length)).card ≤ 1 := by
      rw [Finset.card_le_one]
      intro a ha b hb
      rw [Finset.mem_filter, Finset.mem_range] at ha hb
      have e : rows.getD a 0 = rows.getD b 0 := by omega
      rw [List.getD_eq_getElem _ _ ha.1, List.getD_eq_getElem _ _ hb.1] at e
      exact (hnd.getElem_inj_iff).1 e
    have hle := Finset.sum_le_card_nsmul (Finset.filter (fun j => x.1 = (r : ℤ) - (rows.getD j 0 : ℕ)) (range rows.length))
      (fun j => T (rows.getD j 0) * x.2) (T r * x.2) (fun j hj => by
        rw [Finset.mem_filter] at hj
        exact mul_le_mul_of_nonneg_right (hT (by omega)) h2)
    refine hle.trans ?_
    rw [nsmul_eq_mul]
    have : ((Finset.filter (fun j => x.1 = (r : ℤ) - (rows.getD j 0 : ℕ)) (range rows.length)).card : K) ≤ 1 := by
      exact_mod_cast hcard
    exact mul_le_of_le_one_left (mul_nonneg (hT0 r) h2) this
  have := weighted_list (range rows.length) (fun j => T (rows.getD j 0))
    (fun (x : ℤ × K) j => if x.1 = (r : ℤ) - (rows.getD j 0 : ℕ) then |x.2| else 0) (fun x => T r * x.2) rel key
  refine this.trans (le_of_eq ?_)
  rw [sum_map_mul_left' (T r) Prod.snd rel, hsum, mul_one]

/-! ### one direction -/

/-- The traps of a pixel: all groups and species, in the phases there are. -/
def trapsPerPixel (groups : List (Group K)) (fractions : List K) : K :=
  (groups.map fun g => ∑ j, g.dens j).sum * fractions.sum

theorem phaseTraps_new (groups : List (Group K)) (fractions : List K) (M ph : ℕ) :
    phaseTraps (ATM.new groups fractions M).data ph =
      (groups.map fun g => ∑ j, g.dens j).sum * (fractions[ph]?.getD 0) := by
  unfold phaseTraps ATM.new
  simp only
  rw [List.getElem?_map]
  cases fractions[ph]? with
  | none => simp
  | some f =>
    simp only [Option.map_some, Option.getD_some, List.map_map]
    rw [mul_comm, ← sum_map_mul_left']
    congr 1
    refine List.map_congr_left fun g _ => ?_
    change ∑ j, g.dens j * f = _
    rw [← Finset.sum_mul, mul_comm]

theorem groups_sum_nonneg {groups : List (Group K)} (hg : ∀ g ∈ groups, ∀ j, 0 ≤ g.dens j) :
    0 ≤ (groups.map fun g => ∑ j, g.dens j).sum := by
  apply List.sum_nonneg
  intro x hx
  obtain ⟨g, hgm, rfl⟩ := List.mem_map.1 hx
  exact Finset.sum_nonneg fun j _ => hg g hgm j

theorem sum_phaseTraps (groups : List (Group K)) (fractions : List K) (M : ℕ) (hg : ∀ g ∈ groups, ∀ j, 0 ≤ g.dens j)
    (hfr : ∀ x ∈ fractions, 0 ≤ x) :
    ((positiveIndices fractions).map (phaseTraps (ATM.new groups fractions M).data)).sum ≤
      trapsPerPixel groups fractions := by
  have h0 : ∀ ph : ℕ, 0 ≤ fractions[ph]?.getD 0 := by
    intro ph
    cases h : fractions[ph]? with
    | none => exact le_rfl
    | some f => exact hfr f (List.mem_of_getElem? h)
  unfold positiveIndices trapsPerPixel
  refine (sum_filter_le _ _ _ fun ph => by
    rw [phaseTraps_new]; exact mul_nonneg (groups_sum_nonneg hg) (h0 ph)).trans (le_of_eq ?_)
  simp only [phaseTraps_new]
  rw [← Finset.mul_sum]
  congr 1
  rw [Finset.sum_range]
  simp only [Fin.is_lt, List.getElem?_eq_getElem, Option.getD_some]
  exact Fin.sum_univ_getElem fractions

/-- The most that all passes over all rows change pixel `r` by: `T w` bounds the multipliers of row `w` added over the
passes. -/
theorem visits_total {ccd : CcdView K} {roe roe' : Roe K} {groups : List (Group K)} {e o : ℕ} {rows : List ℕ}
    {tw : Option (List ℕ)} {cfg : ClockCfg K} (h1 : clockCfg roe ccd e o rows tw = .ok (cfg, roe'))
    (hforce : roe.force = true) (hr : RowsFound rows roe) (hnd : rows.Nodup) {R : ℕ}
    (hrun : RunCfg cfg ccd.fill ccd.fractions.length R) (hfr : ∀ x ∈ ccd.fractions, 0 ≤ x)
    (hg : ∀ g ∈ groups, ∀ j, 0 ≤ g.dens j) {T : ℕ → K} (hT0 : ∀ w, 0 ≤ T w) (hT : Monotone T)
    (hsum : ∀ (m : Mat K) mon roe1, roe.express rows e o tw = .ok (m, mon, roe1) → ∀ j < rows.length,
      ∑ k ∈ range m.nr, |m.e k j| ≤ T (rows.getD j 0)) (M r : ℕ) :
    ((List.range cfg.expr.nr).map fun k => ((monitoredRows cfg k).map fun j =>
        |cfg.expr.e k j| * visit cfg (phaseTraps (ATM.new groups ccd.fractions M).data) r j).sum).sum ≤
      roe.dwell.length * (trapsPerPixel groups ccd.fractions * T r) := by
  have hN : 0 ≤ trapsPerPixel groups ccd.fractions :=
    mul_nonneg (groups_sum_nonneg hg) (List.sum_nonneg hfr)
  obtain ⟨f1, f2, f3, f4, f5, f6, f7, f8⟩ := clockCfg_fields h1
  set D0 := (ATM.new groups ccd.fractions M).data with hD0
  have hB : ∀ ph, 0 ≤ phaseTraps D0 ph := by
    intro ph
    rw [hD0, phaseTraps_new]
    refine mul_nonneg (groups_sum_nonneg hg) ?_
    cases hx : ccd.fractions[ph]? with
    | none => exact le_rfl
    | some f => exact hfr f (List.mem_of_getElem? hx)
  have hmon := clockCfg_monitor h1 hr
  -- all passes over all rows
  have step1 : ((List.range cfg.expr.nr).map fun k => ((monitoredRows cfg k).map fun j =>
        |cfg.expr.e k j| * visit cfg (phaseTraps D0) r j).sum).sum ≤
      ∑ j ∈ range rows.length, T (rows.getD j 0) * visit cfg (phaseTraps D0) r j := by
    rw [sum_range_list]
    have hv : ∀ j, 0 ≤ visit cfg (phaseTraps D0) r j := fun j => visit_nonneg hB r j
    calc _ ≤ ∑ k ∈ range cfg.expr.nr, ∑ j ∈ range rows.length, |cfg.expr.e k j| * visit cfg (phaseTraps D0) r j := by
          refine Finset.sum_le_sum fun k _ => (sum_filter_le _ _ _ fun j => mul_nonneg (abs_nonneg _) (hv j)).trans ?_
          refine Finset.sum_le_sum_of_subset_of_nonneg ?_ fun j _ _ => mul_nonneg (abs_nonneg _) (hv j)
          intro j hj
          rw [Finset.mem_range] at hj ⊢
          omega
      _ ≤ _ := by
          rw [Finset.sum_comm]
          refine Finset.sum_le_sum fun j hj => ?_
          rw [← Finset.sum_mul]
          exact mul_le_mul_of_nonneg_right (hsum _ _ _ f1 j (Finset.mem_range.1 hj)) (hv j)
  refine step1.trans ?_
  -- all steps and phases
  have step2 : ∑ j ∈ range rows.length, T (rows.getD j 0) * visit cfg (phaseTraps D0) r j ≤
      (cfg.steps.map fun step => (cfg.phases.map fun phase => phaseTraps D0 phase * T r).sum).sum := by
    unfold visit
    refine weighted_list _ _ _ _ _ fun step hs => weighted_list _ _ _ _ _ fun phase hp => ?_
    obtain ⟨ph, dw, l1, l2, l3⟩ := hrun.look step hs phase hp
    rw [f7]
    unfold shareAt
    simp only [l1]
    have hmem := l1
    rw [f3] at hmem
    have hoff := (mem_accessed roe hmem).2
    have hph : (∀ x ∈ ph.release, 0 ≤ x.1 ∧ 0 ≤ x.2) ∧ (ph.release.map Prod.snd).sum = 1 := by
      cases hl : roe.clockSequence[step]? with
      | none => rw [hl] at hmem; cases hmem
      | some l =>
        rw [hl] at hmem
        have hp' : l[phase]? = some ph := hmem
        obtain ⟨step', phase', -, hlt, rfl⟩ := mem_genClockSequence (List.mem_of_getElem? hl)
          (List.mem_of_getElem? hp')
        refine ⟨fun x hx => ⟨?_, (C13_fractions _ _ _ _).2 x hx⟩, (C13_fractions _ _ _ _).1⟩
        have := (C14_accessed roe _ (hoff x hx)).1 hforce
        omega
    have hv := visits_le hnd hT0 hT hph.1 hph.2 r
    calc _ = phaseTraps D0 phase *
          ∑ j ∈ range rows.length, T (rows.getD j 0) * shareOf ph.release ((r : ℤ) - (rows.getD j 0 : ℕ)) := by
            rw [Finset.mul_sum]
            exact Finset.sum_congr rfl fun j _ => by ring
      _ ≤ _ := mul_le_mul_of_nonneg_left hv (hB phase)
  refine step2.trans ?_
  refine (sum_map_le_length _ _ (trapsPerPixel groups ccd.fractions * T r) fun step _ => ?_).trans ?_
  · have : (cfg.phases.map fun phase => phaseTraps D0 phase * T r).sum = (cfg.phases.map (phaseTraps D0)).sum * T r := by
      rw [mul_comm, ← sum_map_mul_left']
      congr 1
      exact List.map_congr_left fun x _ => mul_comm _ _
    rw [this, f6]
    exact mul_le_mul_of_nonneg_right (sum_phaseTraps groups ccd.fractions _ hg hfr) (hT0 r)
  · refine mul_le_mul_of_nonneg_right ?_ (mul_nonneg hN (hT0 r))
    rw [f5]
    have : (positiveIndices roe.dwell).length ≤ roe.dwell.length := by
      unfold positiveIndices
      exact (List.length_filter_le _ _).trans (by rw [List.length_range])
    exact_mod_cast this

/-- Everything for one direction: `T w` bounds the multipliers of row `w` added over the passes. -/
theorem pixel_change (img out : Image K) (ccd : CcdView K) (roe roe' : Roe K) (groups : List (Group K)) (e o : ℕ)
    (rows columns : List ℕ) (tw : Option (List ℕ))
    (hk : NoSaves roe ∨ roe.isPumping = true ∨ (e = 0 ∧ FullReadout o rows tw roe)) (hb : roe.emptyBetween = true)
    (hforce : roe.force = true)
    (hr : RowsFound rows roe) (hnd : rows.Nodup) (hndc : columns.Nodup) (hrows : ∀ w ∈ rows, w < img.nr)
    (hcols : ∀ c ∈ columns, c < img.nc)
    (hlen : ccd.fractions.length ≤ roe.nPhases) (hfr : ∀ x ∈ ccd.fractions, 0 ≤ x)
    (hfill : ∀ ph < ccd.fractions.length, FillModel (ccd.fill ph))
    (hg : ∀ g ∈ groups, (∀ j, 0 ≤ g.dens j) ∧ g.kind.Ok (0 < ·)) {T : ℕ → K} (hT0 : ∀ w, 0 ≤ T w) (hT : Monotone T)
    (hsum : ∀ (m : Mat K) mon roe1, roe.express rows e o tw = .ok (m, mon, roe1) → ∀ j < rows.length,
      ∑ k ∈ range m.nr, |m.e k j| ≤ T (rows.getD j 0))
    (h : clockCharge img ccd roe groups e o rows columns tw = .ok (out, roe')) (r c : ℕ) (hrr : r < img.nr)
    (h0 : 0 ≤ img.px r c) :
    0 ≤ out.px r c ∧ |out.px r c - img.px r c| ≤ roe.dwell.length * (trapsPerPixel groups ccd.fractions * T r) := by
  have hN : 0 ≤ trapsPerPixel groups ccd.fractions :=
    mul_nonneg (groups_sum_nonneg fun g hgm => (hg g hgm).1) (List.sum_nonneg hfr)
  have hlow : ∀ w ∈ rows, ∀ z ∈ roe.accessed, 0 ≤ (w : ℤ) + z := by
    intro w _ z hz
    have := (C14_accessed roe z hz).1 hforce
    omega
  by_cases hc : c ∈ columns
  swap
  · rw [(C27_columns img ccd roe groups e o rows columns tw hb hndc out roe' h).2 c hc r hrr, sub_self, abs_zero]
    exact ⟨h0, mul_nonneg (Nat.cast_nonneg _) (mul_nonneg hN (hT0 r))⟩
  obtain ⟨cfg, st, h1, h2, rfl⟩ := clockCharge_ok h
  obtain ⟨f1, f2, f3, f4, f5, f6, f7, f8⟩ := clockCfg_fields h1
  have hb' : cfg.emptyBetween = true := f8.trans hb
  obtain ⟨o1, h3, h4⟩ := columns_split ccd.fill cfg hb' hndc (fresh_new _ _ _) h2 (fresh_new _ _ _) c hc
  rw [clockLoops_single] at h3
  obtain ⟨N, pos, s1, s2⟩ := schedule_of h1 hk
  have hrun := runCfg_of h1 hfill hlen hr img.nr hrows hlow
  have hfresh := fresh_new groups ccd.fractions (maxNTransfers roe cfg)
  set D0 := (ATM.new groups ccd.fractions (maxNTransfers roe cfg)).data with hD0
  have hlim := columnBody_limit (tr := True) (C := img.nc) hrun s1 (hcols c hc) D0 _ (by
    have h6 := dataOk_new (tr := True) (M := N * cfg.steps.length) groups ccd.fractions hfr
      fun g hgm => ⟨(hg g hgm).1, (hg g hgm).2, fun _ => trivial⟩
    refine ⟨⟨rfl, rfl, ?_, ?_⟩, hfresh.1, ?_⟩
    · simp only [s2]; exact h6
    · simp only [s2, (fresh_new groups ccd.fractions (N * cfg.steps.length)).2.1]; exact h6
    · simp only; rw [hfresh.2.1]; exact hfresh.2.2) h3
  have hpad : (img.pad (nPadding roe.accessed)).px r c = img.px r c := by
    simp only [Image.pad, if_pos hrr]
  obtain ⟨g1, g2⟩ := columnBody_drift (r := r) (fun s ph n dw net s' hs => limitSys_net hs) (by
    simp only [hpad]; exact h0) hlim
  simp only [hpad] at g2
  have hout : (st.1.unpad (nPadding roe.accessed)).px r c = o1.1.px r c := (h4.2.2 r).symm
  rw [hout]
  refine ⟨g1, g2.trans ?_⟩
  exact visits_total h1 hforce hr hnd hrun hfr (fun g hgm => (hg g hgm).1) hT0 hT hsum _ r

/-! ## C84 -/

/-- The multipliers of row `w` add up to `w + 1 + offset` over the passes of a standard readout. -/
theorem standard_multipliers {dw : List K} {i : Bool} {e o : ℕ} {rows : List ℕ} {tw : Option (List ℕ)}
    (hcov : Covering o rows tw) (m : Mat K) (mon : Mat Bool) (roe1 : Roe K)
    (hm : (Roe.standard dw true true true i).express rows e o tw = .ok (m, mon, roe1)) (j : ℕ) (hj : j < rows.length) :
    ∑ k ∈ range m.nr, |m.e k j| ≤ ((rows.getD j 0 : ℕ) : K) + 1 + o := by
  simp only [Roe.express] at hm
  obtain ⟨⟨m1, mon1⟩, g1, g2⟩ := bind_eq_ok hm
  injection g2 with g2
  injection g2 with g3 _
  simp only at g3
  subst g3
  -- without time window
  obtain ⟨a, ha, hs, -⟩ := roeExpress_ok g1
  have hnone := roeExpress_eq (K := K) true i rows e o none a ha hs
  simp only [restrictTimeSpan] at hnone
  obtain ⟨m0, mon0, hm0⟩ : ∃ m0 mon0, roeExpress (K := K) true i rows e o none = .ok (m0, mon0) := ⟨_, _, hnone⟩
  have hab : ∑ k ∈ range m0.nr, |m0.e k j| = (rows.getD j 0 : ℕ) + 1 + o := by
    rw [List.getD_eq_getElem _ _ hj, ← C01_column_sum true i rows e o m0 mon0 hm0 j hj]
    exact Finset.sum_congr rfl fun k _ => abs_of_nonneg (C03_bounds true i rows e o a m0 mon0 hm0 ha k j hj).1
  rw [← hab]
  rcases hcov with rfl | ⟨N, rfl, hN⟩
  · rw [g1] at hm0
    injection hm0 with hm0
    injection hm0 with e1 _
    rw [e1]
  · obtain ⟨m', q1, q2, q3, q4⟩ := C06_default_time_window true i rows e o N hN m0 mon0 hm0
    rw [g1] at q1
    injection q1 with q1
    injection q1 with e1 _
    subst e1
    rw [q2]
    exact le_of_eq (Finset.sum_congr rfl fun k hk => by rw [q4 k (Finset.mem_range.1 hk) j])

/-- **C84** for one direction with a standard readout: no pixel of an image without negative pixels changes by more than
the traps of a pixel hold, once per transfer and clocking step — whatever the express value, the number of groups, the
filling function, the densities and the brightness. No pixel becomes negative. -/
theorem C84_clock (img out : Image K) (ccd : CcdView K) (dw : List K) (i : Bool) (roe' : Roe K) (groups : List (Group K))
    (e o : ℕ) (rows columns : List ℕ) (tw : Option (List ℕ)) (hcov : Covering o rows tw) (hnd : rows.Nodup)
    (hndc : columns.Nodup) (hrows : ∀ w ∈ rows, w < img.nr) (hcols : ∀ c ∈ columns, c < img.nc)
    (hlen : ccd.fractions.length ≤ dw.length) (hfr : ∀ x ∈ ccd.fractions, 0 ≤ x)
    (hfill : ∀ ph < ccd.fractions.length, FillModel (ccd.fill ph))
    (hg : ∀ g ∈ groups, (∀ j, 0 ≤ g.dens j) ∧ g.kind.Ok (0 < ·))
    (h : clockCharge img ccd (.standard dw true true true i) groups e o rows columns tw = .ok (out, roe')) (r c : ℕ)
    (hrr : r < img.nr) (h0 : 0 ≤ img.px r c) :
    0 ≤ out.px r c ∧ |out.px r c - img.px r c| ≤
      dw.length * (trapsPerPixel groups ccd.fractions * ((r : K) + 1 + o)) := by
  refine pixel_change img out ccd (.standard dw true true true i) roe' groups e o rows columns tw (Or.inl rfl) rfl rfl trivial hnd hndc hrows hcols hlen
    hfr hfill hg (T := fun w => (w : K) + 1 + o) (fun w => by positivity) (fun a b hab => ?_) ?_ h r c hrr h0
  · have : (a : K) ≤ b := by exact_mod_cast hab
    simp only
    linarith
  exact standard_multipliers hcov

/-- The multipliers of every row add up to the number of pixels that it is transferred over. -/
theorem injection_multipliers {dw : List K} {n : ℕ} {i : Bool} {e o : ℕ} {rows : List ℕ} (m : Mat K)
    (mon : Mat Bool) (roe1 : Roe K)
    (hm : (Roe.injection dw (some n) true true i).express rows e o none = .ok (m, mon, roe1)) (j : ℕ)
    (hj : j < rows.length) : ∑ k ∈ range m.nr, |m.e k j| ≤ (n : K) := by
  simp only [Roe.express] at hm
  obtain ⟨⟨⟨m1, mon1⟩, n'⟩, g1, g2⟩ := bind_eq_ok hm
  injection g2 with g2
  injection g2 with g3 _
  simp only at g3
  subst g3
  unfold injectionExpress at g1
  obtain ⟨np, -, g1⟩ := bind_eq_ok g1
  simp only [Option.getD_some] at g1
  split at g1
  · cases g1
  · rename_i hE
    split at g1
    · cases g1
    · simp only [restrictTimeSpan] at g1
      injection g1 with g1
      injection g1 with g1 _
      injection g1 with g1 _
      subst g1
      simp only
      have hE' : (0 : K) < (effectiveExpress e n : ℕ) := by exact_mod_cast Nat.pos_of_ne_zero hE
      rw [abs_of_nonneg (by positivity), Finset.sum_const, Finset.card_range, nsmul_eq_mul]
      exact le_of_eq (mul_div_cancel₀ _ hE'.ne')

/-- **C84** for charge injection: the same, with the number of pixels that every row is transferred over. -/
theorem C84_injection (img out : Image K) (ccd : CcdView K) (dw : List K) (n : ℕ) (i : Bool) (roe' : Roe K)
    (groups : List (Group K)) (e o : ℕ) (columns : List ℕ) (hndc : columns.Nodup) (hcols : ∀ c ∈ columns, c < img.nc)
    (hlen : ccd.fractions.length ≤ dw.length) (hfr : ∀ x ∈ ccd.fractions, 0 ≤ x)
    (hfill : ∀ ph < ccd.fractions.length, FillModel (ccd.fill ph))
    (hg : ∀ g ∈ groups, (∀ j, 0 ≤ g.dens j) ∧ g.kind.Ok (0 < ·))
    (h : clockCharge img ccd (.injection dw (some n) true true i) groups e o (List.range img.nr) columns none =
      .ok (out, roe')) (r c : ℕ) (hrr : r < img.nr) (h0 : 0 ≤ img.px r c) :
    0 ≤ out.px r c ∧ |out.px r c - img.px r c| ≤ dw.length * (trapsPerPixel groups ccd.fractions * n) := by
  refine pixel_change img out ccd (.injection dw (some n) true true i) roe' groups e o (List.range img.nr) columns none (Or.inl trivial) rfl rfl
    (fun x hx => by rw [List.length_range]; exact List.mem_range.1 hx) List.nodup_range hndc
    (fun w hw => List.mem_range.1 hw) hcols hlen
    hfr hfill hg (T := fun _ => (n : K)) (fun w => Nat.cast_nonneg _) (fun a b _ => le_rfl) ?_ h r c hrr h0
  exact injection_multipliers

/-- The most that a direction can change a pixel by that is transferred `n` times. -/
def Direction.most (d : Direction K) (n : ℕ) : K := d.roe.dwell.length * (trapsPerPixel d.groups d.ccd.fractions * n)

/-- The most that both directions can change pixel `(r, c)` by. -/
def mostChange (par ser : Option (Direction K)) (o r c : ℕ) : K :=
  (par.elim 0 fun d => d.most (r + o + 1)) + (ser.elim 0 fun d => d.most (c + d.offset + 1))

theorem standard_same {img out : Image K} {ccd : CcdView K} {dw : List K} {ef eb f i : Bool} {groups : List (Group K)}
    {e o : ℕ} {rows columns : List ℕ} {tw : Option (List ℕ)} {roe' : Roe K}
    (h : clockCharge img ccd (.standard dw ef eb f i) groups e o rows columns tw = .ok (out, roe')) :
    roe' = .standard dw ef eb f i := by
  obtain ⟨cfg, st, h1, -, -⟩ := clockCharge_ok h
  have f1 := (clockCfg_fields h1).1
  simp only [Roe.express] at f1
  obtain ⟨x, -, g2⟩ := bind_eq_ok f1
  injection g2 with g2
  injection g2 with _ g2
  injection g2 with _ g2
  exact g2.symm

theorem RunsDirection.most_nonneg {rows : List ℕ} {d : Direction K} (h : RunsDirection rows d) (n : ℕ) : 0 ≤ d.most n :=
  mul_nonneg (Nat.cast_nonneg _) (mul_nonneg (mul_nonneg (groups_sum_nonneg fun g hg => (h.groups g hg).1)
    (List.sum_nonneg h.fractions)) (Nat.cast_nonneg _))

theorem RunsDirection.change {rows : List ℕ} {d : Direction K} (h : RunsDirection rows d) {img out : Image K} {o : ℕ}
    {columns : List ℕ} {tw : Option (List ℕ)} {roe' : Roe K} (hcov : Covering o rows tw) (hnd : rows.Nodup)
    (hndc : columns.Nodup) (hrows : ∀ w ∈ rows, w < img.nr) (hcols : ∀ c ∈ columns, c < img.nc)
    (hr : clockCharge img d.ccd d.roe d.groups d.express o rows columns tw = .ok (out, roe')) :
    roe' = d.roe ∧ ∀ r c, r < img.nr → 0 ≤ img.px r c →
      0 ≤ out.px r c ∧ |out.px r c - img.px r c| ≤ d.most (r + o + 1) := by
  obtain ⟨⟨dw, i, hroe, hlen⟩, h2, h3, h4, h5⟩ := h
  rw [hroe] at hr
  refine ⟨(standard_same hr).trans hroe.symm, fun r c hrr h0 => ?_⟩
  have := C84_clock img out d.ccd dw i roe' d.groups d.express o rows columns tw hcov hnd hndc hrows hcols hlen h2 h3 h4
    hr r c hrr h0
  refine ⟨this.1, this.2.trans (le_of_eq ?_)⟩
  unfold Direction.most
  rw [hroe]
  simp only [Roe.dwell]
  push_cast
  ring

/-- **C84** for `add_cti`: with instant-capture traps, standard readouts in one or both directions, any express values,
offsets and windows, a pixel `(r, c)` that is not negative changes by at most `mostChange` — steps × traps per pixel × (r + offset + 1) for
parallel clocking, and the same with `c` for serial clocking — and does not become negative. -/
theorem C84_add_cti (img out : Image K) (par ser par' ser' : Option (Direction K)) (o : ℕ) (pw sw : Window)
    (hp : ∀ d ∈ par, RunsDirection (pw.resolve img.nr) d) (hs : ∀ d ∈ ser, RunsDirection (sw.resolve img.nc) d)
    (hpn : (pw.resolve img.nr).Nodup) (hsn : (sw.resolve img.nc).Nodup)
    (hpr : ∀ w ∈ pw.resolve img.nr, w < img.nr) (hsr : ∀ w ∈ sw.resolve img.nc, w < img.nc)
    (h : addCti img par o pw ser sw none = .ok (out, par', ser')) :
    (out.nr = img.nr ∧ out.nc = img.nc ∧ par' = par ∧ ser' = ser) ∧ ∀ r < img.nr, ∀ c < img.nc, 0 ≤ img.px r c →
      0 ≤ out.px r c ∧ |out.px r c - img.px r c| ≤ mostChange par ser o r c := by
  obtain ⟨serCols, mid, hsc, h1, h2⟩ := addCti_ok h
  have hsc' : serCols = pw.resolve img.nr := by
    rcases hsc with ⟨-, e⟩ | ⟨t, e, -⟩
    · exact e
    · cases e
  subst hsc'
  have hmid : (mid.nr = img.nr ∧ mid.nc = img.nc ∧ par' = par) ∧ ∀ r < img.nr, ∀ c < img.nc, 0 ≤ img.px r c →
      0 ≤ mid.px r c ∧ |mid.px r c - img.px r c| ≤ par.elim 0 fun d => d.most (r + o + 1) := by
    rcases h1 with ⟨rfl, rfl, rfl⟩ | ⟨d, roe', rfl, rfl, hr⟩
    · exact ⟨⟨rfl, rfl, rfl⟩, fun r hr c hc h0 => ⟨h0, by simp⟩⟩
    · have hsh := clockCharge_shape hr
      obtain ⟨q1, q2⟩ := (hp d rfl).change (Or.inr ⟨img.nr, rfl, hpr⟩) hpn hsn hpr hsr hr
      refine ⟨⟨hsh.1, hsh.2, by rw [q1]⟩, fun r hr c hc h0 => q2 r c hr h0⟩
  obtain ⟨⟨m1, m2, m3⟩, m4⟩ := hmid
  rcases h2 with ⟨rfl, rfl, rfl⟩ | ⟨d, roe', res, rfl, rfl, rfl, hr⟩
  · refine ⟨⟨m1, m2, m3, rfl⟩, fun r hr c hc h0 => ?_⟩
    unfold mostChange
    rw [Option.elim_none, add_zero]
    exact m4 r hr c hc h0
  · have hsh := clockCharge_shape hr
    obtain ⟨q1, q2⟩ := (hs d rfl).change (Or.inl rfl) hsn hpn
      (fun w hw => by change w < mid.nc; rw [m2]; exact hsr w hw)
      (fun w hw => by change w < mid.nr; rw [m1]; exact hpr w hw) hr
    refine ⟨⟨hsh.2.trans m1, hsh.1.trans m2, m3, by rw [q1]⟩, fun r hrr c hc h0 => ?_⟩
    obtain ⟨a1, a2⟩ := m4 r hrr c hc h0
    obtain ⟨b1, b2⟩ := q2 c r (by change c < mid.nc; omega) a1
    refine ⟨b1, ?_⟩
    have e : res.transpose.px r c - img.px r c = (mid.px r c - img.px r c) + (res.px c r - mid.transpose.px c r) := by
      simp only [Image.transpose]; ring
    rw [e]
    exact (abs_add_le _ _).trans (add_le_add a2 b2)

/-- **C84** for `remove_cti`: a pixel that holds at least what it can change by does not differ from the given image by
more than that after any number of iterations, whether or not they converge. For one iteration it is enough that the
pixel is not negative. Other pixels may be negative. -/
theorem C84_remove_cti (img out : Image K) (n : ℕ) (par ser par' ser' : Option (Direction K)) (o : ℕ) (pw sw : Window)
    (hp : ∀ d ∈ par, RunsDirection (pw.resolve img.nr) d) (hs : ∀ d ∈ ser, RunsDirection (sw.resolve img.nc) d)
    (hpn : (pw.resolve img.nr).Nodup) (hsn : (sw.resolve img.nc).Nodup)
    (hpr : ∀ w ∈ pw.resolve img.nr, w < img.nr) (hsr : ∀ w ∈ sw.resolve img.nc, w < img.nc)
    (h : removeCti img n par o pw ser sw none = .ok (out, par', ser')) :
    (out.nr = img.nr ∧ out.nc = img.nc ∧ par' = par ∧ ser' = ser) ∧ ∀ r < img.nr, ∀ c < img.nc,
      0 ≤ img.px r c → (n ≤ 1 ∨ mostChange par ser o r c ≤ img.px r c) →
      |out.px r c - img.px r c| ≤ mostChange par ser o r c := by
  have hmost : ∀ r c, 0 ≤ mostChange par ser o r c := by
    intro r c
    unfold mostChange
    refine add_nonneg ?_ ?_
    · cases par with
      | none => exact le_rfl
      | some d => exact (hp d rfl).most_nonneg _
    · cases ser with
      | none => exact le_rfl
      | some d => exact (hs d rfl).most_nonneg _
  induction n generalizing out par' ser' with
  | zero =>
    rw [C36_zero] at h
    injection h with h
    injection h with h1 h2
    injection h2 with h2 h3
    subst h1 h2 h3
    exact ⟨⟨rfl, rfl, rfl, rfl⟩, fun r _ c _ _ _ => by rw [sub_self, abs_zero]; exact hmost r c⟩
  | succ n ih =>
    obtain ⟨cur, p, s, added, h1, h2, h3, h4, h5⟩ := (C36_iteration img n par ser o pw sw none out par' ser').1 h
    obtain ⟨⟨c1, c2, rfl, rfl⟩, c4⟩ := ih cur p s h1
    have hadd := C84_add_cti cur added p s par' ser' o pw sw (by rw [c1]; exact hp) (by rw [c2]; exact hs)
      (by rw [c1]; exact hpn) (by rw [c2]; exact hsn) (by rw [c1]; exact hpr) (by rw [c2]; exact hsr) h2
    obtain ⟨⟨d1, d2, d3, d4⟩, d5⟩ := hadd
    refine ⟨⟨h3.trans c1, h4.trans c2, d3, d4⟩, fun r hr c hc h0 hbr => ?_⟩
    have hcur : 0 ≤ cur.px r c := by
      rcases hbr with hle | hbr
      · obtain rfl : n = 0 := by omega
        rw [C36_zero] at h1
        injection h1 with h1
        injection h1 with e1 _
        rw [← e1]
        exact h0
      · have a := (abs_le.1 (c4 r hr c hc h0 (Or.inr hbr))).1
        linarith
    have := (d5 r (by omega) c (by omega) hcur).2
    rw [h5 r c]
    have e : cur.px r c + (img.px r c - added.px r c) - img.px r c = -(added.px r c - cur.px r c) := by ring
    rw [e, abs_neg]
    exact this

/-- The bound is attained: behind empty rows a bright pixel fills all traps in every transfer. -/
example : ((addCti (exImg 3 1 [[0], [0], [500]]) (some exSafe) 1 .all none .all none).map
    fun x => x.1.rows) = .ok [[0], [0], [460]] ∧ mostChange (some exSafe) none 1 2 0 = 40 := by
  constructor <;> decide +kernel

/-- Three iterations of `remove_cti`; every pixel holds more than it can change by. -/
example : ((removeCti (exImg 3 1 [[50], [30], [500]]) 3 (some exSafe) 1 .all none .all none).map fun x => x.1.rows).isOk ∧
    (∀ r < 3, ∀ c < 1, mostChange (some exSafe) none 1 r c ≤ (exImg 3 1 [[50], [30], [500]]).px r c) := by
  constructor <;> decide +kernel

/-- **C84** is *false* for images with negative pixels: a pixel of −1000 electrons is set to 0, though the traps hold 10. -/
theorem C84_negative_false : ((addCti (exImg 1 1 [[-1000]]) (some exSafe) 0 .all none .all none).map
    fun x => x.1.rows) = .ok [[0]] ∧ mostChange (some exSafe) none 0 0 0 = 10 := by
  constructor <;> decide +kernel

end Arctic
