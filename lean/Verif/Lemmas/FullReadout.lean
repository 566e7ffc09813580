import Verif.Lemmas.Charge
import Verif.Props.Express
import Verif.Props.Readout

/-!
# Readout without the express approximation

For `express = 0` every processed entry of the express matrix is 1, and traps see no more transfers than were allowed
for.
-/

set_option linter.unusedSectionVars false
set_option linter.unusedVariables false

namespace Arctic
open Finset

variable {K : Type} [Field K] [LinearOrder K] [IsStrictOrderedRing K]

theorem mem_monitoredRows {cfg : ClockCfg K} {k j : ℕ} :
    j ∈ monitoredRows cfg k ↔ j < cfg.monitor.nc ∧ cfg.monitor.e k j = true := by
  unfold monitoredRows
  rw [List.mem_filter, List.mem_range]

/-- What standard readout does for `express = 0`. -/
theorem standard_full {ef i : Bool} {o : ℕ} {rows : List ℕ} {tw : Option (List ℕ)} {m : Mat K} {mon : Mat Bool}
    (hcov : Covering o rows tw) (h : roeExpress ef i rows 0 o tw = .ok (m, mon)) :
    ∃ a, rows.max? = some a ∧ m.nr = a + 1 + o ∧ m.nc = rows.length ∧ mon.nc = rows.length ∧
      ∀ k < m.nr, ∀ j < rows.length, (m.e k j = if k ≤ rows.getD j 0 + o then 1 else 0) ∧
        (mon.e k j = true ↔ k ≤ rows.getD j 0 + o) := by
  obtain ⟨a, ha, -⟩ := roeExpress_ok h
  obtain ⟨m0, mon0, g1, g2, g3, g4⟩ := C04_entries (K := K) ef i rows o a ha
  have hmon0 : mon0.nc = rows.length ∧ ∀ k j, mon0.e k j = true ↔ 0 < m0.e k j := by
    have := C03_monitor_iff_pos ef i rows 0 o m0 mon0 g1
    exact ⟨(this 0 0).2.1, fun k j => (this k j).2.2.2⟩
  have key : m.nr = m0.nr ∧ m.nc = m0.nc ∧ mon = mon0 ∧ ∀ k < m0.nr, ∀ j, m.e k j = m0.e k j := by
    rcases hcov with rfl | ⟨N, rfl, hN⟩
    · rw [g1] at h
      injection h with h
      injection h with h1 h2
      subst h1 h2
      exact ⟨rfl, rfl, rfl, fun _ _ _ => rfl⟩
    · obtain ⟨m', q1, q2, q3, q4⟩ := C06_default_time_window ef i rows 0 o N hN m0 mon0 g1
      rw [q1] at h
      injection h with h
      injection h with h1 h2
      subst h1 h2
      exact ⟨q2, q3, rfl, q4⟩
  obtain ⟨k1, k2, k3, k4⟩ := key
  refine ⟨a, ha, by rw [k1, g2], by rw [k2, g3], by rw [k3]; exact hmon0.1, ?_⟩
  intro k hk j hj
  have he := g4 k j hj
  rw [List.getD_eq_getElem _ _ hj]
  rw [k4 k (by omega) j, k3]
  refine ⟨he, ?_⟩
  rw [hmon0.2, he]
  split
  · rename_i hle; exact ⟨fun _ => hle, fun _ => one_pos⟩
  · rename_i hle; exact ⟨fun h => absurd h (lt_irrefl _), fun h => absurd h hle⟩

/-- A saved state is continued by later passes at later rows only. -/
theorem standard_saves {o : ℕ} {rows : List ℕ} {m : Mat K} {sv : Mat Bool} {a : ℕ} (ha : rows.max? = some a)
    (ho : o = 0) (h0 : rows.head? = some 0) (hnr : m.nr = a + 1 + o) (hnc : m.nc = rows.length)
    (hm : ∀ k < m.nr, ∀ j < rows.length, m.e k j = if k ≤ rows.getD j 0 + o then 1 else 0)
    (hs : roeSave false m = .ok sv) (k j : ℕ) (hsv : sv.e k j = true) (k' : ℕ) (hk' : k' < m.nr) (hkk : k < k')
    (j' : ℕ) (hj' : j' < rows.length) (hmon : k' ≤ rows.getD j' 0 + o) : j < j' := by
  unfold roeSave at hs
  rw [if_neg (by simp)] at hs
  split at hs
  · cases hs
  · injection hs with hs
    subst hs
    simp only [decide_eq_true_eq] at hsv
    obtain ⟨hk, hsv⟩ := hsv
    subst ho
    have hw0 : rows.getD 0 0 = 0 := by
      cases rows with
      | nil => rfl
      | cons x l => simp only [List.head?_cons, Option.some.injEq] at h0; simp [h0]
    have hj1 : 1 ≤ j' := by
      by_contra hc
      have : j' = 0 := by omega
      subst this
      omega
    have hpos : ∀ q < rows.length, 0 < m.e (k + 1) q ↔ k + 1 ≤ rows.getD q 0 := by
      intro q hq
      rw [hm (k + 1) (by omega) q hq]
      split
      · rename_i hle; exact ⟨fun _ => by simpa using hle, fun _ => one_pos⟩
      · rename_i hle; exact ⟨fun h => absurd h (lt_irrefl _), fun h => absurd h (by simpa using hle)⟩
    have hj1pos : 0 < m.e (k + 1) ((j' - 1) + 1) := by
      rw [Nat.sub_add_cancel hj1]
      exact (hpos j' hj').2 (by omega)
    unfold saveRow at hsv
    split at hsv
    · rename_i r hr
      injection hsv with hsv
      subst hsv
      rw [List.find?_eq_some_iff_append] at hr
      obtain ⟨hr1, as, bs, hr2, hr3⟩ := hr
      by_contra hc
      -- `j' - 1` comes before `r`
      have hlt : j' - 1 < r := by omega
      have hmem : j' - 1 ∈ as := by
        have hsorted : (as ++ r :: bs).Pairwise (· < ·) := by rw [← hr2]; exact List.pairwise_lt_range
        have hin : j' - 1 ∈ as ++ r :: bs := by rw [← hr2, List.mem_range]; omega
        rcases List.mem_append.1 hin with h | h
        · exact h
        · rw [List.pairwise_append, List.pairwise_cons] at hsorted
          rcases List.mem_cons.1 h with h | h
          · omega
          · have := hsorted.2.1.1 _ h; omega
      have := hr3 _ hmem
      simp only [Bool.not_eq_true', decide_eq_false_iff_not] at this
      exact this hj1pos
    · rename_i hn
      rw [List.find?_eq_none] at hn
      exact absurd hj1pos (by
        have := hn (j' - 1) (by rw [List.mem_range]; omega)
        simpa using this)

theorem pump_full {ef i : Bool} {nPumps : ℕ} {l : List K} (h : pumpMultipliers ef i nPumps 0 = .ok l) :
    l = List.replicate nPumps 1 := by
  have hE : effectiveExpress 0 nPumps = nPumps := by simp [effectiveExpress]
  unfold pumpMultipliers at h
  simp only [hE] at h
  split at h
  · cases h
  · rename_i hn
    have hfirst : ¬ (ef = true ∧ nPumps > 1 ∧ nPumps < nPumps) := by rintro ⟨_, _, h⟩; omega
    rw [if_neg hfirst, if_neg hfirst] at h
    split at h
    · injection h with h
      rw [← h]
      have hr : roundHalfEven nPumps nPumps = 1 := by
        unfold roundHalfEven
        simp only [Nat.mod_self, Nat.div_self (by omega : 0 < nPumps)]
        rw [if_pos (by omega)]
      rw [hr]
      simp only [List.sum_replicate, List.length_replicate]
      have : (List.replicate nPumps ((1 : ℕ) : ℤ)).modify (nPumps - 1)
          (fun x => x + ((nPumps : ℤ) - nPumps • ((1 : ℕ) : ℤ))) = List.replicate nPumps ((1 : ℕ) : ℤ) := by
        have : (fun x : ℤ => x + ((nPumps : ℤ) - nPumps • ((1 : ℕ) : ℤ))) = id := by
          funext x; simp
        rw [this]
        exact List.modify_id _ _
      rw [this]
      simp
    · injection h with h
      rw [← h, div_self (by exact_mod_cast hn)]

/-- The matrices of a full readout. -/
theorem fullReadout_cfg {roe roe' : Roe K} {ccd : CcdView K} {o : ℕ} {rows : List ℕ} {tw : Option (List ℕ)}
    {cfg : ClockCfg K} (hfull : FullReadout o rows tw roe) (h : clockCfg roe ccd 0 o rows tw = .ok (cfg, roe')) :
    ∃ N pos, Schedule cfg N pos ∧ maxNTransfers roe cfg = N * cfg.steps.length ∧
      (∀ k < cfg.expr.nr, ∀ j ∈ monitoredRows cfg k, cfg.expr.e k j = 1) ∧
      (NoSaves roe → ∀ k j, cfg.saveMat.e k j = false) := by
  obtain ⟨f1, f2, -⟩ := clockCfg_fields h
  cases roe with
  | standard dw ef eb f i =>
    simp only [Roe.express] at f1
    obtain ⟨⟨m, mon⟩, g1, g2⟩ := bind_eq_ok f1
    injection g2 with g2
    injection g2 with g3 g4
    injection g4 with g4 _
    subst g3 g4
    obtain ⟨a, ha, h1, h2, h3, h4⟩ := standard_full hfull.1 g1
    simp only [Roe.save] at f2
    refine ⟨cfg.monitor.nc, fun _ j => j, ⟨?_, ?_, ?_⟩, ?_, ?_, ?_⟩
    · intro k _ j hj; exact monitoredRows_lt hj
    · intro k _ j _ j' _ hjj; exact hjj
    · intro k hk j hj hs k' hk' hkk j' hj'
      rcases hfull.2 with hef | ⟨ho, h0⟩
      · rw [hef] at f2
        unfold roeSave at f2
        rw [if_pos rfl] at f2
        injection f2 with f2
        rw [← f2] at hs
        cases hs
      · cases hef : ef with
        | true =>
          rw [hef] at f2
          unfold roeSave at f2
          rw [if_pos rfl] at f2
          injection f2 with f2
          rw [← f2] at hs
          cases hs
        | false =>
          rw [hef] at f2
          obtain ⟨q1, q2⟩ := mem_monitoredRows.1 hj'
          rw [h3] at q1
          exact standard_saves ha ho h0 h1 h2 (fun k hk j hj => (h4 k hk j hj).1) f2 k j hs k' hk' hkk j' q1
            ((h4 k' hk' j' q1).2.1 q2)
    · change cfg.expr.nc * _ = _
      rw [h2, h3]
    · intro k hk j hj
      obtain ⟨q1, q2⟩ := mem_monitoredRows.1 hj
      rw [h3] at q1
      obtain ⟨e1, e2⟩ := h4 k hk j q1
      rw [e1, if_pos (e2.1 q2)]
    · intro hef k j
      change ef = true at hef
      rw [hef] at f2
      unfold roeSave at f2
      rw [if_pos rfl] at f2
      injection f2 with f2
      rw [← f2]
  | injection dw n eb f i =>
    have htw : tw = none := hfull
    subst htw
    simp only [Roe.express] at f1
    obtain ⟨⟨⟨m, mon⟩, n'⟩, g1, g2⟩ := bind_eq_ok f1
    injection g2 with g2
    injection g2 with g3 g4
    injection g4 with g4 _
    subst g3 g4
    simp only [Roe.save] at f2
    injection f2 with f2
    have hsv : ∀ k j, cfg.saveMat.e k j = false := by
      intro k j; rw [← f2]; rfl
    have hmat : cfg.expr.nc = cfg.monitor.nc ∧ ∀ k j, cfg.expr.e k j = 1 := by
      unfold injectionExpress nPixelsOfWindow at g1
      cases hw : rows.max? with
      | none => rw [hw] at g1; cases g1
      | some a =>
        rw [hw] at g1
        simp only [bind, Except.bind, restrictTimeSpan] at g1
        split at g1
        · cases g1
        · rename_i hE
          split at g1
          · cases g1
          · injection g1 with g1
            injection g1 with g1 _
            injection g1 with g1 g5
            rw [← g1, ← g5]
            refine ⟨rfl, fun k j => ?_⟩
            have hE' : effectiveExpress 0 (n.getD (a + 1 + o)) = n.getD (a + 1 + o) := by simp [effectiveExpress]
            simp only [hE']
            rw [hE'] at hE
            exact div_self (by exact_mod_cast hE)
    refine ⟨cfg.monitor.nc, fun _ j => j, ⟨?_, ?_, ?_⟩, ?_, ?_, ?_⟩
    · intro k _ j hj; exact monitoredRows_lt hj
    · intro k _ j _ j' _ hjj; exact hjj
    · intro k hk j hj hs
      rw [hsv] at hs; cases hs
    · change cfg.expr.nc * _ = _
      rw [hmat.1]
    · intro k _ j _
      exact hmat.2 k j
    · intro _; exact hsv
  | pumping dw n ef i =>
    simp only [Roe.express] at f1
    obtain ⟨⟨m, mon⟩, g1, g2⟩ := bind_eq_ok f1
    injection g2 with g2
    injection g2 with g3 g4
    injection g4 with g4 _
    subst g3 g4
    unfold pumpingExpress at g1
    obtain ⟨l, g5, g6⟩ := bind_eq_ok g1
    simp only at g6
    injection g6 with g6
    injection g6 with g7 g8
    have hl := pump_full g5
    simp only [Roe.save] at f2
    have hmon : ∀ k j, j ∈ monitoredRows cfg k → cfg.expr.e k j = 1 ∧ k / n = j ∧ j < rows.length := by
      intro k j hj
      obtain ⟨q1, q2⟩ := mem_monitoredRows.1 hj
      rw [← g8] at q2
      simp only [decide_eq_true_eq] at q2
      rw [← g7]
      simp only
      rw [hl, List.length_replicate] at q2 ⊢
      by_cases hc : k / n = j ∧ j < rows.length
      · rw [if_pos hc] at q2 ⊢
        refine ⟨?_, hc⟩
        by_cases hlt : k % n < n
        · rw [List.getD_eq_getElem _ _ (by simpa using hlt), List.getElem_replicate]
        · rw [List.getD_eq_default _ _ (by simpa using hlt)] at q2
          exact absurd q2 (lt_irrefl _)
      · rw [if_neg hc] at q2
        exact absurd q2 (lt_irrefl _)
    refine ⟨cfg.expr.nr, fun k _ => k, ⟨?_, ?_, ?_⟩, ?_, ?_, ?_⟩
    · intro k hk j _; exact hk
    · intro k _ j hj j' hj' hjj
      have h1 := (hmon k j hj).2.1
      have h2 := (hmon k j' hj').2.1
      omega
    · intro k hk j hj _ k' _ hkk j' _; exact hkk
    · rfl
    · intro k _ j hj; exact (hmon k j hj).1
    · intro hf; exact hf.elim

theorem positiveIndices_nodup (l : List K) : (positiveIndices l).Nodup :=
  List.Nodup.filter _ List.nodup_range

theorem unitCfg_of {roe roe' : Roe K} {ccd : CcdView K} {e o : ℕ} {rows : List ℕ} {tw : Option (List ℕ)}
    {cfg : ClockCfg K} (h : clockCfg roe ccd e o rows tw = .ok (cfg, roe')) (hccd : GoodFill ccd)
    (hunit : ∀ k < cfg.expr.nr, ∀ j ∈ monitoredRows cfg k, cfg.expr.e k j = 1) :
    UnitCfg cfg ccd.fill ccd.fractions.length ∧ (∀ step ∈ cfg.steps, ∀ t, cfg.dwell[step]? = some t → 0 < t) ∧
      cfg.phases.Nodup := by
  obtain ⟨-, -, f3, f4, f5, f6, -, -⟩ := clockCfg_fields h
  have hdw : ∀ step ∈ cfg.steps, ∀ t, cfg.dwell[step]? = some t → 0 < t := by
    intro step hs t ht
    rw [f5] at hs
    rw [f4] at ht
    have := (mem_positiveIndices.1 hs).2
    rw [List.getD_eq_getElem?_getD, ht] at this
    exact this
  have hph : ∀ ph ∈ cfg.phases, ph < ccd.fractions.length := by
    intro ph hph
    rw [f6] at hph
    exact (mem_positiveIndices.1 hph).1
  refine ⟨⟨hunit, ?_, fun step hs t ht => (hdw step hs t ht).le, hph, fun ph hp => (hccd.2 ph (hph ph hp)).1,
    fun ph hp => (hccd.2 ph (hph ph hp)).2⟩, hdw, ?_⟩
  · intro step phase ph hp
    rw [f3] at hp
    cases hl : roe.clockSequence[step]? with
    | none => rw [hl] at hp; cases hp
    | some l =>
      rw [hl] at hp
      have hp' : l[phase]? = some ph := hp
      obtain ⟨step', phase', -, hlt, rfl⟩ := mem_genClockSequence (List.mem_of_getElem? hl)
        (List.mem_of_getElem? hp')
      have hn : 0 < roe.nPhases := by omega
      exact ⟨C13_high_release _ _ _ _ hn, (C13_fractions _ _ _ _).1, (C13_fractions _ _ _ _).2⟩
  · rw [f6]; exact positiveIndices_nodup _

end Arctic
