import Verif.Lemmas.Causal
import Verif.Props.ClockExamples

/-!
# C35 — causality: pixels farther from the readout never influence pixels nearer to it
-/

set_option linter.unusedSectionVars false
set_option linter.unusedVariables false

namespace Arctic

variable {K : Type} [Field K] [LinearOrder K] [IsStrictOrderedRing K]

/-- Forced release gives a clock sequence that only moves charge away from the readout. -/
theorem forward_of_force (roe : Roe K) (hf : roe.force = true) : Forward roe.clockSequence := by
  intro step phase ph h
  cases h1 : roe.clockSequence[step]? with
  | none => rw [h1] at h; cases h
  | some l =>
    rw [h1] at h
    have h2 : l[phase]? = some ph := h
    have hl := List.mem_of_getElem? h1
    have hp := List.mem_of_getElem? h2
    unfold Roe.clockSequence at hl
    obtain ⟨st, p, hs, hph, rfl⟩ := mem_genClockSequence hl hp
    rw [hf]
    have hsteps : roe.nSteps = roe.nPhases := by
      cases roe with
      | standard => rfl
      | injection => rfl
      | pumping => simp [Roe.force] at hf
    refine ⟨fun hh => (C13_high_captures_own_pixel _ _ _ _ (hsteps ▸ hs) hh).2, fun o ho => ?_⟩
    have := C14_touched_force (K := K) roe.nPhases st p (hsteps ▸ hs) hph o.1 (by
      unfold Phase.touched
      exact List.mem_cons_of_mem _ (List.mem_map_of_mem ho))
    omega

/-- Without saves in the middle of a column. -/
theorem saveSound_of_none (cfg : ClockCfg K) (h : ∀ k j, cfg.saveMat.e k j = false) : SaveSound cfg := by
  intro k j hk
  rw [h] at hk; cases hk

/-- Without emptying for first transfers and without a time window the states are saved soundly. -/
theorem saveSound_standard {d : List K} {eb f i : Bool} {ccd : CcdView K} {e o : ℕ} {rows : List ℕ}
    (hrows : rows.Pairwise (· < ·)) {cfg : ClockCfg K} {roe' : Roe K}
    (h : clockCfg (.standard d false eb f i) ccd e o rows none = .ok (cfg, roe')) : SaveSound cfg := by
  obtain ⟨f1, f2, -⟩ := clockCfg_fields h
  simp only [Roe.express] at f1
  obtain ⟨⟨m, mon⟩, g1, g2⟩ := bind_eq_ok f1
  injection g2 with g2
  injection g2 with g3 g4
  injection g4 with g4 _
  have hmon := fun k j => C03_monitor_iff_pos false i rows e o m mon g1 k j
  have hmono := C03_monotone i rows e o m mon g1
  -- rows of later passes are positive at fewer pixels
  have hanti : ∀ k k' j, j < rows.length → k ≤ k' → k' < m.nr → 0 < m.e k' j → 0 < m.e k j := by
    obtain ⟨a, hw, hs, r, hr, rfl, rfl⟩ := roeExpress_ok g1
    simp only [restrictTimeSpan, Except.ok.injEq] at hr
    subst hr
    intro k k' j hj hkk hk' hpos
    simp only at hpos ⊢
    rcases expressFull_cases (K := K) false i (a + 1) e o with ⟨-, heq⟩ | ⟨h1, -, -⟩ | ⟨h1, -, -⟩
    · rw [heq] at hpos ⊢
      have hE := effectiveExpress_pos e (a + 1 + o) (by omega)
      rw [expressBase_pos_iff i _ _ _ _ hE (by omega)] at hpos ⊢
      refine lt_of_le_of_lt ?_ hpos
      exact mul_le_mul_of_nonneg_right (by exact_mod_cast hkk) (maxMultiplier_nonneg i _ _)
    · cases h1
    · cases h1
  simp only [Roe.save] at f2
  rw [← g3] at f2
  intro k j hsv k' hk hk' j' hj'
  have hsave : k < m.nr - 1 ∧ saveRow (m.e (k + 1)) m.nc = some j ∧ ¬ (2 ≤ m.nr ∧ m.nc ≤ 1) := by
    unfold roeSave at f2
    simp only [Bool.false_eq_true, if_false] at f2
    split at f2
    · cases f2
    · rename_i hc
      injection f2 with f2
      rw [← f2] at hsv
      simp only [decide_eq_true_eq] at hsv
      exact ⟨hsv.1, hsv.2, hc⟩
  obtain ⟨s1, s2, s3⟩ := hsave
  have hnc := (hmon 0 0).2.2.1
  have hj'' : j' < rows.length ∧ 0 < m.e k' j' := by
    unfold monitoredRows at hj'
    rw [← g4] at hj'
    simp only [List.mem_filter, List.mem_range] at hj'
    exact ⟨(hmon 0 0).2.1 ▸ hj'.1, (hmon k' j').2.2.2.1 hj'.2⟩
  obtain ⟨hl, hpos⟩ := hj''
  rw [← g3] at hk'
  have hpos1 : 0 < m.e (k + 1) j' := hanti (k + 1) k' j' hl hk hk' hpos
  -- a positive entry at an index at least one
  obtain ⟨q, hq1, hq2, hq3⟩ : ∃ q, q < m.nc - 1 ∧ 0 < m.e (k + 1) (q + 1) ∧ q ≤ j' := by
    cases j' with
    | succ q => exact ⟨q, by omega, hpos1, by omega⟩
    | zero =>
      have h1 : 1 < rows.length := by omega
      refine ⟨0, by omega, ?_, le_rfl⟩
      refine lt_of_lt_of_le hpos1 (hmono (k + 1) 0 1 hl h1 ?_).1
      exact (List.pairwise_iff_getElem.1 hrows 0 1 hl h1 (by omega)).le
  unfold saveRow at s2
  split at s2
  · rename_i r hr
    injection s2 with s2
    subst s2
    by_contra hlt
    have hlt' : q < r := by omega
    rw [List.find?_range_eq_some] at hr
    have := hr.2.2 q hlt'
    simp only [gt_iff_lt, hq2, decide_true, Bool.not_true, Bool.false_eq_true] at this
  · rename_i hr
    rw [List.find?_eq_none] at hr
    have := hr q (List.mem_range.2 hq1)
    simp only [gt_iff_lt, decide_eq_true_eq] at this
    exact absurd hq2 this

/-- The conditions on a readout under which trap states are saved soundly: all readouts that empty the traps in every
pass, and otherwise no time window. -/
def SavesSoundly (roe : Roe K) (tw : Option (List ℕ)) : Prop :=
  match roe with
  | .standard _ ef _ _ _ => ef = true ∨ tw = none
  | .injection .. => True
  | .pumping .. => False

theorem saveSound_of {roe roe' : Roe K} {ccd : CcdView K} {e o : ℕ} {rows : List ℕ} {tw : Option (List ℕ)}
    (hrows : rows.Pairwise (· < ·)) (hroe : SavesSoundly roe tw) {cfg : ClockCfg K}
    (h : clockCfg roe ccd e o rows tw = .ok (cfg, roe')) : SaveSound cfg := by
  have f2 := (clockCfg_fields h).2.1
  cases roe with
  | standard d ef eb f i =>
    cases ef with
    | true =>
      refine saveSound_of_none cfg fun k j => ?_
      simp only [Roe.save, roeSave, if_true] at f2
      injection f2 with f2
      rw [← f2]
    | false =>
      rcases hroe with h1 | rfl
      · cases h1
      · exact saveSound_standard hrows h
  | injection d n b f i =>
    refine saveSound_of_none cfg fun k j => ?_
    simp only [Roe.save, injectionSave] at f2
    injection f2 with f2
    rw [← f2]
  | pumping => exact hroe.elim

/-- **C35** for one call of the clocking code, every express value, offset, window (in increasing order) and trap set:
if two images agree up to row `R`, so do the results. -/
theorem C35_clocking (i j : Image K) (ccd : CcdView K) (roe : Roe K) (groups : List (Group K)) (e o : ℕ)
    (rows columns : List ℕ) (tw : Option (List ℕ)) (hf : roe.force = true) (hb : roe.emptyBetween = true)
    (hsv : SavesSoundly roe tw) (hrows : rows.Pairwise (· < ·)) (hnr : i.nr = j.nr) (R : ℕ) (hR : R < i.nr)
    (hag : ∀ r ≤ R, ∀ c, i.px r c = j.px r c) (oi oj : Image K) (ri rj : Roe K)
    (hi : clockCharge i ccd roe groups e o rows columns tw = .ok (oi, ri))
    (hj : clockCharge j ccd roe groups e o rows columns tw = .ok (oj, rj)) :
    ∀ r ≤ R, ∀ c, oi.px r c = oj.px r c := by
  obtain ⟨cfg, st, h1, h2, rfl⟩ := clockCharge_ok hi
  obtain ⟨cfg', st', h1', h2', rfl⟩ := clockCharge_ok hj
  rw [h1] at h1'
  injection h1' with h1'
  injection h1' with h1' _
  subst h1'
  obtain ⟨-, -, f3, -, -, -, f7, f8⟩ := clockCfg_fields h1
  refine clockLoops_causal ccd.fill cfg (f8.trans hb) (by rw [f3]; exact forward_of_force roe hf)
    (by rw [f7]; exact hrows) (saveSound_of hrows hsv h1) R columns _ _ ?_ (fresh_new _ _ _) (fresh_new _ _ _) st st' h2 h2'
  intro r hr c
  simp only [Image.pad]
  rw [if_pos (by omega), if_pos (by omega), hag r hr c]

/-- **C35** for `add_cti` in the parallel direction. -/
theorem C35_causality (i j : Image K) (d : Direction K) (o : ℕ) (pw sw : Window)
    (hroe : ∃ dw ef i, d.roe = .standard dw ef true true i ∨ ∃ n, d.roe = .injection dw n true true i)
    (hrows : (pw.resolve i.nr).Pairwise (· < ·)) (hin : ∀ x ∈ pw.resolve i.nr, x < i.nr)
    (hnr : i.nr = j.nr) (hnc : i.nc = j.nc) (R : ℕ) (hR : R < i.nr)
    (hag : ∀ r ≤ R, ∀ c, i.px r c = j.px r c) (oi oj : Image K) (p q p' q' : Option (Direction K))
    (hi : addCti i (some d) o pw none sw none = .ok (oi, p, q))
    (hj : addCti j (some d) o pw none sw none = .ok (oj, p', q')) :
    ∀ r ≤ R, ∀ c, oi.px r c = oj.px r c := by
  rw [addCti_par] at hi hj
  rw [← hnr, ← hnc] at hj
  have unmap : ∀ (x : Except Err (Image K × Roe K)) (o' : Image K) (p q : Option (Direction K)),
      (x.map fun x => (x.1, some { d with roe := x.2 }, (none : Option (Direction K)))) = .ok (o', p, q) →
      ∃ r, x = .ok (o', r) := by
    intro x o' p q h
    cases x with
    | error e => cases h
    | ok v => injection h with h; injection h with h _; exact ⟨v.2, by rw [← h]⟩
  obtain ⟨ri, hi⟩ := unmap _ _ _ _ hi
  obtain ⟨rj, hj⟩ := unmap _ _ _ _ hj
  obtain ⟨dw, ef, ii, hroe | ⟨n, hroe⟩⟩ := hroe
  · rw [hroe] at hi hj
    rw [clockCharge_default_time _ _ _ _ _ _ _ _ _ _ _ _ _ hin] at hi hj
    exact C35_clocking i j _ (.standard dw ef true true ii) _ _ _ _ _ none rfl rfl (Or.inr rfl) hrows hnr R hR hag _ _ _ _ hi hj
  · rw [hroe] at hi hj
    exact C35_clocking i j _ (.injection dw n true true ii) _ _ _ _ _ _ rfl rfl trivial hrows hnr R hR hag _ _ _ _ hi hj

/-- Two images that differ in the last row only: the results agree in the other rows, where CTI has changed the
images; without emptying the traps for first transfers. -/
example :
    let d : Direction ℚ := ⟨exCcd, .standard [1] false true true false, [exGroup], 2, 0⟩
    let f := fun x : ℚ => (addCti (exImg 3 1 [[40], [80], [x]]) (some d) 0 .all none .all none).map
      fun x => [x.1.px 0 0, x.1.px 1 0]
    f 0 = .ok [36, 14383 / 200] ∧ f 50 = .ok [36, 14383 / 200] := by decide +kernel

end Arctic
