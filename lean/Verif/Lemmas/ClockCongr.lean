import Verif.Lemmas.AddCti
import Verif.Props.Readout

/-!
# Configurations that agree where they are read give the same result
-/

set_option linter.unusedSectionVars false
set_option linter.unusedVariables false

namespace Arctic

variable {K : Type} [Field K] [LinearOrder K] [IsStrictOrderedRing K]

theorem foldlM_congr {α σ : Type} {f g : σ → α → Except Err σ} {l : List α} (h : ∀ a ∈ l, ∀ s, f s a = g s a) (s : σ) :
    l.foldlM f s = l.foldlM g s := by
  induction l generalizing s with
  | nil => rfl
  | cons a l ih =>
    rw [foldlM_cons, foldlM_cons, h a List.mem_cons_self]
    congr 1
    funext s'
    exact ih (fun b hb => h b (List.mem_cons_of_mem _ hb)) s'

/-- Only the entries of the express matrix inside its range are read. -/
theorem clockLoops_congr {S : Type} (sys : TrapSys K S) (cfg : ClockCfg K) (m : Mat K) (hnr : m.nr = cfg.expr.nr)
    (he : ∀ k < m.nr, ∀ j, m.e k j = cfg.expr.e k j) (columns : List ℕ) (st : Image K × S) :
    clockLoops sys { cfg with expr := m } columns st = clockLoops sys cfg columns st := by
  unfold clockLoops
  refine foldlM_congr (fun c _ st => ?_) st
  unfold columnBody
  have : (List.range m.nr).foldlM (expressBody sys { cfg with expr := m } c) st =
      (List.range cfg.expr.nr).foldlM (expressBody sys cfg c) st := by
    rw [hnr]
    refine foldlM_congr (fun k hk st => ?_) st
    unfold expressBody
    refine foldlM_congr (fun j _ st => ?_) _
    unfold rowBody
    simp only [he k (by rw [hnr]; exact List.mem_range.1 hk) j]
    rfl
  simp only [this]

/-- The save matrix depends only on the entries inside the range of the express matrix. -/
theorem roeSave_congr (ef : Bool) {m m' : Mat K} (hr : m'.nr = m.nr) (hc : m'.nc = m.nc)
    (he : ∀ k < m.nr, ∀ j, m'.e k j = m.e k j) : roeSave ef m' = roeSave ef m := by
  unfold roeSave
  rw [hr, hc]
  split
  · rfl
  split
  · rfl
  congr 2
  funext i j
  by_cases hi : i < m.nr - 1
  · have : m'.e (i + 1) = m.e (i + 1) := by
      funext j; exact he (i + 1) (by omega) j
    rw [this]
  · simp [hi]

/-- The default time window does not matter for the standard readout. -/
theorem clockCharge_default_time (img : Image K) (ccd : CcdView K) (d : List K) (ef eb f i : Bool)
    (groups : List (Group K)) (e o : ℕ) (rows columns : List ℕ) (nRows : ℕ) (hw : ∀ x ∈ rows, x < nRows) :
    clockCharge img ccd (.standard d ef eb f i) groups e o rows columns (some (List.range (nRows + o))) =
      clockCharge img ccd (.standard d ef eb f i) groups e o rows columns none := by
  have key : ∀ err, roeExpress (K := K) ef i rows e o none = .error err →
      roeExpress (K := K) ef i rows e o (some (List.range (nRows + o))) = .error err := by
    intro err h
    cases hm : rows.max? with
    | none =>
      rw [List.max?_eq_none_iff] at hm; subst hm
      rw [roeExpress_empty] at h ⊢; exact h
    | some a =>
      by_cases hs : ShortMatrix ef rows e
      · rw [roeExpress_short ef i rows e o _ hs] at h ⊢; exact h
      · rw [roeExpress_eq ef i rows e o none a hm hs] at h
        cases h
  cases h : roeExpress (K := K) ef i rows e o none with
  | error err =>
    unfold clockCharge clockCfg
    simp only [Roe.express]
    rw [h, key err h]
  | ok v =>
    obtain ⟨m, mon⟩ := v
    obtain ⟨m', g1, g2, g3, g4⟩ := C06_default_time_window ef i rows e o nRows hw m mon h
    unfold clockCharge clockCfg
    simp only [Roe.express]
    rw [h, g1]
    change ((roeSave ef m' >>= fun sv => _) >>= _) = ((roeSave ef m >>= fun sv => _) >>= _)
    rw [roeSave_congr ef g2 g3 g4]
    cases roeSave ef m with
    | error e => rfl
    | ok sv =>
      simp only [bind, Except.bind]
      have := clockLoops_congr (atmSys ccd.fill)
        { expr := m, monitor := mon, saveMat := sv, clockSeq := (Roe.standard d ef eb f i).clockSequence,
          dwell := d, steps := positiveIndices d, phases := positiveIndices ccd.fractions, rowWindow := rows,
          emptyBetween := eb } m' g2 (fun k hk j => g4 k (g2 ▸ hk) j) columns
      simp only at this
      have hN : ∀ mm : Mat K, mm.nc = m.nc → maxNTransfers (.standard d ef eb f i)
          { expr := mm, monitor := mon, saveMat := sv, clockSeq := (Roe.standard d ef eb f i).clockSequence,
            dwell := d, steps := positiveIndices d, phases := positiveIndices ccd.fractions, rowWindow := rows,
            emptyBetween := eb } = m.nc * (positiveIndices d).length := by
        intro mm h
        simp [maxNTransfers, Roe.isPumping, h]
      simp only [Roe.dwell, Roe.emptyBetween] at *
      rw [this, hN m' g3, hN m rfl]

end Arctic
