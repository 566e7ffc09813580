import Verif.Lemmas.Causal

/-!
# Two configurations, one of which has additional rows farther from the readout
-/

set_option linter.unusedSectionVars false
set_option linter.unusedVariables false

namespace Arctic

variable {K : Type} [Field K] [LinearOrder K] [IsStrictOrderedRing K]

/-- `A` clocks the first `n` rows as `B` does, all of them up to row `R`, and after them rows beyond `R`. -/
structure PrefixCfg (A B : ClockCfg K) (n R : ℕ) : Prop where
  clockSeq : A.clockSeq = B.clockSeq
  dwell : A.dwell = B.dwell
  steps : A.steps = B.steps
  phases : A.phases = B.phases
  emptyBetween : A.emptyBetween = B.emptyBetween
  rows : ∀ j < n, A.rowWindow[j]? = B.rowWindow[j]?
  low : ∀ j < n, ∀ w, B.rowWindow[j]? = some w → w ≤ R
  high : ∀ j, n ≤ j → ∀ w, A.rowWindow[j]? = some w → R < w
  expr : ∀ k < B.expr.nr, ∀ j < n, A.expr.e k j = B.expr.e k j
  saveA : ∀ k j, A.saveMat.e k j = false
  saveB : ∀ k j, B.saveMat.e k j = false
  nr : B.expr.nr ≤ A.expr.nr
  monitor : ∀ k < B.expr.nr, ∃ rest, monitoredRows A k = monitoredRows B k ++ rest ∧
    (∀ j ∈ monitoredRows B k, j < n) ∧ ∀ j ∈ rest, n ≤ j
  late : ∀ k, B.expr.nr ≤ k → k < A.expr.nr → ∀ j ∈ monitoredRows A k, n ≤ j

variable {A B : ClockCfg K} {n R : ℕ}

theorem PrefixCfg.phaseBody_eq {S : Type} (h : PrefixCfg A B n R) (sys : TrapSys K S) (c : ℕ) {j : ℕ} (hj : j < n)
    (mult : K) (step : ℕ) : phaseBody sys A c j mult step = phaseBody sys B c j mult step := by
  funext st ph
  unfold phaseBody
  rw [h.clockSeq, h.dwell, h.rows j hj]

theorem PrefixCfg.rowBody_eq {S : Type} (h : PrefixCfg A B n R) (sys : TrapSys K S) (c : ℕ) {k j : ℕ}
    (hk : k < B.expr.nr) (hj : j < n) (st : Image K × S) : rowBody sys A c k st j = rowBody sys B c k st j := by
  unfold rowBody
  rw [h.steps, h.expr k hk j hj, h.saveA, h.saveB]
  have : stepBody sys A c j (B.expr.e k j) = stepBody sys B c j (B.expr.e k j) := by
    funext st step
    unfold stepBody
    rw [h.phases, h.phaseBody_eq sys c hj]
  rw [this]

/-- Rows beyond `R` in one run. -/
theorem rows_high (fill : ℕ → K → K) (cfg : ClockCfg K) (hF : Forward cfg.clockSeq) (R c k : ℕ)
    (hs : ∀ j, cfg.saveMat.e k j = false) (l : List ℕ)
    (hl : ∀ j ∈ l, ∀ w, cfg.rowWindow[j]? = some w → R < w) (x x' : Image K × ATM K)
    (h : l.foldlM (rowBody (atmSys fill) cfg c k) x = .ok x') : AgreeTo R x'.1 x.1 ∧ x'.2.eff = x.2.eff :=
  foldlM_inv (fun s : Image K × ATM K => AgreeTo R s.1 x.1 ∧ s.2.eff = x.2.eff) _ _ (fun j hj s s' hs' h => by
    obtain ⟨g1, -, g3⟩ := rowBody_high fill cfg hF R c k j (hl j hj) s s' h
    exact ⟨fun r hr c' => (g1 r hr c').trans (hs'.1 r hr c'), (g3 (hs j)).trans hs'.2⟩) x x' ⟨fun _ _ _ => rfl, rfl⟩ h

theorem expressBody_prefix (fill : ℕ → K → K) (hP : PrefixCfg A B n R) (hF : Forward B.clockSeq) (c k : ℕ)
    (hk : k < B.expr.nr) (x y : Image K × ATM K) (h : AgreeTo R x.1 y.1 ∧ x.2.eff = y.2.eff) :
    Both (fun x y => AgreeTo R x.1 y.1 ∧ x.2.eff = y.2.eff)
      (expressBody (atmSys fill) A c x k) (expressBody (atmSys fill) B c y k) := by
  obtain ⟨rest, h1, h2, h3⟩ := hP.monitor k hk
  unfold expressBody
  rw [h1, List.foldlM_append]
  have main : Both (fun x y : Image K × ATM K => AgreeTo R x.1 y.1 ∧ AtmRel x.2 y.2)
      ((monitoredRows B k).foldlM (rowBody (atmSys fill) A c k) (x.1, x.2.restore))
      ((monitoredRows B k).foldlM (rowBody (atmSys fill) B c k) (y.1, y.2.restore)) := by
    refine Both.fold' _ _ _ _ (fun j hj s t hst => ?_) _ _ ?_
    · rw [hP.rowBody_eq (atmSys fill) c hk (h2 j hj)]
      exact rowBody_low fill B hF R c k j (hP.low j (h2 j hj)) s t hst
    · exact ⟨h.1, h.2, by rw [ATM.eff_restore, ATM.eff_restore, h.2]⟩
  intro a b ha hb
  obtain ⟨a1, ha1, ha2⟩ := bind_eq_ok ha
  obtain ⟨q1, q2⟩ := main a1 b ha1 hb
  obtain ⟨r1, r2⟩ := rows_high fill A (hP.clockSeq ▸ hF) R c k (hP.saveA k) rest
    (fun j hj => hP.high j (h3 j hj)) a1 a ha2
  exact ⟨fun r hr c' => (r1 r hr c').trans (q1 r hr c'), r2.trans q2.2⟩

theorem columnBody_prefix (fill : ℕ → K → K) (hP : PrefixCfg A B n R) (hF : Forward B.clockSeq) (c : ℕ)
    (x y : Image K × ATM K) (h : AgreeTo R x.1 y.1 ∧ x.2.eff = y.2.eff) :
    Both (fun x y => AgreeTo R x.1 y.1) (columnBody (atmSys fill) A x c) (columnBody (atmSys fill) B y c) := by
  unfold columnBody
  refine Both.bind (R := fun x y : Image K × ATM K => AgreeTo R x.1 y.1) ?_ ?_
  · obtain ⟨e, he⟩ := Nat.exists_eq_add_of_le hP.nr
    have hr : List.range A.expr.nr = List.range B.expr.nr ++ (List.range e).map (B.expr.nr + ·) := by
      rw [he, List.range_add]
    rw [hr, List.foldlM_append]
    intro a b ha hb
    obtain ⟨a1, ha1, ha2⟩ := bind_eq_ok ha
    obtain ⟨q1, q2⟩ := Both.fold' (fun x y : Image K × ATM K => AgreeTo R x.1 y.1 ∧ x.2.eff = y.2.eff) _ _ _
      (fun k hk s t hst => expressBody_prefix fill hP hF c k (List.mem_range.1 hk) s t hst) x y h a1 b ha1 hb
    have := foldlM_inv (fun s : Image K × ATM K => AgreeTo R s.1 a1.1) _ _ (fun k hk s s' hs h => by
      obtain ⟨k', hk', rfl⟩ := List.mem_map.1 hk
      have hk' := List.mem_range.1 hk'
      unfold expressBody at h
      obtain ⟨r1, -⟩ := rows_high fill A (hP.clockSeq ▸ hF) R c _ (hP.saveA _) _
        (fun j hj => hP.high j (hP.late _ (by omega) (by omega) j hj)) _ _ h
      exact fun r hr c' => (r1 r hr c').trans (hs r hr c')) a1 a (fun _ _ _ => rfl) ha2
    exact fun r hr c' => (this r hr c').trans (q1 r hr c')
  · intro x y h a b ha hb
    injection ha with ha; injection hb with hb
    subst ha hb
    exact h

/-- All columns. -/
theorem clockLoops_prefix (fill : ℕ → K → K) (hP : PrefixCfg A B n R) (hF : Forward B.clockSeq)
    (hb : B.emptyBetween = true) (columns : List ℕ) {D : List (List (Mgr K))} (x y : Image K × ATM K)
    (h : AgreeTo R x.1 y.1) (hx : Fresh D x.2) (hy : Fresh D y.2) :
    Both (fun x y => AgreeTo R x.1 y.1) (clockLoops (atmSys fill) A columns x)
      (clockLoops (atmSys fill) B columns y) := by
  unfold clockLoops
  have := Both.fold' (fun x y : Image K × ATM K => AgreeTo R x.1 y.1 ∧ Fresh D x.2 ∧ Fresh D y.2)
    (columnBody (atmSys fill) A) (columnBody (atmSys fill) B) columns (fun c _ x y h a b ha hb' =>
      ⟨columnBody_prefix fill hP hF c x y ⟨h.1, h.2.1.2.1.trans h.2.2.2.1.symm⟩ a b ha hb',
        columnBody_fresh fill A (hP.emptyBetween.trans hb) h.2.1 ha, columnBody_fresh fill B hb h.2.2 hb'⟩)
      x y ⟨h, hx, hy⟩
  exact fun a b ha hb => (this a b ha hb).1

end Arctic
