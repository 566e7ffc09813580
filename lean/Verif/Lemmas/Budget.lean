import Verif.Lemmas.ClockInv

/-!
# Counting transfers

How many transfers the traps of each phase have seen during a run of the clocking loops, counting those inherited
through saved states.
-/

set_option linter.unusedSectionVars false
set_option linter.unusedVariables false

namespace Arctic

variable {K : Type} [Field K] [LinearOrder K] {S : Type}

/-- One more for one phase. -/
def bump (u : ℕ → ℕ) (phase : ℕ) : ℕ → ℕ := fun q => if q = phase then u q + 1 else u q

/-- Every processed row of every pass has a position below `N`, so that what has been seen before it is at most its
position: positions increase along a pass, and states saved after a row are only continued at later positions. -/
structure Schedule (cfg : ClockCfg K) (N : ℕ) (pos : ℕ → ℕ → ℕ) : Prop where
  lt : ∀ k < cfg.expr.nr, ∀ j ∈ monitoredRows cfg k, pos k j < N
  pass : ∀ k < cfg.expr.nr, ∀ j ∈ monitoredRows cfg k, ∀ j' ∈ monitoredRows cfg k, j < j' → pos k j < pos k j'
  save : ∀ k < cfg.expr.nr, ∀ j ∈ monitoredRows cfg k, cfg.saveMat.e k j = true →
    ∀ k' < cfg.expr.nr, k < k' → ∀ j' ∈ monitoredRows cfg k', pos k j < pos k' j'

/-- `P u b st`: at most `u ph` transfers have been seen by phase `ph`, and at most `b` by any phase of the state that
will be restored. -/
structure BudgetInv (sys : TrapSys K S) (cfg : ClockCfg K) (E : Err → Prop) (N c : ℕ)
    (P : (ℕ → ℕ) → ℕ → Image K × S → Prop) : Prop where
  phase : ∀ k < cfg.expr.nr, ∀ j ∈ monitoredRows cfg k, ∀ step ∈ cfg.steps, ∀ phase ∈ cfg.phases, ∀ u b st,
    P u b st → u phase < N * cfg.steps.length →
      Sat E (P (bump u phase) b) (phaseBody sys cfg c j (cfg.expr.e k j) step st phase)
  save : (∃ k j, cfg.saveMat.e k j = true) → ∀ u b v st, P u b st → (∀ ph, u ph ≤ v) → P u v (st.1, sys.save st.2)
  restore : ∀ u b st, P u b st → P (fun _ => b) b (st.1, sys.restore st.2)
  mono : ∀ u u' b st, P u b st → (∀ ph, u ph ≤ u' ph) → P u' b st

theorem monitoredRows_lt {cfg : ClockCfg K} {k j : ℕ} (h : j ∈ monitoredRows cfg k) : j < cfg.monitor.nc := by
  unfold monitoredRows at h
  exact List.mem_range.1 (List.mem_filter.1 h).1

theorem monitoredRows_pairwise (cfg : ClockCfg K) (k : ℕ) : (monitoredRows cfg k).Pairwise (· < ·) :=
  List.Pairwise.filter _ List.pairwise_lt_range

variable {sys : TrapSys K S} {cfg : ClockCfg K} {E : Err → Prop} {N c : ℕ} {P : (ℕ → ℕ) → ℕ → Image K × S → Prop}
  {pos : ℕ → ℕ → ℕ}

theorem BudgetInv.step (h : BudgetInv sys cfg E N c P) (hnd : cfg.phases.Nodup) {k j step : ℕ} (hk : k < cfg.expr.nr)
    (hj : j ∈ monitoredRows cfg k) (hs : step ∈ cfg.steps) (U b : ℕ) (hU : U < N * cfg.steps.length)
    (st : Image K × S) (hst : P (fun _ => U) b st) :
    Sat E (P (fun _ => U + 1) b) (stepBody sys cfg c j (cfg.expr.e k j) st step) := by
  unfold stepBody
  have := Sat.fold (E := E) (fun rest st => P (fun ph => if ph ∈ rest then U else U + 1) b st)
    (phaseBody sys cfg c j (cfg.expr.e k j) step) cfg.phases (by
      intro a l' s hsuf hP
      have ha : a ∈ cfg.phases := hsuf.subset List.mem_cons_self
      have hnd' : (a :: l').Nodup := hnd.sublist hsuf.sublist
      refine (h.phase k hk j hj step hs a ha _ b s hP (by simpa using hU)).mono fun s' hs' => ?_
      refine h.mono _ _ _ _ hs' fun ph => ?_
      unfold bump
      by_cases hp : ph = a
      · subst hp
        have : ph ∉ l' := (List.nodup_cons.1 hnd').1
        simp [this]
      · by_cases hl : ph ∈ l' <;> simp [hp, hl]) st
    (h.mono _ _ _ _ hst fun ph => by split <;> omega)
  exact this.mono fun s hs => h.mono _ _ _ _ hs fun ph => by simp

theorem BudgetInv.row (h : BudgetInv sys cfg E N c P) (hnd : cfg.phases.Nodup) {k j p : ℕ} (hk : k < cfg.expr.nr)
    (hj : j ∈ monitoredRows cfg k) (hp : p < N) (b : ℕ) (st : Image K × S)
    (hst : P (fun _ => p * cfg.steps.length) b st) :
    Sat E (fun st' => P (fun _ => (p + 1) * cfg.steps.length)
      (if cfg.saveMat.e k j then (p + 1) * cfg.steps.length else b) st') (rowBody sys cfg c k st j) := by
  unfold rowBody
  have hle : (p + 1) * cfg.steps.length ≤ N * cfg.steps.length := Nat.mul_le_mul_right _ hp
  rw [Nat.succ_mul] at hle
  have hf := Sat.fold (E := E)
    (fun rest st => rest.length ≤ cfg.steps.length ∧
      P (fun _ => p * cfg.steps.length + (cfg.steps.length - rest.length)) b st)
    (stepBody sys cfg c j (cfg.expr.e k j)) cfg.steps (by
      intro a l' s hsuf hP
      have hl := hP.1
      rw [List.length_cons] at hl
      refine (h.step hnd hk hj (hsuf.subset List.mem_cons_self) _ b ?_ s hP.2).mono fun s' hs' => ⟨by omega, ?_⟩
      · rw [List.length_cons]; omega
      · refine h.mono _ _ _ _ hs' fun ph => ?_
        rw [List.length_cons]; omega) st
    ⟨le_rfl, h.mono _ _ _ _ hst fun ph => by omega⟩
  refine Sat.bind hf fun st' hst' => ?_
  have hP : P (fun _ => (p + 1) * cfg.steps.length) b st' := h.mono _ _ _ _ hst'.2 fun ph => by
    rw [List.length_nil, Nat.sub_zero, Nat.succ_mul]
  split
  · rename_i hs
    exact h.save ⟨k, j, hs⟩ _ _ _ _ hP fun ph => le_rfl
  · exact hP

theorem BudgetInv.pass (h : BudgetInv sys cfg E N c P) (hnd : cfg.phases.Nodup) (hsave : Schedule cfg N pos) {k : ℕ}
    (hk : k < cfg.expr.nr) (b : ℕ) (u : ℕ → ℕ) (st : Image K × S) (hst : P u b st)
    (hb : ∀ k' < cfg.expr.nr, k ≤ k' → ∀ j ∈ monitoredRows cfg k', b ≤ pos k' j * cfg.steps.length) :
    Sat E (fun st' => ∃ u' b', P u' b' st' ∧
      ∀ k' < cfg.expr.nr, k < k' → ∀ j ∈ monitoredRows cfg k', b' ≤ pos k' j * cfg.steps.length)
      (expressBody sys cfg c st k) := by
  unfold expressBody
  have := Sat.fold (E := E)
    (fun rest st => ∃ u b, P u b st ∧ (∀ ph, ∀ j ∈ rest, u ph ≤ pos k j * cfg.steps.length) ∧
      ∀ k' < cfg.expr.nr, k < k' → ∀ j ∈ monitoredRows cfg k', b ≤ pos k' j * cfg.steps.length)
    (rowBody sys cfg c k) (monitoredRows cfg k) (by
      rintro a l' s hsuf ⟨u, b, h1, h2, h3⟩
      have ha : a ∈ monitoredRows cfg k := hsuf.subset List.mem_cons_self
      have hsorted := (monitoredRows_pairwise cfg k).sublist hsuf.sublist
      refine (h.row hnd hk ha (hsave.lt k hk a ha) b s (h.mono _ _ _ _ h1 fun ph => h2 ph a List.mem_cons_self)).mono fun s' hs' => ?_
      refine ⟨_, _, hs', fun ph j hj => Nat.mul_le_mul_right _ (hsave.pass k hk a ha j
        (hsuf.subset (List.mem_cons_of_mem _ hj)) ((List.pairwise_cons.1 hsorted).1 j hj)), ?_⟩
      intro k' hk' hkk j hj
      split
      · rename_i hs
        exact Nat.mul_le_mul_right _ (hsave.save k hk a ha hs k' hk' hkk j hj)
      · exact h3 k' hk' hkk j hj) (st.1, sys.restore st.2)
    ⟨_, b, h.restore _ _ _ hst, fun ph j hj => hb k hk le_rfl j hj,
      fun k' hk' hkk j hj => hb k' hk' hkk.le j hj⟩
  exact this.mono fun s ⟨u, b, h1, _, h3⟩ => ⟨u, b, h1, h3⟩

/-- All passes over a column. -/
theorem BudgetInv.passes (h : BudgetInv sys cfg E N c P) (hnd : cfg.phases.Nodup) (hsave : Schedule cfg N pos)
    (st : Image K × S) (u : ℕ → ℕ) (hst : P u 0 st) :
    Sat E (fun st' => ∃ u' b', P u' b' st') ((List.range cfg.expr.nr).foldlM (expressBody sys cfg c) st) := by
  have := Sat.fold (E := E)
    (fun rest st => ∃ u b, P u b st ∧ ∀ k ∈ rest, ∀ j ∈ monitoredRows cfg k, b ≤ pos k j * cfg.steps.length)
    (expressBody sys cfg c) (List.range cfg.expr.nr) (by
      rintro k l' s hsuf ⟨u, b, h1, h2⟩
      have hk : k < cfg.expr.nr := List.mem_range.1 (hsuf.subset List.mem_cons_self)
      -- what is to come are the numbers after `k`
      obtain ⟨pre, hpre⟩ := hsuf
      have hmem : ∀ k' < cfg.expr.nr, k < k' ↔ k' ∈ l' := by
        intro k' hk'
        have hs : (pre ++ k :: l').Pairwise (· < ·) := by rw [hpre]; exact List.pairwise_lt_range
        have hin : k' ∈ pre ++ k :: l' := by rw [hpre]; exact List.mem_range.2 hk'
        rw [List.pairwise_append] at hs
        constructor
        · intro hlt
          rcases List.mem_append.1 hin with hp | hp
          · exact absurd (hs.2.2 k' hp k List.mem_cons_self) (by omega)
          · rcases List.mem_cons.1 hp with rfl | hp
            · omega
            · exact hp
        · intro hl
          exact (List.pairwise_cons.1 hs.2.1).1 k' hl
      refine (h.pass hnd hsave hk b u s h1 ?_).mono ?_
      · intro k' hk' hle j hj
        rcases hle.eq_or_lt with rfl | hlt
        · exact h2 _ List.mem_cons_self j hj
        · exact h2 k' (List.mem_cons_of_mem _ ((hmem k' hk').1 hlt)) j hj
      · rintro s' ⟨u', b', h3, h4⟩
        refine ⟨u', b', h3, fun k' hk' j hj => ?_⟩
        have hkn : k' < cfg.expr.nr := by
          have : k' ∈ pre ++ k :: l' := List.mem_append.2 (Or.inr (List.mem_cons_of_mem _ hk'))
          rw [hpre] at this
          exact List.mem_range.1 this
        exact h4 k' hkn ((hmem k' hkn).2 hk') j hj) st
    ⟨u, 0, hst, fun k _ j _ => Nat.zero_le _⟩
  exact this.mono fun s ⟨u, b, h1, _⟩ => ⟨u, b, h1⟩

end Arctic
