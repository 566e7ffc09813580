import Verif.Lemmas.MgrBounds
import Mathlib.Analysis.SpecialFunctions.Exp

/-!
# Trap managers: C16 – C24

A manager is created by `Mgr.new` (array of `1 + max_n_transfers * n_watermarks_per_transfer` zero rows)
and fed a history of clouds (`Mgr.run`).  Hypotheses on the traps: densities are not negative,
probabilities lie between 0 and 1, and the well-filling function is a `FillModel` (volumes in [0, 1], zero
for no electrons).
-/

set_option linter.unusedSectionVars false
set_option linter.unusedVariables false

namespace Arctic

variable {K : Type} [Field K] [LinearOrder K] [IsStrictOrderedRing K] {s : ℕ}

/-! ## A concrete well and concrete traps for the examples -/

/-- Full well of 100 electrons, no notch, filling power 1. -/
def fill100 (n : ℚ) : ℚ := max 0 (min 1 (n / 100))

theorem fill100_model : FillModel fill100 where
  nonneg n := le_max_left _ _
  le_one n := max_le zero_le_one (min_le_left _ _)
  empty n hn := by
    unfold fill100
    have : min 1 (n / 100) ≤ 0 := (min_le_right _ _).trans (div_nonpos_of_nonpos_of_nonneg hn (by norm_num))
    exact max_eq_left this

theorem fill100_pos (n : ℚ) (hn : 0 < n) : 0 < fill100 n := by
  unfold fill100
  exact lt_max_of_lt_right (lt_min one_pos (div_pos hn (by norm_num)))

/-- Full well of 100 electrons with a notch of depth 10. -/
def fillNotch (n : ℚ) : ℚ := max 0 (min 1 ((n - 10) / 90))

theorem fillNotch_model : FillModel fillNotch where
  nonneg n := le_max_left _ _
  le_one n := max_le zero_le_one (min_le_left _ _)
  empty n hn := by
    unfold fillNotch
    have : min 1 ((n - 10) / 90) ≤ 0 :=
      (min_le_right _ _).trans (div_nonpos_of_nonpos_of_nonneg (by linarith) (by norm_num))
    exact max_eq_left this

/-- Slow-capture trap with capture timescale `3 τ`, release timescale `τ` and dwell time `3 τ log 2`
(`C25_slow_example`). -/
def slowProbs : Probs ℚ 1 := ⟨fun _ => 15 / 64, fun _ => 19 / 64, fun _ => 1 / 8⟩

/-- Slow-capture trap with capture timescale `τ / 3`, release timescale `τ` and dwell time
`τ log (4 / 3)` (`C25_slow_example'`). -/
def slowProbs' : Probs ℚ 1 := ⟨fun _ => 525 / 1024, fun _ => 849 / 1024, fun _ => 3 / 4⟩

/-! ## C16 — conservation -/

/-- **C16**, one transfer of an instant-capture manager, any state with an unused row, any numbers. -/
theorem C16_step_instant (dens : Fin s → K) (p : K → Fin s → K) (f : K → K) (n t net : K) (wm : WM K s)
    (m' : Mgr K) (hs : HasSpare wm)
    (h : Mgr.step ⟨s, dens, .instant p, wm⟩ n t f = .ok (net, m')) :
    net = Mgr.nTrapped ⟨s, dens, .instant p, wm⟩ - m'.nTrapped := by
  rw [step_instant] at h
  cases hs' : icStep (instantOps dens (p t)) f n wm with
  | error e => rw [hs'] at h; cases h
  | ok o =>
    rw [hs'] at h
    injection h with h; injection h with h1 h2
    subst h1; subst h2
    exact icStep_conserve dens (p t) f n wm o.2 o.1 hs hs'

/-- **C16**, one transfer of a slow-capture manager, any state with an unused row, any numbers. -/
theorem C16_step_slow (dens : Fin s → K) (p : K → Probs K s) (f : K → K) (n t net : K) (wm : WM K s)
    (m' : Mgr K) (hs : HasSpare wm)
    (h : Mgr.step ⟨s, dens, .slow p, wm⟩ n t f = .ok (net, m')) :
    net = Mgr.nTrapped ⟨s, dens, .slow p, wm⟩ - m'.nTrapped := by
  rw [step_slow] at h
  cases hs' : slowStep dens (p t) f n wm with
  | error e => rw [hs'] at h; cases h
  | ok o =>
    rw [hs'] at h
    injection h with h; injection h with h1 h2
    subst h1; subst h2
    exact slowStep_conserve dens (p t) f n wm o.2 o.1 hs hs'

/-- A state with negative volumes and fill fractions outside [0, 1] meets the hypothesis. -/
example : HasSpare ([⟨1/2, fun _ => 3⟩, ⟨-1/4, fun _ => -1⟩, ⟨0, fun _ => 1⟩] : WM ℚ 1) :=
  ⟨[⟨1/2, fun _ => 3⟩, ⟨-1/4, fun _ => -1⟩], [⟨0, fun _ => 1⟩], rfl, by decide +kernel, by simp, by decide +kernel⟩

/-- **C16**, instant capture: every transfer of every history within the budget of transfers succeeds and
returns the drop in trapped electrons; so does the history as a whole. -/
theorem C16_history_instant (dens : Fin s → K) (p : K → Fin s → K) (f : K → K) (hf : FillModel f)
    (hd : ∀ j, 0 ≤ dens j) (hp : ∀ t j, 0 ≤ p t j ∧ p t j ≤ 1) (N : ℕ) (h : List (K × K)) (hN : h.length < N)
    (n t : K) :
    ∃ nets m net m', (Mgr.new dens (.instant p) N).run f h = .ok (nets, m) ∧
      nets.sum = -m.nTrapped ∧ m.step n t f = .ok (net, m') ∧ net = m.nTrapped - m'.nTrapped := by
  obtain ⟨nets, wm, h1, -, h2, h3, -⟩ := instant_run dens p f hf hd (1 + N * 1) h (fun e _ => hp e.2) 0 _
    (instState_zero _) (by omega)
  obtain ⟨net, wm', g1, g2, g3, -⟩ := instant_step dens (p t) f hf hd (hp t) n (1 + N * 1) (0 + h.length) wm h2
    (by omega)
  refine ⟨nets, _, net, _, h1, ?_, by rw [step_instant, g1]; rfl, ?_⟩
  · rw [h3]
    have : electrons dens (Z (1 + N * 1) : WM K s) = 0 := by rw [electrons_eq, wsum_Z]
    rw [this, zero_sub]
    exact congrArg Neg.neg (electrons_eq_cy dens wm).symm
  · exact g3.trans (by rw [← electrons_eq_cy, ← electrons_eq_cy]; rfl)

/-- **C16**, slow capture, histories that use at most two thirds of the budget. -/
theorem C16_history_slow (dens : Fin s → K) (p : K → Probs K s) (f : K → K) (hf : FillModel f)
    (N : ℕ) (h : List (K × K)) (hN : 3 * (h.length + 1) ≤ 2 * N) (n t : K) :
    ∃ nets m net m', (Mgr.new dens (.slow p) N).run f h = .ok (nets, m) ∧
      nets.sum = -m.nTrapped ∧ m.step n t f = .ok (net, m') ∧ net = m.nTrapped - m'.nTrapped := by
  obtain ⟨nets, wm, h1, -, h2, h3⟩ := slow_run dens p f hf (1 + N * 2) h 0 _
    (slowState_zero _) (by omega)
  obtain ⟨net, wm', g1, g2⟩ := slowStep_shape dens (p t) f hf n (1 + N * 2) (0 + 3 * h.length) wm h2 (by omega)
  have g3 := slowStep_conserve dens (p t) f n wm wm' net (h2.hasSpare (by omega)) g1
  refine ⟨nets, _, net, _, h1, ?_, by rw [step_slow, g1]; rfl, ?_⟩
  · rw [h3]
    have : electrons dens (Z (1 + N * 2) : WM K s) = 0 := by rw [electrons_eq, wsum_Z]
    rw [this, zero_sub]
    exact congrArg Neg.neg (electrons_eq_cy dens wm).symm
  · exact g3

/-- **C16**, slow capture, is *false* within the full budget: a manager made for 7 transfers, after 6
transfers, reports more than 258 electrons captured from a cloud of 10 while the number of trapped
electrons grows by less than 23.  All 15 rows are in use and the search for the first unused row finds
row 0. -/
theorem C16_slow_false :
    ∃ (nets : List ℚ) (m : Mgr ℚ) (net : ℚ) (m' : Mgr ℚ),
      (Mgr.new (s := 1) (fun _ => (1000 : ℚ)) (.slow fun _ => slowProbs) 7).run fill100
        [(20, 1), (2, 1), (5, 1), (3, 1), (7, 1), (1, 1)] = .ok (nets, m) ∧
      m.step 10 1 fill100 = .ok (net, m') ∧ net < -258 ∧ -23 < m.nTrapped - m'.nTrapped := by
  have key : (match (Mgr.new (s := 1) (fun _ => (1000 : ℚ)) (.slow fun _ => slowProbs) 7).run fill100
        [(20, 1), (2, 1), (5, 1), (3, 1), (7, 1), (1, 1)] with
      | .error _ => false
      | .ok (_, m) => match m.step 10 1 fill100 with
        | .error _ => false
        | .ok (net, m') => decide (net < -258 ∧ -23 < m.nTrapped - m'.nTrapped)) = true := by
    decide +kernel
  split at key
  · cases key
  · rename_i nets m h1
    split at key
    · cases key
    · rename_i net m' h2
      exact ⟨nets, m, net, m', h1, h2, of_decide_eq_true key⟩

/-- **C16**, elapsed times: every transfer of every history within budget that completes returns the drop
in trapped electrons. -/
theorem C16_history_trackTime (dens : Fin s → K) (conv : Fin s → K → K) (f : K → K) (hf : FillModel f)
    (hd : ∀ j, 0 ≤ dens j) (hc0 : ∀ j, conv j 0 = 1) (hc : ∀ j x, 0 ≤ x → 0 ≤ conv j x ∧ conv j x ≤ 1)
    (N : ℕ) (h : List (K × K)) (hN : h.length < N) (hdw : ∀ e ∈ h, 0 ≤ e.2) (n t net : K) (ht : 0 ≤ t)
    (nets : List K) (m m' : Mgr K) (hrun : (Mgr.new dens (.trackTime conv) N).run f h = .ok (nets, m))
    (hstep : m.step n t f = .ok (net, m')) :
    nets.sum = -m.nTrapped ∧ net = m.nTrapped - m'.nTrapped := by
  rcases track_run dens conv f hf hd hc0 hc (1 + N * 1) h hdw 0 _ (trackState_zero _) (by omega) with
    g | ⟨nets', wm, h1, -, h2, h3⟩
  · have hrun : Mgr.run f ⟨s, dens, .trackTime conv, Z (1 + N * 1)⟩ h = .ok (nets, m) := hrun
    rw [g] at hrun; cases hrun
  · have hrun : Mgr.run f ⟨s, dens, .trackTime conv, Z (1 + N * 1)⟩ h = .ok (nets, m) := hrun
    rw [h1] at hrun
    injection hrun with hrun; injection hrun with e1 e2
    subst e1; subst e2
    have key := track_step dens conv t f hf hd hc0 hc ht n (1 + N * 1) (0 + h.length) wm h2 (by omega)
    simp only at key
    rw [step_track] at hstep
    have hnt : ∀ (w : WM K s) k, TrackState (1 + N * 1) k w → k < 1 + N * 1 →
        Mgr.nTrapped ⟨s, dens, .trackTime conv, w⟩ = electrons dens (asFractions conv w) := by
      intro w k hw hk
      exact toFillFractions_electrons dens conv _ k w hw hk
    by_cases hs : Shortage dens conv t f n wm
    · rw [key.2 hs] at hstep; cases hstep
    · obtain ⟨wm', g1, g2, g3, -⟩ := key.1 hs
      rw [g1] at hstep
      injection hstep with hstep; injection hstep with e1 e2
      subst e1; subst e2
      rw [hnt wm _ h2 (by omega), hnt wm' _ g2 (by omega)]
      refine ⟨?_, by rw [g3]; ring⟩
      rw [h3]
      have : electrons dens (asFractions conv (Z (1 + N * 1) : WM K s)) = 0 := by
        rw [electrons_eq]; exact wsum_zero_vol _ _ (map_Z_vol conv _)
      rw [this, zero_sub]

/-- The hypotheses are satisfied by a concrete history, and electrons really move. -/
example : ((Mgr.new (s := 1) (fun _ => (10 : ℚ)) (.instant fun _ _ => 1 / 2) 4).run fill100
    [(50, 1), (0, 1), (20, 1)]).map Prod.fst = .ok [-5, 19 / 8, -143 / 640] := by decide +kernel

example : ((Mgr.new (s := 1) (fun _ => (1000 : ℚ)) (.slow fun _ => slowProbs) 6).run fill100
    [(50, 1), (0, 1)]).map Prod.fst = .ok [-50, -175 / 4] := by decide +kernel

/-- A fill-fraction law on ℚ with the required properties: `1 / (1 + x)`. -/
def halving (x : ℚ) : ℚ := 1 / (1 + max 0 x)

example : ((Mgr.new (s := 1) (fun _ => (10 : ℚ)) (.trackTime fun _ => halving) 4).run fill100
    [(50, 1), (0, 1), (20, 1)]).map Prod.fst = .ok [-5, 19 / 8, -157 / 360] := by decide +kernel

/-! ## C17 — no more captured than offered -/

/-- **C17**, instant capture: after every history within the budget, a cloud of `n` electrons loses at most
`n` electrons.  The well has no notch. -/
theorem C17_instant (dens : Fin s → K) (p : K → Fin s → K) (f : K → K) (hf : FillModel f)
    (hfpos : ∀ n, 0 < n → 0 < f n)
    (hd : ∀ j, 0 ≤ dens j) (hp : ∀ t j, 0 ≤ p t j ∧ p t j ≤ 1) (N : ℕ) (h : List (K × K)) (hN : h.length < N)
    (n t : K) (hn : 0 ≤ n) :
    ∃ nets m net m', (Mgr.new dens (.instant p) N).run f h = .ok (nets, m) ∧
      m.step n t f = .ok (net, m') ∧ -net ≤ n := by
  obtain ⟨nets, wm, h1, -, h2, h3, h4⟩ := instant_run dens p f hf hd (1 + N * 1) h (fun e _ => hp e.2) 0 _
    (instState_zero _) (by omega)
  obtain ⟨net, wm', g1, g2, g3, -, g5, -⟩ := instant_step dens (p t) f hf hd (hp t) n (1 + N * 1)
    (0 + h.length) wm h2 (by omega)
  refine ⟨nets, _, net, _, h1, by rw [step_instant, g1]; rfl, ?_⟩
  have hreg : Regular wm := h4 hfpos ⟨[], _, rfl, fun _ h => by simp at h⟩
  have hc := g5 hreg
  simp only [CaptureSpec] at hc
  have hrel := released_le dens (p t) (hp t) hd wm h2
  have ha : 0 ≤ available dens (p t) n wm := by
    unfold available; linarith
  rw [max_eq_right ha] at hc
  have hmin := min_le_left (available dens (p t) n wm) (vacant dens (f (available dens (p t) n wm)) (released (p t) wm))
  rw [← hc] at hmin
  unfold available at hmin
  linarith

/-- The capture is really limited: 1000 traps, 90 electrons offered, all 90 captured. -/
example : ((Mgr.new (s := 1) (fun _ => (1000 : ℚ)) (.instant fun _ _ => 1 / 2) 2).run fill100
    [(90, 1)]).map Prod.fst = .ok [-90] := by decide +kernel

/-- **C17**, elapsed times. -/
theorem C17_trackTime (dens : Fin s → K) (conv : Fin s → K → K) (f : K → K) (hf : FillModel f)
    (hd : ∀ j, 0 ≤ dens j) (hc0 : ∀ j, conv j 0 = 1) (hc : ∀ j x, 0 ≤ x → 0 ≤ conv j x ∧ conv j x ≤ 1)
    (hanti : ∀ j x y, 0 ≤ x → x ≤ y → conv j y ≤ conv j x)
    (N : ℕ) (h : List (K × K)) (hN : h.length < N) (hdw : ∀ e ∈ h, 0 ≤ e.2) (n t net : K) (hn : 0 ≤ n)
    (ht : 0 ≤ t)
    (nets : List K) (m m' : Mgr K) (hrun : (Mgr.new dens (.trackTime conv) N).run f h = .ok (nets, m))
    (hstep : m.step n t f = .ok (net, m')) : -net ≤ n := by
  rcases track_run dens conv f hf hd hc0 hc (1 + N * 1) h hdw 0 _ (trackState_zero _) (by omega) with
    g | ⟨nets', wm, h1, -, h2, h3⟩
  · have hrun : Mgr.run f ⟨s, dens, .trackTime conv, Z (1 + N * 1)⟩ h = .ok (nets, m) := hrun
    rw [g] at hrun; cases hrun
  · have hrun : Mgr.run f ⟨s, dens, .trackTime conv, Z (1 + N * 1)⟩ h = .ok (nets, m) := hrun
    rw [h1] at hrun
    injection hrun with hrun; injection hrun with e1 e2
    subst e1; subst e2
    have key := track_step dens conv t f hf hd hc0 hc ht n (1 + N * 1) (0 + h.length) wm h2 (by omega)
    simp only at key
    rw [step_track] at hstep
    by_cases hs : Shortage dens conv t f n wm
    · rw [key.2 hs] at hstep; cases hstep
    · obtain ⟨wm', g1, g2, g3, -⟩ := key.1 hs
      rw [g1] at hstep
      injection hstep with hstep; injection hstep with e1 e2
      subst e1; subst e2
      simp only [Shortage, not_lt] at hs
      have hle : electrons dens (asFractionsAfter conv t wm) ≤ electrons dens (asFractions conv wm) :=
        asFractionsAfter_le dens conv t hd hanti ht _ _ wm h2
      rw [max_eq_right (by linarith)] at hs
      linarith

/-- **C17**, slow capture, is *false*: after one transfer of 50 electrons, a pixel with *no* free electrons
loses another 43.75.  The 43.75 electrons released count as available, and the shortage test compares them
with the growth of the trapped electrons since before the release. -/
theorem C17_slow_false :
    ((Mgr.new (s := 1) (fun _ => (1000 : ℚ)) (.slow fun _ => slowProbs) 6).run fill100
      [(50, 1), (0, 1)]).map Prod.fst = .ok [-50, -175 / 4] := by decide +kernel

/-- **C17**, slow capture: what does hold is that no more is captured than the electrons offered plus those
released above the cloud, for well-formed states when the released electrons do not lift the cloud above the
highest level. -/
theorem C17_slow_bound (dens : Fin s → K) (p : K → Probs K s) (f : K → K) (hf : FillModel f)
    (hd : ∀ j, 0 ≤ dens j) (n t : K) (hpr : ProbsOk (p t)) (hn : 0 ≤ n) (act : WM K s) (z : ℕ)
    (hp : ∀ r ∈ act, 0 < r.vol)
    (hv : volSum act ≤ 1) (hF : ∀ r ∈ act, ∀ j, 0 ≤ r.fill j ∧ r.fill j ≤ 1)
    (hfirst : act = [] → 0 < n → 0 < f n)
    (htop : f n ≤ volSum act → f (n + (electrons dens act -
      electrons dens (releaseAbove (p t).fromRelease (f n) act))) ≤ volSum act) :
    ∃ net m', Mgr.step ⟨s, dens, .slow p, act ++ List.replicate (z + 3) (zeroRow K s)⟩ n t f = .ok (net, m') ∧
      -net ≤ n + (electrons dens act - electrons dens (releaseAbove (p t).fromRelease (f n) act)) := by
  obtain ⟨net, act2, z2, h1, -, -, -, -, -, h2⟩ := slowStep_regular dens (p t) f hf hd hpr n hn act z hp hv hF
    hfirst htop
  have h1' : slowStep dens (p t) f n (act ++ List.replicate (z + 3) (zeroRow K s)) =
      .ok (net, act2 ++ Z (z2 + 1)) := h1
  refine ⟨net, _, by rw [step_slow, h1']; rfl, ?_⟩
  obtain ⟨T, -, -, -, -, e1, e2, -⟩ := h2
  have e3 := min_le_left (n + (electrons dens (act ++ Z (z + 3)) -
      electrons dens (releaseAbove (p t).fromRelease (f n) (act ++ Z (z + 3)))))
      (electrons dens T - electrons dens (act ++ Z (z + 3)))
  rw [← e2] at e3
  obtain ⟨zr, hzr⟩ := releaseAbove_append_Z (p t).fromRelease (f n) act (z + 3) (hf.nonneg n) hp
  have hz : ∀ (l : WM K s) z, electrons dens (l ++ Z z) = electrons dens l := by
    intro l z; rw [electrons_eq, electrons_eq, wsum_append, wsum_Z, add_zero]
  rw [hzr, hz, hz] at e3
  rw [hz] at e3
  rw [e1, hz, hz]
  linarith

/-- **C17**, instant capture with a notch, is *false*: a cloud inside the notch (5 electrons) marks the
unused first row as full; the next cloud of 20 electrons loses 111. -/
theorem C17_instant_notch_false :
    ((Mgr.new (s := 1) (fun _ => (1000 : ℚ)) (.instant fun _ _ => 1 / 2) 3).run fillNotch
      [(5, 1), (20, 1)]).map Prod.fst = .ok [0, -1000 / 9] := by decide +kernel

/-! ## C18 — the array stays well formed -/

/-- **C18**, instant capture. -/
theorem C18_instant (dens : Fin s → K) (p : K → Fin s → K) (f : K → K) (hf : FillModel f)
    (hd : ∀ j, 0 ≤ dens j) (hp : ∀ t j, 0 ≤ p t j ∧ p t j ≤ 1) (N : ℕ) (h : List (K × K)) (hN : h.length ≤ N) :
    ∃ nets wm, (Mgr.new dens (.instant p) N).run f h = .ok (nets, ⟨s, dens, .instant p, wm⟩) ∧
      WellFormed wm ∧ 0 ≤ Mgr.nTrapped ⟨s, dens, .instant p, wm⟩ ∧
      Mgr.nTrapped ⟨s, dens, .instant p, wm⟩ ≤ ∑ j, dens j := by
  obtain ⟨nets, wm, h1, -, h2, h3, h4⟩ := instant_run dens p f hf hd (1 + N * 1) h (fun e _ => hp e.2) 0 _
    (instState_zero _) (by omega)
  have hb := h2.wellFormed.1.electrons_bounds dens hd
  rw [← electrons_eq_cy] at hb
  exact ⟨nets, wm, h1, h2.wellFormed.1, hb.1, hb.2⟩

/-- **C18**, elapsed times: the array read as fill fractions is well formed. -/
theorem C18_trackTime (dens : Fin s → K) (conv : Fin s → K → K) (f : K → K) (hf : FillModel f)
    (hd : ∀ j, 0 ≤ dens j) (hc0 : ∀ j, conv j 0 = 1) (hc : ∀ j x, 0 ≤ x → 0 ≤ conv j x ∧ conv j x ≤ 1)
    (N : ℕ) (h : List (K × K)) (hN : h.length ≤ N) (hdw : ∀ e ∈ h, 0 ≤ e.2) :
    (Mgr.new dens (.trackTime conv) N).run f h = .error .typeError ∨
    ∃ nets wm, (Mgr.new dens (.trackTime conv) N).run f h = .ok (nets, ⟨s, dens, .trackTime conv, wm⟩) ∧
      WellFormed (asFractions conv wm) ∧ 0 ≤ Mgr.nTrapped ⟨s, dens, .trackTime conv, wm⟩ ∧
      Mgr.nTrapped ⟨s, dens, .trackTime conv, wm⟩ ≤ ∑ j, dens j := by
  rcases track_run dens conv f hf hd hc0 hc (1 + N * 1) h hdw 0 _ (trackState_zero _) (by omega) with
    g | ⟨nets, wm, h1, -, h2, h3⟩
  · exact Or.inl g
  · have hw := (h2.asFractions_wf conv hc).1
    have hb := hw.electrons_bounds dens hd
    have e : Mgr.nTrapped ⟨s, dens, .trackTime conv, wm⟩ = electrons dens (asFractions conv wm) :=
      toFillFractions_electrons dens conv _ _ wm h2 (by omega)
    rw [← e] at hb
    exact Or.inr ⟨nets, wm, h1, hw, hb.1, hb.2⟩

/-- **C18**, slow capture, one transfer from a well-formed state whose released electrons do not lift the
cloud above the highest level. -/
theorem C18_slow_step (dens : Fin s → K) (p : K → Probs K s) (f : K → K) (hf : FillModel f)
    (hd : ∀ j, 0 ≤ dens j) (n t : K) (hpr : ProbsOk (p t)) (hn : 0 ≤ n) (act : WM K s) (z : ℕ)
    (hp : ∀ r ∈ act, 0 < r.vol)
    (hv : volSum act ≤ 1) (hF : ∀ r ∈ act, ∀ j, 0 ≤ r.fill j ∧ r.fill j ≤ 1)
    (hfirst : act = [] → 0 < n → 0 < f n)
    (htop : f n ≤ volSum act → f (n + (electrons dens act -
      electrons dens (releaseAbove (p t).fromRelease (f n) act))) ≤ volSum act) :
    ∃ net wm', Mgr.step ⟨s, dens, .slow p, act ++ List.replicate (z + 3) (zeroRow K s)⟩ n t f =
        .ok (net, ⟨s, dens, .slow p, wm'⟩) ∧ WellFormed wm' ∧
      0 ≤ Mgr.nTrapped ⟨s, dens, .slow p, wm'⟩ ∧ Mgr.nTrapped ⟨s, dens, .slow p, wm'⟩ ≤ ∑ j, dens j := by
  obtain ⟨net, act2, z2, h1, -, -, h3, h4, h5, -⟩ := slowStep_regular dens (p t) f hf hd hpr n hn act z hp hv hF
    hfirst htop
  have h1' : slowStep dens (p t) f n (act ++ List.replicate (z + 3) (zeroRow K s)) =
      .ok (net, act2 ++ Z (z2 + 1)) := h1
  have hw : WellFormed (act2 ++ Z (z2 + 1)) :=
    (InstState.wellFormed (L := (act2 ++ Z (z2 + 1)).length) (k := act2.length)
      ⟨rfl, Or.inl ⟨act2, z2 + 1, rfl, h3, h4, h5, le_rfl⟩⟩).1
  have hb := hw.electrons_bounds dens hd
  rw [← electrons_eq_cy] at hb
  exact ⟨net, act2 ++ Z (z2 + 1), by rw [step_slow, h1']; rfl, hw, hb.1, hb.2⟩

/-- The hypotheses hold for a state with two levels; the cloud lies inside the first. -/
example : let act : WM ℚ 1 := [⟨1/4, fun _ => 1⟩, ⟨1/2, fun _ => 1/2⟩]
    fill100 20 ≤ volSum act ∧ fill100 (20 + (electrons (fun _ => 40) act -
      electrons (fun _ => 40) (releaseAbove slowProbs.fromRelease (fill100 20) act))) ≤ volSum act ∧
    0 < electrons (fun _ => 40) act -
      electrons (fun _ => 40) (releaseAbove slowProbs.fromRelease (fill100 20) act) := by decide +kernel

/-- **C18**, slow capture, is *false* in general: three transfers, well inside a budget of 6, leave a level
with negative volume. -/
theorem C18_slow_false :
    ∃ (nets : List ℚ) (m : Mgr ℚ),
      (Mgr.new (s := 1) (fun _ => (1000 : ℚ)) (.slow fun _ => slowProbs) 6).run fill100
        [(20, 1), (2, 1), (5, 1)] = .ok (nets, m) ∧ ∃ r ∈ m.wm, r.vol < 0 := by
  have key : (match (Mgr.new (s := 1) (fun _ => (1000 : ℚ)) (.slow fun _ => slowProbs) 6).run fill100
        [(20, 1), (2, 1), (5, 1)] with
      | .error _ => false
      | .ok (_, m) => m.wm.any fun r => decide (r.vol < 0)) = true := by decide +kernel
  split at key
  · cases key
  · rename_i nets m h1
    rw [List.any_eq_true] at key
    obtain ⟨r, hr, h⟩ := key
    exact ⟨nets, m, h1, r, hr, of_decide_eq_true h⟩

/-- **C18**, slow capture: what holds in every history of at most two thirds of the budget is that the
heights of the levels lie in (0, 1] and the rest of the array is unused. -/
theorem C18_slow_heights (dens : Fin s → K) (p : K → Probs K s) (f : K → K) (hf : FillModel f)
    (N : ℕ) (h : List (K × K)) (hN : 3 * h.length ≤ 2 * N) :
    ∃ nets act rest, (Mgr.new dens (.slow p) N).run f h = .ok (nets, ⟨s, dens, .slow p, act ++ rest⟩) ∧
      NZ 0 act ∧ (∀ r ∈ rest, r.vol = 0) ∧ act.length ≤ 3 * h.length := by
  obtain ⟨nets, wm, h1, -, ⟨-, act, rest, rfl, g1, g2, g3⟩, -⟩ := slow_run dens p f hf (1 + N * 2) h 0 _
    (slowState_zero _) (by omega)
  exact ⟨nets, act, rest, h1, g1, g2, by omega⟩

/-! ## C19 — the array does not overflow -/

/-- **C19**, instant capture: no history of at most `max_n_transfers` transfers fails, and each transfer uses
at most one more row. -/
theorem C19_instant (dens : Fin s → K) (p : K → Fin s → K) (f : K → K) (hf : FillModel f)
    (hd : ∀ j, 0 ≤ dens j) (hp : ∀ t j, 0 ≤ p t j ∧ p t j ≤ 1) (N : ℕ) (h : List (K × K)) (hN : h.length ≤ N) :
    ∃ nets wm, (Mgr.new dens (.instant p) N).run f h = .ok (nets, ⟨s, dens, .instant p, wm⟩) ∧
      wm.length = 1 + N ∧ nActive wm ≤ h.length := by
  obtain ⟨nets, wm, h1, -, h2, h3, h4⟩ := instant_run dens p f hf hd (1 + N * 1) h (fun e _ => hp e.2) 0 _
    (instState_zero _) (by omega)
  refine ⟨nets, wm, h1, by have := h2.1; omega, ?_⟩
  have := h2.wellFormed.2
  omega

/-- All rows but the last are used by decreasing clouds. -/
example : (((Mgr.new (s := 1) (fun _ => (10 : ℚ)) (.instant fun _ _ => 1 / 2) 3).run fill100
    [(90, 1), (50, 1), (20, 1)]).map fun o => nActive o.2.wm) = .ok 3 := by decide +kernel

/-- **C19**, elapsed times: the only failure is the `TypeError` of C23. -/
theorem C19_trackTime (dens : Fin s → K) (conv : Fin s → K → K) (f : K → K) (hf : FillModel f)
    (hd : ∀ j, 0 ≤ dens j) (hc0 : ∀ j, conv j 0 = 1) (hc : ∀ j x, 0 ≤ x → 0 ≤ conv j x ∧ conv j x ≤ 1)
    (N : ℕ) (h : List (K × K)) (hN : h.length ≤ N) (hdw : ∀ e ∈ h, 0 ≤ e.2) (err : Err)
    (hr : (Mgr.new dens (.trackTime conv) N).run f h = .error err) : err = .typeError := by
  rcases track_run dens conv f hf hd hc0 hc (1 + N * 1) h hdw 0 _ (trackState_zero _) (by omega) with
    g | ⟨nets, wm, h1, -, h2, h3⟩
  · have hr : Mgr.run f ⟨s, dens, .trackTime conv, Z (1 + N * 1)⟩ h = .error err := hr
    rw [g] at hr; injection hr with hr; exact hr.symm
  · have hr : Mgr.run f ⟨s, dens, .trackTime conv, Z (1 + N * 1)⟩ h = .error err := hr
    rw [h1] at hr; cases hr

/-- **C19**, slow capture, is *false*: five transfers of a manager made for five transfers write outside the
array (two rows per transfer are reserved, three can be needed). -/
theorem C19_slow_false :
    (Mgr.new (s := 1) (fun _ => (1000 : ℚ)) (.slow fun _ => slowProbs) 5).run fill100
      [(30, 1), (20, 1), (1, 1), (2, 1), (10, 1)] = .error .outOfBounds := by
  have key : (match (Mgr.new (s := 1) (fun _ => (1000 : ℚ)) (.slow fun _ => slowProbs) 5).run fill100
        [(30, 1), (20, 1), (1, 1), (2, 1), (10, 1)] with
      | .error e => decide (e = .outOfBounds)
      | .ok _ => false) = true := by decide +kernel
  split at key
  · rename_i e h1
    rw [h1, of_decide_eq_true key]
  · cases key

/-- **C19**, slow capture, with three rows per transfer there is no overflow: histories of at most two thirds
of the budget never fail. -/
theorem C19_slow_bound (dens : Fin s → K) (p : K → Probs K s) (f : K → K) (hf : FillModel f)
    (N : ℕ) (h : List (K × K)) (hN : 3 * h.length ≤ 2 * N) :
    ∃ nets m, (Mgr.new dens (.slow p) N).run f h = .ok (nets, m) := by
  obtain ⟨nets, wm, h1, -⟩ := slow_run dens p f hf (1 + N * 2) h 0 _ (slowState_zero _) (by omega)
  exact ⟨nets, _, h1⟩

/-- **C19** is *false* when the array serves more transfers than it was made for, as it does for the second
column when traps are not emptied between columns: the third transfer of a manager made for one captures
more than its cloud holds. -/
theorem C19_not_emptied_false :
    ((Mgr.new (s := 1) (fun _ => (1000 : ℚ)) (.instant fun _ _ => 1 / 2) 1).run fill100
      [(90, 1), (50, 1), (20, 1)]).map Prod.fst = .ok [-90, -50, -6961382 / 134483] := by decide +kernel

/-! ## C20 — occupancy as a function of depth, instant capture -/

/-- **C20**. -/
theorem C20_profile (dens : Fin s → K) (p : K → Fin s → K) (f : K → K) (hf : FillModel f)
    (hd : ∀ j, 0 ≤ dens j) (hp : ∀ t j, 0 ≤ p t j ∧ p t j ≤ 1) (N : ℕ) (h : List (K × K)) (hN : h.length < N)
    (n t : K) :
    ∃ nets wm net wm', (Mgr.new dens (.instant p) N).run f h = .ok (nets, ⟨s, dens, .instant p, wm⟩) ∧
      Mgr.step ⟨s, dens, .instant p, wm⟩ n t f = .ok (net, ⟨s, dens, .instant p, wm'⟩) ∧
      ProfileSpec dens (p t) f n wm wm' := by
  obtain ⟨nets, wm, h1, -, h2, h3, h4⟩ := instant_run dens p f hf hd (1 + N * 1) h (fun e _ => hp e.2) 0 _
    (instState_zero _) (by omega)
  obtain ⟨net, wm', g1, g2, g3, g4, g5, -⟩ := instant_step dens (p t) f hf hd (hp t) n (1 + N * 1)
    (0 + h.length) wm h2 (by omega)
  exact ⟨nets, wm, net, wm', h1, by rw [step_instant, g1]; rfl, g4⟩

/-- **C20**, number captured: the smaller of the electrons available and the vacant traps reached by the
cloud. -/
theorem C20_captured (dens : Fin s → K) (p : K → Fin s → K) (f : K → K) (hf : FillModel f)
    (hfpos : ∀ n, 0 < n → 0 < f n)
    (hd : ∀ j, 0 ≤ dens j) (hp : ∀ t j, 0 ≤ p t j ∧ p t j ≤ 1) (N : ℕ) (h : List (K × K)) (hN : h.length < N)
    (n t : K) :
    ∃ nets wm net wm', (Mgr.new dens (.instant p) N).run f h = .ok (nets, ⟨s, dens, .instant p, wm⟩) ∧
      Mgr.step ⟨s, dens, .instant p, wm⟩ n t f = .ok (net, ⟨s, dens, .instant p, wm'⟩) ∧
      CaptureSpec dens (p t) f n wm net := by
  obtain ⟨nets, wm, h1, -, h2, h3, h4⟩ := instant_run dens p f hf hd (1 + N * 1) h (fun e _ => hp e.2) 0 _
    (instState_zero _) (by omega)
  obtain ⟨net, wm', g1, g2, g3, g4, g5, -⟩ := instant_step dens (p t) f hf hd (hp t) n (1 + N * 1)
    (0 + h.length) wm h2 (by omega)
  exact ⟨nets, wm, net, wm', h1, by rw [step_instant, g1]; rfl,
    g5 (h4 hfpos ⟨[], _, rfl, fun _ h => by simp at h⟩)⟩

/-- Three levels: occupancies 1, 1/2 and 1/4 below heights 0.2…, 0.5… and 0.9. -/
example : (((Mgr.new (s := 1) (fun _ => (10 : ℚ)) (.instant fun _ _ => 1 / 2) 3).run fill100
    [(90, 1), (50, 1), (20, 1)]).map fun o => if h : o.2.s = 1 then
      [1/10, 1/2, 4/5, 19/20].map fun d => occ o.2.wm d ⟨0, by omega⟩ else []) =
    .ok [1, 1/2, 1/4, 0] := by decide +kernel

/-! ## C21 — occupancy as a function of depth, slow capture -/

/-- **C21**. `SlowSpec` states the occupancy at every depth, the electrons captured and the shortage rule. -/
theorem C21_lindegren (dens : Fin s → K) (p : K → Probs K s) (f : K → K) (hf : FillModel f)
    (hd : ∀ j, 0 ≤ dens j) (n t : K) (hpr : ProbsOk (p t)) (hn : 0 ≤ n) (act : WM K s) (z : ℕ)
    (hp : ∀ r ∈ act, 0 < r.vol)
    (hv : volSum act ≤ 1) (hF : ∀ r ∈ act, ∀ j, 0 ≤ r.fill j ∧ r.fill j ≤ 1)
    (hfirst : act = [] → 0 < n → 0 < f n)
    (htop : f n ≤ volSum act → f (n + (electrons dens act -
      electrons dens (releaseAbove (p t).fromRelease (f n) act))) ≤ volSum act) :
    ∃ net wm', Mgr.step ⟨s, dens, .slow p, act ++ List.replicate (z + 3) (zeroRow K s)⟩ n t f =
        .ok (net, ⟨s, dens, .slow p, wm'⟩) ∧
      SlowSpec dens (p t) f n (act ++ List.replicate (z + 3) (zeroRow K s)) net wm' := by
  obtain ⟨net, act2, z2, h1, -, -, h3, h4, h5, h6⟩ := slowStep_regular dens (p t) f hf hd hpr n hn act z hp hv hF
    hfirst htop
  have h1' : slowStep dens (p t) f n (act ++ List.replicate (z + 3) (zeroRow K s)) =
      .ok (net, act2 ++ Z (z2 + 1)) := h1
  exact ⟨net, act2 ++ Z (z2 + 1), by rw [step_slow, h1']; rfl, h6⟩

/-! ## C22 — elapsed times and fill fractions -/

/-- **C22**: whenever the elapsed-time manager completes a history, the instant-capture manager gives the
same numbers. -/
theorem C22_same_nets (dens : Fin s → K) (conv : Fin s → K → K) (p : K → Fin s → K) (f : K → K)
    (hf : FillModel f) (hd : ∀ j, 0 ≤ dens j) (hc0 : ∀ j, conv j 0 = 1)
    (hc : ∀ j x, 0 ≤ x → 0 ≤ conv j x ∧ conv j x ≤ 1)
    (hcp : ∀ j x t, 0 ≤ x → 0 ≤ t → conv j (x + t) = conv j x * p t j)
    (N : ℕ) (h : List (K × K)) (hN : h.length ≤ N) (hdw : ∀ e ∈ h, 0 ≤ e.2) (nets : List K) (m : Mgr K)
    (hr : (Mgr.new dens (.trackTime conv) N).run f h = .ok (nets, m)) :
    ∃ m', (Mgr.new dens (.instant p) N).run f h = .ok (nets, m') := by
  refine (track_instant_run dens conv p f hf hd hc0 hc hcp (1 + N * 1) h hdw 0 _ _ (trackState_zero _)
    (instState_zero _) (by omega) (fun d hd0 j => ?_)).1 nets m hr
  have e : ∀ (w : WM K s), (∀ r ∈ w, r.vol = 0) → occ w d j = 0 := by
    intro w hw
    have := occ_append_zero [] w hw d hd0 j
    rw [List.nil_append] at this
    rw [this]; rfl
  exact (e _ (map_Z_vol conv _)).trans (e (Z (1 + N * 1)) fun r hr => by rw [List.eq_of_mem_replicate hr]; rfl).symm

/-- **C22**: when every cloud holds enough electrons, both complete with the same numbers. -/
theorem C22_enough (dens : Fin s → K) (conv : Fin s → K → K) (p : K → Fin s → K) (f : K → K)
    (hf : FillModel f) (hd : ∀ j, 0 ≤ dens j) (hc0 : ∀ j, conv j 0 = 1)
    (hc : ∀ j x, 0 ≤ x → 0 ≤ conv j x ∧ conv j x ≤ 1)
    (hcp : ∀ j x t, 0 ≤ x → 0 ≤ t → conv j (x + t) = conv j x * p t j)
    (N : ℕ) (h : List (K × K)) (hN : h.length ≤ N) (hdw : ∀ e ∈ h, 0 ≤ e.2)
    (henough : ∀ h1 n t h2, h = h1 ++ (n, t) :: h2 → ∀ nets wm,
      (Mgr.new dens (.instant p) N).run f h1 = .ok (nets, ⟨s, dens, .instant p, wm⟩) →
      vacant dens (f (available dens (p t) n wm)) (released (p t) wm) ≤ max 0 (available dens (p t) n wm)) :
    ∃ nets m m', (Mgr.new dens (.trackTime conv) N).run f h = .ok (nets, m) ∧
      (Mgr.new dens (.instant p) N).run f h = .ok (nets, m') := by
  refine (track_instant_run dens conv p f hf hd hc0 hc hcp (1 + N * 1) h hdw 0 _ _ (trackState_zero _)
    (instState_zero _) (by omega) (fun d hd0 j => ?_)).2 henough
  have e : ∀ (w : WM K s), (∀ r ∈ w, r.vol = 0) → occ w d j = 0 := by
    intro w hw
    have := occ_append_zero [] w hw d hd0 j
    rw [List.nil_append] at this
    rw [this]; rfl
  exact (e _ (map_Z_vol conv _)).trans (e (Z (1 + N * 1)) fun r hr => by rw [List.eq_of_mem_replicate hr]; rfl).symm

/-- Exponential release over ℝ meets the hypotheses on `conv` and `p`. -/
example (τ : Fin s → ℝ) (hτ : ∀ j, 0 < τ j) :
    let conv : Fin s → ℝ → ℝ := fun j x => Real.exp (-x / τ j)
    let p : ℝ → Fin s → ℝ := fun t j => Real.exp (-t / τ j)
    (∀ j, conv j 0 = 1) ∧ (∀ j x, 0 ≤ x → 0 ≤ conv j x ∧ conv j x ≤ 1) ∧
      (∀ j x t, 0 ≤ x → 0 ≤ t → conv j (x + t) = conv j x * p t j) := by
  refine ⟨fun j => by simp, fun j x hx => ⟨(Real.exp_pos _).le, ?_⟩, fun j x t _ _ => ?_⟩
  · rw [Real.exp_le_one_iff]; exact div_nonpos_of_nonpos_of_nonneg (by linarith) (hτ j).le
  · simp only; rw [← Real.exp_add]; congr 1; ring

/-- With a single cloud of 50 electrons for 10 traps there are enough electrons. -/
example : vacant (fun _ : Fin 1 => (10 : ℚ)) (fill100 50) [⟨0, fun _ => 0⟩] = 5 := by decide +kernel

/-! ## C23 — shortage with elapsed times -/

/-- **C23**: after a history within the budget, a transfer raises `TypeError` exactly when there are fewer
electrons available than traps to fill. -/
theorem C23_typeError_iff (dens : Fin s → K) (conv : Fin s → K → K) (f : K → K) (hf : FillModel f)
    (hd : ∀ j, 0 ≤ dens j) (hc0 : ∀ j, conv j 0 = 1) (hc : ∀ j x, 0 ≤ x → 0 ≤ conv j x ∧ conv j x ≤ 1)
    (N : ℕ) (h : List (K × K)) (hN : h.length < N) (hdw : ∀ e ∈ h, 0 ≤ e.2) (n t : K) (ht : 0 ≤ t)
    (nets : List K) (wm : WM K s)
    (hrun : (Mgr.new dens (.trackTime conv) N).run f h = .ok (nets, ⟨s, dens, .trackTime conv, wm⟩)) :
    Mgr.step ⟨s, dens, .trackTime conv, wm⟩ n t f = .error .typeError ↔ Shortage dens conv t f n wm := by
  rcases track_run dens conv f hf hd hc0 hc (1 + N * 1) h hdw 0 _ (trackState_zero _) (by omega) with
    g | ⟨nets', wm', h1, -, h2, h3⟩
  · have hrun : Mgr.run f ⟨s, dens, .trackTime conv, Z (1 + N * 1)⟩ h = .ok (nets, _) := hrun
    rw [g] at hrun; cases hrun
  · have hrun : Mgr.run f ⟨s, dens, .trackTime conv, Z (1 + N * 1)⟩ h = .ok (nets, _) := hrun
    rw [h1] at hrun
    injection hrun with hrun; injection hrun with e1 e2
    injection e2 with _ _ _ e2
    have e2 : wm' = wm := e2
    subst e2
    have key := track_step dens conv t f hf hd hc0 hc ht n (1 + N * 1) (0 + h.length) wm' h2 (by omega)
    simp only at key
    rw [step_track]
    constructor
    · intro herr
      by_contra hs
      obtain ⟨wm2, g1, -⟩ := key.1 hs
      rw [g1] at herr; cases herr
    · intro hs
      rw [key.2 hs]; rfl

/-- **C23**: the first cloud, 50 electrons for 500 traps. -/
theorem C23_false :
    Mgr.run fill100 (Mgr.new (s := 1) (fun _ => (1000 : ℚ)) (.trackTime fun _ => halving) 4) [(50, 1)] =
      .error .typeError := by
  have key : (match Mgr.run fill100 (Mgr.new (s := 1) (fun _ => (1000 : ℚ)) (.trackTime fun _ => halving) 4) [(50, 1)] with
      | .error e => decide (e = .typeError)
      | .ok _ => false) = true := by decide +kernel
  split at key
  · rename_i e h1
    rw [h1, of_decide_eq_true key]
  · cases key

/-! ## C24 — splitting a species -/

theorem rl_Z' {s' : ℕ} (φ : Fin s' → Fin s) (z : ℕ) : rl φ (Z z : WM K s) = Z z := by
  unfold rl Z; rw [List.map_replicate]; rfl

/-- **C24**: `φ` assigns each of the new species to the old species it is a part of; timescales agree and
densities add up.  All three kinds of manager give the same numbers (or the same exception) in every
history. -/
theorem C24_slow {s' : ℕ} (φ : Fin s' → Fin s) (hφ : Function.Surjective φ) (dens : Fin s → K) (dens' : Fin s' → K)
    (hd : ∀ j, dens j = ∑ i with φ i = j, dens' i) (p : K → Probs K s) (p' : K → Probs K s')
    (hp : ∀ t i, (p' t).fromEmpty i = (p t).fromEmpty (φ i) ∧ (p' t).fromFull i = (p t).fromFull (φ i) ∧
      (p' t).fromRelease i = (p t).fromRelease (φ i)) (f : K → K) (N : ℕ) (h : List (K × K)) :
    ((Mgr.new dens' (.slow p') N).run f h).map Prod.fst = ((Mgr.new dens (.slow p) N).run f h).map Prod.fst := by
  have := rl_run φ hφ dens dens' hd (.slow p) (.slow p') (.slow p p' hp) f h (Z (1 + N * 2))
  rwa [rl_Z'] at this

theorem C24_instant {s' : ℕ} (φ : Fin s' → Fin s) (hφ : Function.Surjective φ) (dens : Fin s → K)
    (dens' : Fin s' → K) (hd : ∀ j, dens j = ∑ i with φ i = j, dens' i) (p : K → Fin s → K) (p' : K → Fin s' → K)
    (hp : ∀ t i, p' t i = p t (φ i)) (f : K → K) (N : ℕ) (h : List (K × K)) :
    ((Mgr.new dens' (.instant p') N).run f h).map Prod.fst =
      ((Mgr.new dens (.instant p) N).run f h).map Prod.fst := by
  have := rl_run φ hφ dens dens' hd (.instant p) (.instant p') (.instant p p' hp) f h (Z (1 + N * 1))
  rwa [rl_Z'] at this

theorem C24_trackTime {s' : ℕ} (φ : Fin s' → Fin s) (hφ : Function.Surjective φ) (dens : Fin s → K)
    (dens' : Fin s' → K) (hd : ∀ j, dens j = ∑ i with φ i = j, dens' i) (c : Fin s → K → K) (c' : Fin s' → K → K)
    (hc : ∀ i, c' i = c (φ i)) (f : K → K) (N : ℕ) (h : List (K × K)) :
    ((Mgr.new dens' (.trackTime c') N).run f h).map Prod.fst =
      ((Mgr.new dens (.trackTime c) N).run f h).map Prod.fst := by
  have := rl_run φ hφ dens dens' hd (.trackTime c) (.trackTime c') (.trackTime c c' hc) f h (Z (1 + N * 1))
  rwa [rl_Z'] at this

/-- Density 10 split into 4 and 6. -/
example : (∀ j : Fin 1, (fun _ => 10 : Fin 1 → ℚ) j = ∑ i with (fun _ : Fin 2 => (0 : Fin 1)) i = j, ![4, 6] i) ∧
    ((Mgr.new (s := 2) (![4, 6] : Fin 2 → ℚ) (.instant fun _ _ => 1 / 2) 4).run fill100
    [(50, 1), (0, 1), (20, 1)]).map Prod.fst = .ok [-5, 19 / 8, -143 / 640] := by decide +kernel

end Arctic
