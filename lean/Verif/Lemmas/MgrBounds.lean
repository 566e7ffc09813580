import Verif.Lemmas.TrackRun
import Verif.Lemmas.SlowRun

/-!
# Bounds on trapped electrons, and histories of the two instant-capture classes side by side
-/

set_option linter.unusedSectionVars false
set_option linter.unusedVariables false

namespace Arctic

variable {K : Type} [Field K] [LinearOrder K] [IsStrictOrderedRing K] {s : ℕ}

/-- Comparing electron counts level by level. -/
theorem electrons_map_le (dens : Fin s → K) (hd : ∀ j, 0 ≤ dens j) (g : Row K s → Fin s → K) (l : WM K s)
    (hv : ∀ r ∈ l, 0 ≤ r.vol) (hg : ∀ r ∈ l, 0 < r.vol → ∀ j, g r j ≤ r.fill j) :
    electrons dens (l.map fun r => ⟨r.vol, g r⟩) ≤ electrons dens l := by
  induction l with
  | nil => simp [electrons]
  | cons r l ih =>
    have ih := ih (fun q hq => hv q (List.mem_cons_of_mem _ hq)) (fun q hq => hg q (List.mem_cons_of_mem _ hq))
    simp only [electrons, List.map_cons, List.sum_cons] at ih ⊢
    have : r.vol * ∑ j, g r j * dens j ≤ r.vol * ∑ j, r.fill j * dens j := by
      rcases (hv r List.mem_cons_self).eq_or_lt with h0 | h0
      · rw [← h0, zero_mul, zero_mul]
      · refine mul_le_mul_of_nonneg_left (Finset.sum_le_sum fun j _ => ?_) h0.le
        exact mul_le_mul_of_nonneg_right (hg r List.mem_cons_self h0 j) (hd j)
    exact add_le_add this ih

theorem electrons_bounds (dens : Fin s → K) (hd : ∀ j, 0 ≤ dens j) (l : WM K s)
    (hv : ∀ r ∈ l, 0 ≤ r.vol) (hF : ∀ r ∈ l, 0 < r.vol → ∀ j, 0 ≤ r.fill j ∧ r.fill j ≤ 1) :
    0 ≤ electrons dens l ∧ electrons dens l ≤ volSum l * ∑ j, dens j := by
  induction l with
  | nil => simp [electrons, volSum]
  | cons r l ih =>
    have ih := ih (fun q hq => hv q (List.mem_cons_of_mem _ hq)) (fun q hq => hF q (List.mem_cons_of_mem _ hq))
    simp only [electrons, volSum, List.map_cons, List.sum_cons] at ih ⊢
    have hr : 0 ≤ r.vol * ∑ j, r.fill j * dens j ∧ r.vol * ∑ j, r.fill j * dens j ≤ r.vol * ∑ j, dens j := by
      rcases (hv r List.mem_cons_self).eq_or_lt with h0 | h0
      · rw [← h0]; simp
      · have hf := hF r List.mem_cons_self h0
        constructor
        · exact mul_nonneg h0.le (Finset.sum_nonneg fun j _ => mul_nonneg (hf j).1 (hd j))
        · refine mul_le_mul_of_nonneg_left (Finset.sum_le_sum fun j _ => ?_) h0.le
          exact mul_le_of_le_one_left (hd j) (hf j).2
    constructor
    · exact add_nonneg hr.1 ih.1
    · rw [add_mul]; exact add_le_add hr.2 ih.2

theorem InstState.wellFormed {L k : ℕ} {wm : WM K s} (h : InstState L k wm) :
    WellFormed wm ∧ nActive wm ≤ k := by
  have hz : ∀ z, ∀ r ∈ (Z z : WM K s), r.vol = 0 := fun z r hr => by
    rw [List.eq_of_mem_replicate hr]; rfl
  have hzf : ∀ z, ∀ r ∈ (Z z : WM K s), ∀ j, 0 ≤ r.fill j ∧ r.fill j ≤ 1 := fun z r hr j => by
    rw [List.eq_of_mem_replicate hr]; exact ⟨le_rfl, zero_le_one⟩
  have hn : ∀ z, nActive (Z z : WM K s) = 0 := by
    intro z
    unfold nActive
    rw [List.length_eq_zero_iff, List.filter_eq_nil_iff]
    intro r hr
    simp [hz z r hr]
  obtain ⟨hl, ⟨act, z, rfl, hp, hv, hF, hlen⟩ | ⟨h1, z, rfl⟩⟩ := h
  · refine ⟨⟨⟨act, Z z, rfl, hp, hz z⟩, ?_, ?_⟩, ?_⟩
    · rw [volSum_append, volSum_Z, add_zero]; exact hv
    · intro r hr
      rcases List.mem_append.1 hr with hr | hr
      · exact hF r hr
      · exact hzf z r hr
    · have h2 := hn z
      unfold nActive at h2 ⊢
      rw [List.filter_append, List.length_append, h2]
      have := List.length_filter_le (fun r : Row K s => decide (r.vol ≠ 0)) act
      omega
  · have e : ((⟨0, fun _ => 1⟩ : Row K s) :: Z z) = [] ++ ((⟨0, fun _ => 1⟩ : Row K s) :: Z z) := rfl
    refine ⟨⟨⟨[], _, e, by simp, ?_⟩, ?_, ?_⟩, ?_⟩
    · intro r hr
      rcases List.mem_cons.1 hr with rfl | hr
      · rfl
      · exact hz z r hr
    · rw [volSum_cons, volSum_Z, add_zero]; exact zero_le_one
    · intro r hr
      rcases List.mem_cons.1 hr with rfl | hr
      · exact fun j => ⟨zero_le_one, le_rfl⟩
      · exact hzf z r hr
    · have h2 := hn z
      unfold nActive at h2 ⊢
      rw [List.filter_cons_of_neg (by simp), h2]; omega

theorem WellFormed.vol_nonneg {wm : WM K s} (h : WellFormed wm) : ∀ r ∈ wm, 0 ≤ r.vol := by
  obtain ⟨⟨act, rest, rfl, hp, hr⟩, -⟩ := h
  intro r h
  rcases List.mem_append.1 h with h | h
  · exact (hp r h).le
  · exact (hr r h).ge

theorem WellFormed.electrons_bounds {wm : WM K s} (h : WellFormed wm) (dens : Fin s → K)
    (hd : ∀ j, 0 ≤ dens j) : 0 ≤ electrons dens wm ∧ electrons dens wm ≤ ∑ j, dens j := by
  have := Arctic.electrons_bounds dens hd wm h.vol_nonneg (fun r hr _ => h.2.2 r hr)
  exact ⟨this.1, this.2.trans (mul_le_of_le_one_left (Finset.sum_nonneg fun j _ => hd j) h.2.1)⟩

theorem released_le (dens p : Fin s → K) (hp : ∀ j, 0 ≤ p j ∧ p j ≤ 1) (hd : ∀ j, 0 ≤ dens j) (wm : WM K s)
    {L k : ℕ} (h : InstState L k wm) : electrons dens (released p wm) ≤ electrons dens wm := by
  have hw := h.wellFormed.1
  exact electrons_map_le dens hd (fun r j => r.fill j * p j) wm hw.vol_nonneg
    (fun r hr _ j => mul_le_of_le_one_right (hw.2.2 r hr j).1 (hp j).2)

theorem TrackState.asFractions_wf {L k : ℕ} {wm : WM K s} (h : TrackState L k wm) (conv : Fin s → K → K)
    (hc : ∀ j x, 0 ≤ x → 0 ≤ conv j x ∧ conv j x ≤ 1) :
    WellFormed (asFractions conv wm) ∧ nActive (asFractions conv wm) ≤ k := by
  obtain ⟨act, z, rfl, hp, hv, hT, hlen, hl⟩ := h
  have hz : ∀ r ∈ (Z z : WM K s).map fun r => (⟨r.vol, fun j => conv j (r.fill j)⟩ : Row K s), r.vol = 0 :=
    map_Z_vol conv z
  unfold asFractions
  rw [List.map_append]
  refine ⟨⟨⟨_, _, rfl, pos_of_vols (vols_mapRow conv act).symm hp, hz⟩, ?_, ?_⟩, ?_⟩
  · rw [volSum_append, volSum_zero hz, add_zero]
    exact (volSum_eq_of_vols (vols_mapRow conv act)).trans_le hv
  · intro r hr
    rcases List.mem_append.1 hr with hr | hr
    · rw [List.mem_map] at hr
      obtain ⟨q, hq, rfl⟩ := hr
      exact fun j => hc j _ (hT q hq j)
    · rw [List.mem_map] at hr
      obtain ⟨q, hq, rfl⟩ := hr
      rw [List.eq_of_mem_replicate hq]
      exact fun j => hc j 0 le_rfl
  · unfold nActive
    rw [List.filter_append, List.length_append]
    have h1 := List.length_filter_le (fun r : Row K s => decide (r.vol ≠ 0))
      (act.map fun r => (⟨r.vol, fun j => conv j (r.fill j)⟩ : Row K s))
    have h2 : ((Z z : WM K s).map fun r => (⟨r.vol, fun j => conv j (r.fill j)⟩ : Row K s)).filter
        (fun r : Row K s => decide (r.vol ≠ 0)) = [] := by
      rw [List.filter_eq_nil_iff]
      intro r hr
      simp [hz r hr]
    rw [h2]
    rw [List.length_map] at h1
    simp only [List.length_nil]
    omega

theorem asFractionsAfter_le (dens : Fin s → K) (conv : Fin s → K → K) (t : K) (hd : ∀ j, 0 ≤ dens j)
    (hanti : ∀ j x y, 0 ≤ x → x ≤ y → conv j y ≤ conv j x) (ht : 0 ≤ t) (L k : ℕ) (wm : WM K s)
    (h : TrackState L k wm) :
    electrons dens (asFractionsAfter conv t wm) ≤ electrons dens (asFractions conv wm) := by
  obtain ⟨act, z, rfl, hp, hv, hT, hlen, hl⟩ := h
  unfold asFractions asFractionsAfter
  rw [List.map_append, List.map_append, electrons_append_zero _ _ _ (map_Z_vol conv z),
    electrons_append_zero _ _ _ (map_Z_vol (fun j x => conv j (x + t)) z)]
  clear hl hlen hv
  induction act with
  | nil => exact le_rfl
  | cons r l ih =>
    have ih := ih (fun q hq => hp q (List.mem_cons_of_mem _ hq)) (fun q hq => hT q (List.mem_cons_of_mem _ hq))
    simp only [electrons, List.map_cons, List.sum_cons] at ih ⊢
    refine add_le_add (mul_le_mul_of_nonneg_left (Finset.sum_le_sum fun j _ => ?_) (hp r List.mem_cons_self).le) ih
    exact mul_le_mul_of_nonneg_right (hanti j _ _ (hT r List.mem_cons_self j) (by linarith)) (hd j)

/-- `Enough dens p f wm h`: running the instant-capture manager through `h`, each cloud (with the electrons
released) holds at least as many electrons as there are traps to fill. -/
def EnoughFrom (dens : Fin s → K) (p : K → Fin s → K) (f : K → K) (wm : WM K s) (h : List (K × K)) : Prop :=
  ∀ h1 n t h2, h = h1 ++ (n, t) :: h2 → ∀ nets wm1,
    Mgr.run f ⟨s, dens, .instant p, wm⟩ h1 = .ok (nets, ⟨s, dens, .instant p, wm1⟩) →
    vacant dens (f (available dens (p t) n wm1)) (released (p t) wm1) ≤ max 0 (available dens (p t) n wm1)

theorem track_instant_run (dens : Fin s → K) (conv : Fin s → K → K) (p : K → Fin s → K) (f : K → K)
    (hf : FillModel f) (hd : ∀ j, 0 ≤ dens j) (hc0 : ∀ j, conv j 0 = 1)
    (hc : ∀ j x, 0 ≤ x → 0 ≤ conv j x ∧ conv j x ≤ 1)
    (hcp : ∀ j x t, 0 ≤ x → 0 ≤ t → conv j (x + t) = conv j x * p t j)
    (L : ℕ) (h : List (K × K)) (hdw : ∀ e ∈ h, 0 ≤ e.2) :
    ∀ (k : ℕ) (wmT wmF : WM K s), TrackState L k wmT → InstState L k wmF → k + h.length + 1 ≤ L →
    (∀ d, 0 < d → ∀ j, occ (asFractions conv wmT) d j = occ wmF d j) →
    ((∀ nets m, Mgr.run f ⟨s, dens, .trackTime conv, wmT⟩ h = .ok (nets, m) →
      ∃ m', Mgr.run f ⟨s, dens, .instant p, wmF⟩ h = .ok (nets, m')) ∧
    (EnoughFrom dens p f wmF h → ∃ nets m m', Mgr.run f ⟨s, dens, .trackTime conv, wmT⟩ h = .ok (nets, m) ∧
      Mgr.run f ⟨s, dens, .instant p, wmF⟩ h = .ok (nets, m'))) := by
  induction h with
  | nil =>
    intro k wmT wmF hT hF hk hocc
    refine ⟨fun nets m hr => ?_, fun _ => ⟨[], _, _, rfl, rfl⟩⟩
    simp only [Mgr.run] at hr
    injection hr with hr; injection hr with e1 e2
    subst e1
    exact ⟨_, rfl⟩
  | cons e h ih =>
    obtain ⟨n, t⟩ := e
    intro k wmT wmF hT hF hk hocc
    rw [List.length_cons] at hk
    have ht : 0 ≤ t := hdw (n, t) List.mem_cons_self
    obtain ⟨hs1, hs2⟩ := track_instant_step dens conv (p t) t f hf hd hc0 hc ht (fun j x hx => hcp j x t hx ht)
      n L k L k wmT wmF hT hF (by omega) (by omega) hocc
    have ih := ih (fun e he => hdw e (List.mem_cons_of_mem _ he))
    constructor
    · intro nets m hr
      simp only [Mgr.run] at hr ⊢
      rw [step_track] at hr
      by_cases hs : Shortage dens conv t f n wmT
      · have := (track_step dens conv t f hf hd hc0 hc ht n L k wmT hT (by omega)).2 hs
        rw [this] at hr; cases hr
      · obtain ⟨net, wmT', wmF', g1, g2, g3, g4, g5⟩ := hs2 hs
        rw [g1] at hr
        simp only [Except.map, bind_ok] at hr
        rw [step_instant, g2]
        simp only [Except.map, bind_ok]
        cases hT' : Mgr.run f ⟨s, dens, .trackTime conv, wmT'⟩ h with
        | error e => rw [hT'] at hr; cases hr
        | ok o =>
          obtain ⟨nets', m'⟩ := o
          rw [hT'] at hr
          injection hr with hr; injection hr with e1 e2
          subst e1; subst e2
          obtain ⟨m2, h2⟩ := (ih (k + 1) wmT' wmF' g3 g4 (by omega) g5).1 nets' m' hT'
          exact ⟨m2, by rw [h2]; rfl⟩
    · intro hen
      have h0 := hen [] n t h rfl [] wmF rfl
      have hs : ¬ Shortage dens conv t f n wmT := by rw [hs1]; exact not_lt.2 h0
      obtain ⟨net, wmT', wmF', g1, g2, g3, g4, g5⟩ := hs2 hs
      obtain ⟨nets, m, m', r1, r2⟩ := (ih (k + 1) wmT' wmF' g3 g4 (by omega) g5).2 (by
        intro h1 n1 t1 h2 he nets1 wm1 hr
        refine hen ((n, t) :: h1) n1 t1 h2 (by rw [he]; rfl) (net :: nets1) wm1 ?_
        simp only [Mgr.run]
        rw [step_instant, g2]
        simp only [Except.map, bind_ok]
        rw [hr]; rfl)
      refine ⟨net :: nets, m, m', ?_, ?_⟩
      · simp only [Mgr.run]
        rw [step_track, g1]
        simp only [Except.map, bind_ok]
        rw [r1]; rfl
      · simp only [Mgr.run]
        rw [step_instant, g2]
        simp only [Except.map, bind_ok]
        rw [r2]; rfl

end Arctic
