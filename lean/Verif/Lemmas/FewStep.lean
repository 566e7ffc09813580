import Verif.Lemmas.SlowRef
import Verif.Lemmas.Charge

/-!
# Few traps never take more electrons than there are, and what each group takes is bounded by its share
-/

set_option linter.unusedSectionVars false
set_option linter.unusedVariables false

namespace Arctic

/-- Traps of a manager. -/
def Mgr.total {K : Type} [Field K] (m : Mgr K) : K := ∑ j, m.dens j

section vac
variable {K : Type} [Field K] [LinearOrder K] [IsStrictOrderedRing K] {s : ℕ}

theorem row_vacant_le (dens : Fin s → K) (hd : ∀ j, 0 ≤ dens j) (x : Fin s → K) (hx : Frac x) :
    ∑ j, (1 - x j) * dens j ≤ ∑ j, dens j :=
  Finset.sum_le_sum fun j _ => mul_le_of_le_one_left (hd j) (by linarith [(hx j).1])

theorem vacant_le (dens : Fin s → K) (hd : ∀ j, 0 ≤ dens j) (c : K) (hc : 0 ≤ c) (wm : WM K s)
    (hv : ∀ r ∈ wm, 0 ≤ r.vol) (hF : ∀ r ∈ wm, Frac r.fill) : vacant dens c wm ≤ (∑ j, dens j) * c := by
  induction wm generalizing c with
  | nil => unfold vacant; rw [mul_comm]
  | cons r rs ih =>
    have l := row_vacant_le dens hd r.fill (hF r List.mem_cons_self)
    unfold vacant
    split
    · have := mul_le_mul_of_nonneg_left l hc
      linarith
    · rename_i h
      have h := not_le.1 h
      have i := ih (c - r.vol) (by linarith) (fun q hq => hv q (List.mem_cons_of_mem _ hq))
        (fun q hq => hF q (List.mem_cons_of_mem _ hq))
      have := mul_le_mul_of_nonneg_left l (hv r List.mem_cons_self)
      nlinarith

theorem Mgr.total_eq {m m' : Mgr K} {n t net : K} {f : K → K} (h : m.step n t f = .ok (net, m')) :
    m'.total = m.total := by
  obtain ⟨wm, rfl, -⟩ := Mgr.step_shape h
  rfl

end vac

/-- One transfer with instant capture (fill fractions or elapsed times): no exception, and the traps take no more than
their share of the cloud. -/
theorem MgrOk.few {D : ℝ} {M k : ℕ} {m : Mgr ℝ} (h : MgrOk (0 < ·) M k m) (hreg : MgrReg m) (hk : k < M) {f : ℝ → ℝ}
    (hf : FillModel f) (hfew : FewTraps f D) (hD : m.total ≤ D) (n t : ℝ) (hn : 0 ≤ n) (ht : 0 < t) :
    ∃ net m', m.step n t f = .ok (net, m') ∧ MgrOk (0 < ·) M (k + 1) m' ∧ MgrReg m' ∧
      net = m.nTrapped - m'.nTrapped ∧ -(m.total * f n) ≤ net := by
  have hs := h.step hk hf n t ht ht.le
  have hfew' := hfew.less hD
  obtain ⟨hd, hkind, i, hik, -, hst⟩ := h
  obtain ⟨s, dens, kind, wm⟩ := m
  have htot : (⟨s, dens, kind, wm⟩ : Mgr ℝ).total = ∑ j, dens j := rfl
  rw [htot] at hfew' ⊢
  cases kind with
  | slow p => exact hst.elim
  | instant p =>
    obtain ⟨net, wm', g1, g2, g3, -, g5, g6⟩ := instant_step dens (p t) f hf hd (hkind t ht) n (1 + M) i wm hst
      (by omega)
    have e : (⟨s, dens, .instant p, wm⟩ : Mgr ℝ).step n t f = .ok (net, ⟨s, dens, .instant p, wm'⟩) := by
      rw [step_instant, g1]; rfl
    obtain ⟨q1, q2, q3, q4⟩ := hs.ok e
    refine ⟨_, _, e, q1, q3 hfew.pos hreg, q2, ?_⟩
    have hR : Regular wm := by
      rcases hreg with hreg | hreg
      · exact hreg.elim
      · exact hreg
    have hc := g5 hR
    simp only [CaptureSpec] at hc
    have hrel := released_le dens (p t) (hkind t ht) hd wm hst
    have hw := (InstState.wellFormed hst).1
    have hvac := vacant_le dens hd (f (available dens (p t) n wm)) (hf.nonneg _) (released (p t) wm)
      (by
        intro r hr
        simp only [released, List.mem_map] at hr
        obtain ⟨q, hq, rfl⟩ := hr
        exact hw.vol_nonneg q hq)
      (by
        intro r hr
        simp only [released, List.mem_map] at hr
        obtain ⟨q, hq, rfl⟩ := hr
        intro j
        have a := hw.2.2 q hq j
        have b := hkind t ht j
        exact ⟨mul_nonneg a.1 b.1, mul_le_one₀ a.2 b.1 b.2⟩)
    have hmin := min_le_right (max 0 (available dens (p t) n wm))
      (vacant dens (f (available dens (p t) n wm)) (released (p t) wm))
    rw [← hc] at hmin
    have h1 := hfew'.few n (available dens (p t) n wm) hn (by unfold available; linarith)
    have h2 : available dens (p t) n wm - n = electrons dens wm - electrons dens (released (p t) wm) := by
      unfold available; ring
    rw [h2, mul_sub] at h1
    linarith
  | trackTime c =>
    have key := track_step dens c t f hf hd hkind.1 hkind.2.1 ht.le n (1 + M) i wm hst (by omega)
    simp only at key
    have hle : electrons dens (asFractionsAfter c t wm) ≤ electrons dens (asFractions c wm) :=
      asFractionsAfter_le dens c t hd hkind.2.2 ht.le _ _ wm hst
    have hw := (TrackState.asFractions_wf hst (fun j y => c j (y + t)) (fun j x hx => hkind.2.1 j _ (by linarith))).1
    have hvac := vacant_le dens hd (f (n + (electrons dens (asFractions c wm) - electrons dens (asFractionsAfter c t wm))))
      (hf.nonneg _) (asFractionsAfter c t wm) hw.vol_nonneg hw.2.2
    set a := n + (electrons dens (asFractions c wm) - electrons dens (asFractionsAfter c t wm)) with ha
    have ha0 : 0 ≤ a := by rw [ha]; linarith
    have hna : n ≤ a := by rw [ha]; linarith
    have h1 := hfew'.few n a hn hna
    have h2 := hfew'.few 0 a le_rfl ha0
    rw [hf.empty 0 le_rfl] at h2
    have hsh : ¬ Shortage dens c t f n wm := by
      unfold Shortage
      simp only
      rw [← ha, not_lt, max_eq_right ha0]
      linarith
    obtain ⟨wm', g1, g2, g3, -⟩ := key.1 hsh
    have e : (⟨s, dens, .trackTime c, wm⟩ : Mgr ℝ).step n t f = .ok
        (electrons dens (asFractions c wm) - electrons dens (asFractionsAfter c t wm) -
          vacant dens (f a) (asFractionsAfter c t wm), ⟨s, dens, .trackTime c, wm'⟩) := by
      rw [step_track, g1]; rfl
    obtain ⟨q1, q2, q3, q4⟩ := hs.ok e
    refine ⟨_, _, e, q1, q3 hfew.pos hreg, q2, ?_⟩
    rw [mul_sub] at h1
    linarith

/-- A manager of any kind within its budget of transfers; slow ones have at most `D` traps. -/
def MgrFew (D : ℝ) (M k : ℕ) (m : Mgr ℝ) : Prop :=
  (MgrOk (0 < ·) M k m ∧ MgrReg m) ∨ ∃ t, SlowRef D M k m t

theorem MgrFew.mono {D : ℝ} {M k k' : ℕ} {m : Mgr ℝ} (h : MgrFew D M k m) (hk : k ≤ k') : MgrFew D M k' m := by
  rcases h with ⟨h1, h2⟩ | ⟨t, h⟩
  · exact Or.inl ⟨h1.mono hk, h2⟩
  · exact Or.inr ⟨t, h.mono hk⟩

theorem MgrFew.nonneg {D : ℝ} {M k : ℕ} {m : Mgr ℝ} (h : MgrFew D M k m) : 0 ≤ m.nTrapped ∧ 0 ≤ m.total := by
  rcases h with ⟨h1, h2⟩ | ⟨t, h⟩
  · exact ⟨h1.nTrapped_nonneg, Finset.sum_nonneg fun j _ => h1.dens j⟩
  · obtain ⟨s, dens, pr, tk, hl, kp, wm, o, rfl, hprx, rfl, hok, hD, ⟨act, z, rfl, hp, hv, hF, hlen, hz⟩, ho⟩ := h
    refine ⟨?_, Finset.sum_nonneg fun j _ => hok.dens j⟩
    simp only [Mgr.nTrapped, electrons_eq_cy, electrons_append_Z]
    exact (electrons_bounds dens hok.dens act (fun r hr => (hp r hr).le) (fun r hr _ => hF r hr)).1

theorem MgrFew.step {D : ℝ} {M k : ℕ} {m : Mgr ℝ} (h : MgrFew D M k m) (hk : k < M) {f : ℝ → ℝ}
    (hf : FillModel f) (hfew : FewTraps f D) (hD : m.total ≤ D) (n t : ℝ) (hn : 0 ≤ n) (ht : 0 < t) :
    ∃ net m', m.step n t f = .ok (net, m') ∧ MgrFew D M (k + 1) m' ∧ net = m.nTrapped - m'.nTrapped ∧
      -(m.total * f n) ≤ net := by
  rcases h with ⟨h1, h2⟩ | ⟨tr, h⟩
  · obtain ⟨net, m', e, g1, g2, g3, g4⟩ := h1.few h2 hk hf hfew hD n t hn ht
    exact ⟨net, m', e, Or.inl ⟨g1, g2⟩, g3, g4⟩
  · obtain ⟨m', e, g1, g2, g3⟩ := h.step hk hf hfew n t hn ht
    exact ⟨_, m', e, Or.inr ⟨_, g1⟩, g2, g3⟩

/-- The managers of one phase: any number of any kind, at most `D` traps together. -/
def PhaseFew (D : ℝ) (M k : ℕ) (ms : List (Mgr ℝ)) : Prop :=
  (ms.map Mgr.total).sum ≤ D ∧ ∀ m ∈ ms, MgrFew D M k m

theorem groupsStep_few {D : ℝ} {M k : ℕ} (hk : k < M) {f : ℝ → ℝ} (hf : FillModel f) (hfew : FewTraps f D) (n t : ℝ)
    (hn : 0 ≤ n) (ht : 0 < t) (ms : List (Mgr ℝ)) (hms : ∀ m ∈ ms, MgrFew D M k m ∧ m.total ≤ D) :
    ∃ net ms', groupsStep n t f ms = .ok (net, ms') ∧ (∀ m ∈ ms', MgrFew D M (k + 1) m) ∧
      (ms'.map Mgr.total).sum = (ms.map Mgr.total).sum ∧
      net = (ms.map Mgr.nTrapped).sum - (ms'.map Mgr.nTrapped).sum ∧ -((ms.map Mgr.total).sum * f n) ≤ net := by
  induction ms with
  | nil => exact ⟨0, [], rfl, by simp, rfl, by simp, by simp⟩
  | cons m ms ih =>
    obtain ⟨net, ms', i1, i2, i3, i4, i5⟩ := ih fun q hq => hms q (List.mem_cons_of_mem _ hq)
    obtain ⟨a1, a2⟩ := hms m List.mem_cons_self
    obtain ⟨net1, m', e, g1, g2, g3⟩ := a1.step hk hf hfew a2 n t hn ht
    refine ⟨net1 + net, m' :: ms', ?_, ?_, ?_, ?_, ?_⟩
    · unfold groupsStep
      simp only [bind, Except.bind, e, i1]
    · intro q hq
      rcases List.mem_cons.1 hq with rfl | hq
      · exact g1
      · exact i2 q hq
    · simp only [List.map_cons, List.sum_cons, i3, Mgr.total_eq e]
    · simp only [List.map_cons, List.sum_cons]
      rw [i4, g2]; ring
    · simp only [List.map_cons, List.sum_cons]
      linarith

theorem PhaseFew.each {D : ℝ} {M k : ℕ} {ms : List (Mgr ℝ)} (h : PhaseFew D M k ms) :
    ∀ m ∈ ms, MgrFew D M k m ∧ m.total ≤ D := fun m hm =>
  ⟨h.2 m hm, (List.single_le_sum (fun x hx => by
    obtain ⟨q, hq, rfl⟩ := List.mem_map.1 hx
    exact (h.2 q hq).nonneg.2) _ (List.mem_map_of_mem hm)).trans h.1⟩

theorem phaseFew_inv (D : ℝ) : PhaseInv False (0 < ·) (fun f => FewTraps f D) (PhaseFew D) where
  mono h hk := ⟨h.1, fun m hm => (h.2 m hm).mono hk⟩
  step {M k ms} h hk f hf hF n t ht ht0 hn := by
    obtain ⟨net, ms', e, g1, g2, g3, g4⟩ := groupsStep_few hk hf hF n t hn ht ms h.each
    rw [e]
    refine ⟨⟨by rw [g2]; exact h.1, g1⟩, g3, ?_⟩
    have h1 := mul_le_mul_of_nonneg_right h.1 (hf.nonneg n)
    have h2 := hF.few 0 n le_rfl hn
    rw [hf.empty 0 le_rfl] at h2
    simp only
    linarith
  nonneg {M k ms} h := by
    apply List.sum_nonneg
    intro x hx
    obtain ⟨m, hm, rfl⟩ := List.mem_map.1 hx
    exact (h.2 m hm).nonneg.1

end Arctic
