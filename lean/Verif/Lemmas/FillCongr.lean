import Verif.Props.RefSlow

/-!
# What a manager does only depends on the volumes of clouds with at least the electrons that are there
-/

set_option linter.unusedSectionVars false
set_option linter.unusedVariables false

namespace Arctic

section ic
variable {s : ℕ} {f g : ℝ → ℝ} {n : ℝ}

theorem icCapture_congr (ops : ICOps ℝ s) (h : f n = g n) (wm : WM ℝ s) : icCapture ops f n wm = icCapture ops g n wm := by
  unfold icCapture
  rw [h]

theorem icStep_congr (ops : ICOps ℝ s) (h : ∀ z, n ≤ z → f z = g z) (wm : WM ℝ s) (hr : 0 ≤ (icRelease ops wm).1) :
    icStep ops f n wm = icStep ops g n wm := by
  unfold icStep
  simp only
  rw [icCapture_congr ops (h _ (by linarith)) (icRelease ops wm).2]

theorem MgrRef.congr_fill {M k : ℕ} {m : Mgr ℝ} {t : Ref.Traps} (h : MgrRef (0 < ·) M k m t) (hk : k < M)
    (hfg : ∀ z, n ≤ z → f z = g z) {x : ℝ} (hx : 0 < x) : m.step n x f = m.step n x g := by
  obtain ⟨s, dens, p, wm, o, rfl, rfl, hd, hpr, ⟨act, z, rfl, hp, hv, hF, hlen, hz⟩, ho⟩ := h
  obtain ⟨z, rfl⟩ : ∃ q, z = q + 2 := ⟨z - 2, by omega⟩
  rw [step_instant, step_instant]
  rw [icStep_congr _ hfg]
  rw [icRelease_eq _ _ _ hp.ne]
  have e : ∀ l : WM ℝ s, (instantOps dens (p x)).trapped (l ++ Z (z + 1 + 1)) = electrons dens l := fun l => by
    simp only [instantOps, electrons_eq_cy, electrons_append_Z]
  simp only [e, sub_nonneg]
  exact electrons_map_le dens hd (fun r j => r.fill j * p x j) act (fun r hr => (hp r hr).le)
    fun r hr _ j => mul_le_of_le_one_right (hF r hr j).1 (hpr x hx j).2.le

theorem ClkRef.congr_fill {D : ℝ} {M k : ℕ} {m : Mgr ℝ} {t : Ref.Clocks} (h : ClkRef M k m t) (hm : m.Mild D) (hk : k < M)
    (hfg : ∀ z, n ≤ z → f z = g z) {x : ℝ} (hx : 0 < x) : m.step n x f = m.step n x g := by
  obtain ⟨s, dens, law, wm, age, rfl, rfl, hd, h0, hl, hst, ha⟩ := h
  rw [step_track, step_track]
  rw [icStep_congr _ hfg]
  have key := asFractionsAfter_le dens law x hd hm.1.2.2 hx.le _ _ wm hst
  obtain ⟨act, z, rfl, hp, hv, hT, hlen, hz⟩ := hst
  obtain ⟨z, rfl⟩ : ∃ q, z = q + 2 := ⟨z - 2, by omega⟩
  rw [icRelease_eq _ _ _ hp.ne]
  have lawT := trackTimeLaw dens law x hd (fun j => by rw [h0]; exact zero_le_one)
  have hp1 : Pos (act.map (mapRow (trackTimeOps dens law x).release)) := pos_of_vols (vols_mapRow _ act).symm hp
  rw [lawT.trapped act (z + 1) hp, lawT.trapped _ (z + 1) hp1, wsum_tDens, wsum_tDens]
  unfold asFractions asFractionsAfter at key
  rw [List.map_append, List.map_append, electrons_append_zero _ _ _ (map_Z_vol law _),
    electrons_append_zero _ _ _ (map_Z_vol (fun j y => law j (y + x)) _)] at key
  rw [sub_nonneg]
  rw [List.map_map]
  exact key

end ic

section slow
variable {s : ℕ} {f g : ℝ → ℝ} {n : ℝ}

theorem slowCloudBelow_congr (dens : Fin s → ℝ) (hd : ∀ j, 0 ≤ dens j) (p : Fin s → ℝ) (hp : ∀ j, 0 ≤ p j ∧ p j ≤ 1)
    (hfg : ∀ z, n ≤ z → f z = g z) (c : ℝ) (hc : 0 ≤ c) (act : WM ℝ s) (z : ℕ) (hpos : Pos act) (hF : ∀ r ∈ act, Frac r.fill)
    (hle : c ≤ volSum act) :
    slowCloudBelow dens f n c (act ++ Z (z + 3)) ((cutLen c act : ℤ) - 1) (act.length - 1) p (wsum (eDens dens) act)
        (act ++ Z (z + 3)) =
      slowCloudBelow dens g n c (act ++ Z (z + 3)) ((cutLen c act : ℤ) - 1) (act.length - 1) p (wsum (eDens dens) act)
        (act ++ Z (z + 3)) := by
  have ht : ∀ (l : WM ℝ s) (z : ℕ), cyNTrapped (l ++ Z z) dens = wsum (eDens dens) l := by
    intro l z; rw [cyNTrapped_eq, wsum_append, wsum_Z, add_zero]
  obtain ⟨z1, hz1, hz1', hcl, hidx, hsp⟩ := splitStage c act act (z + 2) hpos rfl hc hle
  have hw := wsum_mono dens hd p hp c act hpos hF
  unfold slowCloudBelow
  rw [show z + 3 = z + 2 + 1 by rfl]
  simp only [hsp, bind_ok]
  rw [mapFills_aboveC _ _ _ _ _ _ (by omega) (by omega), ht, hfg _ (by linarith)]

theorem slowStep_congr (dens : Fin s → ℝ) (hd : ∀ j, 0 ≤ dens j) (p : Probs ℝ s) (hpr : ProbsOk p)
    (hf : FillModel f) (hfg : ∀ z, n ≤ z → f z = g z) (hn : 0 < n) (act : WM ℝ s) (z : ℕ) (hp : Pos act)
    (hF : ∀ r ∈ act, Frac r.fill) : slowStep dens p f n (act ++ Z (z + 3)) = slowStep dens p g n (act ++ Z (z + 3)) := by
  have hmx := maxWatermarkIndex_eq act (z + 2) hp.ne
  have ht : ∀ (l : WM ℝ s) (z : ℕ), cyNTrapped (l ++ Z z) dens = wsum (eDens dens) l := by
    intro l z; rw [cyNTrapped_eq, wsum_append, wsum_Z, add_zero]
  unfold slowStep
  rw [← hfg n le_rfl]
  simp only [hmx, ht]
  by_cases h1 : (act.length : ℤ) - 1 = -1 ∧ n > 0
  · rw [if_pos h1, if_pos h1]
  rw [if_neg h1, if_neg h1]
  rcases le_or_gt (f n) (volSum act) with hle | hgt
  · obtain ⟨z1, hz1, hz1', hcl, hidx, hsp⟩ := splitStage (f n) act act (z + 2) hp rfl (hf.nonneg n) hle
    have hb := slowCloudBelow_congr dens hd p.fromRelease hpr.release hfg (f n) (hf.nonneg n) act z hp hF hle
    rw [show z + 3 = z + 2 + 1 by rfl] at hb ⊢
    rw [hidx, if_pos (Or.inl (by omega)), if_pos (Or.inl (by omega)), hb]
  · have hc : 0 < f n := lt_of_le_of_lt hp.sum_nonneg hgt
    have hla : 0 < act.length := by
      rcases Nat.eq_zero_or_pos act.length with h | h
      · exact absurd ⟨by rw [h]; rfl, hn⟩ h1
      · exact h
    obtain ⟨hidx, hlen, hhi, hhi', htp⟩ := newTop_cut (f n) act act (z + 2) hp rfl hc hgt
    rw [show z + 3 = z + 2 + 1 by rfl, hidx, if_neg (by omega), if_neg (by omega)]

theorem SlowRef.congr_fill {D : ℝ} {M k : ℕ} {m : Mgr ℝ} {t : Ref.Slow} (h : SlowRef D M k m t) (hk : k < M)
    (hf : FillModel f) (hfg : ∀ z, n ≤ z → f z = g z) (hn : 0 < n) {x : ℝ} (hx : 0 < x) : m.step n x f = m.step n x g := by
  obtain ⟨s, dens, pr, tk, hl, kp, wm, o, rfl, hprx, rfl, hok, hD, ⟨act, z, rfl, hp, hv, hF, hlen, hz⟩, ho⟩ := h
  obtain ⟨z, rfl⟩ : ∃ q, z = q + 2 := ⟨z - 2, by omega⟩
  have hpr : ProbsOk (⟨tk x, hl x, kp x⟩ : Probs ℝ s) :=
    ⟨fun j => (hok.fractions x hx j).1, fun j => (hok.fractions x hx j).2.1, fun j => (hok.fractions x hx j).2.2⟩
  have hd := hok.dens
  simp only at hd
  rw [step_slow, step_slow, hprx x hx]
  rw [slowStep_congr dens hd _ hpr hf hfg hn act z hp hF]

end slow

theorem EveryRef.congr_fill {D : ℝ} {M k : ℕ} {m : Mgr ℝ} {t : Ref.EveryTraps} {f g : ℝ → ℝ} {n x : ℝ}
    (h : EveryRef D False M k m t) (hk : k < M) (hf : FillModel f) (hfg : ∀ z, n ≤ z → f z = g z) (hn : 0 < n) (hx : 0 < x) :
    m.step n x f = m.step n x g := by
  rcases t with (t | t) | t
  · exact MgrRef.congr_fill h hk hfg hx
  · exact ClkRef.congr_fill h.2 (h.1.elim False.elim id) hk hfg hx
  · exact SlowRef.congr_fill h hk hf hfg hn hx

theorem groupsStep_congr_fill {D : ℝ} {M k : ℕ} {ms : List (Mgr ℝ)} {ts : List Ref.EveryTraps} {f g : ℝ → ℝ} {n x : ℝ}
    (h : List.Forall₂ (EveryRef D False M k) ms ts) (hk : k < M) (hf : FillModel f) (hfg : ∀ z, n ≤ z → f z = g z)
    (hn : 0 < n) (hx : 0 < x) : groupsStep n x f ms = groupsStep n x g ms := by
  induction h with
  | nil => rfl
  | cons hm _ ih =>
    unfold groupsStep
    rw [hm.congr_fill hk hf hfg hn hx, ih]

end Arctic
