import Verif.Lemmas.TrackTime
import Verif.Lemmas.Conserve

/-!
# Histories of `TrapManagerTrackTime` and comparison with instant capture
-/

set_option linter.unusedSectionVars false
set_option linter.unusedVariables false

namespace Arctic

variable {K : Type} [Field K] [LinearOrder K] [IsStrictOrderedRing K] {s : ℕ}

/-! ### unused rows do not matter -/

theorem electrons_append_zero (dens : Fin s → K) (act rest : WM K s) (h : ∀ r ∈ rest, r.vol = 0) :
    electrons dens (act ++ rest) = electrons dens act := by
  rw [electrons_eq, wsum_append, wsum_zero_vol _ _ h, add_zero]; rfl

theorem occ_zero_rows (rest : WM K s) (h : ∀ r ∈ rest, r.vol = 0) (d : K) (hd : 0 < d) (j : Fin s) :
    occ rest d j = 0 := by
  induction rest with
  | nil => rfl
  | cons r l ih =>
    rw [occ_cons, h r (by simp), if_neg (not_le.2 hd), sub_zero]
    exact ih fun q hq => h q (by simp [hq])

theorem occ_append_zero (act rest : WM K s) (h : ∀ r ∈ rest, r.vol = 0) (d : K) (hd : 0 < d) (j : Fin s) :
    occ (act ++ rest) d j = occ act d j := by
  induction act generalizing d with
  | nil => exact occ_zero_rows rest h d hd j
  | cons r l ih =>
    rw [List.cons_append, occ_cons, occ_cons]
    split
    · rfl
    · exact ih _ (by rename_i h; exact sub_pos.2 (not_le.1 h))

theorem vacant_append_zero (dens : Fin s → K) (act rest : WM K s) (h : ∀ r ∈ rest, r.vol = 0) (c : K)
    (hc : 0 ≤ c) : vacant dens c (act ++ rest) = vacant dens c act := by
  induction act generalizing c with
  | nil =>
    rw [List.nil_append]
    induction rest with
    | nil => rfl
    | cons r l ih =>
      have hr : r.vol = 0 := h r (by simp)
      have ih := ih fun q hq => h q (by simp [hq])
      change (if c ≤ r.vol then _ else _ + vacant dens (c - r.vol) l) = _
      rw [hr]
      split
      · rename_i h0
        rw [le_antisymm h0 hc]; simp [vacant]
      · rw [sub_zero, ih, zero_mul, zero_add]
  | cons r l ih =>
    change (if c ≤ r.vol then _ else _ + vacant dens (c - r.vol) (l ++ rest)) =
      (if c ≤ r.vol then _ else _ + vacant dens (c - r.vol) l)
    split
    · rfl
    · rw [ih _ (by rename_i h; exact (sub_pos.2 (not_le.1 h)).le)]

/-! ### quantities determined by the occupancy -/

theorem electrons_congr (dens : Fin s → K) (l l' : WM K s) (hp : Pos l) (hp' : Pos l')
    (h : ∀ d, 0 < d → ∀ j, occ l d j = occ l' d j) : electrons dens l = electrons dens l' :=
  wsum_congr (eDens dens) (eDens_zero dens) _ l l' le_rfl hp hp' h

theorem vacant_congr (dens : Fin s → K) (c : K) (hc : 0 ≤ c) (l l' : WM K s) (hp : Pos l) (hp' : Pos l')
    (h : ∀ d, 0 < d → ∀ j, occ l d j = occ l' d j) : vacant dens c l = vacant dens c l' := by
  rcases lt_or_eq_of_le hc with h0 | h0
  · have e := fun l => wsum_fill_cut dens c l h0
    have hpc : ∀ l : WM K s, Pos l → Pos ((cutAt c l).1.map (fillRow 1) ++ (cutAt c l).2) := by
      intro l hl
      refine pos_of_vols ?_ (cutAt_pos c l h0 hl)
      rw [vols_append, vols_append, vols_mapRow]
    have h1 : wsum (eDens dens) ((cutAt c l).1.map (fillRow 1) ++ (cutAt c l).2) =
        wsum (eDens dens) ((cutAt c l').1.map (fillRow 1) ++ (cutAt c l').2) := by
      refine electrons_congr dens _ _ (hpc l hp) (hpc l' hp') ?_
      intro d hd j
      rw [occ_cut_map _ c l hp h0 d hd j, occ_cut_map _ c l' hp' h0 d hd j, h d hd j]
    have h2 : wsum (eDens dens) l = wsum (eDens dens) l' := electrons_congr dens l l' hp hp' h
    rw [e l, e l', h2] at h1
    exact add_left_cancel h1
  · rw [← h0, vacant_zero dens l hp, vacant_zero dens l' hp']

/-! ### states -/

/-- Rows in use, then unused rows. -/
theorem InstState.core {L k : ℕ} {wm : WM K s} (h : InstState L k wm) :
    ∃ act rest, wm = act ++ rest ∧ Pos act ∧ (∀ r ∈ rest, r.vol = 0) := by
  obtain ⟨hl, ⟨act, z, rfl, hp, -⟩ | ⟨-, z, rfl⟩⟩ := h
  · exact ⟨act, Z z, rfl, hp, fun r hr => by rw [List.eq_of_mem_replicate hr]; rfl⟩
  · refine ⟨[], _, rfl, by simp [Pos], ?_⟩
    intro r hr
    rw [List.mem_cons] at hr
    rcases hr with rfl | hr
    · rfl
    · rw [List.eq_of_mem_replicate hr]; rfl

/-- States of an elapsed-time manager. -/
def TrackState (L k : ℕ) (wm : WM K s) : Prop :=
  ∃ act z, wm = act ++ Z z ∧ Pos act ∧ volSum act ≤ 1 ∧ (∀ r ∈ act, Times r.fill) ∧ act.length ≤ k ∧
    act.length + z = L

theorem trackState_zero (L : ℕ) : TrackState L 0 (Z L : WM K s) :=
  ⟨[], L, rfl, fun _ h => by simp at h, by simp [volSum], fun _ h => by simp at h, le_rfl, by simp⟩

theorem map_Z_vol (g : Fin s → K → K) (z : ℕ) :
    ∀ r ∈ (Z z : WM K s).map (fun r => (⟨r.vol, fun j => g j (r.fill j)⟩ : Row K s)), r.vol = 0 := by
  intro r hr
  rw [List.mem_map] at hr
  obtain ⟨q, hq, rfl⟩ := hr
  rw [List.eq_of_mem_replicate hq]; rfl

theorem toFillFractions_electrons (dens : Fin s → K) (conv : Fin s → K → K) (L k : ℕ) (wm : WM K s)
    (h : TrackState L k wm) (hk : k < L) :
    cyNTrapped (toFillFractions conv wm) dens = electrons dens (asFractions conv wm) := by
  obtain ⟨act, z, rfl, hp, hv, hT, hlen, hl⟩ := h
  obtain ⟨z, rfl⟩ : ∃ q, z = q + 1 := ⟨z - 1, by omega⟩
  rw [toFillFractions_eq conv act z hp.ne, electrons_eq_cy]
  unfold asFractions
  rw [List.map_append, electrons_append_zero _ _ _ (map_Z_vol conv _), electrons_append_Z]
  rfl

/-- One transfer. -/
theorem track_step (dens : Fin s → K) (conv : Fin s → K → K) (dwell : K) (f : K → K) (hf : FillModel f)
    (hd : ∀ j, 0 ≤ dens j) (hc0 : ∀ j, conv j 0 = 1) (hc : ∀ j x, 0 ≤ x → 0 ≤ conv j x ∧ conv j x ≤ 1)
    (hdw : 0 ≤ dwell) (n : K) (L k : ℕ) (wm : WM K s) (hst : TrackState L k wm) (hk : k + 2 ≤ L) :
    let F := asFractions conv wm
    let F1 := asFractionsAfter conv dwell wm
    let a := n + (electrons dens F - electrons dens F1)
    (¬ Shortage dens conv dwell f n wm → ∃ wm',
      icStep (trackTimeOps dens conv dwell) f n wm =
        .ok (electrons dens F - electrons dens F1 - vacant dens (f a) F1, wm') ∧
      TrackState L (k + 1) wm' ∧
      electrons dens (asFractions conv wm') = electrons dens F1 + vacant dens (f a) F1 ∧
      (∀ d, 0 < d → ∀ j, occ (asFractions conv wm') d j = if d ≤ f a then 1 else occ F1 d j) ∧
      (∀ (g : Fin s → K → K) d, 0 < d → ∀ j, occ (asFractions g wm') d j =
        if d ≤ f a then g j 0 else occ (asFractionsAfter g dwell wm) d j)) ∧
    (Shortage dens conv dwell f n wm →
      icStep (trackTimeOps dens conv dwell) f n wm = .error .typeError) := by
  obtain ⟨act, z, rfl, hp, hv, hT, hlen, hl⟩ := hst
  obtain ⟨z, rfl⟩ : ∃ q, z = q + 2 := ⟨z - 2, by omega⟩
  have key := trackStep dens conv dwell f hf hd hc0 hc hdw n act z hp hv hT
  have eF : ∀ (act : WM K s) z, electrons dens (asFractions conv (act ++ Z z)) = electrons dens (act.map (mapRow conv)) := by
    intro act z
    unfold asFractions
    rw [List.map_append, electrons_append_zero _ _ _ (map_Z_vol conv _)]; rfl
  have oF : ∀ (act : WM K s) z d, 0 < d → ∀ j, occ (asFractions conv (act ++ Z z)) d j = occ (act.map (mapRow conv)) d j := by
    intro act z d hd0 j
    unfold asFractions
    rw [List.map_append, occ_append_zero _ _ (map_Z_vol conv _) d hd0]; rfl
  have eF1 : electrons dens (asFractionsAfter conv dwell (act ++ Z (z + 2))) =
      electrons dens (act.map (mapRow fun j x => conv j (x + dwell))) := by
    unfold asFractionsAfter
    rw [List.map_append, electrons_append_zero _ _ _ (map_Z_vol (fun j x => conv j (x + dwell)) _)]; rfl
  have oF1 : ∀ d, 0 < d → ∀ j, occ (asFractionsAfter conv dwell (act ++ Z (z + 2))) d j =
      occ (act.map (mapRow fun j x => conv j (x + dwell))) d j := by
    intro d hd0 j
    unfold asFractionsAfter
    rw [List.map_append, occ_append_zero _ _ (map_Z_vol (fun j x => conv j (x + dwell)) _) d hd0]; rfl
  have vF1 : ∀ c, 0 ≤ c → vacant dens c (asFractionsAfter conv dwell (act ++ Z (z + 2))) =
      vacant dens c (act.map (mapRow fun j x => conv j (x + dwell))) := by
    intro c hc0
    unfold asFractionsAfter
    rw [List.map_append, vacant_append_zero _ _ _ (map_Z_vol (fun j x => conv j (x + dwell)) _) c hc0]; rfl
  simp only [Shortage, eF, eF1, vF1 _ (hf.nonneg _)]
  simp only at key
  refine ⟨fun hs => ?_, key.2⟩
  obtain ⟨act2, z2, g1, g2, g3, g4, g5, g6, g7, g8, g9⟩ := key.1 (not_lt.1 hs)
  refine ⟨_, g1, ⟨act2, z2 + 1, rfl, g4, g5, g6, by omega, by omega⟩, by rw [eF]; exact g7, ?_, ?_⟩
  · intro d hd0 j
    rw [oF _ _ d hd0, g8 d hd0 j, oF1 d hd0 j]
  · intro g d hd0 j
    unfold asFractions asFractionsAfter
    rw [List.map_append, occ_append_zero _ _ (map_Z_vol g _) d hd0, List.map_append,
      occ_append_zero _ _ (map_Z_vol (fun j x => g j (x + dwell)) _) d hd0]
    exact g9 g d hd0 j

/-- Any history within budget: either it completes, or it stops with `TypeError`. -/
theorem track_run (dens : Fin s → K) (conv : Fin s → K → K) (f : K → K) (hf : FillModel f)
    (hd : ∀ j, 0 ≤ dens j) (hc0 : ∀ j, conv j 0 = 1) (hc : ∀ j x, 0 ≤ x → 0 ≤ conv j x ∧ conv j x ≤ 1)
    (L : ℕ) (h : List (K × K)) (hdw : ∀ e ∈ h, 0 ≤ e.2) :
    ∀ (k : ℕ) (wm : WM K s), TrackState L k wm → k + h.length + 1 ≤ L →
    Mgr.run f ⟨s, dens, .trackTime conv, wm⟩ h = .error .typeError ∨
    ∃ nets wm', Mgr.run f ⟨s, dens, .trackTime conv, wm⟩ h = .ok (nets, ⟨s, dens, .trackTime conv, wm'⟩) ∧
      nets.length = h.length ∧ TrackState L (k + h.length) wm' ∧
      nets.sum = electrons dens (asFractions conv wm) - electrons dens (asFractions conv wm') := by
  induction h with
  | nil =>
    intro k wm hst hk
    exact Or.inr ⟨[], wm, rfl, rfl, hst, by simp⟩
  | cons e h ih =>
    obtain ⟨n, t⟩ := e
    intro k wm hst hk
    rw [List.length_cons] at hk
    have key := track_step dens conv t f hf hd hc0 hc (hdw (n, t) (by simp)) n L k wm hst (by omega)
    simp only at key
    by_cases hs : Shortage dens conv t f n wm
    · left
      simp only [Mgr.run, Mgr.step, key.2 hs]
      rfl
    · obtain ⟨wm1, h1, h2, h3, h4⟩ := key.1 hs
      rcases ih (fun e he => hdw e (by simp [he])) (k + 1) wm1 h2 (by omega) with g | ⟨nets, wm2, g1, gl, g2, g3⟩
      · left
        simp only [Mgr.run, Mgr.step, h1, bind_ok, g]
        rfl
      · right
        generalize hnet : electrons dens (asFractions conv wm) - _ - _ = net at h1
        refine ⟨net :: nets, wm2, ?_, by simp [gl], ?_, ?_⟩
        · simp only [Mgr.run, Mgr.step, h1, bind_ok, g1]
        · rw [List.length_cons, show k + (h.length + 1) = k + 1 + h.length by omega]; exact g2
        · rw [List.sum_cons, g3, h3, ← hnet]; ring

/-! ### comparison with instant capture -/

/-- One transfer of both managers from states with the same occupancy. -/
theorem track_instant_step (dens : Fin s → K) (conv : Fin s → K → K) (p : Fin s → K) (dwell : K) (f : K → K)
    (hf : FillModel f) (hd : ∀ j, 0 ≤ dens j) (hc0 : ∀ j, conv j 0 = 1)
    (hc : ∀ j x, 0 ≤ x → 0 ≤ conv j x ∧ conv j x ≤ 1) (hdw : 0 ≤ dwell)
    (hcp : ∀ j x, 0 ≤ x → conv j (x + dwell) = conv j x * p j)
    (n : K) (L k L' k' : ℕ) (wmT wmF : WM K s) (hT : TrackState L k wmT) (hF : InstState L' k' wmF)
    (hk : k + 2 ≤ L) (hk' : k' + 2 ≤ L')
    (hocc : ∀ d, 0 < d → ∀ j, occ (asFractions conv wmT) d j = occ wmF d j) :
    (Shortage dens conv dwell f n wmT ↔
      max 0 (available dens p n wmF) < vacant dens (f (available dens p n wmF)) (released p wmF)) ∧
    (¬ Shortage dens conv dwell f n wmT → ∃ net wmT' wmF',
      icStep (trackTimeOps dens conv dwell) f n wmT = .ok (net, wmT') ∧
      icStep (instantOps dens p) f n wmF = .ok (net, wmF') ∧
      TrackState L (k + 1) wmT' ∧ InstState L' (k' + 1) wmF' ∧
      ∀ d, 0 < d → ∀ j, occ (asFractions conv wmT') d j = occ wmF' d j) := by
  have hpr : ∀ j, 0 ≤ p j ∧ p j ≤ 1 := by
    intro j
    have h1 := hcp j 0 le_rfl
    rw [hc0, one_mul, zero_add] at h1
    rw [← h1]; exact hc j dwell hdw
  have keyT := track_step dens conv dwell f hf hd hc0 hc hdw n L k wmT hT hk
  obtain ⟨netF, wmF', i1, i2, i3, i4, -, -⟩ := instant_step dens p f hf hd hpr n L' k' wmF hF hk'
  simp only at keyT
  -- electrons, released electrons and vacancies agree
  have hTT := hT
  obtain ⟨actT, z, rfl, hpT, hvT, htT, -, -⟩ := hTT
  have hFF := hF
  obtain ⟨actF, rest, rfl, hpF, hrest⟩ := hFF.core
  set F := actT.map (mapRow conv) with hFdef
  have hpFT : Pos F := pos_of_vols (vols_mapRow conv actT).symm hpT
  have hrelF : released p F = actT.map (mapRow fun j x => conv j (x + dwell)) := by
    rw [hFdef]; unfold released
    rw [List.map_map]
    apply List.map_congr_left
    intro r hr
    change (⟨r.vol, _⟩ : Row K s) = ⟨r.vol, _⟩
    congr 1
    funext j
    exact (hcp j _ (htT r hr j)).symm
  have hocc0 : ∀ d, 0 < d → ∀ j, occ F d j = occ actF d j := by
    intro d hd0 j
    have := hocc d hd0 j
    rw [occ_append_zero _ _ hrest d hd0] at this
    rw [← this]
    unfold asFractions
    rw [List.map_append, occ_append_zero _ _ (map_Z_vol conv _) d hd0]; rfl
  have hpos1 : ∀ l : WM K s, Pos l → Pos (released p l) := fun l hl =>
    pos_of_vols (vols_mapRow (fun j x => x * p j) l).symm hl
  have hocc1 : ∀ d, 0 < d → ∀ j, occ (released p F) d j = occ (released p actF) d j := by
    intro d hd0 j
    have h1 : ∀ l : WM K s, occ (released p l) d j = occ l d j * p j := fun l =>
      occ_map_all (fun j x => x * p j) (by simp) l d j
    rw [h1, h1, hocc0 d hd0 j]
  have hrr : ∀ r ∈ released p rest, r.vol = 0 := by
    intro r hr
    unfold released at hr
    rw [List.mem_map] at hr
    obtain ⟨q, hq, rfl⟩ := hr
    exact hrest q hq
  have hrapp : released p (actF ++ rest) = released p actF ++ released p rest := List.map_append
  have e1 : electrons dens (asFractions conv (actT ++ Z z)) = electrons dens (actF ++ rest) := by
    rw [electrons_append_zero _ _ _ hrest]
    unfold asFractions
    rw [List.map_append, electrons_append_zero _ _ _ (map_Z_vol conv _)]
    exact electrons_congr dens _ _ hpFT hpF hocc0
  have e2 : electrons dens (asFractionsAfter conv dwell (actT ++ Z z)) =
      electrons dens (released p (actF ++ rest)) := by
    rw [hrapp, electrons_append_zero _ _ _ hrr]
    unfold asFractionsAfter
    rw [List.map_append, electrons_append_zero _ _ _ (map_Z_vol (fun j x => conv j (x + dwell)) _)]
    have := electrons_congr dens _ _ (hpos1 _ hpFT) (hpos1 _ hpF) hocc1
    rw [hrelF] at this
    exact this
  have e3 : ∀ c, 0 ≤ c → vacant dens c (asFractionsAfter conv dwell (actT ++ Z z)) =
      vacant dens c (released p (actF ++ rest)) := by
    intro c hcc
    rw [hrapp, vacant_append_zero _ _ _ hrr c hcc]
    unfold asFractionsAfter
    rw [List.map_append, vacant_append_zero _ _ _ (map_Z_vol (fun j x => conv j (x + dwell)) _) c hcc]
    have := vacant_congr dens c hcc _ _ (hpos1 _ hpFT) (hpos1 _ hpF) hocc1
    rw [hrelF] at this
    exact this
  have hav : n + (electrons dens (asFractions conv (actT ++ Z z)) -
      electrons dens (asFractionsAfter conv dwell (actT ++ Z z))) = available dens p n (actF ++ rest) := by
    rw [e1, e2]; rfl
  rw [hav, e1, e2, e3 _ (hf.nonneg _)] at keyT
  have hsh : Shortage dens conv dwell f n (actT ++ Z z) ↔
      max 0 (available dens p n (actF ++ rest)) <
        vacant dens (f (available dens p n (actF ++ rest))) (released p (actF ++ rest)) := by
    simp only [Shortage, hav, e3 _ (hf.nonneg _)]
  refine ⟨hsh, fun hs => ?_⟩
  obtain ⟨wmT', t1, t2, t3, t4, -⟩ := keyT.1 hs
  have hne : vacant dens (f (available dens p n (actF ++ rest))) (released p (actF ++ rest)) ≤
      max 0 (available dens p n (actF ++ rest)) := by
    rw [hsh] at hs; exact not_lt.1 hs
  have hprof := i4 hne
  have hocc' : ∀ d, 0 < d → ∀ j, occ (asFractions conv wmT') d j = occ wmF' d j := by
    intro d hd0 j
    rw [t4 d hd0 j, hprof d hd0 j]
    split
    · rfl
    · rw [occ_append_zero _ _ hrest d hd0, ← hocc0 d hd0 j]
      unfold asFractionsAfter
      rw [List.map_append, occ_append_zero _ _ (map_Z_vol (fun j x => conv j (x + dwell)) _) d hd0]
      have : occ (released p F) d j = occ F d j * p j := occ_map_all (fun j x => x * p j) (by simp) F d j
      rw [← this, hrelF]; rfl
  have hel : electrons dens (asFractions conv wmT') = electrons dens wmF' := by
    obtain ⟨a2, z2, rfl, p2, -⟩ := t2
    obtain ⟨b2, r2, rfl, q2, hr2⟩ := i2.core
    have hv2 : ∀ r ∈ (Z z2 : WM K s).map fun r => (⟨r.vol, fun j => conv j (r.fill j)⟩ : Row K s), r.vol = 0 :=
      map_Z_vol conv _
    unfold asFractions at hocc' ⊢
    rw [List.map_append, electrons_append_zero _ _ _ hv2, electrons_append_zero _ _ _ hr2]
    refine electrons_congr dens _ _ (pos_of_vols (vols_mapRow conv a2).symm p2) q2 ?_
    intro d hd0 j
    have := hocc' d hd0 j
    rwa [List.map_append, occ_append_zero _ _ hv2 d hd0, occ_append_zero _ _ hr2 d hd0] at this
  refine ⟨netF, wmT', wmF', ?_, i1, t2, i2, hocc'⟩
  rw [t1]
  congr 2
  rw [i3, ← hel, t3]; ring

end Arctic
