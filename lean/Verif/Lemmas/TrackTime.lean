import Verif.Lemmas.InstantRun

/-!
# One transfer of `TrapManagerTrackTime` in closed form
-/

set_option linter.unusedSectionVars false
set_option linter.unusedVariables false

namespace Arctic

variable {K : Type} [Field K] [LinearOrder K] [IsStrictOrderedRing K] {s : ℕ}

theorem mergeTop_map (g : Fin s → K → K) (k : ℕ) (x : Fin s → K) (act : WM K s) :
    (mergeTop k x act).map (mapRow g) = mergeTop k (fun j => g j (x j)) (act.map (mapRow g)) := by
  unfold mergeTop
  split
  · rfl
  · rw [List.map_cons, ← List.map_take, ← List.map_drop, volSum_eq_of_vols (vols_mapRow g _)]
    rfl

theorem cut_map_fill (g : Fin s → K → K) (c : K) (act : WM K s) :
    ((cutAt c act).1.map (fillRow 0)).map (mapRow g) =
      (cutAt c (act.map (mapRow g))).1.map (mapRow fun j _ => g j 0) ∧
    (cutAt c act).2.map (mapRow g) = (cutAt c (act.map (mapRow g))).2 := by
  induction act generalizing c with
  | nil => exact ⟨rfl, rfl⟩
  | cons r rs ih =>
    rw [List.map_cons]
    unfold cutAt
    have hv : (mapRow g r).vol = r.vol := rfl
    rw [hv]
    split
    · exact ⟨rfl, rfl⟩
    · split
      · exact ⟨rfl, rfl⟩
      · obtain ⟨h1, h2⟩ := ih (c - r.vol)
        refine ⟨?_, h2⟩
        simp only [List.map_cons]
        rw [h1]; rfl

theorem wsum_tDens (dens : Fin s → K) (conv : Fin s → K → K) (l : WM K s) :
    wsum (tDens dens conv) l = electrons dens (l.map (mapRow conv)) := by
  rw [electrons_eq, wsum_map]; rfl

/-- Elapsed times are times. -/
def Times (x : Fin s → K) : Prop := ∀ j, 0 ≤ x j

theorem trackFinish (dens : Fin s → K) (conv : Fin s → K → K) (dwell n n0 : K) (A B : WM K s) (z : ℕ)
    (hp : Pos A) (hv : vols A = vols B) (hA : ∀ r ∈ A, Times r.fill) (hn : 0 < n)
    (hge : n0 ≤ wsum (tDens dens conv) A) :
    (wsum (tDens dens conv) A - n0 ≤ n → ∃ act2 z2,
      finishCapture 0 (trackTimeOps dens conv dwell).trapped (trackTimeOps dens conv dwell).tweak n n0
        (A ++ Z (z + 1)) (B ++ Z (z + 1)) = .ok (wsum (tDens dens conv) A - n0, act2 ++ Z (z2 + 1)) ∧
      act2.length + z2 = A.length + z ∧ act2.length ≤ A.length ∧ Pos act2 ∧ volSum act2 = volSum A ∧
      (∀ r ∈ act2, Times r.fill) ∧
      (∀ (g : Fin s → K → K) d, 0 < d → ∀ j, occ (act2.map (mapRow g)) d j = occ (A.map (mapRow g)) d j)) ∧
    (n < wsum (tDens dens conv) A - n0 →
      finishCapture 0 (trackTimeOps dens conv dwell).trapped (trackTimeOps dens conv dwell).tweak n n0
        (A ++ Z (z + 1)) (B ++ Z (z + 1)) = .error .typeError) := by
  have ht : ∀ (l : WM K s) (z : ℕ), Pos l →
      (trackTimeOps dens conv dwell).trapped (l ++ Z (z + 1)) = wsum (tDens dens conv) l := by
    intro act z hp
    change cyNTrapped (toFillFractions _ _) _ = _
    rw [toFillFractions_eq conv act z hp.ne, cyNTrapped_eq, wsum_append, wsum_Z, add_zero, wsum_map]
    rfl
  have hzero : Times (fun _ : Fin s => (0 : K)) := fun j => le_rfl
  have mocc : ∀ k (l : WM K s), Pos l → (∀ r ∈ l.take k, r.fill = fun _ => (0 : K)) →
      ∀ (g : Fin s → K → K) d, 0 < d → ∀ j,
      occ ((mergeTop k (fun _ => 0) l).map (mapRow g)) d j = occ (l.map (mapRow g)) d j := by
    intro k l hpl hfl g d hd j
    rw [mergeTop_map]
    apply mergeTop_occ k _ _ (pos_of_vols (vols_mapRow g l).symm hpl) _ d hd j
    intro r hr
    rw [← List.map_take, List.mem_map] at hr
    obtain ⟨r0, hr0, rfl⟩ := hr
    unfold mapRow; simp only [hfl r0 hr0]
  obtain ⟨k, hk, hf, hcc⟩ := collapseCopy_eq 0 A B z hv
  set A1 := mergeTop k (fun _ => 0) A with hA1
  have hp1 : Pos A1 := mergeTop_pos k _ A hp hk
  have hw1 : wsum (tDens dens conv) A1 = wsum (tDens dens conv) A := mergeTop_wsum _ _ _ _ hf
  have hlen1 : A1.length + (k - 1) = A.length := mergeTop_length k _ A hk
  have hF1 : ∀ r ∈ A1, Times r.fill := mergeTop_fill k _ A _ (fun _ => hzero) hA
  unfold finishCapture
  simp only [hcc, ht _ _ hp1, hw1]
  constructor
  · intro hle
    by_cases h0 : wsum (tDens dens conv) A = n0
    · rw [if_pos h0]
      exact ⟨A1, z + (k - 1), by rw [h0, sub_self], by omega, by omega, hp1, mergeTop_volSum k _ A, hF1,
        mocc k A hp hf⟩
    · rw [if_neg h0]
      have hpos : 0 < wsum (tDens dens conv) A - n0 := by
        have := lt_of_le_of_ne hge (Ne.symm h0); linarith
      rw [if_neg (by rintro ⟨-, h⟩; rw [div_lt_one hpos] at h; linarith)]
      obtain ⟨k2, hk2, hf2, hcc2⟩ := collapse_eq 0 A1 (z + (k - 1))
      have := mergeTop_length k2 (fun _ => (0 : K)) A1 hk2
      refine ⟨mergeTop k2 (fun _ => 0) A1, z + (k - 1) + (k2 - 1), by rw [hcc2], by omega, by omega,
        mergeTop_pos k2 _ A1 hp1 hk2, by rw [mergeTop_volSum, mergeTop_volSum],
        mergeTop_fill k2 _ A1 _ (fun _ => hzero) hF1, ?_⟩
      intro g d hd j
      rw [mocc k2 A1 hp1 hf2 g d hd j, mocc k A hp hf g d hd j]
  · intro hlt
    rw [if_neg (by intro h; rw [h, sub_self] at hlt; linarith),
      if_pos ⟨div_pos hn (by linarith), (div_lt_one (by linarith)).2 hlt⟩]
    rfl

/-- **One transfer with elapsed times.** -/
theorem trackStep (dens : Fin s → K) (conv : Fin s → K → K) (dwell : K) (f : K → K) (hf : FillModel f)
    (hd : ∀ j, 0 ≤ dens j) (hc0 : ∀ j, conv j 0 = 1) (hc : ∀ j x, 0 ≤ x → 0 ≤ conv j x ∧ conv j x ≤ 1)
    (hdw : 0 ≤ dwell) (n : K) (act : WM K s) (z : ℕ) (hp : Pos act) (hv : volSum act ≤ 1)
    (hT : ∀ r ∈ act, Times r.fill) :
    let F := act.map (mapRow conv)
    let F1 := act.map (mapRow fun j x => conv j (x + dwell))
    let R := electrons dens F - electrons dens F1
    (vacant dens (f (n + R)) F1 ≤ max 0 (n + R) → ∃ act2 z2,
      icStep (trackTimeOps dens conv dwell) f n (act ++ Z (z + 2)) =
        .ok (R - vacant dens (f (n + R)) F1, act2 ++ Z (z2 + 1)) ∧
      act2.length + z2 = act.length + z + 1 ∧ act2.length ≤ act.length + 1 ∧ Pos act2 ∧
      volSum act2 ≤ 1 ∧ (∀ r ∈ act2, Times r.fill) ∧
      electrons dens (act2.map (mapRow conv)) = electrons dens F1 + vacant dens (f (n + R)) F1 ∧
      (∀ d, 0 < d → ∀ j, occ (act2.map (mapRow conv)) d j =
        if d ≤ f (n + R) then 1 else occ F1 d j) ∧
      (∀ (g : Fin s → K → K) d, 0 < d → ∀ j, occ (act2.map (mapRow g)) d j =
        if d ≤ f (n + R) then g j 0 else occ (act.map (mapRow fun j x => g j (x + dwell))) d j)) ∧
    (max 0 (n + R) < vacant dens (f (n + R)) F1 →
      icStep (trackTimeOps dens conv dwell) f n (act ++ Z (z + 2)) = .error .typeError) := by
  intro F F1 R
  set act1 := act.map (mapRow fun _ x => x + dwell) with hact1
  have hF1e : F1 = act1.map (mapRow conv) := by
    change act.map _ = _
    rw [hact1, List.map_map]; rfl
  have hp1 : Pos act1 := pos_of_vols (vols_mapRow _ act).symm hp
  have hpF1 : Pos F1 := by rw [hF1e]; exact pos_of_vols (vols_mapRow _ act1).symm hp1
  have hv1 : volSum act1 = volSum act := volSum_eq_of_vols (vols_mapRow _ act)
  have hl1 : act1.length = act.length := by simp [hact1]
  have hT1 : ∀ r ∈ act1, Times r.fill := by
    intro r hr
    rw [hact1, List.mem_map] at hr
    obtain ⟨r0, hr0, rfl⟩ := hr
    intro j
    exact add_nonneg (hT r0 hr0 j) hdw
  have hFr : ∀ r ∈ F1, Frac r.fill := by
    rw [hF1e]
    intro r hr
    rw [List.mem_map] at hr
    obtain ⟨r0, hr0, rfl⟩ := hr
    exact fun j => hc j _ (hT1 r0 hr0 j)
  have law := trackTimeLaw dens conv dwell hd (fun j => by rw [hc0]; exact zero_le_one)
  have hw1 : wsum (tDens dens conv) act1 = electrons dens F1 := by rw [wsum_tDens, hF1e]
  have hw0 : wsum (tDens dens conv) act = electrons dens F := wsum_tDens dens conv act
  have hrel : icRelease (trackTimeOps dens conv dwell) (act ++ Z (z + 2)) = (R, act1 ++ Z (z + 2)) := by
    have := icRelease_eq (trackTimeOps dens conv dwell) act (z + 1) hp.ne
    rw [law.trapped act (z + 1) hp] at this
    have h2 : (trackTimeOps dens conv dwell).trapped
        (act.map (mapRow (trackTimeOps dens conv dwell).release) ++ Z (z + 1 + 1)) =
        wsum (tDens dens conv) act1 := law.trapped act1 (z + 1) hp1
    rw [h2, hw0, hw1] at this
    exact this
  have e0 : (trackTimeOps dens conv dwell).filled = 0 := rfl
  have hzero : Times (fun _ : Fin s => (0 : K)) := fun j => le_rfl
  unfold icStep
  rw [hrel]
  simp only
  rcases lt_or_eq_of_le (hf.nonneg (n + R)) with hcl | hcl
  · have hn : 0 < n + R := by
      by_contra h; exact absurd (hf.empty _ (not_lt.1 h)) hcl.ne'
    obtain ⟨z', hz', hcap⟩ := icCapture_cut _ _ law f (n + R) act1 z hp1 hn hcl
    rw [e0] at hcap
    set c := f (n + R) with hcdef
    have hpc := cutAt_pos c act1 hcl hp1
    set A := (cutAt c act1).1.map (fillRow 0) ++ (cutAt c act1).2 with hA
    set B := (cutAt c act1).1 ++ (cutAt c act1).2 with hB
    have hvAB : vols A = vols B := by rw [hA, hB, vols_append, vols_append, vols_mapRow]
    have hTB : ∀ r ∈ B, Times r.fill := cutAt_fill c act1 _ hzero hT1
    have hTA : ∀ r ∈ A, Times r.fill := by
      intro r hr
      rw [hA, List.mem_append, List.mem_map] at hr
      rcases hr with ⟨r0, -, rfl⟩ | hr
      · exact hzero
      · exact hTB r (by rw [hB, List.mem_append]; exact Or.inr hr)
    have hpA : Pos A := pos_of_vols hvAB.symm hpc
    have hAc : A.map (mapRow conv) = (cutAt c F1).1.map (fillRow 1) ++ (cutAt c F1).2 := by
      rw [hA, List.map_append, (cut_map_fill conv c act1).1, (cut_map_fill conv c act1).2, ← hF1e]
      congr 2
      funext r; unfold fillRow mapRow; simp only [hc0]
    have hwA : wsum (tDens dens conv) A = electrons dens F1 + vacant dens c F1 := by
      rw [wsum_tDens, hAc, electrons_eq, wsum_fill_cut dens c F1 hcl]; rfl
    have hvn := vacant_nonneg dens hd c hcl.le F1 hpF1 hFr
    have hvA : volSum A ≤ 1 := by
      rw [hA, volSum_append, volSum_eq_of_vols (vols_mapRow _ _), cutAt_vol,
        cutAt_hi_vol c act1 hcl hp1, hv1]
      rcases max_choice 0 (volSum act - c) with h | h <;> rw [h]
      · have := hf.le_one (n + R); linarith
      · linarith
    have hAlen : A.length ≤ act.length + 1 ∧ A.length + z' = act.length + z + 1 := by
      have := cutAt_length c act1
      have h3 : A.length = (cutAt c act1).1.length + (cutAt c act1).2.length := by simp [hA]
      omega
    have hfin := trackFinish dens conv dwell (n + R) (wsum (tDens dens conv) act1) A B z' hpA hvAB hTA hn
      (by rw [hwA, hw1]; linarith)
    rw [hcap, max_eq_right hn.le]
    constructor
    · intro hle
      obtain ⟨act2, z2, h1, h2, h3, h4, h5, h6, h7⟩ := hfin.1 (by rw [hwA, hw1]; linarith)
      refine ⟨act2, z2, ?_, by omega, by omega, h4, by rw [h5]; exact hvA, h6, ?_, ?_, ?_⟩
      · rw [h1, bind_ok, hwA, hw1]
        simp only [add_sub_cancel_left]
      · have : wsum (eDens dens) (act2.map (mapRow conv)) = wsum (eDens dens) (A.map (mapRow conv)) :=
          wsum_congr _ (eDens_zero dens) _ _ _ le_rfl (pos_of_vols (vols_mapRow _ _).symm h4)
            (pos_of_vols (vols_mapRow _ _).symm hpA) (h7 conv)
        rw [electrons_eq, this, hAc, wsum_fill_cut dens c F1 hcl]; rfl
      · intro d hd0 j
        rw [h7 conv d hd0 j, hAc, occ_cut_map _ c F1 hpF1 hcl d hd0 j]
      · intro g d hd0 j
        have e1 : act.map (mapRow fun j x => g j (x + dwell)) = act1.map (mapRow g) := by
          rw [hact1, List.map_map]; rfl
        rw [h7 g d hd0 j, hA, List.map_append, (cut_map_fill g c act1).1, (cut_map_fill g c act1).2, e1]
        exact occ_cut_map (fun j _ => g j 0) c _ (pos_of_vols (vols_mapRow _ act1).symm hp1) hcl d hd0 j
    · intro hlt
      rw [hfin.2 (by rw [hwA, hw1]; linarith)]
      rfl
  · have hvz : vacant dens (f (n + R)) F1 = 0 := by rw [← hcl]; exact vacant_zero dens F1 hpF1
    rw [hvz]
    refine ⟨fun _ => ?_, fun h => absurd h (not_lt.2 (le_max_left _ _))⟩
    by_cases hst : act1 = [] ∧ 0 < n + R
    · have hz : (Z (z + 2) : WM K s) = zeroRow K s :: Z (z + 1) := Z_succ _
      have hact : act = [] := by rw [← List.length_eq_zero_iff, ← hl1, hst.1]; rfl
      have hcap := icCapture_stale (trackTimeOps dens conv dwell) f (n + R) (z + 1) (zeroRow K s)
        rfl hst.2 hcl.symm (by
          intro r hr
          change cyNTrapped (toFillFractions _ _) _ = _
          have hmx := maxIdx_stale r (z + 1) hr
          unfold maxWatermarkIndex at hmx
          unfold toFillFractions
          rw [mapFills_none _ _ _ _ (by omega), cyNTrapped_eq, wsum_cons, hr, wsum_Z]; ring)
      rw [hst.1, List.nil_append, hz, hcap]
      simp only [bind_ok, sub_zero, add_zero]
      refine ⟨[], z + 1, ?_, by rw [hact]; simp, by simp, by simp [Pos], by simp [volSum], by simp, ?_, ?_, ?_⟩
      · rw [List.nil_append, Z_succ (z + 1)]; rfl
      · rw [hF1e, hst.1]
      · intro d hd0 j
        rw [← hcl, if_neg (not_le.2 hd0), hF1e, hst.1]
      · intro g d hd0 j
        rw [← hcl, if_neg (not_le.2 hd0), hact]
        rfl
    · obtain ⟨k, hk, hfk, hcap⟩ := icCapture_zero _ _ law f (n + R) act1
        (z + 1) hp1 hcl.symm (fun h => not_lt.1 fun h2 => hst ⟨h, h2⟩)
      rw [e0] at hcap hfk
      rw [show z + 2 = z + 1 + 1 by rfl, hcap]
      simp only [bind_ok, sub_zero, add_zero]
      have hml := mergeTop_length k (fun _ => (0 : K)) act1 hk
      refine ⟨mergeTop k (fun _ => 0) act1, z + 1 + (k - 1), rfl, by omega, by omega,
        mergeTop_pos k _ act1 hp1 hk, by rw [mergeTop_volSum, hv1]; exact hv,
        mergeTop_fill k _ act1 _ (fun _ => hzero) hT1, ?_, ?_, ?_⟩
      · rw [← wsum_tDens, mergeTop_wsum _ _ _ _ hfk, hw1]
      · intro d hd0 j
        rw [← hcl, if_neg (not_le.2 hd0), mergeTop_map, hF1e]
        apply mergeTop_occ k _ _ (pos_of_vols (vols_mapRow conv act1).symm hp1) _ d hd0 j
        intro r hr
        rw [← List.map_take, List.mem_map] at hr
        obtain ⟨r0, hr0, rfl⟩ := hr
        unfold mapRow; simp only [hfk r0 hr0]
      · intro g d hd0 j
        have e1 : act.map (mapRow fun j x => g j (x + dwell)) = act1.map (mapRow g) := by
          rw [hact1, List.map_map]; rfl
        rw [← hcl, if_neg (not_le.2 hd0), mergeTop_map, e1]
        apply mergeTop_occ k _ _ (pos_of_vols (vols_mapRow g act1).symm hp1) _ d hd0 j
        intro r hr
        rw [← List.map_take, List.mem_map] at hr
        obtain ⟨r0, hr0, rfl⟩ := hr
        unfold mapRow; simp only [hfk r0 hr0]

end Arctic
