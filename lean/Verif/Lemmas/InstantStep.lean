import Verif.Lemmas.Capture
import Verif.Spec.Transfer

/-!
# One transfer of `TrapManagerInstantCapture` in closed form
-/

set_option linter.unusedSectionVars false
set_option linter.unusedVariables false

namespace Arctic

variable {K : Type} [Field K] [LinearOrder K] [IsStrictOrderedRing K] {s : ℕ}

/-- Fill fractions are fractions. -/
def Frac (x : Fin s → K) : Prop := ∀ j, 0 ≤ x j ∧ x j ≤ 1

theorem electrons_eq (dens : Fin s → K) (wm : WM K s) : electrons dens wm = wsum (eDens dens) wm := rfl

theorem electrons_eq_cy (dens : Fin s → K) (wm : WM K s) : cyNTrapped wm dens = electrons dens wm :=
  cyNTrapped_eq wm dens

/-- Filling below the cut adds exactly the vacant traps. -/
theorem wsum_fill_cut (dens : Fin s → K) (c : K) (act : WM K s) (hc : 0 < c) :
    wsum (eDens dens) ((cutAt c act).1.map (fillRow 1) ++ (cutAt c act).2) =
      wsum (eDens dens) act + vacant dens c act := by
  induction act generalizing c with
  | nil => simp [cutAt, wsum, vacant, eDens, mapRow]
  | cons r rs ih =>
    have e1 : ∀ r : Row K s, eDens dens (mapRow (fun _ _ => (1 : K)) r).fill =
        eDens dens r.fill + ∑ j, (1 - r.fill j) * dens j := by
      intro r
      unfold eDens mapRow
      rw [← Finset.sum_add_distrib]
      apply Finset.sum_congr rfl
      intro j _; ring
    unfold cutAt vacant
    split
    · rename_i h
      rw [if_pos h.le]
      simp only [List.map_cons, List.map_nil, List.cons_append, List.nil_append, wsum_cons, e1]
      simp only [mapRow]; ring
    · split
      · rename_i h1 h2
        rw [if_pos h2.le]
        simp only [List.map_cons, List.map_nil, List.cons_append, List.nil_append, wsum_cons, e1]
        simp only [mapRow, h2]; ring
      · rename_i h1 h2
        have h3 := cutAt_sub_pos h1 h2
        rw [if_neg (by linarith)]
        simp only [List.map_cons, List.cons_append, wsum_cons, e1, ih _ h3]
        simp only [mapRow]; ring

theorem vacant_nonneg (dens : Fin s → K) (hd : ∀ j, 0 ≤ dens j) (c : K) (hc : 0 ≤ c) (act : WM K s)
    (hp : Pos act) (hf : ∀ r ∈ act, Frac r.fill) : 0 ≤ vacant dens c act := by
  induction act generalizing c with
  | nil => exact mul_nonneg hc (Finset.sum_nonneg fun j _ => hd j)
  | cons r rs ih =>
    have h1 : 0 ≤ ∑ j, (1 - r.fill j) * dens j := Finset.sum_nonneg fun j _ =>
      mul_nonneg (by linarith [(hf r (by simp) j).2]) (hd j)
    unfold vacant
    split
    · exact mul_nonneg hc h1
    · rename_i h
      have := ih (c - r.vol) (by linarith [not_le.1 h]) (fun x hx => hp x (by simp [hx]))
        (fun x hx => hf x (by simp [hx]))
      have := mul_nonneg (hp r (by simp)).le h1
      linarith

theorem mean_frac (l : WM K s) (hp : Pos l) (hne : l ≠ []) (hf : ∀ r ∈ l, Frac r.fill) :
    Frac fun j => (l.map fun r => r.vol * r.fill j).sum / volSum l := by
  have hv := hp.sum_pos hne
  intro j
  have h1 : 0 ≤ (l.map fun r => r.vol * r.fill j).sum ∧
      (l.map fun r => r.vol * r.fill j).sum ≤ volSum l := by
    clear hv hne
    induction l with
    | nil => simp [volSum]
    | cons r l ih =>
      have := ih (fun x hx => hp x (by simp [hx])) (fun x hx => hf x (by simp [hx]))
      rw [volSum_cons, List.map_cons, List.sum_cons]
      have hr := (hp r (by simp)).le
      have hfr := hf r (by simp) j
      constructor
      · have := mul_nonneg hr hfr.1; linarith
      · have := mul_le_of_le_one_right hr hfr.2; linarith
  exact ⟨div_nonneg h1.1 hv.le, (div_le_one hv).2 h1.2⟩

theorem notEnough_frac (A B : WM K s) (e : K) (he : 0 ≤ e) (he1 : e ≤ 1)
    (hA : ∀ r ∈ A, Frac r.fill) (hB : ∀ r ∈ B, Frac r.fill) :
    ∀ r ∈ notEnough A B e, Frac r.fill := by
  intro r hr
  unfold notEnough at hr
  rw [List.mem_iff_getElem] at hr
  obtain ⟨i, hi, rfl⟩ := hr
  rw [List.getElem_zipWith]
  rw [List.length_zipWith] at hi
  intro j
  have ha := hA _ (List.getElem_mem (show i < A.length by omega)) j
  have hb := hB _ (List.getElem_mem (show i < B.length by omega)) j
  simp only
  constructor
  · have := mul_nonneg he ha.1
    have := mul_nonneg (show 0 ≤ 1 - e by linarith) hb.1
    linarith
  · have := mul_le_of_le_one_right he ha.2
    have := mul_le_of_le_one_right (show 0 ≤ 1 - e by linarith) hb.2
    linarith

/-- The final bookkeeping of a capture: the electrons captured are the smaller of those
available and those wanted, and the array stays in shape. -/
theorem instantFinish (dens p : Fin s → K) (n n0 : K) (A B : WM K s) (z : ℕ) (hp : Pos A)
    (hv : vols A = vols B) (hA : ∀ r ∈ A, Frac r.fill) (hB : ∀ r ∈ B, Frac r.fill) (hn : 0 ≤ n)
    (hn0 : wsum (eDens dens) B = n0) (hz : n = 0 → wsum (eDens dens) A ≤ n0) :
    ∃ act2 z2, finishCapture 1 (instantOps dens p).trapped (instantOps dens p).tweak n n0
        (A ++ Z (z + 1)) (B ++ Z (z + 1)) =
          .ok (min n (wsum (eDens dens) A - n0), act2 ++ Z (z2 + 1)) ∧
      act2.length + z2 = A.length + z ∧ Pos act2 ∧ volSum act2 = volSum A ∧
      (∀ r ∈ act2, Frac r.fill) ∧
      wsum (eDens dens) act2 = n0 + min n (wsum (eDens dens) A - n0) ∧
      (wsum (eDens dens) A - n0 ≤ n → ∀ d, 0 < d → ∀ j, occ act2 d j = occ A d j) ∧
      (A ≠ [] → act2 ≠ []) ∧ act2.length ≤ A.length := by
  have hpB : Pos B := pos_of_vols hv hp
  have one_frac : Frac (fun _ : Fin s => (1 : K)) := fun j => ⟨zero_le_one, le_rfl⟩
  have mne : ∀ (k : ℕ) (x : Fin s → K) (l : WM K s), l ≠ [] → mergeTop k x l ≠ [] := by
    intro k x l hl; unfold mergeTop; split
    · exact hl
    · simp
  obtain ⟨k, hk, hf, hcc⟩ := collapseCopy_eq 1 A B z hv
  set A1 := mergeTop k (fun _ => 1) A with hA1
  set mean := fun j => ((B.take k).map fun r => r.vol * r.fill j).sum / volSum (B.take k) with hmean
  set B1 := mergeTop k mean B with hB1
  have hkB : k ≤ B.length := by rw [← vols_length hv]; exact hk
  have hp1 : Pos A1 := mergeTop_pos k _ A hp hk
  have hv1 : vols A1 = vols B1 := mergeTop_vols k _ _ A B hv
  have hw1 : wsum (eDens dens) A1 = wsum (eDens dens) A := mergeTop_wsum _ _ _ _ hf
  have hwB1 : wsum (eDens dens) B1 = n0 := by
    rw [← hn0]; exact mergeTop_copy_wsum dens k B hpB hkB
  have hlen1 : A1.length + (k - 1) = A.length := mergeTop_length k _ A hk
  have hF1 : ∀ r ∈ A1, Frac r.fill := mergeTop_fill k _ A _ (fun _ => one_frac) hA
  have hFB1 : ∀ r ∈ B1, Frac r.fill := by
    apply mergeTop_fill k _ B _ _ hB
    intro h2
    apply mean_frac _ (fun r hr => hpB r (List.mem_of_mem_take hr)) _
      (fun r hr => hB r (List.mem_of_mem_take hr))
    intro hc
    have := congrArg List.length hc
    rw [List.length_take, List.length_nil] at this; omega
  have hocc1 : ∀ d, 0 < d → ∀ j, occ A1 d j = occ A d j := fun d hd j => mergeTop_occ k _ A hp hf d hd j
  have ht : ∀ (l : WM K s) (z : ℕ), (instantOps dens p).trapped (l ++ Z z) = wsum (eDens dens) l := by
    intro l z
    change cyNTrapped _ _ = _
    rw [cyNTrapped_eq, wsum_append, wsum_Z, add_zero]
  unfold finishCapture
  simp only [hcc, ht, hw1]
  by_cases h0 : wsum (eDens dens) A = n0
  · rw [if_pos h0]
    refine ⟨A1, z + (k - 1), ?_, by omega, hp1, mergeTop_volSum k _ A, hF1, ?_, fun _ => hocc1, mne _ _ _, by omega⟩
    · rw [h0, sub_self, min_eq_right hn]
    · rw [hw1, h0, sub_self, min_eq_right hn, add_zero]
  · rw [if_neg h0]
    by_cases he : 0 < n / (wsum (eDens dens) A - n0) ∧ n / (wsum (eDens dens) A - n0) < 1
    · rw [if_pos he]
      have hpos : 0 < wsum (eDens dens) A - n0 := by
        by_contra hc
        exact absurd he.1 (not_lt.2 (div_nonpos_of_nonneg_of_nonpos hn (not_lt.1 hc)))
      have hlt : n < wsum (eDens dens) A - n0 := (div_lt_one hpos).1 he.2
      have htw : (instantOps dens p).tweak (A1 ++ Z (z + (k - 1) + 1)) (B1 ++ Z (z + (k - 1) + 1))
          (n / (wsum (eDens dens) A - n0)) =
          .ok (notEnough A1 B1 (n / (wsum (eDens dens) A - n0)) ++ Z (z + (k - 1) + 1)) := by
        change Except.ok (notEnough _ _ _) = _
        rw [notEnough_append A1 B1 _ _ (vols_length hv1)]
      rw [htw]
      simp only [bind_ok, ht]
      set C := notEnough A1 B1 (n / (wsum (eDens dens) A - n0)) with hC
      have hvC : vols C = vols A1 := notEnough_vols A1 B1 _ (vols_length hv1)
      have hpC : Pos C := pos_of_vols hvC.symm hp1
      have hwC : wsum (eDens dens) C = n0 + n := by
        rw [hC, notEnough_wsum dens A1 B1 _ hv1, hw1, hwB1]
        have : wsum (eDens dens) A - n0 ≠ 0 := hpos.ne'
        field_simp
        ring
      have hFC : ∀ r ∈ C, Frac r.fill := notEnough_frac A1 B1 _ he.1.le he.2.le hF1 hFB1
      obtain ⟨k2, hk2, hf2, hcc2⟩ := collapse_eq 1 C (z + (k - 1))
      refine ⟨mergeTop k2 (fun _ => 1) C, z + (k - 1) + (k2 - 1), ?_, ?_, mergeTop_pos k2 _ C hpC hk2,
        ?_, mergeTop_fill k2 _ C _ (fun _ => one_frac) hFC, ?_, ?_, ?_, ?_⟩
      · rw [hcc2, hwC, min_eq_left hlt.le, add_sub_cancel_left]
      · have := mergeTop_length k2 (fun _ => (1 : K)) C hk2
        have := vols_length hvC
        omega
      · rw [mergeTop_volSum, volSum_eq_of_vols hvC, mergeTop_volSum]
      · rw [mergeTop_wsum _ _ _ _ hf2, hwC, min_eq_left hlt.le]
      · intro hle; linarith
      · intro hne
        apply mne
        intro hc
        have := vols_length hvC
        rw [hc] at this
        exact mne k _ A hne (List.length_eq_zero_iff.1 this.symm)
      · have := mergeTop_length k2 (fun _ => (1 : K)) C hk2
        have := vols_length hvC
        omega
    · rw [if_neg he]
      have hle : wsum (eDens dens) A - n0 ≤ n := by
        by_contra hc
        have hc := not_le.1 hc
        have hpos : 0 < wsum (eDens dens) A - n0 := lt_of_le_of_lt hn hc
        rcases lt_or_eq_of_le hn with hn | hn
        · exact he ⟨div_pos hn hpos, (div_lt_one hpos).2 hc⟩
        · linarith [hz hn.symm]
      obtain ⟨k2, hk2, hf2, hcc2⟩ := collapse_eq 1 A1 (z + (k - 1))
      refine ⟨mergeTop k2 (fun _ => 1) A1, z + (k - 1) + (k2 - 1), ?_, ?_, mergeTop_pos k2 _ A1 hp1 hk2,
        ?_, mergeTop_fill k2 _ A1 _ (fun _ => one_frac) hF1, ?_, ?_, ?_, ?_⟩
      · rw [hcc2, min_eq_right hle]
      · have := mergeTop_length k2 (fun _ => (1 : K)) A1 hk2
        omega
      · rw [mergeTop_volSum, mergeTop_volSum]
      · rw [mergeTop_wsum _ _ _ _ hf2, hw1, min_eq_right hle]; ring
      · intro _ d hd j
        rw [mergeTop_occ k2 _ A1 hp1 hf2 d hd j, hocc1 d hd j]
      · exact fun hne => mne _ _ _ (mne _ _ _ hne)
      · have := mergeTop_length k2 (fun _ => (1 : K)) A1 hk2
        omega

/-! ### states of an instant-capture manager -/

/-- The states of the watermark array between transfers: at most `k` active levels and then unused
rows, or — only after a cloud of zero volume met empty traps — a first row of zero volume marked
full. -/
def InstState (L k : ℕ) (wm : WM K s) : Prop :=
  wm.length = L ∧
    ((∃ act z, wm = act ++ Z z ∧ Pos act ∧ volSum act ≤ 1 ∧ (∀ r ∈ act, Frac r.fill) ∧ act.length ≤ k) ∨
      (1 ≤ k ∧ ∃ z, wm = (⟨0, fun _ => 1⟩ : Row K s) :: Z z))

theorem icRelease_eq (ops : ICOps K s) (act : WM K s) (z : ℕ) (hp : ∀ r ∈ act, r.vol ≠ 0) :
    icRelease ops (act ++ Z (z + 1)) =
      (ops.trapped (act ++ Z (z + 1)) - ops.trapped (act.map (mapRow ops.release) ++ Z (z + 1)),
        act.map (mapRow ops.release) ++ Z (z + 1)) := by
  unfold icRelease
  rw [maxWatermarkIndex_eq act z hp, mapFills_prefix _ _ _ _ (by simp)]

theorem maxIdx_stale (r : Row K s) (z : ℕ) (hr : r.vol = 0) : maxWatermarkIndex (r :: Z z) = -1 := by
  unfold maxWatermarkIndex
  rw [List.map_cons]
  have := argmaxTrue_append [] (decide (r.vol = 0) :: (Z z).map fun r : Row K s => decide (r.vol = 0))
    (by simp) (by simp [hr])
  rw [List.nil_append] at this
  rw [this]; rfl

theorem icRelease_stale (ops : ICOps K s) (r : Row K s) (z : ℕ) (hr : r.vol = 0) :
    icRelease ops (r :: Z z) = (0, r :: Z z) := by
  unfold icRelease
  rw [maxIdx_stale r z hr, mapFills_none _ _ _ _ (by simp)]
  simp only [sub_self]

theorem electrons_append_Z (dens : Fin s → K) (l : WM K s) (z : ℕ) :
    electrons dens (l ++ Z z) = electrons dens l := by
  rw [electrons_eq, wsum_append, wsum_Z, add_zero]; rfl

theorem Z_map (g : Fin s → K → K) (hg : ∀ j, g j 0 = 0) (z : ℕ) : (Z z).map (mapRow g) = Z z := by
  unfold Z; rw [List.map_replicate]; congr 1
  unfold mapRow zeroRow; simp [hg]

theorem vacant_append_Z (dens : Fin s → K) (c : K) (hc : 0 ≤ c) (act : WM K s) (z : ℕ) :
    vacant dens c (act ++ Z z) = vacant dens c act := by
  induction act generalizing c with
  | nil =>
    rw [List.nil_append]
    induction z with
    | zero => rfl
    | succ z ih =>
      rw [Z_succ]
      unfold vacant
      split
      · simp [zeroRow]
      · simp only [zeroRow, zero_mul, sub_zero, zero_add]; rw [ih]; rfl
  | cons r rs ih =>
    rw [List.cons_append]
    unfold vacant
    split
    · rfl
    · rename_i h; rw [ih _ (by linarith [not_le.1 h])]

theorem vacant_zero (dens : Fin s → K) (act : WM K s) (hp : Pos act) : vacant dens 0 act = 0 := by
  cases act with
  | nil => simp [vacant]
  | cons r rs => unfold vacant; rw [if_pos (hp r (by simp)).le, zero_mul]

theorem occ_map_all (g : Fin s → K → K) (hg : ∀ j, g j 0 = 0) (l : WM K s) (d : K) (j : Fin s) :
    occ (l.map (mapRow g)) d j = g j (occ l d j) := by
  induction l generalizing d with
  | nil => exact (hg j).symm
  | cons r l ih =>
    rw [List.map_cons, occ_cons, occ_cons]
    change (if d ≤ r.vol then g j (r.fill j) else occ (l.map (mapRow g)) (d - r.vol) j) = _
    rw [ih]; split <;> rfl

/-- **One transfer from a regular state.** -/
theorem instantStep_active (dens p : Fin s → K) (f : K → K) (hf : FillModel f) (hd : ∀ j, 0 ≤ dens j)
    (hpr : ∀ j, 0 ≤ p j ∧ p j ≤ 1) (n : K) (act : WM K s) (z : ℕ) (hp : Pos act) (hv : volSum act ≤ 1)
    (hF : ∀ r ∈ act, Frac r.fill) :
    ∃ net wm', icStep (instantOps dens p) f n (act ++ Z (z + 2)) = .ok (net, wm') ∧
      InstState (act.length + z + 2) (act.length + 1) wm' ∧
      net = electrons dens (act ++ Z (z + 2)) - electrons dens wm' ∧
      ProfileSpec dens p f n (act ++ Z (z + 2)) wm' ∧
      CaptureSpec dens p f n (act ++ Z (z + 2)) net ∧
      ((∀ n, 0 < n → 0 < f n) → ∃ act2 z2, wm' = act2 ++ Z z2 ∧ Pos act2) := by
  set act1 := act.map (mapRow fun j x => x * p j) with hact1
  have hp1 : Pos act1 := pos_of_vols (vols_mapRow _ act).symm hp
  have hv1 : volSum act1 = volSum act := volSum_eq_of_vols (vols_mapRow _ act)
  have hl1 : act1.length = act.length := by simp [hact1]
  have hF1 : ∀ r ∈ act1, Frac r.fill := by
    intro r hr
    rw [hact1, List.mem_map] at hr
    obtain ⟨r0, hr0, rfl⟩ := hr
    intro j
    have h1 := hF r0 hr0 j
    have h2 := hpr j
    exact ⟨mul_nonneg h1.1 h2.1, mul_le_one₀ h1.2 h2.1 h2.2⟩
  have law := instantLaw dens p hd
  set R := wsum (eDens dens) act - wsum (eDens dens) act1 with hR
  have hrel : icRelease (instantOps dens p) (act ++ Z (z + 2)) = (R, act1 ++ Z (z + 2)) := by
    have := icRelease_eq (instantOps dens p) act (z + 1) hp.ne
    rw [law.trapped act (z + 1) hp] at this
    have h2 : (instantOps dens p).trapped (act.map (mapRow (instantOps dens p).release) ++ Z (z + 1 + 1)) =
        wsum (eDens dens) act1 := law.trapped act1 (z + 1) hp1
    rw [h2] at this
    exact this
  -- rewriting the specification in terms of the active levels
  have hw1 : released p (act ++ Z (z + 2)) = act1 ++ Z (z + 2) := by
    change (act ++ Z (z + 2)).map (mapRow fun j x => x * p j) = _
    rw [List.map_append, Z_map _ (by simp)]
  have hR' : electrons dens (act ++ Z (z + 2)) - electrons dens (act1 ++ Z (z + 2)) = R := by
    rw [electrons_append_Z, electrons_append_Z]; rfl
  have hvac : ∀ c, 0 ≤ c → vacant dens c (act1 ++ Z (z + 2)) = vacant dens c act1 :=
    fun c hc => vacant_append_Z dens c hc act1 _
  have hocc1 : ∀ d j, occ act1 d j = occ act d j * p j := fun d j =>
    occ_map_all (fun j x => x * p j) (by simp) act d j
  have mk : ∀ net wm',
      net = wsum (eDens dens) act - electrons dens wm' →
      R - net = min (max 0 (n + R)) (vacant dens (f (n + R)) act1) →
      (vacant dens (f (n + R)) act1 ≤ max 0 (n + R) → ∀ d, 0 < d → ∀ j,
        occ wm' d j = if d ≤ f (n + R) then 1 else occ act1 d j) →
      ((∀ n, 0 < n → 0 < f n) → ∃ act2 z2, wm' = act2 ++ Z z2 ∧ Pos act2) →
      net = electrons dens (act ++ Z (z + 2)) - electrons dens wm' ∧
      ProfileSpec dens p f n (act ++ Z (z + 2)) wm' ∧
      CaptureSpec dens p f n (act ++ Z (z + 2)) net ∧
      ((∀ n, 0 < n → 0 < f n) → ∃ act2 z2, wm' = act2 ++ Z z2 ∧ Pos act2) := by
    intro net wm' h1 h2 h3 h4
    refine ⟨?_, ?_, ?_, h4⟩
    · rw [electrons_append_Z]; exact h1
    rotate_left
    · simp only [CaptureSpec, available, hw1, hR', hvac _ (hf.nonneg _)]; exact h2
    · simp only [ProfileSpec, available, hw1, hR', hvac _ (hf.nonneg _)]
      intro hle d hd0 j
      rw [h3 hle d hd0 j, occ_append_Z _ _ d hd0 j, hocc1]
  unfold icStep
  rw [hrel]
  simp only
  have hone : Frac (fun _ : Fin s => (1 : K)) := fun j => ⟨zero_le_one, le_rfl⟩
  have hzero : Frac (fun _ : Fin s => (0 : K)) := fun j => ⟨le_rfl, zero_le_one⟩
  rcases lt_or_eq_of_le (hf.nonneg (n + R)) with hc | hc
  · -- a cloud of positive volume
    have hn : 0 < n + R := by
      by_contra h; exact absurd (hf.empty _ (not_lt.1 h)) hc.ne'
    obtain ⟨z', hz', hcap⟩ := icCapture_cut (instantOps dens p) (eDens dens) law f (n + R) act1 z hp1 hn hc
    set c := f (n + R) with hcdef
    have hpc := cutAt_pos c act1 hc hp1
    set A := (cutAt c act1).1.map (fillRow 1) ++ (cutAt c act1).2 with hA
    set B := (cutAt c act1).1 ++ (cutAt c act1).2 with hB
    have hvAB : vols A = vols B := by
      rw [hA, hB, vols_append, vols_append, vols_mapRow]
    have hFB : ∀ r ∈ B, Frac r.fill := cutAt_fill c act1 _ hzero hF1
    have hFA : ∀ r ∈ A, Frac r.fill := by
      intro r hr
      rw [hA, List.mem_append, List.mem_map] at hr
      rcases hr with ⟨r0, -, rfl⟩ | hr
      · exact hone
      · exact hFB r (by rw [hB, List.mem_append]; exact Or.inr hr)
    have hpA : Pos A := pos_of_vols hvAB.symm hpc
    have hwB : wsum (eDens dens) B = wsum (eDens dens) act1 := wsum_cut _ (eDens_zero dens) c act1
    have hwA : wsum (eDens dens) A = wsum (eDens dens) act1 + vacant dens c act1 :=
      wsum_fill_cut dens c act1 hc
    have hvn := vacant_nonneg dens hd c hc.le act1 hp1 hF1
    obtain ⟨act2, z2, hfin, hlen2, hp2, hv2, hF2, hw2, hocc2, hne2, hle2⟩ := instantFinish dens p (n + R)
      (wsum (eDens dens) act1) A B z' hpA hvAB hFA hFB hn.le hwB (fun h => absurd h hn.ne')
    have hvA : volSum A ≤ 1 := by
      rw [hA, volSum_append, volSum_eq_of_vols (vols_mapRow _ _), cutAt_vol, cutAt_hi_vol c act1 hc hp1, hv1]
      rcases max_choice 0 (volSum act - c) with h | h <;> rw [h]
      · have := hf.le_one (n + R); linarith
      · linarith
    have hAlen : A.length ≤ act.length + 1 ∧ A.length + z' = act.length + z + 1 := by
      have := cutAt_length c act1
      have h3 : A.length = (cutAt c act1).1.length + (cutAt c act1).2.length := by simp [hA]
      omega
    have e : (instantOps dens p).filled = 1 := rfl
    rw [e] at hcap
    rw [hcap]
    rw [hfin]
    simp only [bind_ok]
    refine ⟨_, _, rfl, ⟨?_, Or.inl ⟨act2, z2 + 1, rfl, hp2, by rw [hv2]; exact hvA, hF2, by omega⟩⟩, ?_⟩
    · rw [List.length_append, Z_length]; omega
    · apply mk
      · rw [electrons_append_Z, electrons_eq, hw2, hR]; ring
      · rw [max_eq_right hn.le, hwA]; ring_nf
      · intro hle d hd0 j
        rw [max_eq_right hn.le] at hle
        rw [occ_append_Z _ _ d hd0 j, hocc2 (by rw [hwA]; linarith) d hd0 j, hA,
          occ_cut_map _ c act1 hp1 hc d hd0 j]
      · exact fun _ => ⟨act2, z2 + 1, rfl, hp2⟩
  · -- a cloud of zero volume
    have hvz : vacant dens (f (n + R)) act1 = 0 := by rw [← hc]; exact vacant_zero dens act1 hp1
    have hmin : min (max 0 (n + R)) (vacant dens (f (n + R)) act1) = 0 := by
      rw [hvz]; exact min_eq_right (le_max_left _ _)
    by_cases hst : act1 = [] ∧ 0 < n + R
    · -- stale first row
      have hz : (Z (z + 2) : WM K s) = zeroRow K s :: Z (z + 1) := Z_succ _
      have hact : act = [] := by rw [← List.length_eq_zero_iff, ← hl1, hst.1]; rfl
      have hcap := icCapture_stale (instantOps dens p) f (n + R) (z + 1) (zeroRow K s)
        rfl hst.2 hc.symm (by
          intro r hr
          change cyNTrapped _ _ = _
          rw [cyNTrapped_eq, wsum_cons, hr, wsum_Z]; ring)
      rw [hst.1, List.nil_append, hz, hcap]
      simp only [bind_ok, sub_zero]
      have hR0 : R = 0 := by rw [hR, hst.1, hact, sub_self]
      refine ⟨_, _, rfl, ⟨?_, Or.inr ⟨by omega, z + 1, rfl⟩⟩, ?_⟩
      · simp [Z_length, hact]
      · rw [← hz]
        apply mk
        · rw [hR0, hact, wsum_nil]
          rw [electrons_eq, wsum_cons, wsum_Z]; simp
        · rw [hmin, sub_self]
        · intro _ d hd0 j
          rw [← hc, if_neg (not_le.2 hd0), occ_cons, if_neg (by simpa using hd0), hst.1]
          rw [sub_zero]; exact occ_Z _ d hd0 j
        · intro hpos; exact absurd hc (hpos _ hst.2).ne
    · obtain ⟨k, hk, hfk, hcap⟩ := icCapture_zero (instantOps dens p) (eDens dens) law f (n + R) act1
        (z + 1) hp1 hc.symm (fun h => not_lt.1 fun h2 => hst ⟨h, h2⟩)
      have e : (instantOps dens p).filled = 1 := rfl
      rw [e] at hcap hfk
      rw [show z + 2 = z + 1 + 1 by rfl, hcap]
      simp only [bind_ok, sub_zero]
      have hml := mergeTop_length k (fun _ => (1 : K)) act1 hk
      refine ⟨_, _, rfl, ⟨?_, Or.inl ⟨_, _, rfl, mergeTop_pos k _ act1 hp1 hk, ?_,
        mergeTop_fill k _ act1 _ (fun _ => hone) hF1, by omega⟩⟩, ?_⟩
      · rw [List.length_append, Z_length]; omega
      · rw [mergeTop_volSum, hv1]; exact hv
      · apply mk
        · rw [electrons_append_Z, electrons_eq, mergeTop_wsum _ _ _ _ hfk]
        · rw [hmin, sub_self]
        · intro _ d hd0 j
          rw [← hc, if_neg (not_le.2 hd0), occ_append_Z _ _ d hd0 j, mergeTop_occ k _ act1 hp1 hfk d hd0 j]
        · exact fun _ => ⟨_, _, rfl, mergeTop_pos k _ act1 hp1 hk⟩

/-- **One transfer from the stale state** left by a zero-volume cloud meeting empty traps. -/
theorem instantStep_stale (dens p : Fin s → K) (f : K → K) (hf : FillModel f) (n : K) (z : ℕ) :
    ∃ net wm', icStep (instantOps dens p) f n ((⟨0, fun _ => 1⟩ : Row K s) :: Z (z + 1)) =
        .ok (net, wm') ∧
      InstState (z + 2) 1 wm' ∧
      net = electrons dens ((⟨0, fun _ => 1⟩ : Row K s) :: Z (z + 1)) - electrons dens wm' ∧
      (∀ d, 0 < d → ∀ j, occ wm' d j = if d ≤ f n then 1 else 0) := by
  have ht : ∀ (r : Row K s) (z : ℕ), (instantOps dens p).trapped (r :: Z z) = r.vol * eDens dens r.fill := by
    intro r z
    change cyNTrapped _ _ = _
    rw [cyNTrapped_eq, wsum_cons, wsum_Z, add_zero]
  have he : ∀ (r : Row K s) (z : ℕ), electrons dens (r :: Z z) = r.vol * eDens dens r.fill := by
    intro r z; rw [electrons_eq, wsum_cons, wsum_Z, add_zero]
  unfold icStep
  rw [icRelease_stale _ _ _ rfl]
  simp only [add_zero]
  have hone : Frac (fun _ : Fin s => (1 : K)) := fun j => ⟨zero_le_one, le_rfl⟩
  have same : icCapture (instantOps dens p) f n ((⟨0, fun _ => 1⟩ : Row K s) :: Z (z + 1)) =
        .ok (0, (⟨0, fun _ => 1⟩ : Row K s) :: Z (z + 1)) → f n = 0 →
      ∃ net wm', (do
        let __discr ← icCapture (instantOps dens p) f n ((⟨0, fun _ => 1⟩ : Row K s) :: Z (z + 1))
        Except.ok (0 - __discr.1, __discr.2) : Except Err (K × WM K s)) = .ok (net, wm') ∧
      InstState (z + 2) 1 wm' ∧
      net = electrons dens ((⟨0, fun _ => 1⟩ : Row K s) :: Z (z + 1)) - electrons dens wm' ∧
      (∀ d, 0 < d → ∀ j, occ wm' d j = if d ≤ f n then 1 else 0) := by
    intro h h0
    rw [h]
    simp only [bind_ok]
    refine ⟨_, _, rfl, ⟨by simp [Z_length], Or.inr ⟨le_rfl, _, rfl⟩⟩, by simp, ?_⟩
    intro d hd j
    rw [h0, if_neg (not_le.2 hd), occ_cons, if_neg (by simpa using hd), sub_zero]
    exact occ_Z _ d hd j
  rcases le_or_gt n 0 with hn | hn
  · apply same _ (hf.empty n hn)
    unfold icCapture
    simp only [maxIdx_stale (⟨0, fun _ => 1⟩ : Row K s) (z + 1) rfl]
    rw [if_neg (by rintro ⟨-, h⟩; linarith)]
    unfold watermarkIndexAboveCloud splitAtCloud
    rw [if_pos (hf.empty n hn), if_pos (Or.inr trivial), if_neg (by rw [hf.empty n hn]; simp)]
    simp only [bind_ok]
    rw [mapFills_none _ _ _ _ (by simp)]
    unfold finishCapture
    have := (collapse_single (1 : K) (⟨0, fun _ => 1⟩ : Row K s) ⟨0, fun _ => 1⟩ z rfl).1
    have e : (instantOps dens p).filled = 1 := rfl
    rw [e, this]
    simp only [ht]
    rw [if_pos trivial]
  · rcases lt_or_eq_of_le (hf.nonneg n) with hc | hc
    · have : icCapture (instantOps dens p) f n ((⟨0, fun _ => 1⟩ : Row K s) :: Z (z + 1)) =
          .ok (f n * eDens dens fun _ => 1, (⟨f n, fun _ => 1⟩ : Row K s) :: Z (z + 1)) := by
        unfold icCapture
        simp only [maxIdx_stale (⟨0, fun _ => 1⟩ : Row K s) (z + 1) rfl]
        rw [if_pos ⟨trivial, hn⟩]
        unfold icFirstCapture
        have e1 : ((⟨0, fun _ => 1⟩ : Row K s) :: Z (z + 1)).modify 0
            (fun _ => ⟨f n, fun _ => (instantOps dens p).filled⟩) =
            (⟨f n, fun _ => 1⟩ : Row K s) :: Z (z + 1) := rfl
        have e2 : setVol ((⟨0, fun _ => 1⟩ : Row K s) :: Z (z + 1)) 0 (f n) =
            (⟨f n, fun _ => 1⟩ : Row K s) :: Z (z + 1) := rfl
        simp only [e1, e2, ht]
        by_cases h0 : (f n * eDens dens fun _ => 1) = 0
        · rw [if_pos h0, h0]
        · rw [if_neg h0]
          split
          · have htw : ∀ e, (instantOps dens p).tweak ((⟨f n, fun _ => 1⟩ : Row K s) :: Z (z + 1))
                ((⟨f n, fun _ => 1⟩ : Row K s) :: Z (z + 1)) e =
                .ok ((⟨f n, fun _ => 1⟩ : Row K s) :: Z (z + 1)) := by
              intro e
              change Except.ok (notEnough _ _ _) = _
              have := notEnough_append [(⟨f n, fun _ => 1⟩ : Row K s)] [⟨f n, fun _ => 1⟩] (z + 1) e rfl
              rw [List.cons_append, List.nil_append] at this
              rw [this]
              simp [notEnough]
            rw [htw]
            simp only [bind_ok, ht]
          · rfl
      rw [this]
      simp only [bind_ok]
      refine ⟨_, _, rfl, ⟨by simp [Z_length], Or.inl ⟨[⟨f n, fun _ => 1⟩], z + 1, rfl, ?_, ?_, ?_, le_rfl⟩⟩, ?_, ?_⟩
      · intro r hr; rw [List.mem_singleton] at hr; rw [hr]; exact hc
      · simpa [volSum] using hf.le_one n
      · intro r hr; rw [List.mem_singleton] at hr; rw [hr]; exact hone
      · rw [he, he]; ring
      · intro d hd j
        rw [occ_cons]
        change (if d ≤ f n then 1 else _) = _
        by_cases h : d ≤ f n
        · rw [if_pos h, if_pos h]
        · rw [if_neg h, if_neg h]
          exact occ_Z _ _ (by simpa using not_le.1 h) j
    · exact same (icCapture_stale (instantOps dens p) f n (z + 1) _ rfl hn hc.symm
        (fun r hr => by rw [ht, hr, zero_mul])) hc.symm

end Arctic
