import Verif.Lemmas.InstantStep

/-!
# Conservation and shape for arbitrary arrays

Nothing here assumes that volumes are positive or fill fractions lie in [0, 1].
-/

set_option linter.unusedSectionVars false
set_option linter.unusedVariables false

namespace Arctic

variable {K : Type} [Field K] [LinearOrder K] [IsStrictOrderedRing K] {s : ℕ}

theorem collapse_trapped (dens : Fin s → K) (wm : WM K s) :
    cyNTrapped (collapse 1 wm) dens = cyNTrapped wm dens := by
  unfold collapse
  simp only
  split
  · rfl
  · rename_i hk
    set k := indexNotFilled 1 wm with hkdef
    have hf : ∀ r ∈ wm.take k, r.fill = fun _ => (1 : K) := by
      intro r hr
      rw [List.mem_take_iff_getElem] at hr
      obtain ⟨i, hi, rfl⟩ := hr
      obtain ⟨h1, h2⟩ := indexNotFilled_filled 1 wm i (by omega)
      funext j; exact h2 j
    have hkl : k ≤ wm.length := by
      obtain ⟨h1, -⟩ := indexNotFilled_filled 1 wm (k - 1) (by omega)
      omega
    have := collapseRows_eq k wm 0 ⟨volumeFilled k wm, fun _ => 1⟩ (by omega) hkl
    rw [show (Z 0 : WM K s) = [] from rfl, List.append_nil] at this
    rw [this, cyNTrapped_eq, cyNTrapped_eq, wsum_append, wsum_Z, add_zero, wsum_cons]
    conv_rhs => rw [← List.take_append_drop k wm, wsum_append, wsum_const (eDens dens) _ _ hf]
    rfl

theorem collapseCopy_fst (filled : K) (wm copy : WM K s) :
    (collapseCopy filled wm copy).1 = collapse filled wm := by
  unfold collapseCopy collapse
  simp only
  split <;> rfl

theorem finishCapture_conserve (dens : Fin s → K) (n n0 c : K) (A B w : WM K s)
    (h : finishCapture 1 (fun w => cyNTrapped w dens) (fun w w0 e => .ok (notEnough w w0 e)) n n0 A B =
      .ok (c, w)) : cyNTrapped w dens = n0 + c := by
  unfold finishCapture at h
  simp only at h
  split at h
  · rename_i h0
    injection h with h; injection h with h1 h2
    rw [← h1, ← h2, h0, add_zero]
  · split at h
    · simp only [bind_ok] at h
      injection h with h; injection h with h1 h2
      rw [← h1, ← h2, collapse_trapped]; ring
    · injection h with h; injection h with h1 h2
      rw [← h1, ← h2, collapse_trapped]; ring

theorem HasSpare.trapped {wm : WM K s} (h : HasSpare wm) (dens : Fin s → K)
    (hm : maxWatermarkIndex wm = -1) : cyNTrapped wm dens = 0 := by
  obtain ⟨act, rest, rfl, h1, h2, h3⟩ := h
  have : maxWatermarkIndex (act ++ rest) = (act.length : ℤ) - 1 := by
    unfold maxWatermarkIndex
    rw [List.map_append, argmaxTrue_append]
    · simp
    · intro b hb
      rw [List.mem_map] at hb
      obtain ⟨r, hr, rfl⟩ := hb
      simp [h1 r hr]
    · cases rest with
      | nil => exact absurd rfl h2
      | cons r l => simp [h3 r (by simp)]
  rw [this] at hm
  have : act = [] := by
    rw [← List.length_eq_zero_iff]; omega
  subst this
  rw [cyNTrapped_eq]
  exact wsum_zero_vol _ _ (by simpa using h3)

theorem slowStep_conserve (dens : Fin s → K) (p : Probs K s) (f : K → K) (n : K) (wm wm' : WM K s)
    (net : K) (hs : HasSpare wm) (h : slowStep dens p f n wm = .ok (net, wm')) :
    net = cyNTrapped wm dens - cyNTrapped wm' dens := by
  unfold slowStep at h
  simp only at h
  split at h
  · rename_i hm
    rw [hs.trapped dens hm.1]
    injection h with h
    unfold slowFirstCapture at h
    simp only at h
    split at h
    · rename_i h0
      injection h with h1 h2
      rw [← h1, ← h2, h0, sub_zero]
    · split at h
      · injection h with h1 h2
        rw [← h1, ← h2, zero_sub]
      · injection h with h1 h2
        rw [← h1, ← h2, zero_sub]
  · -- the other branches end in `finishCapture`
    generalize (if watermarkIndexAboveCloud (f n) wm (maxWatermarkIndex wm) ≤ maxWatermarkIndex wm ∨
      maxWatermarkIndex wm = -1 then _ else _ : Except Err (K × WM K s × ℤ × WM K s)) = e at h
    cases e with
    | error e => cases h
    | ok o =>
      obtain ⟨nf, init, idx, w⟩ := o
      simp only [bind_ok] at h
      cases hfc : finishCapture 1 (fun w => cyNTrapped w dens) (fun w w0 e => .ok (notEnough w w0 e)) nf
          (cyNTrapped wm dens)
          (mapFills 0 (idx + 1).toNat (fun j x => x * p.fromFull j + (1 - x) * p.fromEmpty j) w) init with
      | error e => rw [hfc] at h; cases h
      | ok o =>
        obtain ⟨c, w'⟩ := o
        rw [hfc] at h
        simp only [bind_ok] at h
        injection h with h; injection h with h1 h2
        rw [← h1, ← h2, finishCapture_conserve dens _ _ _ _ _ _ hfc]; ring

theorem mapFills_vols (lo hi : ℕ) (g : Fin s → K → K) (wm : WM K s) :
    vols (mapFills lo hi g wm) = vols wm := by
  unfold vols mapFills
  apply List.ext_getElem
  · simp
  · intro i h1 h2
    simp only [List.getElem_map, List.getElem_mapIdx]
    split <;> rfl

theorem maxIdx_of_vols {w w' : WM K s} (h : vols w = vols w') : maxWatermarkIndex w = maxWatermarkIndex w' := by
  unfold maxWatermarkIndex
  have : ∀ w : WM K s, (w.map fun r : Row K s => decide (r.vol = 0)) = (vols w).map fun v => decide (v = 0) := by
    intro w; unfold vols; rw [List.map_map]; rfl
  rw [this, this, h]

theorem icStep_conserve (dens p : Fin s → K) (f : K → K) (n : K) (wm wm' : WM K s)
    (net : K) (hs : HasSpare wm) (h : icStep (instantOps dens p) f n wm = .ok (net, wm')) :
    net = cyNTrapped wm dens - cyNTrapped wm' dens := by
  unfold icStep at h
  have ht : (instantOps dens p).trapped = fun w => cyNTrapped w dens := rfl
  have htw : (instantOps dens p).tweak = fun w w0 e => .ok (notEnough w w0 e) := rfl
  have hfi : (instantOps dens p).filled = 1 := rfl
  obtain ⟨R, w1, hrel, hR, hw1⟩ : ∃ R w1, icRelease (instantOps dens p) wm = (R, w1) ∧
      R = cyNTrapped wm dens - cyNTrapped w1 dens ∧
      (maxWatermarkIndex w1 = -1 → cyNTrapped w1 dens = 0) := by
    refine ⟨_, _, rfl, rfl, ?_⟩
    intro hm
    have hm' : maxWatermarkIndex wm = -1 := by
      rw [← hm]; exact (maxIdx_of_vols (mapFills_vols _ _ _ _)).symm
    have : icRelease (instantOps dens p) wm = (0, wm) := by
      unfold icRelease; rw [hm', mapFills_none _ _ _ _ (by simp)]; simp
    have h2 : mapFills 0 (maxWatermarkIndex wm + 1).toNat (instantOps dens p).release wm = wm :=
      congrArg Prod.snd this
    rw [h2]; exact hs.trapped dens hm'
  rw [hrel] at h
  simp only at h
  cases hc : icCapture (instantOps dens p) f (n + R) w1 with
  | error e => rw [hc] at h; cases h
  | ok o =>
    obtain ⟨c, w2⟩ := o
    rw [hc] at h
    simp only [bind_ok] at h
    injection h with h; injection h with h1 h2
    subst h2
    suffices hcap : cyNTrapped w2 dens = cyNTrapped w1 dens + c by rw [← h1, hcap, hR]; ring
    unfold icCapture at hc
    simp only at hc
    split at hc
    · rename_i hm
      rw [hw1 hm.1, zero_add]
      unfold icFirstCapture at hc
      simp only [ht, htw, hfi] at hc
      split at hc
      · rename_i h0
        injection hc with hc; injection hc with h1 h2
        rw [← h1, ← h2, h0]
      · split at hc
        · simp only [bind_ok] at hc
          injection hc with hc; injection hc with h1 h2
          rw [← h1, ← h2]
        · injection hc with hc; injection hc with h1 h2
          rw [← h1, ← h2]
    · generalize (if watermarkIndexAboveCloud (f (n + R)) w1 (maxWatermarkIndex w1) ≤ maxWatermarkIndex w1 ∨
        maxWatermarkIndex w1 = -1 then _ else _ : Except Err (WM K s × WM K s)) = e at hc
      cases e with
      | error e => cases hc
      | ok o =>
        obtain ⟨w, init⟩ := o
        simp only [bind_ok, ht, htw, hfi] at hc
        exact finishCapture_conserve dens _ _ _ _ _ _ hc

/-! ### shape of slow-capture arrays -/

theorem NZ_append (t : K) (l l' : WM K s) : NZ t (l ++ l') ↔ NZ t l ∧ NZ (t + volSum l) l' := by
  induction l generalizing t with
  | nil => simp [NZ, volSum]
  | cons r l ih =>
    rw [List.cons_append]
    change (_ ∧ _ ∧ _ ∧ NZ _ _) ↔ (_ ∧ _ ∧ _ ∧ NZ _ _) ∧ _
    rw [ih, volSum_cons, ← add_assoc]
    tauto

theorem NZ_of_vols (t : K) {l l' : WM K s} (h : vols l = vols l') : NZ t l ↔ NZ t l' := by
  induction l generalizing t l' with
  | nil =>
    have : l' = [] := List.length_eq_zero_iff.1 (vols_length h).symm
    subst this; rfl
  | cons r l ih =>
    cases l' with
    | nil => simp [vols] at h
    | cons r' l' =>
      simp only [vols, List.map_cons, List.cons.injEq] at h
      unfold NZ
      rw [h.1, ih _ h.2]

theorem NZ.ne {t : K} {l : WM K s} (h : NZ t l) : ∀ r ∈ l, r.vol ≠ 0 := by
  induction l generalizing t with
  | nil => simp
  | cons r l ih =>
    intro x hx
    rw [List.mem_cons] at hx
    rcases hx with rfl | hx
    · exact h.1
    · exact ih h.2.2.2 x hx

/-- Heights are partial sums. -/
theorem NZ.height {t : K} {l : WM K s} (h : NZ t l) (k : ℕ) (hk : 1 ≤ k) (hl : k ≤ l.length) :
    0 < t + volSum (l.take k) ∧ t + volSum (l.take k) ≤ 1 := by
  induction l generalizing t k with
  | nil => simp at hl; omega
  | cons r l ih =>
    obtain ⟨k, rfl⟩ : ∃ q, k = q + 1 := ⟨k - 1, by omega⟩
    rw [List.take_succ_cons, volSum_cons, ← add_assoc]
    rcases Nat.eq_zero_or_pos k with h0 | h0
    · subst h0; simp only [List.take_zero, volSum_nil, add_zero]; exact ⟨h.2.1, h.2.2.1⟩
    · exact ih h.2.2.2 k h0 (by simpa using hl)

theorem mergeTop_NZ (k : ℕ) (x : Fin s → K) (act : WM K s) (h : NZ 0 act) (hk : k ≤ act.length) :
    NZ 0 (mergeTop k x act) := by
  unfold mergeTop
  split
  · exact h
  · rename_i hk2
    have hh := h.height k (by omega) hk
    rw [← List.take_append_drop k act, NZ_append] at h
    refine ⟨?_, hh.1, hh.2, h.2⟩
    intro h0
    have hh := hh.1
    rw [zero_add] at hh
    exact absurd h0 hh.ne'

/-- First level reaching the cloud, for heights in any order. -/
theorem exists_first (c : K) (act : WM K s) (t : K) (hct : t < c) (h : c ≤ t + volSum act) :
    ∃ pre r post, act = pre ++ r :: post ∧ c ≤ t + volSum pre + r.vol ∧
      (∀ k ≤ pre.length, t + volSum (pre.take k) < c) := by
  induction act generalizing t with
  | nil => rw [volSum_nil, add_zero] at h; exact absurd h (not_le.2 hct)
  | cons r rs ih =>
    rw [volSum_cons, ← add_assoc] at h
    rcases le_or_gt c (t + r.vol) with h1 | h1
    · exact ⟨[], r, rs, rfl, by rw [volSum_nil, add_zero]; exact h1, by
        intro k hk; simp at hk; subst hk; simpa [volSum] using hct⟩
    · obtain ⟨pre, r', post, e, h2, h3⟩ := ih (t + r.vol) h1 h
      refine ⟨r :: pre, r', post, by rw [e]; rfl, by rw [volSum_cons, ← add_assoc]; exact h2, ?_⟩
      intro k hk
      cases k with
      | zero => simpa [volSum] using hct
      | succ k =>
        rw [List.take_succ_cons, volSum_cons, ← add_assoc]
        exact h3 k (by simpa using hk)

theorem volsum_take (l : WM K s) (k : ℕ) : ((vols l).take k).sum = volSum (l.take k) := by
  unfold vols volSum; rw [List.map_take]


theorem volSum_zero {rest : WM K s} (h : ∀ r ∈ rest, r.vol = 0) : volSum rest = 0 := by
  unfold volSum
  apply List.sum_eq_zero
  intro x hx
  rw [List.mem_map] at hx
  obtain ⟨r, hr, rfl⟩ := hx
  exact h r hr

theorem index_general (c : K) (pre post rest : WM K s) (r : Row K s) (mx : ℤ) (hc : 0 < c)
    (hrest : ∀ r ∈ rest, r.vol = 0) (htot : c ≤ volSum (pre ++ r :: post))
    (h1 : c ≤ volSum pre + r.vol) (h2 : ∀ k ≤ pre.length, volSum (pre.take k) < c) :
    watermarkIndexAboveCloud c (pre ++ r :: post ++ rest) mx = pre.length := by
  unfold watermarkIndexAboveCloud
  rw [if_neg hc.ne']
  apply cyIndexAbove_first
  · simp
  · change c ≤ volSum (pre ++ r :: post ++ rest)
    rw [volSum_append, volSum_zero hrest, add_zero]; exact htot
  · have := volsum_take (pre ++ r :: post ++ rest) (pre.length + 1)
    unfold vols at this
    rw [this]
    have e : (pre ++ r :: post ++ rest).take (pre.length + 1) = pre ++ [r] := by
      rw [List.append_assoc, List.take_append]; simp
    rw [e, volSum_append]; simpa [volSum] using h1
  · intro j hj
    have := volsum_take (pre ++ r :: post ++ rest) (j + 1)
    unfold vols at this
    rw [this, List.append_assoc, List.take_append_of_le_length (by omega)]
    exact h2 _ (by omega)

theorem index_above_general (c : K) (act rest : WM K s) (mx : ℤ) (hc : 0 < c)
    (hrest : ∀ r ∈ rest, r.vol = 0) (h : volSum act < c) :
    watermarkIndexAboveCloud c (act ++ rest) mx = mx + 1 := by
  unfold watermarkIndexAboveCloud
  rw [if_neg hc.ne']
  apply cyIndexAbove_total
  change volSum (act ++ rest) < c
  rw [volSum_append, volSum_zero hrest, add_zero]; exact h

/-- States of a slow-capture array: at most `k` levels of non-zero volume with heights in (0, 1],
then unused rows. -/
def SlowState (L k : ℕ) (wm : WM K s) : Prop :=
  wm.length = L ∧ ∃ act rest, wm = act ++ rest ∧ NZ 0 act ∧ (∀ r ∈ rest, r.vol = 0) ∧ act.length ≤ k

theorem SlowState.mono {L k k' : ℕ} {wm : WM K s} (h : SlowState L k wm) (hk : k ≤ k') : SlowState L k' wm := by
  obtain ⟨h1, act, rest, h2, h3, h4, h5⟩ := h
  exact ⟨h1, act, rest, h2, h3, h4, h5.trans hk⟩

theorem SlowState.of_vols {L k : ℕ} {w w' : WM K s} (h : SlowState L k w) (hv : vols w' = vols w) :
    SlowState L k w' := by
  obtain ⟨h1, act, rest, rfl, h3, h4, h5⟩ := h
  have hl := vols_length hv
  refine ⟨hl.trans h1, w'.take act.length, w'.drop act.length, (List.take_append_drop _ _).symm, ?_, ?_, ?_⟩
  · refine (NZ_of_vols 0 ?_).1 h3
    have := congrArg (List.take act.length) hv
    unfold vols at *
    rw [← List.map_take, List.map_append, List.take_append_of_le_length (by simp)] at this
    rw [this, List.take_of_length_le (by simp)]
  · intro r hr
    have := congrArg (List.drop act.length) hv
    unfold vols at *
    rw [← List.map_drop, List.map_append, List.drop_left' (by simp)] at this
    have hm : r.vol ∈ rest.map Row.vol := by rw [← this]; exact List.mem_map_of_mem hr
    rw [List.mem_map] at hm
    obtain ⟨q, hq, e⟩ := hm
    rw [← e]; exact h4 q hq
  · rw [List.length_take]; omega

theorem SlowState.hasSpare {L k : ℕ} {wm : WM K s} (h : SlowState L k wm) (hk : k < L) : HasSpare wm := by
  obtain ⟨h1, act, rest, rfl, h3, h4, h5⟩ := h
  refine ⟨act, rest, rfl, h3.ne, ?_, h4⟩
  rintro rfl
  simp at h1; omega

theorem collapseRows_general (k : ℕ) (wm : WM K s) (row0 : Row K s) (hk : 2 ≤ k) (hkl : k ≤ wm.length) :
    collapseRows k wm row0 = row0 :: wm.drop k ++ Z (k - 1) := by
  have := collapseRows_eq k wm 0 row0 hk hkl
  rwa [show (Z 0 : WM K s) = [] from rfl, List.append_nil, zero_add] at this

theorem collapse_shape {L k : ℕ} {wm : WM K s} (h : SlowState L k wm) : SlowState L k (collapse 1 wm) := by
  unfold collapse
  simp only
  split
  · exact h
  · rename_i hq
    generalize hqd : indexNotFilled 1 wm = q at hq
    have hql : q ≤ wm.length := by
      obtain ⟨h1, -⟩ := indexNotFilled_filled 1 wm (q - 1) (by omega)
      omega
    obtain ⟨h1, act, rest, rfl, h3, h4, h5⟩ := h
    rw [collapseRows_general _ _ _ (by omega) hql]
    rw [List.length_append] at hql h1
    refine ⟨by simp [Z_length]; omega, ?_⟩
    have hzr : ∀ (l : WM K s) (n : ℕ), (∀ r ∈ l, r.vol = 0) → ∀ r ∈ l ++ Z n, r.vol = 0 := by
      intro l n hl r hr
      rw [List.mem_append] at hr
      rcases hr with hr | hr
      · exact hl r hr
      · rw [List.eq_of_mem_replicate hr]; rfl
    rcases le_or_gt q act.length with hqa | hqa
    · have hh := h3.height q (by omega) hqa
      have hvf : volumeFilled q (act ++ rest) = volSum (act.take q) := by
        unfold volumeFilled volSum; rw [List.take_append_of_le_length hqa]
      refine ⟨⟨volumeFilled q (act ++ rest), fun _ => 1⟩ :: act.drop q, rest ++ Z (q - 1), ?_, ?_, hzr _ _ h4, ?_⟩
      · rw [List.drop_append_of_le_length hqa]; simp
      · rw [hvf]
        rw [← List.take_append_drop q act, NZ_append] at h3
        refine ⟨?_, hh.1, hh.2, h3.2⟩
        intro h0
        simp only at h0
        rw [h0] at hh; simp at hh
      · simp; omega
    · have hvf : volumeFilled q (act ++ rest) = volSum act := by
        unfold volumeFilled
        rw [List.take_append, List.take_of_length_le hqa.le]
        change volSum (act ++ rest.take _) = _
        rw [volSum_append, volSum_zero (fun r hr => h4 r (List.mem_of_mem_take hr)), add_zero]
      have hd : (act ++ rest).drop q = rest.drop (q - act.length) := by
        rw [List.drop_append, List.drop_of_length_le hqa.le, List.nil_append]
      have h4' : ∀ r ∈ rest.drop (q - act.length), r.vol = 0 := fun r hr => h4 r (List.mem_of_mem_drop hr)
      rw [hvf, hd]
      rcases Nat.eq_zero_or_pos act.length with h0 | h0
      · have : act = [] := List.length_eq_zero_iff.1 h0
        subst this
        refine ⟨[], ⟨volSum [], fun _ => 1⟩ :: rest.drop (q - 0) ++ Z (q - 1), rfl, trivial, ?_, by simp⟩
        apply hzr
        intro r hr
        rw [List.mem_cons] at hr
        rcases hr with rfl | hr
        · rfl
        · exact h4' r hr
      · have hh := h3.height act.length h0 le_rfl
        rw [List.take_length] at hh
        refine ⟨[⟨volSum act, fun _ => 1⟩], rest.drop (q - act.length) ++ Z (q - 1), by simp,
          ⟨?_, hh.1, hh.2, trivial⟩, hzr _ _ h4', by simp; omega⟩
        intro h0
        simp only at h0
        rw [h0] at hh; simp at hh

theorem collapseCopy_snd_length (filled : K) (wm copy : WM K s) (h : copy.length = wm.length) :
    (collapseCopy filled wm copy).2.length = copy.length := by
  unfold collapseCopy
  simp only
  split
  · rfl
  · have : indexNotFilled filled wm ≤ wm.length := by
      obtain ⟨h1, -⟩ := indexNotFilled_filled filled wm (indexNotFilled filled wm - 1) (by omega)
      omega
    change (collapseRows _ copy _).length = _
    rw [collapseRows_general _ copy _ (by omega) (by omega)]
    simp only [List.length_append, List.length_cons, List.length_drop, Z_length]; omega

/-- The final bookkeeping keeps the shape. -/
theorem finishCapture_shape (dens : Fin s → K) (n n0 : K) (A B : WM K s) (L k : ℕ)
    (h : SlowState L k A) (hl : B.length = A.length) :
    ∃ c w, finishCapture 1 (fun w => cyNTrapped w dens) (fun w w0 e => .ok (notEnough w w0 e)) n n0
        A B = .ok (c, w) ∧ SlowState L k w := by
  have hA1 : SlowState L k (collapseCopy 1 A B).1 := by rw [collapseCopy_fst]; exact collapse_shape h
  have hl1 := collapseCopy_snd_length 1 A B hl
  have hl2 : (collapseCopy 1 A B).1.length = B.length := by rw [hA1.1, hl, h.1]
  unfold finishCapture
  simp only
  split
  · exact ⟨_, _, rfl, hA1⟩
  · split
    · simp only [bind_ok]
      refine ⟨_, _, rfl, collapse_shape (hA1.of_vols (notEnough_vols _ _ _ ?_))⟩
      rw [hl2, hl1]
    · exact ⟨_, _, rfl, collapse_shape hA1⟩

/-- Splitting at any cloud keeps the shape and uses at most two more rows, one if the cloud is not
above the top. -/
theorem split_shape (c : K) (act rest w0 : WM K s) (h : NZ 0 act) (hrest : ∀ r ∈ rest, r.vol = 0)
    (hlen : 2 ≤ rest.length) (hv : vols w0 = vols (act ++ rest))
    (hne : act ≠ []) (hc0 : 0 ≤ c) (hc1 : c ≤ 1) :
    ∃ A rest' B mx, splitAtCloud c (watermarkIndexAboveCloud c (act ++ rest) (act.length - 1))
        (act.length - 1) (act ++ rest) w0 = .ok (A ++ rest', B, mx) ∧
      NZ 0 A ∧ (∀ r ∈ rest', r.vol = 0) ∧ vols B = vols (A ++ rest') ∧
      A.length + rest'.length = act.length + rest.length ∧ A.length ≤ act.length + 2 ∧
      act.length ≤ A.length ∧
      (c ≤ volSum act → A.length ≤ act.length + 1 ∧ mx = (A.length : ℤ) - 1) := by
  have hdl : ∀ l : WM K s, 1 ≤ l.length → ∀ l' : WM K s, (l' ++ l).dropLast = l' ++ l.dropLast := by
    intro l hl l'
    apply List.dropLast_append_of_ne_nil
    intro h; rw [h] at hl; simp at hl
  have hdz : ∀ l : WM K s, (∀ r ∈ l, r.vol = 0) → ∀ r ∈ l.dropLast, r.vol = 0 :=
    fun l hl r hr => hl r (List.mem_of_mem_dropLast hr)
  by_cases hin : c > 0 ∧ ¬ (cyValueInCumsum c ((act ++ rest).map Row.vol) = true)
  · obtain ⟨hc, hcum⟩ := hin
    unfold splitAtCloud
    rw [if_pos ⟨hc, hcum⟩]
    have hcum : ∀ k, 1 ≤ k → k ≤ act.length → c ≠ volSum (act.take k) := by
      intro k hk hk2 he
      apply hcum
      rw [cyValueInCumsum_iff]
      refine ⟨k - 1, by simp; omega, ?_⟩
      have := volsum_take (act ++ rest) (k - 1 + 1)
      unfold vols at this
      rw [this, show k - 1 + 1 = k by omega, List.take_append_of_le_length hk2]; exact he
    rcases le_or_gt c (volSum act) with hle | hgt
    · obtain ⟨pre, r, post, rfl, h1, h2⟩ := exists_first c act 0 hc (by rw [zero_add]; exact hle)
      simp only [zero_add] at h1 h2
      rw [index_general c pre post rest r _ hc hrest hle h1 h2]
      have a1 : pre ++ r :: post ++ rest = pre ++ r :: (post ++ rest) := by simp
      rw [a1] at hv ⊢
      obtain ⟨pre', r', post', rfl, v1, v2, v3⟩ := vols_decomp hv.symm
      have hlen' : pre'.length = pre.length := (vols_length v1).symm
      have hsum : volSum pre' = volSum pre := (volSum_eq_of_vols v1).symm
      have hlp : post'.length = post.length + rest.length := by
        have := vols_length v3; rw [List.length_append] at this; omega
      unfold updateVolumes
      have hneg : ¬ ((pre.length : ℕ) : ℤ) < 0 := by omega
      simp only [if_neg hneg]
      have t : (pre.length : ℤ).toNat = pre.length := rfl
      have hn1 : post ++ rest ≠ [] := by intro h; have := congrArg List.length h; simp at this; simp [this.2] at hlen
      have hn2 : post' ≠ [] := by intro h; rw [h] at hlp; simp at hlp; omega
      have a3 := cyUpdateVolumes_eq pre' post' r' c hn2
      rw [hlen'] at a3
      rw [t, cyUpdateVolumes_eq _ _ _ _ hn1, a3]
      simp only [bind_ok, hdl rest (by omega)]
      have s1 : (pre.map Row.vol).sum = volSum pre := rfl
      have s2 : (pre'.map Row.vol).sum = volSum pre := hsum
      rw [s1, s2]
      rw [NZ_append] at h
      obtain ⟨hn1, hr0, hr1, hr2, hn2⟩ := h
      simp only [zero_add] at hr1 hr2 hn2
      have hcr : c ≠ volSum pre + r.vol := by
        have := hcum (pre.length + 1) (by omega) (by simp)
        have e : (pre ++ r :: post).take (pre.length + 1) = pre ++ [r] := by
          rw [List.take_append]; simp
        rw [e, volSum_append] at this
        simpa [volSum] using this
      have hcp : c ≠ volSum pre := by
        rcases Nat.eq_zero_or_pos pre.length with h0 | h0
        · have : pre = [] := List.length_eq_zero_iff.1 h0
          subst this; rw [volSum_nil]; exact hc.ne'
        · have := hcum pre.length h0 (by simp)
          rwa [List.take_append_of_le_length le_rfl, List.take_length] at this
      refine ⟨pre ++ ⟨c - volSum pre, r.fill⟩ :: ⟨r.vol - (c - volSum pre), r.fill⟩ :: post, rest.dropLast,
        pre' ++ ⟨c - volSum pre, r'.fill⟩ :: ⟨r'.vol - (c - volSum pre), r'.fill⟩ :: post'.dropLast,
        ((pre ++ r :: post).length : ℤ) - 1 + 1, ?_, ?_, hdz rest hrest, ?_, ?_, ?_, ?_, ?_⟩
      · simp only [List.append_assoc, List.cons_append]
      · rw [NZ_append]
        have e : (0 : K) + volSum pre + (c - volSum pre) + (r.vol - (c - volSum pre)) = volSum pre + r.vol := by
          ring
        refine ⟨hn1, sub_ne_zero.2 hcp, by simpa using hc, by simpa using hc1, ?_, ?_, ?_, ?_⟩
        · intro h0
          simp only at h0
          apply hcr; linarith
        · simp only; rw [e]; exact hr1
        · simp only; rw [e]; exact hr2
        · simp only; rw [e]; exact hn2
      · have v4 : vols post'.dropLast = vols (post ++ rest.dropLast) := by
          rw [← hdl rest (by omega)]
          unfold vols at *
          rw [List.map_dropLast, List.map_dropLast, v3]
        simp only [List.append_assoc, List.cons_append]
        unfold vols at *
        simp only [List.map_append, List.map_cons] at *
        rw [v1, v4, v2]
      · simp; omega
      · simp only [List.length_append, List.length_cons]; omega
      · simp only [List.length_append, List.length_cons]; omega
      · intro _
        refine ⟨by simp only [List.length_append, List.length_cons]; omega, ?_⟩
        simp only [List.length_append, List.length_cons]; push_cast; ring
    · -- above the top: a pair of rows
      rw [index_above_general c act rest _ hc hrest hgt]
      cases rest with
      | nil => simp at hlen
      | cons r rest =>
      obtain ⟨act', r', rest', rfl, v1, v2, v3⟩ := vols_decomp hv.symm
      unfold updateVolumes
      have hlen' : act'.length = act.length := (vols_length v1).symm
      have hsum : volSum act' = volSum act := (volSum_eq_of_vols v1).symm
      have hlr : rest'.length = rest.length := (vols_length v3).symm
      rw [List.length_cons] at hlen
      have hneg : ¬ (act.length - 1 + 1 : ℤ) < 0 := by omega
      simp only [if_neg hneg]
      have t : (act.length - 1 + 1 : ℤ).toNat = act.length := by omega
      have hn1 : rest ≠ [] := by intro h; rw [h] at hlen; simp at hlen
      have hn2 : rest' ≠ [] := by intro h; rw [h] at hlr; simp at hlr; omega
      have a3 := cyUpdateVolumes_eq act' rest' r' c hn2
      rw [hlen'] at a3
      rw [t, cyUpdateVolumes_eq _ _ _ _ hn1, a3]
      have s1 : (act.map Row.vol).sum = volSum act := rfl
      have s2 : (act'.map Row.vol).sum = volSum act := hsum
      rw [s1, s2]
      simp only [bind_ok]
      have hh := h.height act.length (List.length_pos_iff.2 hne) le_rfl
      rw [List.take_length, zero_add] at hh
      have hr0 : r.vol = 0 := hrest r (by simp)
      refine ⟨act ++ [⟨c - volSum act, r.fill⟩, ⟨r.vol - (c - volSum act), r.fill⟩], rest.dropLast,
        act' ++ ⟨c - volSum act, r'.fill⟩ :: ⟨r'.vol - (c - volSum act), r'.fill⟩ :: rest'.dropLast,
        (act.length : ℤ) - 1 + 1, ?_, ?_, hdz rest (fun q hq => hrest q (by simp [hq])), ?_, ?_, ?_, ?_, ?_⟩
      · simp only [List.append_assoc, List.cons_append, List.nil_append]
      · rw [NZ_append]
        have e : (0 : K) + volSum act + (c - volSum act) + (0 - (c - volSum act)) = volSum act := by ring
        rw [hr0]
        refine ⟨h, by simp only; linarith, by simpa using hc, by simpa using hc1, ?_, ?_, ?_, trivial⟩
        · intro h0; simp only at h0; linarith
        · simp only; rw [e]; exact hh.1
        · simp only; rw [e]; exact hh.2
      · have v4 : vols rest'.dropLast = vols rest.dropLast := by
          unfold vols at *
          rw [List.map_dropLast, List.map_dropLast, v3]
        unfold vols at *
        simp only [List.map_append, List.map_cons, List.append_assoc, List.cons_append, List.nil_append]
        rw [v1, v4, v2]
      · simp; omega
      · simp
      · simp
      · intro hle; exact absurd hgt (not_lt.2 hle)
  · unfold splitAtCloud
    rw [if_neg hin]
    exact ⟨act, rest, w0, _, rfl, h, hrest, hv, rfl, by omega, le_rfl, fun _ => ⟨by omega, rfl⟩⟩

theorem index_le_general (c : K) (act rest : WM K s) (hrest : ∀ r ∈ rest, r.vol = 0) (hne : act ≠ [])
    (hc : 0 ≤ c) (h : c ≤ volSum act) :
    watermarkIndexAboveCloud c (act ++ rest) (act.length - 1) ≤ (act.length : ℤ) - 1 := by
  rcases lt_or_eq_of_le hc with h0 | h0
  · obtain ⟨pre, r, post, rfl, h1, h2⟩ := exists_first c act 0 h0 (by rw [zero_add]; exact h)
    simp only [zero_add] at h1 h2
    rw [index_general c pre post rest r _ h0 hrest h h1 h2]
    simp; omega
  · unfold watermarkIndexAboveCloud
    rw [if_pos h0.symm]; omega

theorem maxIdx_general (act rest : WM K s) (h1 : ∀ r ∈ act, r.vol ≠ 0) (h2 : rest ≠ [])
    (h3 : ∀ r ∈ rest, r.vol = 0) : maxWatermarkIndex (act ++ rest) = (act.length : ℤ) - 1 := by
  unfold maxWatermarkIndex
  rw [List.map_append, argmaxTrue_append]
  · simp
  · intro b hb
    rw [List.mem_map] at hb
    obtain ⟨r, hr, rfl⟩ := hb
    simp [h1 r hr]
  · cases rest with
    | nil => exact absurd rfl h2
    | cons r l => simp [h3 r (by simp)]

/-- One slow-capture transfer from any reachable state, given three unused rows and one to spare. -/
theorem slowStep_shape (dens : Fin s → K) (p : Probs K s) (f : K → K) (hf : FillModel f) (n : K)
    (L k : ℕ) (wm : WM K s) (hst : SlowState L k wm) (hk : k + 4 ≤ L) :
    ∃ net wm', slowStep dens p f n wm = .ok (net, wm') ∧ SlowState L (k + 3) wm' := by
  obtain ⟨hl, act, rest, rfl, hnz, hrest, hlen⟩ := hst
  have hrl : 4 ≤ rest.length := by rw [List.length_append] at hl; omega
  have hrne : rest ≠ [] := by intro h; rw [h] at hrl; simp at hrl
  have hmx := maxIdx_general act rest hnz.ne hrne hrest
  have finish : ∀ (nf : K) (idx : ℤ) (A B : WM K s), SlowState L (k + 3) A → B.length = A.length →
      ∃ net wm', (do
        let (captured, wm) ← finishCapture 1 (fun w => cyNTrapped w dens)
          (fun w w0 e => .ok (notEnough w w0 e)) nf (cyNTrapped (act ++ rest) dens)
          (mapFills 0 (idx + 1).toNat (fun j x => x * p.fromFull j + (1 - x) * p.fromEmpty j) A) B
        .ok (-captured, wm)) = (.ok (net, wm') : Except Err (K × WM K s)) ∧ SlowState L (k + 3) wm' := by
    intro nf idx A B hA hB
    have hA' := hA.of_vols (mapFills_vols 0 (idx + 1).toNat
      (fun j x => x * p.fromFull j + (1 - x) * p.fromEmpty j) A)
    obtain ⟨c, w, h1, h2⟩ := finishCapture_shape dens nf (cyNTrapped (act ++ rest) dens) _ B L (k + 3) hA'
      (by rw [hB, hA.1, hA'.1])
    rw [h1]
    exact ⟨_, _, rfl, h2⟩
  rcases List.eq_nil_or_concat act with h0 | h0
  · subst h0
    cases rest with
    | nil => simp at hrl
    | cons r rest =>
    rw [List.nil_append] at *
    simp only [List.length_nil, Nat.cast_zero, zero_sub] at hmx
    rcases le_or_gt n 0 with hn | hn
    · -- no levels and no electrons
      have hc : f n = 0 := hf.empty n hn
      unfold slowStep
      simp only [hmx]
      rw [if_neg (by rintro ⟨-, h⟩; exact absurd h (not_lt.2 hn)), if_pos (Or.inr trivial)]
      have hsplit : ∀ (idx mx : ℤ) (w w0 : WM K s), splitAtCloud 0 idx mx w w0 = .ok (w, w0, mx) := by
        intro idx mx w w0
        unfold splitAtCloud
        rw [if_neg (by simp)]
      have hidx : ∀ (w : WM K s) mx, watermarkIndexAboveCloud 0 w mx = -1 := by
        intro w mx; unfold watermarkIndexAboveCloud; rw [if_pos rfl]
      unfold slowCloudBelow
      simp only [hc, hsplit, hidx, bind_ok]
      rw [mapFills_none _ _ _ _ (by simp)]
      simp only [sub_self, add_zero, hc, hsplit, hidx, bind_ok]
      exact finish n (-1) _ _ ⟨hl, [], r :: rest, rfl, trivial, hrest, by simp⟩ rfl
    · unfold slowStep
      simp only [hmx]
      rw [if_pos ⟨trivial, hn⟩]
      have e1 : (r :: rest).modify 0 (fun _ => (⟨f n, p.fromEmpty⟩ : Row K s)) = ⟨f n, p.fromEmpty⟩ :: rest := rfl
      have e2 : setVol (r :: rest) 0 (f n) = (⟨f n, r.fill⟩ : Row K s) :: rest := rfl
      have fin : SlowState L (k + 3) ((⟨f n, p.fromEmpty⟩ : Row K s) :: rest) := by
        refine ⟨by simpa using hl, ?_⟩
        have hrest' : ∀ r ∈ rest, r.vol = 0 := fun q hq => hrest q (by simp [hq])
        rcases lt_or_eq_of_le (hf.nonneg n) with hc | hc
        · exact ⟨[⟨f n, p.fromEmpty⟩], rest, rfl,
            ⟨hc.ne', by simpa using hc, by simpa using hf.le_one n, trivial⟩, hrest', by simp⟩
        · refine ⟨[], _, rfl, trivial, ?_, by simp⟩
          intro q hq
          rw [List.mem_cons] at hq
          rcases hq with rfl | hq
          · exact hc.symm
          · exact hrest' q hq
      unfold slowFirstCapture
      simp only [e1, e2]
      split
      · exact ⟨_, _, rfl, fin⟩
      · split
        · exact ⟨_, _, rfl, fin.of_vols (notEnough_vols _ _ _ (by simp))⟩
        · exact ⟨_, _, rfl, fin⟩
  · have hne : act ≠ [] := by obtain ⟨l, a, rfl⟩ := h0; simp
    have hla : 0 < act.length := List.length_pos_iff.2 hne
    clear h0
    have hvs := hnz.height act.length hla le_rfl
    rw [List.take_length, zero_add] at hvs
    rw [List.length_append] at hl
    unfold slowStep
    simp only [hmx]
    rw [if_neg (by rintro ⟨h, -⟩; omega)]
    rcases le_or_gt (f n) (volSum act) with hle | hgt
    · rw [if_pos (Or.inl (index_le_general (f n) act rest hrest hne (hf.nonneg n) hle))]
      unfold slowCloudBelow
      obtain ⟨A, R, B, mx, e1, e2, e3, e4, e5, e6, e7, e8⟩ := split_shape (f n) act rest (act ++ rest) hnz hrest
        (by omega) rfl hne (hf.nonneg n) (hf.le_one n)
      obtain ⟨e8, rfl⟩ := e8 hle
      rw [e1]
      simp only [bind_ok]
      generalize hg : mapFills
        (watermarkIndexAboveCloud (f n) (act ++ rest) (act.length - 1) + 1).toNat
        ((A.length : ℤ) - 1 + 1).toNat (fun j x => x * p.fromRelease j) (A ++ R) = W
      have hWv : vols W = vols (A ++ R) := by rw [← hg]; exact mapFills_vols _ _ _ _
      have hAlen : A.length = (W.take A.length).length := by
        have := vols_length hWv
        rw [List.length_append] at this
        rw [List.length_take]; omega
      generalize n + (cyNTrapped (act ++ rest) dens - cyNTrapped W dens) = nf
      -- decompose `W`
      obtain ⟨A1, R1, rfl, hA1, hR1⟩ : ∃ A1 R1, W = A1 ++ R1 ∧ vols A1 = vols A ∧ vols R1 = vols R := by
        refine ⟨W.take A.length, W.drop A.length, (List.take_append_drop _ _).symm, ?_, ?_⟩
        · have := congrArg (List.take A.length) hWv
          unfold vols at *
          rwa [← List.map_take, List.map_append, List.take_left' (by simp)] at this
        · have := congrArg (List.drop A.length) hWv
          unfold vols at *
          rwa [← List.map_drop, List.map_append, List.drop_left' (by simp)] at this
      have hl1 : A1.length = A.length := vols_length hA1
      have hl2 : R1.length = R.length := vols_length hR1
      have hR0 : ∀ r ∈ R1, r.vol = 0 := by
        intro r hr
        have hm : r.vol ∈ vols R := by rw [← hR1]; exact List.mem_map_of_mem hr
        unfold vols at hm
        rw [List.mem_map] at hm
        obtain ⟨q, hq, e⟩ := hm
        rw [← e]; exact e3 q hq
      have hne1 : A1 ≠ [] := by intro h; rw [h] at hl1; simp at hl1; omega
      obtain ⟨A2, R2, B2, mx2, g1, g2, g3, g4, g5, g6, g7, g8⟩ := split_shape (f nf) A1 R1 B
        ((NZ_of_vols 0 hA1).2 e2) hR0 (by omega) (by rw [hWv, e4]) hne1 (hf.nonneg nf) (hf.le_one nf)
      rw [← hl1, g1]
      simp only [bind_ok]
      refine finish nf _ (A2 ++ R2) B2 ⟨by rw [List.length_append]; omega, A2, R2, rfl, g2, g3, by omega⟩
        (vols_length g4)
    · have hidx := index_above_general (f n) act rest (act.length - 1) (lt_trans hvs.1 hgt) hrest hgt
      rw [hidx, if_neg (by omega)]
      unfold newTopWatermark
      rw [if_pos ⟨by omega, by rw [List.length_append]; omega⟩]
      have t : (act.length - 1 + 1 : ℤ).toNat = act.length + 0 := by omega
      have hs : ((act ++ rest).map Row.vol).sum = volSum act := by
        change volSum (act ++ rest) = _
        rw [volSum_append, volSum_zero hrest, add_zero]
      cases rest with
      | nil => simp at hrl
      | cons r rest =>
      have m1 : ∀ v : K, setVol (act ++ r :: rest) (act.length + 0) v = act ++ ⟨v, r.fill⟩ :: rest := by
        intro v
        unfold setVol
        rw [modify_append]; rfl
      simp only [t, m1, hs, bind_ok]
      refine finish n _ _ _ ⟨?_, act ++ [⟨f n - volSum act, r.fill⟩], rest, by simp, ?_,
        fun q hq => hrest q (by simp [hq]), by simp; omega⟩ rfl
      · simp at hl ⊢; omega
      · rw [NZ_append]
        exact ⟨hnz, by simp only; linarith, by simp only; linarith [hvs.1], by simpa using hf.le_one n, trivial⟩

end Arctic
