import Verif.Lemmas.Cut

/-!
# Occupancy profiles, weighted sums, and collapsing full levels
-/

set_option linter.unusedSectionVars false
set_option linter.unusedVariables false

namespace Arctic

variable {K : Type} [Field K] [LinearOrder K] [IsStrictOrderedRing K] {s : ℕ}

/-! ### occupancy -/

theorem occ_cons (r : Row K s) (l : WM K s) (d : K) (j : Fin s) :
    occ (r :: l) d j = if d ≤ r.vol then r.fill j else occ l (d - r.vol) j := rfl

theorem occ_Z (z : ℕ) (d : K) (hd : 0 < d) (j : Fin s) : occ (Z z) d j = 0 := by
  induction z with
  | zero => rfl
  | succ z ih =>
    have : (Z (z + 1) : WM K s) = zeroRow K s :: Z z := by simp [Z, List.replicate_succ]
    rw [this]
    simp only [occ_cons]
    rw [if_neg (by simpa [zeroRow] using hd)]
    simpa [zeroRow] using ih

theorem occ_append (l l' : WM K s) (hp : Pos l) (d : K) (hd : 0 < d) (j : Fin s) :
    occ (l ++ l') d j = if d ≤ volSum l then occ l d j else occ l' (d - volSum l) j := by
  induction l generalizing d with
  | nil => rw [volSum_nil, if_neg (not_le.2 hd)]; simp
  | cons r l ih =>
    have hpl : Pos l := fun x hx => hp x (by simp [hx])
    have hn := hpl.sum_nonneg
    rw [volSum_cons, List.cons_append]
    simp only [occ_cons]
    by_cases h : d ≤ r.vol
    · rw [if_pos h, if_pos (by linarith), if_pos h]
    · rw [if_neg h, ih hpl _ (by linarith [not_le.1 h])]
      by_cases h2 : d ≤ r.vol + volSum l
      · rw [if_pos (by linarith), if_pos h2, if_neg h]
      · rw [if_neg (by intro hc; apply h2; linarith), if_neg h2]
        congr 1; ring

theorem occ_append_Z (l : WM K s) (z : ℕ) (d : K) (hd : 0 < d) (j : Fin s) :
    occ (l ++ Z z) d j = occ l d j := by
  induction l generalizing d with
  | nil => exact occ_Z z d hd j
  | cons r l ih =>
    rw [List.cons_append]
    simp only [occ_cons]
    split
    · rfl
    · rename_i h; exact ih _ (by linarith [not_le.1 h])

/-- Above all levels the traps are empty. -/
theorem occ_above (l : WM K s) (hp : Pos l) (d : K) (h : volSum l < d) (j : Fin s) : occ l d j = 0 := by
  induction l generalizing d with
  | nil => rfl
  | cons r l ih =>
    have hpl : Pos l := fun x hx => hp x (by simp [hx])
    have hn := hpl.sum_nonneg
    rw [volSum_cons] at h
    simp only [occ_cons]
    rw [if_neg (by linarith)]
    exact ih hpl _ (by linarith)

/-- Change of the fill fractions of a row. -/
def mapRow (g : Fin s → K → K) (r : Row K s) : Row K s := ⟨r.vol, fun j => g j (r.fill j)⟩

theorem vols_mapRow (g : Fin s → K → K) (l : WM K s) : vols (l.map (mapRow g)) = vols l := by
  unfold vols mapRow; rw [List.map_map]; rfl

theorem occ_map (g : Fin s → K → K) (l : WM K s) (hp : Pos l) (d : K) (hd : 0 < d)
    (h : d ≤ volSum l) (j : Fin s) :
    occ (l.map (mapRow g)) d j = g j (occ l d j) := by
  induction l generalizing d with
  | nil => rw [volSum_nil] at h; linarith
  | cons r l ih =>
    rw [volSum_cons] at h
    rw [List.map_cons]
    simp only [occ_cons]
    by_cases h1 : d ≤ r.vol
    · rw [if_pos h1, if_pos (by exact h1)]; rfl
    · rw [if_neg h1, if_neg (by exact h1)]
      exact ih (fun x hx => hp x (by simp [hx])) (d - r.vol) (by linarith [not_le.1 h1]) (by linarith)

theorem occ_cut (c : K) (act : WM K s) (hc : 0 < c) (d : K) (hd : 0 < d) (j : Fin s) :
    occ ((cutAt c act).1 ++ (cutAt c act).2) d j = occ act d j := by
  induction act generalizing c d with
  | nil =>
    simp only [cutAt, List.append_nil, occ]; split <;> rfl
  | cons r rs ih =>
    unfold cutAt
    split
    · simp only [List.cons_append, List.nil_append, occ]
      by_cases h : d ≤ c
      · rw [if_pos h, if_pos (by linarith)]
      · rw [if_neg h]
        by_cases h2 : d ≤ r.vol
        · rw [if_pos (by linarith), if_pos h2]
        · rw [if_neg (by intro hh; apply h2; linarith), if_neg h2]
          congr 1; ring
    · split
      · rfl
      · rename_i h1 h2
        simp only [List.cons_append, occ]
        split
        · rfl
        · rename_i h3
          exact ih _ (cutAt_sub_pos h1 h2) _ (by linarith [not_le.1 h3])

/-- The occupancy after rewriting the fill fractions below a cut. -/
theorem occ_cut_map (g : Fin s → K → K) (c : K) (act : WM K s) (hp : Pos act) (hc : 0 < c) (d : K)
    (hd : 0 < d) (j : Fin s) :
    occ ((cutAt c act).1.map (mapRow g) ++ (cutAt c act).2) d j =
      if d ≤ c then g j (occ act d j) else occ act d j := by
  have hpc := cutAt_pos c act hc hp
  have hv := cutAt_vol c act
  have hp1 : Pos ((cutAt c act).1.map (mapRow g)) := pos_of_vols (vols_mapRow g _).symm hpc.left
  have hv1 : volSum ((cutAt c act).1.map (mapRow g)) = c := by
    rw [volSum_eq_of_vols (vols_mapRow g _)]; exact hv
  have key := occ_cut c act hc d hd j
  rw [occ_append _ _ hpc.left d hd, hv] at key
  rw [occ_append _ _ hp1 d hd, hv1]
  by_cases h : d ≤ c
  · rw [if_pos h] at key ⊢
    rw [if_pos h, occ_map g _ hpc.left d hd (by rw [hv]; exact h), key]
  · rw [if_neg h] at key ⊢
    rw [if_neg h, key]

/-! ### weighted sums -/

/-- Sum over the levels of volume times a function of the fill fractions. -/
def wsum (h : (Fin s → K) → K) (l : WM K s) : K := (l.map fun r => r.vol * h r.fill).sum

theorem wsum_nil (h : (Fin s → K) → K) : wsum h ([] : WM K s) = 0 := by simp [wsum]
theorem wsum_cons (h : (Fin s → K) → K) (r : Row K s) (l : WM K s) :
    wsum h (r :: l) = r.vol * h r.fill + wsum h l := by simp [wsum]
theorem wsum_append (h : (Fin s → K) → K) (l l' : WM K s) :
    wsum h (l ++ l') = wsum h l + wsum h l' := by simp [wsum]
theorem wsum_Z (h : (Fin s → K) → K) (z : ℕ) : wsum h (Z z : WM K s) = 0 := by
  simp [wsum, Z, zeroRow]
theorem wsum_zero_vol (h : (Fin s → K) → K) (l : WM K s) (hl : ∀ r ∈ l, r.vol = 0) : wsum h l = 0 := by
  induction l with
  | nil => exact wsum_nil h
  | cons r l ih =>
    rw [wsum_cons, hl r (by simp), ih fun x hx => hl x (by simp [hx])]; ring

/-- Electrons per unit volume with given fill fractions. -/
def eDens (dens : Fin s → K) (x : Fin s → K) : K := ∑ j, x j * dens j

theorem cyNTrapped_eq (wm : WM K s) (dens : Fin s → K) : cyNTrapped wm dens = wsum (eDens dens) wm := by
  unfold cyNTrapped wsum eDens
  congr 1
  apply List.map_congr_left
  intro r _
  rw [Finset.mul_sum]
  apply Finset.sum_congr rfl
  intro j _; ring

theorem wsum_cut (h : (Fin s → K) → K) (h0 : h (fun _ => 0) = 0) (c : K) (act : WM K s) :
    wsum h ((cutAt c act).1 ++ (cutAt c act).2) = wsum h act := by
  induction act generalizing c with
  | nil => simp [cutAt, wsum, h0]
  | cons r rs ih =>
    unfold cutAt
    split
    · simp only [List.cons_append, List.nil_append, wsum_cons]; ring
    · split
      · rfl
      · simp only [List.cons_append, wsum_cons, ih]

/-- The number of trapped electrons is determined by the occupancy profile: two arrays with
non-negative volumes and the same occupancy at every depth have the same weighted sums. -/
theorem wsum_congr (h : (Fin s → K) → K) (h0 : h (fun _ => 0) = 0) :
    ∀ (n : ℕ) (l l' : WM K s), l.length + l'.length ≤ n → Pos l → Pos l' →
      (∀ d, 0 < d → ∀ j, occ l d j = occ l' d j) → wsum h l = wsum h l' := by
  -- a list with vanishing occupancy
  have hzero : ∀ l : WM K s, Pos l → (∀ d, 0 < d → ∀ j, occ l d j = 0) → wsum h l = 0 := by
    intro l
    induction l with
    | nil => intros; exact wsum_nil h
    | cons r l ih =>
      intro hp ho
      have hr := hp r (by simp)
      have hf : r.fill = fun _ => 0 := by
        funext j
        have := ho r.vol hr j
        simpa [occ] using this
      rw [wsum_cons, hf, h0, mul_zero, zero_add]
      apply ih (fun x hx => hp x (by simp [hx]))
      intro d hd j
      have := ho (d + r.vol) (by linarith) j
      simp only [occ_cons] at this
      rw [if_neg (by linarith)] at this
      simpa using this
  intro n
  induction n with
  | zero =>
    intro l l' hn _ _ _
    have e1 : l = [] := List.length_eq_zero_iff.1 (by omega)
    have e2 : l' = [] := List.length_eq_zero_iff.1 (by omega)
    rw [e1, e2]
  | succ n ih =>
    intro l l' hn hp hp' ho
    cases l with
    | nil => rw [wsum_nil, hzero l' hp' fun d hd j => by rw [← ho d hd j]; rfl]
    | cons r l =>
      cases l' with
      | nil => rw [wsum_nil, hzero _ hp fun d hd j => by rw [ho d hd j]; rfl]
      | cons r' l' =>
        have hr := hp r (by simp)
        have hr' := hp' r' (by simp)
        have hpl : Pos l := fun x hx => hp x (by simp [hx])
        have hpl' : Pos l' := fun x hx => hp' x (by simp [hx])
        have hfill : r.fill = r'.fill := by
          funext j
          have hm : 0 < min r.vol r'.vol := lt_min hr hr'
          have := ho _ hm j
          simp only [occ_cons] at this
          rwa [if_pos (min_le_left _ _), if_pos (min_le_right _ _)] at this
        simp only [List.length_cons] at hn
        rcases lt_trichotomy r.vol r'.vol with hlt | heq | hlt
        · have := ih l (⟨r'.vol - r.vol, r'.fill⟩ :: l') (by simp only [List.length_cons]; omega) hpl
            (by
              intro x hx
              rw [List.mem_cons] at hx
              rcases hx with rfl | hx
              · simp only; linarith
              · exact hpl' x hx)
            (by
              intro d hd j
              have := ho (d + r.vol) (by linarith) j
              simp only [occ_cons] at this
              rw [if_neg (by linarith), add_sub_cancel_right] at this
              rw [this]
              simp only [occ_cons]
              by_cases h1 : d ≤ r'.vol - r.vol
              · rw [if_pos (by linarith), if_pos h1]
              · rw [if_neg (by intro hh; apply h1; linarith), if_neg h1]
                congr 1; ring)
          rw [wsum_cons, this, wsum_cons, wsum_cons, hfill]; ring
        · have := ih l l' (by omega) hpl hpl' (by
            intro d hd j
            have := ho (d + r.vol) (by linarith) j
            simp only [occ_cons] at this
            rw [if_neg (by linarith), if_neg (by linarith), ← heq, add_sub_cancel_right] at this
            exact this)
          rw [wsum_cons, wsum_cons, this, heq, hfill]
        · have := ih (⟨r.vol - r'.vol, r.fill⟩ :: l) l' (by simp only [List.length_cons]; omega)
            (by
              intro x hx
              rw [List.mem_cons] at hx
              rcases hx with rfl | hx
              · simp only; linarith
              · exact hpl x hx) hpl'
            (by
              intro d hd j
              have := ho (d + r'.vol) (by linarith) j
              simp only [occ_cons] at this
              rw [if_neg (show ¬ d + r'.vol ≤ r'.vol by linarith), add_sub_cancel_right] at this
              rw [← this]
              simp only [occ_cons]
              by_cases h1 : d ≤ r.vol - r'.vol
              · rw [if_pos h1, if_pos (by linarith)]
              · rw [if_neg h1, if_neg (by intro hh; apply h1; linarith)]
                congr 1; ring)
          rw [wsum_cons, wsum_cons, ← this, wsum_cons, hfill]; ring

/-! ### `watermarks[lo:hi, 1:] = …` -/

theorem mapFills_eq (lo hi : ℕ) (g : Fin s → K → K) (a b c : WM K s) (h1 : lo = a.length)
    (h2 : hi = a.length + b.length) :
    mapFills lo hi g (a ++ b ++ c) = a ++ b.map (mapRow g) ++ c := by
  unfold mapFills
  rw [List.mapIdx_append, List.mapIdx_append]
  congr 1
  · congr 1
    · apply List.ext_getElem
      · simp
      · intro i hi1 hi2
        rw [List.getElem_mapIdx]
        simp only [List.length_mapIdx] at hi1
        rw [if_neg (by omega)]
    · apply List.ext_getElem
      · simp
      · intro i hi1 hi2
        rw [List.getElem_mapIdx, List.getElem_map]
        simp only [List.length_mapIdx] at hi1
        rw [if_pos (by omega)]; rfl
  · apply List.ext_getElem
    · simp
    · intro i hi1 hi2
      rw [List.getElem_mapIdx]
      simp only [List.length_append] at *
      rw [if_neg (by omega)]

theorem mapFills_prefix (hi : ℕ) (g : Fin s → K → K) (b c : WM K s) (h2 : hi = b.length) :
    mapFills 0 hi g (b ++ c) = b.map (mapRow g) ++ c := by
  have := mapFills_eq 0 hi g [] b c rfl (by simpa using h2)
  simpa using this

theorem mapFills_none (lo hi : ℕ) (g : Fin s → K → K) (l : WM K s) (h : hi ≤ lo) :
    mapFills lo hi g l = l := by
  unfold mapFills
  apply List.ext_getElem
  · simp
  · intro i hi1 hi2
    rw [List.getElem_mapIdx, if_neg (by omega)]

/-! ### collapsing -/

theorem argmaxTrue_spec (l : List Bool) (i : ℕ) (hi : i < argmaxTrue l) :
    ∃ h : i < l.length, l[i] = false := by
  unfold argmaxTrue at hi
  split at hi
  · rename_i h
    refine ⟨by omega, ?_⟩
    have := List.not_of_lt_findIdx hi
    simpa using this
  · omega

theorem argmaxTrue_true (l : List Bool) (h : 0 < argmaxTrue l) :
    ∃ h : argmaxTrue l < l.length, l[argmaxTrue l] = true := by
  unfold argmaxTrue at *
  split
  · rename_i h1
    refine ⟨h1, ?_⟩
    exact List.findIdx_getElem (p := id) (w := h1)
  · rename_i h1; rw [if_neg h1] at h; omega

/-- Everything before the index found by the code is filled. -/
theorem indexNotFilled_filled (filled : K) (wm : WM K s) (i : ℕ) (hi : i < indexNotFilled filled wm) :
    ∃ h : i < wm.length, ∀ j, wm[i].fill j = filled := by
  unfold indexNotFilled at hi
  generalize hl : (List.finRange s).map (fun i =>
    argmaxTrue (wm.map fun r : Row K s => decide (r.fill i ≠ filled))) = l at hi
  cases hm : l.min? with
  | none => rw [hm] at hi; simp at hi
  | some m =>
    rw [hm] at hi
    simp only [Option.getD_some] at hi
    have hmin := (List.min?_eq_some_iff.1 hm)
    have hall : ∀ j : Fin s, i < argmaxTrue (wm.map fun r : Row K s => decide (r.fill j ≠ filled)) := by
      intro j
      have : argmaxTrue (wm.map fun r : Row K s => decide (r.fill j ≠ filled)) ∈ l := by
        rw [← hl]; exact List.mem_map_of_mem (List.mem_finRange j)
      exact lt_of_lt_of_le hi (hmin.2 _ this)
    -- there is at least one species
    have hs : ∃ j : Fin s, True := by
      have := hmin.1
      rw [← hl, List.mem_map] at this
      obtain ⟨j, -, -⟩ := this; exact ⟨j, trivial⟩
    obtain ⟨j0, -⟩ := hs
    obtain ⟨hlen, -⟩ := argmaxTrue_spec _ i (hall j0)
    rw [List.length_map] at hlen
    refine ⟨hlen, fun j => ?_⟩
    obtain ⟨h1, h2⟩ := argmaxTrue_spec _ i (hall j)
    rw [List.getElem_map] at h2
    simpa using h2

/-- The index found by the code stays within the active levels. -/
theorem indexNotFilled_le (filled : K) (act : WM K s) (z : ℕ) :
    indexNotFilled filled (act ++ Z (z + 1)) ≤ act.length := by
  by_contra hc
  have hc := not_le.1 hc
  have hle : ∀ j : Fin s, indexNotFilled filled (act ++ Z (z + 1)) ≤
      argmaxTrue ((act ++ Z (z + 1)).map fun r : Row K s => decide (r.fill j ≠ filled)) := by
    intro j
    unfold indexNotFilled
    cases hm : ((List.finRange s).map fun i =>
      argmaxTrue ((act ++ Z (z + 1)).map fun r : Row K s => decide (r.fill i ≠ filled))).min? with
    | none => simp
    | some m =>
      simp only [Option.getD_some]
      exact (List.min?_eq_some_iff.1 hm).2 _ (List.mem_map_of_mem (List.mem_finRange j))
  have hs : ∃ j : Fin s, True := by
    by_contra hn
    push Not at hn
    have : indexNotFilled filled (act ++ Z (z + 1)) = 0 := by
      unfold indexNotFilled
      cases s with
      | zero => simp
      | succ s => exact (hn 0).elim
    omega
  obtain ⟨j, -⟩ := hs
  have hj := hle j
  obtain ⟨h1, h2⟩ := argmaxTrue_true _ (show 0 < argmaxTrue ((act ++ Z (z + 1)).map fun r : Row K s =>
    decide (r.fill j ≠ filled)) by omega)
  rw [List.getElem_map] at h2
  have hf := indexNotFilled_filled filled (act ++ Z (z + 1)) act.length hc
  obtain ⟨h3, h4⟩ := hf
  have hz0 : filled = 0 := by
    have h4 := h4 j
    rw [List.getElem_append_right le_rfl] at h4
    simp [Z, zeroRow] at h4
    exact h4.symm
  have : ∀ h, (act ++ Z (z + 1))[argmaxTrue ((act ++ Z (z + 1)).map fun r : Row K s =>
      decide (r.fill j ≠ filled))]'h = zeroRow K s := by
    intro h
    rw [List.getElem_append_right (by omega)]
    simp [Z]
  rw [this] at h2
  simp [zeroRow, hz0] at h2

/-- The effect of collapsing on the active levels. -/
def mergeTop (k : ℕ) (row0 : Fin s → K) (act : WM K s) : WM K s :=
  if k ≤ 1 then act else ⟨volSum (act.take k), row0⟩ :: act.drop k

theorem collapseRows_eq (k : ℕ) (act : WM K s) (z : ℕ) (row0 : Row K s) (hk : 2 ≤ k)
    (hl : k ≤ act.length) :
    collapseRows k (act ++ Z z) row0 = row0 :: act.drop k ++ Z (z + (k - 1)) := by
  unfold collapseRows
  obtain ⟨q, rfl⟩ : ∃ q, k = q + 1 := ⟨k - 1, by omega⟩
  rw [Nat.add_sub_cancel, List.drop_append_of_le_length hl]
  have e1 : List.replicate (q + 1) (zeroRow K s) ++ (act.drop (q + 1) ++ Z z) =
      List.replicate q (zeroRow K s) ++ (zeroRow K s :: (act.drop (q + 1) ++ Z z)) := by
    rw [List.replicate_succ']; simp
  rw [e1]
  have e2 := List.rotate_append_length_eq (List.replicate q (zeroRow K s))
    (zeroRow K s :: (act.drop (q + 1) ++ Z z))
  rw [List.length_replicate] at e2
  rw [e2]
  simp only [List.cons_append, List.set_cons_zero, List.append_assoc]
  congr 2
  unfold Z
  rw [← List.replicate_add]

theorem volumeFilled_eq (k : ℕ) (act : WM K s) (z : ℕ) (hl : k ≤ act.length) :
    volumeFilled k (act ++ Z z) = volSum (act.take k) := by
  unfold volumeFilled volSum
  rw [List.take_append_of_le_length hl]

theorem mergeTop_length (k : ℕ) (row0 : Fin s → K) (act : WM K s) (hl : k ≤ act.length) :
    (mergeTop k row0 act).length + (k - 1) = act.length := by
  unfold mergeTop
  split
  · omega
  · simp; omega

/-- `collapse_redundant_watermarks` without a copy. -/
theorem collapse_eq (filled : K) (act : WM K s) (z : ℕ) :
    ∃ k ≤ act.length, (∀ r ∈ act.take k, r.fill = fun _ => filled) ∧
      collapse filled (act ++ Z (z + 1)) =
        mergeTop k (fun _ => filled) act ++ Z (z + (k - 1) + 1) := by
  have hk := indexNotFilled_le filled act z
  refine ⟨indexNotFilled filled (act ++ Z (z + 1)), hk, ?_, ?_⟩
  · intro r hr
    rw [List.mem_take_iff_getElem] at hr
    obtain ⟨i, hi, rfl⟩ := hr
    obtain ⟨h1, h2⟩ := indexNotFilled_filled filled (act ++ Z (z + 1)) i (by omega)
    funext j
    have := h2 j
    rwa [List.getElem_append_left (by omega)] at this
  · unfold collapse mergeTop
    simp only
    split
    · rename_i h
      rw [show z + (indexNotFilled filled (act ++ Z (z + 1)) - 1) + 1 = z + 1 by omega]
    · rw [collapseRows_eq _ _ _ _ (by omega) hk, volumeFilled_eq _ _ _ hk]
      congr 2; omega

/-- `collapse_redundant_watermarks` with a copy having the same volumes. -/
theorem collapseCopy_eq (filled : K) (act act' : WM K s) (z : ℕ) (hv : vols act = vols act') :
    ∃ k ≤ act.length, (∀ r ∈ act.take k, r.fill = fun _ => filled) ∧
      collapseCopy filled (act ++ Z (z + 1)) (act' ++ Z (z + 1)) =
        (mergeTop k (fun _ => filled) act ++ Z (z + (k - 1) + 1),
          mergeTop k (fun j => ((act'.take k).map fun r => r.vol * r.fill j).sum /
            volSum (act'.take k)) act' ++ Z (z + (k - 1) + 1)) := by
  have hk := indexNotFilled_le filled act z
  have hlen : act'.length = act.length := by
    have := congrArg List.length hv; simpa [vols] using this.symm
  refine ⟨indexNotFilled filled (act ++ Z (z + 1)), hk, ?_, ?_⟩
  · intro r hr
    rw [List.mem_take_iff_getElem] at hr
    obtain ⟨i, hi, rfl⟩ := hr
    obtain ⟨h1, h2⟩ := indexNotFilled_filled filled (act ++ Z (z + 1)) i (by omega)
    funext j
    have := h2 j
    rwa [List.getElem_append_left (by omega)] at this
  · unfold collapseCopy mergeTop
    simp only
    generalize hkk : indexNotFilled filled (act ++ Z (z + 1)) = k at hk
    split
    · rename_i h
      rw [show z + (k - 1) + 1 = z + 1 by omega]
    · have hv' : volSum (act.take k) = volSum (act'.take k) := by
        apply volSum_eq_of_vols
        unfold vols at *
        rw [List.map_take, List.map_take, hv]
      rw [collapseRows_eq _ _ _ _ (by omega) hk, collapseRows_eq _ _ _ _ (by omega) (by omega),
        volumeFilled_eq _ _ _ hk, hv']
      have e3 : copyFillValues k (act' ++ Z (z + 1)) =
          fun j => ((act'.take k).map fun r => r.vol * r.fill j).sum / volSum (act'.take k) := by
        funext j
        unfold copyFillValues
        rw [volumeFilled_eq _ _ _ (by omega), List.take_append_of_le_length (by omega)]
      rw [e3, show z + 1 + (k - 1) = z + (k - 1) + 1 by omega]

theorem mergeTop_pos (k : ℕ) (row0 : Fin s → K) (act : WM K s) (hp : Pos act) (hl : k ≤ act.length) :
    Pos (mergeTop k row0 act) := by
  unfold mergeTop
  split
  · exact hp
  · intro r hr
    rw [List.mem_cons] at hr
    rcases hr with rfl | hr
    · apply Pos.sum_pos (fun x hx => hp x (List.mem_of_mem_take hx))
      intro hc
      have := congrArg List.length hc
      rw [List.length_take, List.length_nil] at this; omega
    · exact hp r (List.mem_of_mem_drop hr)

theorem mergeTop_volSum (k : ℕ) (row0 : Fin s → K) (act : WM K s) :
    volSum (mergeTop k row0 act) = volSum act := by
  unfold mergeTop
  split
  · rfl
  · rw [volSum_cons, ← volSum_append, List.take_append_drop]

theorem mergeTop_vols (k : ℕ) (row0 row0' : Fin s → K) (act act' : WM K s) (h : vols act = vols act') :
    vols (mergeTop k row0 act) = vols (mergeTop k row0' act') := by
  unfold mergeTop
  split
  · exact h
  · have hv : volSum (act.take k) = volSum (act'.take k) := by
      apply volSum_eq_of_vols
      unfold vols at *
      rw [List.map_take, List.map_take, h]
    unfold vols at *
    rw [List.map_cons, List.map_cons, List.map_drop, List.map_drop, h, hv]

theorem wsum_const (h : (Fin s → K) → K) (x : Fin s → K) (l : WM K s) (hl : ∀ r ∈ l, r.fill = x) :
    wsum h l = volSum l * h x := by
  induction l with
  | nil => rw [wsum_nil, volSum_nil, zero_mul]
  | cons r l ih =>
    rw [wsum_cons, volSum_cons, ih fun r hr => hl r (by simp [hr]), hl r (by simp)]; ring

theorem mergeTop_wsum (h : (Fin s → K) → K) (k : ℕ) (x : Fin s → K) (act : WM K s)
    (hf : ∀ r ∈ act.take k, r.fill = x) : wsum h (mergeTop k x act) = wsum h act := by
  unfold mergeTop
  split
  · rfl
  · conv_rhs => rw [← List.take_append_drop k act, wsum_append, wsum_const h x _ hf]
    rw [wsum_cons]

theorem occ_const (x : Fin s → K) (l : WM K s) (hl : ∀ r ∈ l, r.fill = x) (hp : Pos l) (d : K) (hd : 0 < d)
    (h : d ≤ volSum l) (j : Fin s) : occ l d j = x j := by
  induction l generalizing d with
  | nil => rw [volSum_nil] at h; linarith
  | cons r l ih =>
    rw [volSum_cons] at h
    simp only [occ_cons]
    split
    · rw [hl r (by simp)]
    · rename_i h1
      exact ih (fun r hr => hl r (by simp [hr])) (fun r hr => hp r (by simp [hr])) _
        (by linarith [not_le.1 h1]) (by linarith)

theorem mergeTop_occ (k : ℕ) (x : Fin s → K) (act : WM K s) (hp : Pos act)
    (hf : ∀ r ∈ act.take k, r.fill = x) (d : K) (hd : 0 < d) (j : Fin s) :
    occ (mergeTop k x act) d j = occ act d j := by
  unfold mergeTop
  split
  · rfl
  · have hpt : Pos (act.take k) := fun r hr => hp r (List.mem_of_mem_take hr)
    conv_rhs => rw [← List.take_append_drop k act, occ_append _ _ hpt d hd]
    simp only [occ_cons]
    split
    · rename_i h; rw [occ_const x _ hf hpt d hd h]
    · rfl

/-- The copy keeps its trapped electrons: the merged level carries the volume-weighted mean. -/
theorem mergeTop_copy_wsum (dens : Fin s → K) (k : ℕ) (act : WM K s) (hp : Pos act)
    (hl : k ≤ act.length) :
    wsum (eDens dens) (mergeTop k (fun j => ((act.take k).map fun r => r.vol * r.fill j).sum /
      volSum (act.take k)) act) = wsum (eDens dens) act := by
  unfold mergeTop
  split
  · rfl
  · have hne : volSum (act.take k) ≠ 0 := by
      apply ne_of_gt
      apply Pos.sum_pos (fun x hx => hp x (List.mem_of_mem_take hx))
      intro hc
      have := congrArg List.length hc
      rw [List.length_take, List.length_nil] at this; omega
    conv_rhs => rw [← List.take_append_drop k act, wsum_append]
    rw [wsum_cons]
    congr 1
    simp only
    generalize act.take k = l at *
    unfold eDens
    rw [Finset.mul_sum]
    have : ∀ j, volSum l * ((l.map fun r => r.vol * r.fill j).sum / volSum l * dens j) =
        (l.map fun r => r.vol * r.fill j).sum * dens j := by
      intro j; field_simp
    rw [Finset.sum_congr rfl fun j _ => this j]
    clear this hne
    induction l with
    | nil => simp [wsum]
    | cons r l ih =>
      rw [wsum_cons, ← ih]
      simp only [List.map_cons, List.sum_cons, add_mul, Finset.sum_add_distrib]
      congr 1
      rw [Finset.mul_sum]
      apply Finset.sum_congr rfl
      intro j _; ring

theorem mergeTop_fill (k : ℕ) (x : Fin s → K) (act : WM K s) (P : (Fin s → K) → Prop)
    (hx : 2 ≤ k → P x) (h : ∀ r ∈ act, P r.fill) : ∀ r ∈ mergeTop k x act, P r.fill := by
  unfold mergeTop
  split
  · exact h
  · intro r hr
    rw [List.mem_cons] at hr
    rcases hr with rfl | hr
    · exact hx (by omega)
    · exact h r (List.mem_of_mem_drop hr)

end Arctic
