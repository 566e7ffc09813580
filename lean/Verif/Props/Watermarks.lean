import Verif.Lemmas.MgrBounds

/-!
# Watermark array helpers: C49, C50
-/

set_option linter.unusedSectionVars false
set_option linter.unusedVariables false

namespace Arctic

variable {K : Type} [Field K] [LinearOrder K] [IsStrictOrderedRing K] {s : ℕ}

/-! ## C49 — index arithmetic -/

/-- **C49**: `roll_2d_vertical_1` moves row `i` to row `i + 1` and the last row to row 0. -/
theorem C49_roll {α : Type} (arr : List α) :
    (roll2dVertical1 arr).length = arr.length ∧
      ∀ i, i < arr.length → (roll2dVertical1 arr)[(i + 1) % arr.length]? = arr[i]? := by
  rcases arr.eq_nil_or_concat with rfl | ⟨l, a, rfl⟩
  · exact ⟨rfl, fun i hi => absurd hi (by simp)⟩
  · rw [roll_eq _ (by simp)]
    simp only [List.concat_eq_append, List.getLast_append_singleton, List.dropLast_concat]
    refine ⟨by simp, fun i hi => ?_⟩
    simp only [List.length_append, List.length_singleton] at hi ⊢
    rcases Nat.lt_or_ge i l.length with h | h
    · rw [Nat.mod_eq_of_lt (by omega), List.getElem?_cons_succ, List.getElem?_append_left h]
    · have : i = l.length := by omega
      subst this
      rw [Nat.mod_self]; simp

example : roll2dVertical1 [1, 2, 3, 4] = [4, 1, 2, 3] := by decide +kernel

/-- **C49**: `cy_value_in_cumsum` is membership in the cumulative sums. -/
theorem C49_cumsum (v : K) (arr : List K) :
    cyValueInCumsum v arr = true ↔ ∃ i < arr.length, v = (arr.take (i + 1)).sum :=
  cyValueInCumsum_iff v arr

example : cyValueInCumsum (5 : ℚ) [2, 3, 7] = true ∧ cyValueInCumsum (3 : ℚ) [2, 3, 7] = false := by
  decide +kernel

/-- **C49**: the index helper returns the first level whose cumulative volume reaches the cloud, if the total
does; otherwise the row after the highest level; and −1 for no cloud. -/
theorem C49_index (cloud : K) (wm : WM K s) (maxIdx : ℤ) :
    (cloud = 0 → watermarkIndexAboveCloud cloud wm maxIdx = -1) ∧
    (cloud ≠ 0 → volSum wm < cloud → watermarkIndexAboveCloud cloud wm maxIdx = maxIdx + 1) ∧
    (cloud ≠ 0 → cloud ≤ volSum wm → wm ≠ [] → ∃ i < wm.length,
      watermarkIndexAboveCloud cloud wm maxIdx = i ∧ cloud ≤ volSum (wm.take (i + 1)) ∧
      ∀ j < i, volSum (wm.take (j + 1)) < cloud) := by
  have hv : ∀ k, volSum (wm.take k) = ((wm.map Row.vol).take k).sum := fun k => by
    unfold volSum; rw [List.map_take]
  refine ⟨fun h => by unfold watermarkIndexAboveCloud; rw [if_pos h], fun h h1 => ?_, fun h h1 h2 => ?_⟩
  · unfold watermarkIndexAboveCloud
    rw [if_neg h]
    exact cyIndexAbove_total cloud wm maxIdx h1
  · have hlen : 0 < wm.length := List.length_pos_iff.2 h2
    have hex : ∃ i, cloud ≤ volSum (wm.take (i + 1)) :=
      ⟨wm.length - 1, by rwa [List.take_of_length_le (by omega)]⟩
    classical
    refine ⟨Nat.find hex, ?_, ?_, Nat.find_spec hex, fun j hj => not_le.1 (Nat.find_min hex hj)⟩
    · have := Nat.find_min' hex (m := wm.length - 1) (by rwa [List.take_of_length_le (by omega)])
      omega
    · unfold watermarkIndexAboveCloud
      rw [if_neg h]
      refine cyIndexAbove_first cloud wm maxIdx _ ?_ h1 ?_ ?_
      · have := Nat.find_min' hex (m := wm.length - 1) (by rwa [List.take_of_length_le (by omega)])
        omega
      · rw [← hv]; exact Nat.find_spec hex
      · intro j hj
        rw [← hv]; exact not_le.1 (Nat.find_min hex hj)

example : watermarkIndexAboveCloud (1/2 : ℚ) ([⟨1/4, fun _ => 1⟩, ⟨1/4, fun _ => 1/2⟩, ⟨1/4, fun _ => 0⟩, ⟨0, fun _ => 0⟩] : WM ℚ 1) 2 = 1 := by
  decide +kernel

/-! ## C50 — splitting and collapsing -/

theorem occ_cons' (r : Row K s) (l : WM K s) (d : K) (j : Fin s) :
    occ (r :: l) d j = if d ≤ r.vol then r.fill j else occ l (d - r.vol) j := rfl

theorem occ_prefix (pre l l' : WM K s) (hp : ∀ r ∈ pre, 0 ≤ r.vol) (j : Fin s)
    (h : ∀ d, 0 < d → occ l d j = occ l' d j) : ∀ d, 0 < d → occ (pre ++ l) d j = occ (pre ++ l') d j := by
  induction pre with
  | nil => exact h
  | cons r pre ih =>
    intro d hd
    rw [List.cons_append, List.cons_append, occ_cons', occ_cons']
    split
    · rfl
    · rename_i hlt
      exact ih (fun q hq => hp q (List.mem_cons_of_mem _ hq)) _ (by linarith [not_le.1 hlt])

theorem occ_filled_prefix (x : Fin s → K) (l l' : WM K s) (hl : ∀ r ∈ l, r.fill = x) (hp : ∀ r ∈ l, 0 ≤ r.vol)
    (j : Fin s) : ∀ d, 0 < d → occ (l ++ l') d j = if d ≤ volSum l then x j else occ l' (d - volSum l) j := by
  induction l with
  | nil => intro d hd; rw [List.nil_append, volSum_nil, if_neg (not_le.2 hd), sub_zero]
  | cons r l ih =>
    intro d hd
    have hn : 0 ≤ volSum l := by
      unfold volSum; apply List.sum_nonneg
      intro y hy; rw [List.mem_map] at hy; obtain ⟨q, hq, rfl⟩ := hy
      exact hp q (List.mem_cons_of_mem _ hq)
    rw [List.cons_append, occ_cons', volSum_cons]
    by_cases h1 : d ≤ r.vol
    · rw [if_pos h1, if_pos (by linarith), hl r List.mem_cons_self]
    · rw [if_neg h1, ih (fun q hq => hl q (List.mem_cons_of_mem _ hq))
        (fun q hq => hp q (List.mem_cons_of_mem _ hq)) _ (by linarith [not_le.1 h1])]
      by_cases h2 : d ≤ r.vol + volSum l
      · rw [if_pos h2, if_pos (by linarith)]
      · rw [if_neg h2, if_neg (by intro h; exact h2 (by linarith))]
        congr 1; ring

/-- **C50**, splitting: with an unused row left, inserting a level at the height of the cloud (at the index
the helper returns) succeeds, changes neither the occupancy at any depth nor the number of electrons, and the
height of the cloud is then the height of a level. -/
theorem C50_split (wm : WM K s) (hw : WellFormed wm) (r0 : Row K s) (hspare : wm.getLast? = some r0) (hr0 : r0.vol = 0)
    (c : K) (hc : 0 < c) (hcv : c ≤ volSum wm) (mx : ℤ) (dens : Fin s → K) :
    ∃ wm', updateVolumes wm c (watermarkIndexAboveCloud c wm mx) = .ok wm' ∧ wm'.length = wm.length ∧
      (∀ d, 0 < d → ∀ j, occ wm' d j = occ wm d j) ∧ electrons dens wm' = electrons dens wm ∧
      ∃ i < wm'.length, volSum (wm'.take (i + 1)) = c := by
  have hne : wm ≠ [] := by rintro rfl; cases hspare
  obtain ⟨i, hi, hidx, h1, h2⟩ := (C49_index c wm mx).2.2 hc.ne' hcv hne
  rw [hidx]
  have hnn := hw.vol_nonneg
  -- decompose
  have hdec : wm = wm.take i ++ wm[i] :: wm.drop (i + 1) := by
    rw [← List.drop_eq_getElem_cons hi, List.take_append_drop]
  set pre := wm.take i with hpre
  set r := wm[i] with hr
  set rest := wm.drop (i + 1) with hrest
  have hpl : pre.length = i := by rw [hpre, List.length_take]; omega
  have htk : wm.take (i + 1) = pre ++ [r] := by
    rw [hpre, hr]; exact (List.take_concat_get' wm i hi).symm
  have hprev : volSum pre < c := by
    rcases Nat.eq_zero_or_pos i with h0 | h0
    · have : pre = [] := by rw [hpre, h0]; rfl
      rw [this, volSum_nil]; exact hc
    · have := h2 (i - 1) (by omega)
      rwa [Nat.sub_add_cancel h0] at this
  rw [htk, volSum_append, volSum_cons, volSum_nil, add_zero] at h1
  have hrestne : rest ≠ [] := by
    intro h
    rw [h] at hdec
    rw [hdec, List.getLast?_append] at hspare
    simp only [List.getLast?_singleton, Option.some_or, Option.some.injEq] at hspare
    rw [hspare, hr0] at h1; linarith
  have hlast : rest = rest.dropLast ++ [r0] := by
    have hl : rest.getLast hrestne = r0 := by
      have : wm.getLast? = rest.getLast? := by
        rw [hdec, List.getLast?_append, List.getLast?_cons, List.getLast?_eq_some_getLast hrestne]; simp
      rw [hspare, List.getLast?_eq_some_getLast hrestne] at this
      injection this with this; exact this.symm
    conv_lhs => rw [← List.dropLast_append_getLast hrestne, hl]
  have hupd := cyUpdateVolumes_eq pre rest r c hrestne
  rw [← hdec, hpl] at hupd
  have hpreV : (pre.map Row.vol).sum = volSum pre := rfl
  rw [hpreV] at hupd
  refine ⟨pre ++ ⟨c - volSum pre, r.fill⟩ :: ⟨r.vol - (c - volSum pre), r.fill⟩ :: rest.dropLast,
    ?_, ?_, ?_, ?_, i, ?_, ?_⟩
  · unfold updateVolumes
    rw [if_neg (by omega), Int.toNat_natCast]
    exact hupd
  · have e1 := congrArg List.length hdec
    have e2 := congrArg List.length hlast
    simp only [List.length_append, List.length_cons, List.length_nil] at e1 e2 ⊢
    omega
  · intro d hd j
    conv_rhs => rw [hdec]
    refine occ_prefix pre _ _ (fun q hq => hnn q (List.mem_of_mem_take hq)) j (fun d hd => ?_) d hd
    rw [occ_cons', occ_cons', occ_cons']
    have hz : ∀ d, 0 < d → occ rest.dropLast d j = occ rest d j := by
      intro d hd
      conv_rhs => rw [hlast]
      exact (occ_append_zero _ [r0] (by simpa using hr0) d hd j).symm
    by_cases g1 : d ≤ c - volSum pre
    · rw [if_pos g1, if_pos (by linarith)]
    · rw [if_neg g1]
      by_cases g2 : d ≤ r.vol
      · rw [if_pos g2, if_pos (by linarith)]
      · rw [if_neg g2, if_neg (by intro h; exact g2 (by linarith)), ← hz _ (by linarith [not_le.1 g2])]
        congr 1; ring
  · conv_rhs => rw [hdec, hlast]
    simp only [electrons, List.map_append, List.map_cons, List.sum_append, List.sum_cons, List.map_nil,
      List.sum_nil, hr0]
    ring
  · rw [List.length_append, List.length_cons]; omega
  · have e : pre ++ (⟨c - volSum pre, r.fill⟩ : Row K s) :: ⟨r.vol - (c - volSum pre), r.fill⟩ :: rest.dropLast =
        (pre ++ [⟨c - volSum pre, r.fill⟩]) ++ ⟨r.vol - (c - volSum pre), r.fill⟩ :: rest.dropLast := by simp
    rw [e, List.take_left' (by rw [List.length_append, hpl]; rfl), volSum_append, volSum_cons, volSum_nil]
    ring

/-- The hypotheses are met by an array with two levels; the cloud lies inside the second. -/
example : WellFormed ([⟨1/4, fun _ => 1⟩, ⟨1/2, fun _ => 1/2⟩, ⟨0, fun _ => 0⟩] : WM ℚ 1) ∧
    (updateVolumes ([⟨1/4, fun _ => 1⟩, ⟨1/2, fun _ => 1/2⟩, ⟨0, fun _ => 0⟩] : WM ℚ 1) (3/8)
      (watermarkIndexAboveCloud (3/8) ([⟨1/4, fun _ => 1⟩, ⟨1/2, fun _ => 1/2⟩, ⟨0, fun _ => 0⟩] : WM ℚ 1) 1)).map
        (fun w => w.map Row.vol) = .ok [1/4, 1/8, 3/8] := by
  refine ⟨⟨⟨[⟨1/4, fun _ => 1⟩, ⟨1/2, fun _ => 1/2⟩], [⟨0, fun _ => 0⟩], rfl, ?_, ?_⟩, ?_, ?_⟩, ?_⟩ <;>
    decide +kernel

/-- **C50**, collapsing: the number of electrons is unchanged for *every* array. -/
theorem C50_collapse_electrons (wm : WM K s) (dens : Fin s → K) :
    electrons dens (collapse 1 wm) = electrons dens wm := by
  rw [← electrons_eq_cy, ← electrons_eq_cy]; exact collapse_trapped dens wm

/-- **C50**, collapsing: the occupancy at every depth is unchanged. -/
theorem C50_collapse_occ (filled : K) (wm : WM K s) (hw : ∀ r ∈ wm, 0 ≤ r.vol) :
    ∀ d, 0 < d → ∀ j, occ (collapse filled wm) d j = occ wm d j := by
  intro d hd j
  unfold collapse
  simp only
  split
  · rfl
  · rename_i hk
    set k := indexNotFilled filled wm with hkdef
    have hf : ∀ r ∈ wm.take k, r.fill = fun _ => filled := by
      intro r hr
      rw [List.mem_take_iff_getElem] at hr
      obtain ⟨i, hi, rfl⟩ := hr
      obtain ⟨h1, h2⟩ := indexNotFilled_filled filled wm i (by omega)
      funext j; exact h2 j
    have hkl : k ≤ wm.length := by
      obtain ⟨h1, -⟩ := indexNotFilled_filled filled wm (k - 1) (by omega)
      omega
    rw [collapseRows_general k wm _ (by omega) hkl, List.cons_append, occ_cons']
    conv_rhs => rw [← List.take_append_drop k wm,
      occ_filled_prefix _ _ _ hf (fun r hr => hw r (List.mem_of_mem_take hr)) j d hd]
    have hv : volumeFilled k wm = volSum (wm.take k) := rfl
    rw [hv]
    split
    · rfl
    · rename_i hlt
      exact occ_append_zero _ _ (fun r hr => by rw [List.eq_of_mem_replicate hr]; rfl) _
        (by linarith [not_le.1 hlt]) j

/-- Two full levels become one. -/
example : (collapse 1 ([⟨1/4, fun _ => 1⟩, ⟨1/4, fun _ => 1⟩, ⟨1/4, fun _ => 1/2⟩, ⟨0, fun _ => 0⟩] : WM ℚ 1)).map Row.vol =
    [1/2, 1/4, 0, 0] := by decide +kernel

end Arctic
