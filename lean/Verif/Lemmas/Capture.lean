import Verif.Lemmas.Collapse

/-!
# One capture of `TrapManagerInstantCapture` / `TrapManagerTrackTime` in closed form
-/

set_option linter.unusedSectionVars false
set_option linter.unusedVariables false

namespace Arctic

variable {K : Type} [Field K] [LinearOrder K] [IsStrictOrderedRing K] {s : ℕ}

theorem bind_ok {α β : Type} (a : α) (f : α → Except Err β) : (Except.ok a >>= f) = f a := rfl

theorem Z_succ (z : ℕ) : (Z (z + 1) : WM K s) = zeroRow K s :: Z z := by
  simp [Z, List.replicate_succ]

theorem Z_length (z : ℕ) : (Z z : WM K s).length = z := by simp [Z]

/-- What the closed form needs to know about an instant-capture manager: counting electrons is a
weighted sum over the active levels. -/
structure ICLaw (ops : ICOps K s) (h : (Fin s → K) → K) : Prop where
  trapped : ∀ (act : WM K s) (z : ℕ), Pos act → ops.trapped (act ++ Z (z + 1)) = wsum h act
  filled_nonneg : 0 ≤ h fun _ => ops.filled
  tweak : ∀ (A B : WM K s) (z : ℕ) (e : K) (w : WM K s), vols A = vols B →
    ops.tweak (A ++ Z z) (B ++ Z z) e = .ok w → ∃ A', w = A' ++ Z z ∧ vols A' = vols A

theorem Pos.ne {act : WM K s} (hp : Pos act) : ∀ r ∈ act, r.vol ≠ 0 := fun r hr => (hp r hr).ne'

theorem collapse_single (filled : K) (r r' : Row K s) (z : ℕ) (hv : r.vol = r'.vol) :
    collapseCopy filled (r :: Z (z + 1)) (r' :: Z (z + 1)) = (r :: Z (z + 1), r' :: Z (z + 1)) ∧
    collapse filled (r :: Z (z + 1)) = r :: Z (z + 1) := by
  have hk := indexNotFilled_le filled [r] z
  simp only [List.cons_append, List.nil_append, List.length_cons, List.length_nil] at hk
  unfold collapseCopy collapse
  simp only
  rw [if_pos (by omega), if_pos (by omega)]
  exact ⟨rfl, rfl⟩

/-- Rows set to the filled value. -/
abbrev fillRow (filled : K) : Row K s → Row K s := mapRow fun _ _ => filled

/-- **Capture in closed form.** For a cloud of positive volume (from a positive number of electrons),
capture is: cut at the cloud, fill below, then the final bookkeeping. -/
theorem icCapture_cut (ops : ICOps K s) (h : (Fin s → K) → K) (law : ICLaw ops h) (f : K → K) (n : K)
    (act : WM K s) (z : ℕ) (hp : Pos act) (hn : 0 < n) (hc : 0 < f n) :
    ∃ z', (cutAt (f n) act).1.length + (cutAt (f n) act).2.length + z' = act.length + z + 1 ∧
      icCapture ops f n (act ++ Z (z + 2)) =
        finishCapture ops.filled ops.trapped ops.tweak n (wsum h act)
          ((cutAt (f n) act).1.map (fillRow ops.filled) ++ (cutAt (f n) act).2 ++ Z (z' + 1))
          ((cutAt (f n) act).1 ++ (cutAt (f n) act).2 ++ Z (z' + 1)) := by
  have hmx := maxWatermarkIndex_eq act (z + 1) hp.ne
  have htr := law.trapped act (z + 1) hp
  unfold icCapture
  simp only [hmx, htr]
  cases act with
  | nil =>
    -- the first capture
    refine ⟨z, by simp [cutAt]; omega, ?_⟩
    rw [if_pos ⟨by simp, hn⟩]
    simp only [cutAt, List.nil_append, List.append_nil, List.map_cons, List.map_nil, wsum_nil,
      List.cons_append]
    unfold icFirstCapture
    have e1 : (Z (z + 2) : WM K s).modify 0 (fun _ => ⟨f n, fun _ => ops.filled⟩) =
        (⟨f n, fun _ => ops.filled⟩ : Row K s) :: Z (z + 1) := by rw [Z_succ]; rfl
    have e2 : setVol (Z (z + 2) : WM K s) 0 (f n) = (⟨f n, fun _ => 0⟩ : Row K s) :: Z (z + 1) := by
      rw [Z_succ]; rfl
    have e3 : fillRow ops.filled (⟨f n, fun _ => 0⟩ : Row K s) = ⟨f n, fun _ => ops.filled⟩ := rfl
    simp only [e1, e2, e3]
    unfold finishCapture
    simp only [(collapse_single ops.filled ⟨f n, fun _ => ops.filled⟩ ⟨f n, fun _ => 0⟩ z rfl).1]
    have hps : Pos ([⟨f n, fun _ => ops.filled⟩] : WM K s) := by
      intro r hr; rw [List.mem_singleton] at hr; rw [hr]; exact hc
    have ht := law.trapped [⟨f n, fun _ => ops.filled⟩] z hps
    rw [List.cons_append, List.nil_append] at ht
    rw [ht, wsum_cons, wsum_nil, add_zero]
    simp only [sub_zero]
    by_cases h0 : f n * h (fun _ => ops.filled) = 0
    · rw [if_pos h0, if_pos h0]
    · rw [if_neg h0, if_neg h0]
      have hpos : 0 < f n * h (fun _ => ops.filled) :=
        lt_of_le_of_ne (mul_nonneg hc.le law.filled_nonneg) (Ne.symm h0)
      have hen : 0 < n / (f n * h fun _ => ops.filled) := div_pos hn hpos
      by_cases h1 : n / (f n * h fun _ => ops.filled) < 1
      · rw [if_pos h1, if_pos ⟨hen, h1⟩]
        -- after a shortage the single level is not collapsed either
        cases ht2 : ops.tweak (⟨f n, fun _ => ops.filled⟩ :: Z (z + 1))
            (⟨f n, fun _ => 0⟩ :: Z (z + 1)) (n / (f n * h fun _ => ops.filled)) with
        | error e => rfl
        | ok w =>
          obtain ⟨A', rfl, hA'⟩ := law.tweak [⟨f n, fun _ => ops.filled⟩] [⟨f n, fun _ => 0⟩]
            (z + 1) _ w rfl ht2
          obtain ⟨a, rfl⟩ : ∃ a, A' = [a] := by
            apply List.length_eq_one_iff.1
            have := congrArg List.length hA'
            simpa [vols] using this
          have hav : a.vol = f n := by simpa [vols] using hA'
          have hpa : Pos ([a] : WM K s) := by
            intro r hr; rw [List.mem_singleton] at hr; rw [hr, hav]; exact hc
          have := (collapse_single ops.filled a a z rfl).2
          simp only [List.cons_append, List.nil_append, bind_ok, this]
      · rw [if_neg h1, if_neg (by tauto),
          (collapse_single ops.filled ⟨f n, fun _ => ops.filled⟩ ⟨f n, fun _ => 0⟩ z rfl).2]
  | cons r0 act0 =>
    have hne : ¬ (((r0 :: act0).length : ℤ) - 1 = -1 ∧ n > 0) := by
      rintro ⟨h1, -⟩; simp only [List.length_cons] at h1; push_cast at h1; omega
    rw [if_neg hne]
    generalize hact : r0 :: act0 = act at *
    rcases le_or_gt (f n) (volSum act) with hle | hgt
    · obtain ⟨z', hz', hidx, hlen, hsp⟩ := splitAtCloud_cut (f n) act act (z + 1) hp rfl hc hle
      have hcl := cutAt_length (f n) act
      obtain ⟨q, rfl⟩ : ∃ q, z' = q + 1 := ⟨z' - 1, by omega⟩
      refine ⟨q, by omega, ?_⟩
      rw [show z + 2 = z + 1 + 1 by rfl, hidx]
      rw [if_pos (Or.inl (by omega)), hsp]
      simp only [bind_ok]
      rw [List.append_assoc, mapFills_prefix _ _ _ _ (by omega), ← List.append_assoc]
    · obtain ⟨hidx, hlen, hhi, -, htop⟩ := newTop_cut (f n) act act (z + 1) hp rfl hc hgt
      refine ⟨z, by rw [hhi, hlen]; simp; omega, ?_⟩
      rw [show z + 2 = z + 1 + 1 by rfl, hidx]
      rw [if_neg (by rw [← hact] at hlen ⊢; simp only [List.length_cons] at hlen ⊢; omega), htop]
      simp only [bind_ok]
      rw [mapFills_prefix _ _ _ _ (by omega), hhi, List.append_nil, List.append_nil]

/-- Capture from a cloud of zero volume when there are levels already: nothing is captured. -/
theorem icCapture_zero (ops : ICOps K s) (h : (Fin s → K) → K) (law : ICLaw ops h) (f : K → K) (n : K)
    (act : WM K s) (z : ℕ) (hp : Pos act) (hc : f n = 0) (hn : act = [] → n ≤ 0) :
    ∃ k ≤ act.length, (∀ r ∈ act.take k, r.fill = fun _ => ops.filled) ∧
      icCapture ops f n (act ++ Z (z + 1)) =
        .ok (0, mergeTop k (fun _ => ops.filled) act ++ Z (z + (k - 1) + 1)) := by
  have hmx := maxWatermarkIndex_eq act z hp.ne
  have htr := law.trapped act z hp
  obtain ⟨k, hk, hf, hcc⟩ := collapseCopy_eq ops.filled act act z rfl
  refine ⟨k, hk, hf, ?_⟩
  unfold icCapture
  have hidx : watermarkIndexAboveCloud (f n) (act ++ Z (z + 1)) ((act.length : ℤ) - 1) = -1 := by
    unfold watermarkIndexAboveCloud; rw [if_pos hc]
  simp only [hmx, htr, hidx]
  rw [if_neg, if_pos (Or.inl (by omega))]
  · unfold splitAtCloud
    rw [if_neg (by rw [hc]; simp)]
    simp only [bind_ok]
    rw [mapFills_none _ _ _ _ (by simp)]
    unfold finishCapture
    simp only [hcc]
    rw [law.trapped _ _ (mergeTop_pos k _ act hp hk), mergeTop_wsum _ _ _ _ hf, if_pos rfl]
  · rintro ⟨h1, h2⟩
    have : act = [] := by
      cases act with
      | nil => rfl
      | cons a l => simp only [List.length_cons] at h1; push_cast at h1; omega
    exact absurd h2 (not_lt.2 (hn this))

/-- First capture from a cloud of zero volume: the first row is left with a stale fill. -/
theorem icCapture_stale (ops : ICOps K s) (f : K → K) (n : K)
    (z : ℕ) (r : Row K s) (hr : r.vol = 0) (hn : 0 < n) (hc : f n = 0)
    (ht : ∀ (r : Row K s), r.vol = 0 → ops.trapped (r :: Z z) = 0) :
    icCapture ops f n (r :: Z z) = .ok (0, (⟨0, fun _ => ops.filled⟩ : Row K s) :: Z z) := by
  unfold icCapture
  have hmx : maxWatermarkIndex (r :: Z z) = -1 := by
    unfold maxWatermarkIndex
    rw [List.map_cons]
    have := argmaxTrue_append [] (decide (r.vol = 0) :: (Z z).map fun r : Row K s => decide (r.vol = 0))
      (by simp) (by simp [hr])
    rw [List.nil_append] at this
    rw [this]; rfl
  simp only [hmx]
  rw [if_pos ⟨trivial, hn⟩]
  unfold icFirstCapture
  simp only [hc]
  have e1 : (r :: Z z).modify 0 (fun _ => (⟨0, fun _ => ops.filled⟩ : Row K s)) =
      ⟨0, fun _ => ops.filled⟩ :: Z z := rfl
  rw [e1, ht _ rfl, if_pos rfl]

/-! ### the two managers satisfy the law -/

theorem eDens_zero (dens : Fin s → K) : eDens dens (fun _ => 0) = 0 := by simp [eDens]

theorem notEnough_append (A B : WM K s) (z : ℕ) (e : K) (h : A.length = B.length) :
    notEnough (A ++ Z z) (B ++ Z z) e = notEnough A B e ++ Z z := by
  unfold notEnough
  rw [List.zipWith_append h]
  congr 1
  unfold Z
  rw [List.zipWith_replicate, min_self]
  simp [zeroRow]

theorem notEnough_vols (A B : WM K s) (e : K) (h : A.length = B.length) :
    vols (notEnough A B e) = vols A := by
  induction A generalizing B with
  | nil => rfl
  | cons a A ih =>
    cases B with
    | nil => simp at h
    | cons b B =>
      have := ih B (by simpa using h)
      unfold notEnough vols at *
      rw [List.zipWith_cons_cons, List.map_cons, List.map_cons, this]

theorem notEnough_wsum (dens : Fin s → K) (A B : WM K s) (e : K) (h : vols A = vols B) :
    wsum (eDens dens) (notEnough A B e) =
      e * wsum (eDens dens) A + (1 - e) * wsum (eDens dens) B := by
  induction A generalizing B with
  | nil =>
    have : B = [] := by
      have := congrArg List.length h
      simp [vols] at this; exact List.length_eq_zero_iff.1 this.symm
    subst this; simp [notEnough, wsum]
  | cons a A ih =>
    cases B with
    | nil => simp [vols] at h
    | cons b B =>
      simp only [vols, List.map_cons, List.cons.injEq] at h
      have := ih B h.2
      unfold notEnough at *
      rw [List.zipWith_cons_cons, wsum_cons, this, wsum_cons, wsum_cons]
      simp only
      have e1 : eDens dens (fun j => e * a.fill j + (1 - e) * b.fill j) =
          e * eDens dens a.fill + (1 - e) * eDens dens b.fill := by
        unfold eDens
        rw [Finset.mul_sum, Finset.mul_sum, ← Finset.sum_add_distrib]
        apply Finset.sum_congr rfl
        intro j _; ring
      rw [e1, ← h.1]; ring

theorem vols_length {A B : WM K s} (h : vols A = vols B) : A.length = B.length := by
  have := congrArg List.length h; simpa [vols] using this

theorem instantLaw (dens p : Fin s → K) (hd : ∀ j, 0 ≤ dens j) :
    ICLaw (instantOps dens p) (eDens dens) where
  trapped := by
    intro act z _
    change cyNTrapped _ _ = _
    rw [cyNTrapped_eq, wsum_append, wsum_Z, add_zero]
  filled_nonneg := by
    change 0 ≤ eDens dens fun _ => 1
    unfold eDens
    exact Finset.sum_nonneg fun j _ => by simpa using hd j
  tweak := by
    intro A B z e w hv hw
    change Except.ok (notEnough _ _ _) = _ at hw
    cases hw
    exact ⟨_, notEnough_append A B z e (vols_length hv), notEnough_vols A B e (vols_length hv)⟩

/-- Electrons per unit volume as a function of elapsed times. -/
def tDens (dens : Fin s → K) (conv : Fin s → K → K) (x : Fin s → K) : K :=
  eDens dens fun j => conv j (x j)

theorem wsum_map (h : (Fin s → K) → K) (g : Fin s → K → K) (l : WM K s) :
    wsum h (l.map (mapRow g)) = wsum (fun x => h fun j => g j (x j)) l := by
  unfold wsum mapRow; rw [List.map_map]; rfl

theorem toFillFractions_eq (conv : Fin s → K → K) (act : WM K s) (z : ℕ) (hp : ∀ r ∈ act, r.vol ≠ 0) :
    toFillFractions conv (act ++ Z (z + 1)) = act.map (mapRow conv) ++ Z (z + 1) := by
  unfold toFillFractions
  rw [mapFills_prefix]
  rw [argmax_zero_eq act z hp]

theorem trackTimeLaw (dens : Fin s → K) (conv : Fin s → K → K) (dwell : K) (hd : ∀ j, 0 ≤ dens j)
    (hc : ∀ j, 0 ≤ conv j 0) : ICLaw (trackTimeOps dens conv dwell) (tDens dens conv) where
  trapped := by
    intro act z hp
    change cyNTrapped (toFillFractions _ _) _ = _
    rw [toFillFractions_eq conv act z hp.ne, cyNTrapped_eq, wsum_append, wsum_Z, add_zero, wsum_map]
    rfl
  filled_nonneg := by
    change 0 ≤ tDens dens conv fun _ => 0
    unfold tDens eDens
    exact Finset.sum_nonneg fun j _ => mul_nonneg (hc j) (hd j)
  tweak := by intro A B z e w hv hw; cases hw

end Arctic
