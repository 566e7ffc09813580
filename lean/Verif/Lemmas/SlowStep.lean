import Verif.Lemmas.InstantStep

/-!
# One transfer of `TrapManager` (slow capture) in closed form
-/

set_option linter.unusedSectionVars false
set_option linter.unusedVariables false

namespace Arctic

variable {K : Type} [Field K] [LinearOrder K] [IsStrictOrderedRing K] {s : ℕ}

/-- Number of levels up to the cloud. -/
def cutLen (c : K) (act : WM K s) : ℕ := if c ≤ 0 then 0 else (cutAt c act).1.length
/-- The levels with a boundary at the cloud. -/
def splitC (c : K) (act : WM K s) : WM K s := if c ≤ 0 then act else (cutAt c act).1 ++ (cutAt c act).2
/-- … with the levels below the cloud rewritten. -/
def belowC (g : Fin s → K → K) (c : K) (act : WM K s) : WM K s :=
  if c ≤ 0 then act else (cutAt c act).1.map (mapRow g) ++ (cutAt c act).2
/-- … with the levels above the cloud rewritten. -/
def aboveC (g : Fin s → K → K) (c : K) (act : WM K s) : WM K s :=
  if c ≤ 0 then act.map (mapRow g) else (cutAt c act).1 ++ (cutAt c act).2.map (mapRow g)

theorem vols_belowC (g : Fin s → K → K) (c : K) (act : WM K s) :
    vols (belowC g c act) = vols (splitC c act) := by
  unfold belowC splitC; split
  · rfl
  · rw [vols_append, vols_append, vols_mapRow]

theorem vols_aboveC (g : Fin s → K → K) (c : K) (act : WM K s) :
    vols (aboveC g c act) = vols (splitC c act) := by
  unfold aboveC splitC; split
  · rw [vols_mapRow]
  · rw [vols_append, vols_append, vols_mapRow]

theorem vols_splitC (c : K) (act act' : WM K s) (h : vols act = vols act') :
    vols (splitC c act) = vols (splitC c act') := by
  unfold splitC; split
  · exact h
  · have := cutAt_vols c act act' h
    rw [vols_append, vols_append, this.1, this.2]

theorem splitC_pos (c : K) (act : WM K s) (hp : Pos act) : Pos (splitC c act) := by
  unfold splitC; split
  · exact hp
  · exact cutAt_pos c act (by rename_i h; exact not_le.1 h) hp

theorem splitC_wsum (dens : Fin s → K) (c : K) (act : WM K s) :
    wsum (eDens dens) (splitC c act) = wsum (eDens dens) act := by
  unfold splitC; split
  · rfl
  · exact wsum_cut _ (eDens_zero dens) c act

theorem splitC_volSum (c : K) (act : WM K s) (hp : Pos act) :
    volSum (splitC c act) = max c (volSum act) := by
  unfold splitC
  have h0 := hp.sum_nonneg
  split
  · rename_i h; rw [max_eq_right (h.trans h0)]
  · rename_i h
    have h := not_le.1 h
    rw [volSum_append, cutAt_vol, cutAt_hi_vol c act h hp]
    rcases le_total (volSum act - c) 0 with h1 | h1
    · rw [max_eq_left h1, max_eq_left (by linarith)]; ring
    · rw [max_eq_right h1, max_eq_right (by linarith)]; ring

theorem splitC_length (c : K) (act : WM K s) :
    act.length ≤ (splitC c act).length ∧ (splitC c act).length ≤ act.length + 1 := by
  unfold splitC; split
  · omega
  · have := cutAt_length c act
    rw [List.length_append]; exact this

theorem splitC_frac (c : K) (act : WM K s) (h : ∀ r ∈ act, Frac r.fill) :
    ∀ r ∈ splitC c act, Frac r.fill := by
  unfold splitC; split
  · exact h
  · exact cutAt_fill c act _ (fun j => ⟨le_rfl, zero_le_one⟩) h

theorem belowC_frac (g : Fin s → K → K) (hg : ∀ j x, 0 ≤ x → x ≤ 1 → 0 ≤ g j x ∧ g j x ≤ 1) (c : K)
    (act : WM K s) (h : ∀ r ∈ act, Frac r.fill) : ∀ r ∈ belowC g c act, Frac r.fill := by
  unfold belowC; split
  · exact h
  · have := cutAt_fill c act _ (fun j => ⟨le_rfl, zero_le_one⟩) h
    intro r hr
    rw [List.mem_append, List.mem_map] at hr
    rcases hr with ⟨r0, hr0, rfl⟩ | hr
    · have h0 := this r0 (by simp [hr0])
      exact fun j => hg j _ (h0 j).1 (h0 j).2
    · exact this r (by simp [hr])

theorem aboveC_frac (g : Fin s → K → K) (hg : ∀ j x, 0 ≤ x → x ≤ 1 → 0 ≤ g j x ∧ g j x ≤ 1) (c : K)
    (act : WM K s) (h : ∀ r ∈ act, Frac r.fill) : ∀ r ∈ aboveC g c act, Frac r.fill := by
  unfold aboveC; split
  · intro r hr
    rw [List.mem_map] at hr
    obtain ⟨r0, hr0, rfl⟩ := hr
    exact fun j => hg j _ (h r0 hr0 j).1 (h r0 hr0 j).2
  · have := cutAt_fill c act _ (fun j => ⟨le_rfl, zero_le_one⟩) h
    intro r hr
    rw [List.mem_append, List.mem_map] at hr
    rcases hr with hr | ⟨r0, hr0, rfl⟩
    · exact this r (by simp [hr])
    · have h0 := this r0 (by simp [hr0])
      exact fun j => hg j _ (h0 j).1 (h0 j).2

theorem occ_belowC (g : Fin s → K → K) (c : K) (act : WM K s) (hp : Pos act) (d : K) (hd : 0 < d)
    (j : Fin s) : occ (belowC g c act) d j = if d ≤ c then g j (occ act d j) else occ act d j := by
  unfold belowC
  split
  · rename_i h; rw [if_neg (by intro h2; linarith)]
  · rename_i h; exact occ_cut_map g c act hp (not_le.1 h) d hd j

theorem occ_aboveC (g : Fin s → K → K) (hg : ∀ j, g j 0 = 0) (c : K) (act : WM K s) (hp : Pos act)
    (d : K) (hd : 0 < d) (j : Fin s) :
    occ (aboveC g c act) d j = if d ≤ c then occ act d j else g j (occ act d j) := by
  unfold aboveC
  split
  · rename_i h; rw [if_neg (by intro h2; linarith), occ_map_all g hg]
  · rename_i h
    have hc := not_le.1 h
    have hpc := cutAt_pos c act hc hp
    have hv := cutAt_vol c act
    have key := occ_cut c act hc d hd j
    rw [occ_append _ _ hpc.left d hd, hv] at key ⊢
    by_cases h2 : d ≤ c
    · rw [if_pos h2] at key ⊢; rw [if_pos h2]; exact key
    · rw [if_neg h2] at key ⊢; rw [if_neg h2, occ_map_all g hg, key]

/-- Up to the top level, `aboveC` is the specification's `releaseAbove`. -/
theorem aboveC_eq (p : Fin s → K) (c : K) (act : WM K s) (hp : Pos act) (h : c ≤ volSum act) :
    aboveC (fun j x => x * p j) c act = releaseAbove p c act := by
  have zero : ∀ (c : K) (l : WM K s), c ≤ 0 → l.map (mapRow fun j x => x * p j) = releaseAbove p c l := by
    intro c l
    induction l generalizing c with
    | nil => intro _; simp [releaseAbove]
    | cons r l ih =>
      intro hc
      unfold releaseAbove
      rw [if_pos hc, List.map_cons, ih 0 le_rfl]; rfl
  unfold aboveC
  split
  · rename_i hc; exact zero c act hc
  · rename_i hc
    have hc := not_le.1 hc
    induction act generalizing c with
    | nil => rw [volSum_nil] at h; linarith
    | cons r rs ih =>
      rw [volSum_cons] at h
      have hr := hp r (by simp)
      have hrs : Pos rs := fun x hx => hp x (by simp [hx])
      unfold cutAt releaseAbove
      rw [if_neg (not_le.2 hc)]
      by_cases h1 : c < r.vol
      · rw [if_pos h1, if_neg (not_le.2 h1), ← zero 0 rs le_rfl]
        rfl
      · rw [if_neg h1, if_pos (not_lt.1 h1)]
        by_cases h2 : c = r.vol
        · rw [if_pos h2, ← zero (c - r.vol) rs (by linarith)]; rfl
        · rw [if_neg h2, List.cons_append, ih (c - r.vol) hrs (by linarith)
            (not_le.2 (cutAt_sub_pos h1 h2)) (cutAt_sub_pos h1 h2)]

theorem releaseAbove_top (p : Fin s → K) (c : K) (act : WM K s) (hp : Pos act) (h : volSum act < c) :
    releaseAbove p c act = act := by
  induction act generalizing c with
  | nil => rfl
  | cons r rs ih =>
    rw [volSum_cons] at h
    have hr := hp r (by simp)
    have hrs : Pos rs := fun x hx => hp x (by simp [hx])
    have := hrs.sum_nonneg
    unfold releaseAbove
    rw [if_neg (by intro h2; linarith), if_pos (by linarith), ih _ hrs (by linarith)]

/-- Splitting two arrays at a cloud not above the top level. -/
theorem splitStage (c : K) (act act' : WM K s) (z : ℕ) (hp : Pos act) (hv : vols act = vols act')
    (hc : 0 ≤ c) (h : c ≤ volSum act) :
    ∃ z', (splitC c act).length + z' = act.length + z + 1 ∧ z ≤ z' ∧ cutLen c act ≤ act.length ∧
      watermarkIndexAboveCloud c (act ++ Z (z + 1)) (act.length - 1) = (cutLen c act : ℤ) - 1 ∧
      splitAtCloud c ((cutLen c act : ℤ) - 1) (act.length - 1) (act ++ Z (z + 1)) (act' ++ Z (z + 1)) =
        .ok (splitC c act ++ Z z', splitC c act' ++ Z z', ((splitC c act).length : ℤ) - 1) := by
  unfold splitC cutLen
  rcases lt_or_eq_of_le hc with h0 | h0
  · simp only [if_neg (not_le.2 h0)]
    obtain ⟨z', h1, h2, h3, h4⟩ := splitAtCloud_cut c act act' z hp hv h0 h
    have := cutAt_length c act
    refine ⟨z', by rw [List.length_append]; exact h1, by omega, h3, h2, ?_⟩
    rw [h4, List.length_append]; push_cast; rfl
  · subst h0
    simp only [if_pos (le_refl (0 : K))]
    refine ⟨z + 1, by omega, by omega, by omega, ?_, ?_⟩
    · unfold watermarkIndexAboveCloud; rw [if_pos rfl]; rfl
    · unfold splitAtCloud
      rw [if_neg (by simp)]

theorem mapFills_belowC (g : Fin s → K → K) (c : K) (act : WM K s) (z k : ℕ) (hk : k = cutLen c act) :
    mapFills 0 k g (splitC c act ++ Z z) = belowC g c act ++ Z z := by
  unfold cutLen at hk
  unfold splitC belowC
  by_cases h : c ≤ 0
  · rw [if_pos h] at hk
    rw [if_pos h, if_pos h, mapFills_none _ _ _ _ (by omega)]
  · rw [if_neg h] at hk
    rw [if_neg h, if_neg h, List.append_assoc, mapFills_prefix _ _ _ _ hk, ← List.append_assoc]

theorem mapFills_aboveC (g : Fin s → K → K) (c : K) (act : WM K s) (z k l : ℕ) (hk : k = cutLen c act)
    (hl : l = (splitC c act).length) :
    mapFills k l g (splitC c act ++ Z z) = aboveC g c act ++ Z z := by
  unfold cutLen at hk
  unfold splitC at hl ⊢
  unfold aboveC
  by_cases h : c ≤ 0
  · rw [if_pos h] at hk hl
    rw [if_pos h, if_pos h, hk, mapFills_prefix _ _ _ _ hl]
  · rw [if_neg h] at hk hl
    rw [List.length_append] at hl
    rw [if_neg h, if_neg h, mapFills_eq _ _ _ _ _ _ hk hl]

/-- The Lindegren update of one fill fraction. -/
def lindegren (p : Probs K s) (j : Fin s) (x : K) : K := x * p.fromFull j + (1 - x) * p.fromEmpty j

theorem lindegren_frac (p : Probs K s) (hp : ProbsOk p) (j : Fin s) (x : K) (h0 : 0 ≤ x) (h1 : x ≤ 1) :
    0 ≤ lindegren p j x ∧ lindegren p j x ≤ 1 := by
  have hf := hp.full j
  have he := hp.empty j
  unfold lindegren
  constructor
  · have := mul_nonneg h0 hf.1
    have := mul_nonneg (show 0 ≤ 1 - x by linarith) he.1
    linarith
  · have := mul_le_of_le_one_right h0 hf.2
    have := mul_le_of_le_one_right (show 0 ≤ 1 - x by linarith) he.2
    linarith

theorem release_frac (p : Fin s → K) (hp : ∀ j, 0 ≤ p j ∧ p j ≤ 1) (j : Fin s) (x : K) (h0 : 0 ≤ x)
    (h1 : x ≤ 1) : 0 ≤ x * p j ∧ x * p j ≤ 1 :=
  ⟨mul_nonneg h0 (hp j).1, mul_le_one₀ h1 (hp j).1 (hp j).2⟩

theorem wsum_mono (dens : Fin s → K) (hd : ∀ j, 0 ≤ dens j) (p : Fin s → K)
    (hp : ∀ j, 0 ≤ p j ∧ p j ≤ 1) (c : K) (act : WM K s) (hpos : Pos act)
    (hF : ∀ r ∈ act, Frac r.fill) :
    wsum (eDens dens) (aboveC (fun j x => x * p j) c act) ≤ wsum (eDens dens) act := by
  have key : ∀ l : WM K s, Pos l → (∀ r ∈ l, Frac r.fill) →
      wsum (eDens dens) (l.map (mapRow fun j x => x * p j)) ≤ wsum (eDens dens) l := by
    intro l hl hf
    induction l with
    | nil => exact le_rfl
    | cons r l ih =>
      rw [List.map_cons, wsum_cons, wsum_cons]
      have h1 := ih (fun x hx => hl x (by simp [hx])) (fun x hx => hf x (by simp [hx]))
      have h2 : eDens dens (mapRow (fun j x => x * p j) r).fill ≤ eDens dens r.fill := by
        unfold eDens mapRow
        apply Finset.sum_le_sum
        intro j _
        exact mul_le_mul_of_nonneg_right (mul_le_of_le_one_right (hf r (by simp) j).1 (hp j).2) (hd j)
      have h3 := mul_le_mul_of_nonneg_left h2 (hl r (by simp)).le
      have e : (mapRow (fun j x => x * p j) r).vol = r.vol := rfl
      rw [e]; linarith
  unfold aboveC
  split
  · exact key act hpos hF
  · rename_i h
    have hc := not_le.1 h
    have hpc := cutAt_pos c act hc hpos
    have hFc := cutAt_fill c act _ (fun j => ⟨le_rfl, zero_le_one⟩) hF
    rw [← wsum_cut (eDens dens) (eDens_zero dens) c act, wsum_append, wsum_append]
    have := key (cutAt c act).2 hpc.right (fun r hr => hFc r (by simp [hr]))
    linarith

theorem releaseAbove_append_Z (p : Fin s → K) (c : K) (act : WM K s) (z : ℕ) (hc : 0 ≤ c) (hp : Pos act) :
    ∃ z', releaseAbove p c (act ++ Z z) = releaseAbove p c act ++ Z z' := by
  have hz : ∀ (z : ℕ) (c : K), 0 ≤ c → releaseAbove p c (Z z : WM K s) = Z z := by
    intro z
    induction z with
    | zero => intro c _; rfl
    | succ z ih =>
      intro c hc
      rw [Z_succ]
      unfold releaseAbove
      split
      · rw [ih 0 le_rfl]; simp [zeroRow]
      · rw [if_pos (by simpa [zeroRow] using hc)]
        rw [show c - (zeroRow K s).vol = c by simp [zeroRow], ih c hc]
  refine ⟨z, ?_⟩
  induction act generalizing c with
  | nil => rw [List.nil_append, hz z c hc]; rfl
  | cons r rs ih =>
    have hrs : Pos rs := fun x hx => hp x (by simp [hx])
    rw [List.cons_append]
    unfold releaseAbove
    split
    · rw [ih 0 le_rfl hrs]; rfl
    · split
      · rename_i h; rw [ih _ (by linarith) hrs]; rfl
      · rw [ih 0 le_rfl hrs]; rfl

/-- **One slow-capture transfer from a regular state**, provided the released electrons do not lift
the cloud above the highest level. -/
theorem slowStep_regular (dens : Fin s → K) (p : Probs K s) (f : K → K) (hf : FillModel f)
    (hd : ∀ j, 0 ≤ dens j) (hpr : ProbsOk p) (n : K) (hn : 0 ≤ n) (act : WM K s) (z : ℕ) (hp : Pos act)
    (hv : volSum act ≤ 1) (hF : ∀ r ∈ act, Frac r.fill) (hfirst : act = [] → 0 < n → 0 < f n)
    (htop : f n ≤ volSum act → f (n + (electrons dens act -
      electrons dens (releaseAbove p.fromRelease (f n) act))) ≤ volSum act) :
    ∃ net act2 z2, slowStep dens p f n (act ++ Z (z + 3)) = .ok (net, act2 ++ Z (z2 + 1)) ∧
      act2.length + z2 = act.length + z + 2 ∧ act2.length ≤ act.length + 2 ∧ Pos act2 ∧
      volSum act2 ≤ 1 ∧ (∀ r ∈ act2, Frac r.fill) ∧
      SlowSpec dens p f n (act ++ Z (z + 3)) net (act2 ++ Z (z2 + 1)) := by
  have hmx := maxWatermarkIndex_eq act (z + 2) hp.ne
  have ht : ∀ (l : WM K s) (z : ℕ), cyNTrapped (l ++ Z z) dens = wsum (eDens dens) l := by
    intro l z; rw [cyNTrapped_eq, wsum_append, wsum_Z, add_zero]
  obtain ⟨zr, hzr⟩ := releaseAbove_append_Z p.fromRelease (f n) act (z + 3) (hf.nonneg n) hp
  -- common end: arrays `A` (after the Lindegren update) and `B` (before), available electrons `a`
  have finish : ∀ (w1 A B : WM K s) (a : K) (z' : ℕ),
      w1 = releaseAbove p.fromRelease (f n) act →
      a = n + (electrons dens act - electrons dens w1) →
      A = belowC (lindegren p) (f a) w1 → Pos A → vols A = vols B → (∀ r ∈ A, Frac r.fill) →
      (∀ r ∈ B, Frac r.fill) → wsum (eDens dens) B = wsum (eDens dens) act → Pos w1 →
      volSum A ≤ 1 → wsum (eDens dens) w1 ≤ wsum (eDens dens) act →
      A.length + z' = act.length + z + 2 → A.length ≤ act.length + 2 →
      ∃ net act2 z2, (do
          let (captured, wm) ← finishCapture 1 (fun w => cyNTrapped w dens)
            (fun w w0 e => .ok (notEnough w w0 e)) a (wsum (eDens dens) act) (A ++ Z (z' + 1)) (B ++ Z (z' + 1))
          .ok (-captured, wm)) = (.ok (net, act2 ++ Z (z2 + 1)) : Except Err (K × WM K s)) ∧
        act2.length + z2 = act.length + z + 2 ∧ act2.length ≤ act.length + 2 ∧ Pos act2 ∧
        volSum act2 ≤ 1 ∧ (∀ r ∈ act2, Frac r.fill) ∧
        SlowSpec dens p f n (act ++ Z (z + 3)) net (act2 ++ Z (z2 + 1)) := by
    intro w1 A B a z' hw1 ha hA hpA hvAB hFA hFB hwB hpw1 hvA hle hlen hlen2
    have ha0 : n ≤ a := by rw [ha, electrons_eq, electrons_eq]; linarith
    have haz : a = 0 → wsum (eDens dens) A ≤ wsum (eDens dens) act := by
      intro h0
      have : f a = 0 := hf.empty a h0.le
      rw [hA, this]; unfold belowC; rw [if_pos le_rfl]; exact hle
    obtain ⟨act2, z2, h1, h2, h3, h4, h5, h6, h7, -, h8⟩ := instantFinish dens p.fromRelease a
      (wsum (eDens dens) act) A B z' hpA hvAB hFA hFB (hn.trans ha0) hwB haz
    have e1 : (instantOps dens p.fromRelease).trapped = fun w => cyNTrapped w dens := rfl
    have e2 : (instantOps dens p.fromRelease).tweak = fun w w0 e => .ok (notEnough w w0 e) := rfl
    rw [e1, e2] at h1
    rw [h1]
    simp only [bind_ok]
    refine ⟨_, act2, z2, rfl, by omega, by omega, h3, by rw [h4]; exact hvA, h5, ?_⟩
    unfold SlowSpec
    simp only [hzr, electrons_append_Z, ← hw1, ← ha]
    refine ⟨A, hpA, hvA, hFA, ?_, ?_, ?_, ?_⟩
    · intro d hd0 j
      rw [hA, occ_belowC _ _ _ hpw1 d hd0 j, occ_append_Z _ _ d hd0 j]; rfl
    · rw [electrons_eq, electrons_eq, h6]; ring
    · rw [electrons_eq, electrons_eq, electrons_eq, h6]; ring
    · intro hh d hd0 j
      rw [occ_append_Z _ _ d hd0 j]
      exact h7 hh d hd0 j
  have hgl : (fun (j : Fin s) (x : K) => x * p.fromFull j + (1 - x) * p.fromEmpty j) = lindegren p := rfl
  unfold slowStep
  simp only [hmx, ht]
  by_cases hfst : act = [] ∧ 0 < n
  · -- first capture
    obtain ⟨rfl, hn0⟩ := hfst
    have hc := hfirst rfl hn0
    rw [if_pos ⟨by simp, hn0⟩]
    have hfin := finish [] (belowC (lindegren p) (f n) []) (splitC (f n) []) n (z + 1) rfl
      (by simp) (by simp) (pos_of_vols (vols_belowC _ _ _).symm (splitC_pos _ _ hp)) (vols_belowC _ _ _)
      (belowC_frac _ (lindegren_frac p hpr) _ _ (by simp)) (splitC_frac _ _ (by simp))
      (splitC_wsum dens _ _) hp (by
        rw [volSum_eq_of_vols (vols_belowC _ _ _), splitC_volSum _ _ hp, volSum_nil]
        exact max_le (hf.le_one n) zero_le_one) le_rfl (by simp [belowC, cutAt, not_le.2 hc]; omega)
        (by simp [belowC, cutAt, not_le.2 hc])
    have eA : belowC (lindegren p) (f n) ([] : WM K s) = [⟨f n, p.fromEmpty⟩] := by
      unfold belowC; rw [if_neg (not_le.2 hc)]
      simp [cutAt, mapRow, lindegren]
    have eB : splitC (f n) ([] : WM K s) = [⟨f n, fun _ => 0⟩] := by
      unfold splitC; rw [if_neg (not_le.2 hc)]; rfl
    rw [eA, eB] at hfin
    obtain ⟨net, act2, z2, h1, h2⟩ := hfin
    refine ⟨net, act2, z2, ?_, h2⟩
    rw [← h1]
    -- the two code paths agree
    unfold slowFirstCapture finishCapture
    have c1 : ([] ++ Z (z + 3) : WM K s).modify 0 (fun _ => ⟨f n, p.fromEmpty⟩) =
        (⟨f n, p.fromEmpty⟩ : Row K s) :: Z (z + 2) := by rw [List.nil_append, Z_succ]; rfl
    have c2 : setVol ([] ++ Z (z + 3) : WM K s) 0 (f n) = (⟨f n, fun _ => 0⟩ : Row K s) :: Z (z + 2) := by
      rw [List.nil_append, Z_succ]; rfl
    have c3 : ([⟨f n, p.fromEmpty⟩] ++ Z (z + 1 + 1) : WM K s) = ⟨f n, p.fromEmpty⟩ :: Z (z + 2) := rfl
    have c4 : ([⟨f n, fun _ => 0⟩] ++ Z (z + 1 + 1) : WM K s) = ⟨f n, fun _ => 0⟩ :: Z (z + 2) := rfl
    have ht1 : ∀ r : Row K s, cyNTrapped (r :: Z (z + 2)) dens = r.vol * eDens dens r.fill := by
      intro r; rw [cyNTrapped_eq, wsum_cons, wsum_Z, add_zero]
    have e4 := (collapse_single (1 : K) (⟨f n, p.fromEmpty⟩ : Row K s) ⟨f n, fun _ => 0⟩ (z + 1) rfl).1
    have e5 := (collapse_single (1 : K) (⟨f n, p.fromEmpty⟩ : Row K s) ⟨f n, fun _ => 0⟩ (z + 1) rfl).2
    simp only [c1, c2, c3, c4, e4, e5, ht1, wsum_nil, sub_zero]
    have hdn : 0 ≤ eDens dens p.fromEmpty :=
      Finset.sum_nonneg fun j _ => mul_nonneg (hpr.empty j).1 (hd j)
    by_cases h0 : f n * eDens dens p.fromEmpty = 0
    · rw [if_pos h0, if_pos h0]; simp [bind_ok]
    · have hpos : 0 < f n * eDens dens p.fromEmpty :=
        lt_of_le_of_ne (mul_nonneg hc.le hdn) (Ne.symm h0)
      rw [if_neg h0, if_neg h0]
      by_cases h1 : n / (f n * eDens dens p.fromEmpty) < 1
      · rw [if_pos h1, if_pos ⟨div_pos hn0 hpos, h1⟩]
        have hne := notEnough_append [(⟨f n, p.fromEmpty⟩ : Row K s)] [⟨f n, fun _ => 0⟩] (z + 2)
          (n / (f n * eDens dens p.fromEmpty)) rfl
        simp only [List.cons_append, List.nil_append] at hne
        rw [hne]
        simp only [bind_ok, notEnough, List.zipWith_cons_cons, List.zipWith_nil_right, List.cons_append,
          List.nil_append]
        rw [(collapse_single (1 : K) (⟨f n, fun j => n / (f n * eDens dens p.fromEmpty) * p.fromEmpty j +
          (1 - n / (f n * eDens dens p.fromEmpty)) * 0⟩ : Row K s) ⟨f n, fun _ => 0⟩ (z + 1) rfl).2]
      · rw [if_neg h1, if_neg (by tauto)]; rfl
  · rw [if_neg (by
      rintro ⟨h1, h2⟩
      apply hfst
      refine ⟨?_, h2⟩
      cases act with
      | nil => rfl
      | cons a l => simp only [List.length_cons] at h1; push_cast at h1; omega)]
    rcases le_or_gt (f n) (volSum act) with hle | hgt
    · -- the cloud is at or below the highest level
      have htop := htop hle
      obtain ⟨z1, hz1, hz1', hcl, hidx, hsp⟩ := splitStage (f n) act act (z + 2) hp rfl (hf.nonneg n) hle
      rw [show z + 3 = z + 2 + 1 by rfl, hidx, if_pos (Or.inl (by omega))]
      unfold slowCloudBelow
      simp only [hsp, bind_ok]
      rw [mapFills_aboveC _ _ _ _ _ _ (by omega) (by omega)]
      set w1 := aboveC (fun j x => x * p.fromRelease j) (f n) act with hw1
      have hw1e : w1 = releaseAbove p.fromRelease (f n) act := aboveC_eq p.fromRelease (f n) act hp hle
      rw [← hw1e] at htop
      simp only [electrons_eq] at htop
      simp only [ht]
      have hsl := splitC_length (f n) act
      have hvw1 : vols w1 = vols (splitC (f n) act) := vols_aboveC _ _ _
      have hpw1 : Pos w1 := pos_of_vols hvw1.symm (splitC_pos _ _ hp)
      have hlw1 : w1.length = (splitC (f n) act).length := vols_length hvw1
      have hvs1 : volSum w1 = volSum act := by
        rw [volSum_eq_of_vols hvw1, splitC_volSum _ _ hp, max_eq_right hle]
      have hF1 : ∀ r ∈ w1, Frac r.fill := aboveC_frac _ (release_frac _ hpr.release) _ _ hF
      set a := n + (wsum (eDens dens) act - wsum (eDens dens) w1) with ha
      obtain ⟨y, rfl⟩ : ∃ y, z1 = y + 1 := ⟨z1 - 1, by omega⟩
      obtain ⟨z2, hz2, hz2', hcl2, hidx2, hsp2⟩ := splitStage (f a) w1 (splitC (f n) act) y hpw1 hvw1
        (hf.nonneg a) (by rw [hvs1]; exact htop)
      rw [← hlw1, hidx2, hsp2]
      simp only [bind_ok]
      rw [mapFills_belowC _ _ _ _ _ (by omega), hgl]
      have hsl2 := splitC_length (f a) w1
      obtain ⟨z3, rfl⟩ : ∃ q, z2 = q + 1 := ⟨z2 - 1, by omega⟩
      have hvb : vols (belowC (lindegren p) (f a) w1) = vols (splitC (f a) w1) := vols_belowC _ _ _
      have hlb := vols_length hvb
      exact finish w1 _ _ a z3 hw1e (by rw [ha]; rfl) rfl (pos_of_vols hvb.symm (splitC_pos _ _ hpw1))
        (by rw [hvb]; exact vols_splitC _ _ _ hvw1) (belowC_frac _ (lindegren_frac p hpr) _ _ hF1)
        (splitC_frac _ _ (splitC_frac _ _ hF)) (by rw [splitC_wsum, splitC_wsum]) hpw1
        (by rw [volSum_eq_of_vols hvb, splitC_volSum _ _ hpw1, hvs1]; exact max_le (hf.le_one a) hv)
        (by rw [hw1]; exact wsum_mono dens hd _ hpr.release _ _ hp hF) (by omega) (by omega)
    · -- the cloud is above every level
      have hc : 0 < f n := lt_of_le_of_lt hp.sum_nonneg hgt
      have hn0 : 0 < n := by
        by_contra h; exact absurd (hf.empty n (not_lt.1 h)) hc.ne'
      have hne : act ≠ [] := fun h => hfst ⟨h, hn0⟩
      obtain ⟨hidx, hlen, hhi, hhi', htp⟩ := newTop_cut (f n) act act (z + 2) hp rfl hc hgt
      have hla : 0 < act.length := List.length_pos_iff.2 hne
      rw [show z + 3 = z + 2 + 1 by rfl, hidx, if_neg (by omega), htp]
      simp only [bind_ok]
      rw [mapFills_prefix _ _ _ _ (by omega), hgl]
      have eA : (cutAt (f n) act).1.map (mapRow (lindegren p)) = belowC (lindegren p) (f n) act := by
        unfold belowC; rw [if_neg (not_le.2 hc), hhi, List.append_nil]
      have eB : (cutAt (f n) act).1 = splitC (f n) act := by
        unfold splitC; rw [if_neg (not_le.2 hc), hhi, List.append_nil]
      rw [eA, eB]
      have hvb : vols (belowC (lindegren p) (f n) act) = vols (splitC (f n) act) := vols_belowC _ _ _
      have hlb := vols_length hvb
      rw [eB] at hlen
      exact finish act _ _ n (z + 1) (releaseAbove_top _ _ _ hp hgt).symm (by ring) rfl
        (pos_of_vols hvb.symm (splitC_pos _ _ hp)) hvb (belowC_frac _ (lindegren_frac p hpr) _ _ hF)
        (splitC_frac _ _ hF) (splitC_wsum dens _ _) hp
        (by rw [volSum_eq_of_vols hvb, splitC_volSum _ _ hp]; exact max_le (hf.le_one n) hv) le_rfl
        (by omega) (by omega)

end Arctic
