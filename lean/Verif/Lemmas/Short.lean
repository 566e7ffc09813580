import Verif.Lemmas.InstantRun

/-!
# The occupancy after a transfer with too few electrons

When fewer electrons are available than there are vacant traps in the cloud, the levels below the cloud end up with the
same fill fraction: the mean of what was there, raised by the available fraction of the vacancies.
-/

set_option linter.unusedSectionVars false
set_option linter.unusedVariables false

namespace Arctic

variable {K : Type} [Field K] [LinearOrder K] [IsStrictOrderedRing K] {s : ℕ}

/-- Filled fraction of the traps of one species, summed over the volume up to depth `c`. -/
def upTo : K → WM K s → Fin s → K
  | _, [], _ => 0
  | c, r :: rs, j => if c ≤ r.vol then c * r.fill j else r.vol * r.fill j + upTo (c - r.vol) rs j

theorem upTo_vacant (dens : Fin s → K) (c : K) (wm : WM K s) :
    vacant dens c wm = ∑ j, dens j * (c - upTo c wm j) := by
  induction wm generalizing c with
  | nil => simp only [vacant, upTo, sub_zero, Finset.mul_sum, mul_comm]
  | cons r rs ih =>
    unfold vacant upTo
    split
    · rw [Finset.mul_sum]
      exact Finset.sum_congr rfl fun j _ => by ring
    · rw [ih, Finset.mul_sum, ← Finset.sum_add_distrib]
      exact Finset.sum_congr rfl fun j _ => by ring

theorem vol_zero_of_sum (l : WM K s) (hp : ∀ r ∈ l, 0 ≤ r.vol) (h : volSum l = 0) : ∀ r ∈ l, r.vol = 0 := by
  induction l with
  | nil => intro r hr; cases hr
  | cons x l ih =>
    have hx := hp x List.mem_cons_self
    have hl : 0 ≤ volSum l := by
      unfold volSum
      apply List.sum_nonneg
      intro y hy
      obtain ⟨r', hr', rfl⟩ := List.mem_map.1 hy
      exact hp r' (List.mem_cons_of_mem _ hr')
    rw [volSum_cons] at h
    intro r hr
    rcases List.mem_cons.1 hr with rfl | hr
    · linarith
    · exact ih (fun y hy => hp y (List.mem_cons_of_mem _ hy)) (by linarith) r hr

/-- Up to a depth beyond all levels, everything is counted. -/
theorem upTo_all (c : K) (wm : WM K s) (hp : ∀ r ∈ wm, 0 ≤ r.vol) (hc : volSum wm ≤ c) (j : Fin s) :
    upTo c wm j = (wm.map fun r => r.vol * r.fill j).sum := by
  induction wm generalizing c with
  | nil => rfl
  | cons r rs ih =>
    have hrs : 0 ≤ volSum rs := by
      unfold volSum
      apply List.sum_nonneg
      intro x hx
      obtain ⟨r', hr', rfl⟩ := List.mem_map.1 hx
      exact hp r' (List.mem_cons_of_mem _ hr')
    rw [volSum_cons] at hc
    unfold upTo
    rw [List.map_cons, List.sum_cons]
    split
    · rename_i hle
      have hz : volSum rs = 0 := by linarith
      have hall : ∀ r' ∈ rs, r'.vol = 0 := by
        intro r' hr'
        exact vol_zero_of_sum rs (fun x hx => hp x (List.mem_cons_of_mem _ hx)) hz r' hr'
      have h0 : (rs.map fun r => r.vol * r.fill j).sum = 0 := by
        apply List.sum_eq_zero
        intro x hx
        obtain ⟨r', hr', rfl⟩ := List.mem_map.1 hx
        rw [hall r' hr', zero_mul]
      have : c = r.vol := le_antisymm hle (by linarith)
      rw [h0, this, add_zero]
    · rw [ih _ (fun r' hr' => hp r' (List.mem_cons_of_mem _ hr')) (by linarith)]

theorem upTo_electrons (dens : Fin s → K) (wm : WM K s) (hp : ∀ r ∈ wm, 0 ≤ r.vol) (c : K) (hc : volSum wm ≤ c) :
    electrons dens wm = ∑ j, dens j * upTo c wm j := by
  rw [Finset.sum_congr rfl fun j _ => by rw [upTo_all c wm hp hc j]]
  clear hp hc
  unfold electrons
  induction wm with
  | nil => simp
  | cons r rs ih =>
    simp only [List.map_cons, List.sum_cons, mul_add, Finset.sum_add_distrib, ih]
    congr 1
    rw [Finset.mul_sum]
    exact Finset.sum_congr rfl fun j _ => by ring

theorem cutAt_upTo (c : K) (act : WM K s) (j : Fin s) :
    ((cutAt c act).1.map fun r => r.vol * r.fill j).sum = upTo c act j := by
  induction act generalizing c with
  | nil => simp [cutAt, upTo]
  | cons r rs ih =>
    unfold cutAt upTo
    split
    · rename_i h; rw [if_pos h.le]; simp
    · split
      · rename_i h1 h2; rw [if_pos h2.le]; simp [h2]
      · rename_i h1 h2
        rw [if_neg (fun h => h1 (lt_of_le_of_ne h h2))]
        simp only [List.map_cons, List.sum_cons, ih]

theorem argmaxTrue_ge (l : List Bool) (m : ℕ) (h : ∀ i (hi : i < l.length), i < m → l[i] = false) (ht : true ∈ l) :
    m ≤ argmaxTrue l := by
  unfold argmaxTrue
  have hlt : l.findIdx id < l.length := List.findIdx_lt_length_of_exists ⟨true, ht, rfl⟩
  rw [if_pos hlt]
  by_contra hc
  have h1 := h _ hlt (not_le.1 hc)
  have h2 := List.findIdx_getElem (p := id) (w := hlt)
  simp only [id] at h2
  rw [h1] at h2
  cases h2

/-- The index found by the code is the number of leading full levels. -/
theorem indexNotFilled_eq (j0 : Fin s) (lo hi : WM K s) (z : ℕ) (hlo : ∀ r ∈ lo, r.fill = fun _ => 1)
    (hhi : ∀ r ∈ hi, r.fill ≠ fun _ => 1) : indexNotFilled 1 (lo ++ hi ++ Z (z + 1)) = lo.length := by
  apply le_antisymm
  · by_contra hc
    have hle := indexNotFilled_le (1 : K) (lo ++ hi) z
    obtain ⟨h1, h2⟩ := indexNotFilled_filled 1 _ lo.length (not_le.1 hc)
    rw [List.length_append] at hle
    have hh : 0 < hi.length := by omega
    apply hhi hi[0] (List.getElem_mem hh)
    funext j
    have := h2 j
    rw [List.getElem_append_left (by rw [List.length_append]; omega), List.getElem_append_right le_rfl] at this
    simpa using this
  · unfold indexNotFilled
    have hge : ∀ x ∈ (List.finRange s).map fun i =>
        argmaxTrue ((lo ++ hi ++ Z (z + 1)).map fun r : Row K s => decide (r.fill i ≠ 1)), lo.length ≤ x := by
      intro x hx
      obtain ⟨i, -, rfl⟩ := List.mem_map.1 hx
      apply argmaxTrue_ge
      · intro q hq hlt
        rw [List.getElem_map, List.getElem_append_left (by rw [List.length_append]; omega),
          List.getElem_append_left hlt, hlo _ (List.getElem_mem hlt)]
        simp
      · rw [List.mem_map]
        refine ⟨zeroRow K s, ?_, by simp [zeroRow]⟩
        rw [Z_succ]
        simp
    cases hm : ((List.finRange s).map fun i =>
        argmaxTrue ((lo ++ hi ++ Z (z + 1)).map fun r : Row K s => decide (r.fill i ≠ 1))).min? with
    | none =>
      rw [List.min?_eq_none_iff] at hm
      have := congrArg List.length hm
      simp only [List.length_map, List.length_finRange, List.length_nil] at this
      subst this
      exact j0.elim0
    | some m =>
      simp only [Option.getD_some]
      exact hge m (List.min?_eq_some_iff.1 hm).1

/-- The collapse when the full levels are known. -/
theorem collapseCopy_lo (j0 : Fin s) (lo lo' hi : WM K s) (z : ℕ) (hne : lo ≠ []) (hp : Pos lo)
    (hv : vols lo = vols lo') (hlo : ∀ r ∈ lo, r.fill = fun _ => 1) (hhi : ∀ r ∈ hi, r.fill ≠ fun _ => 1) :
    ∃ z', lo.length + z = z' + 1 ∧
      collapseCopy 1 (lo ++ hi ++ Z (z + 1)) (lo' ++ hi ++ Z (z + 1)) =
        ((⟨volSum lo, fun _ => 1⟩ :: hi) ++ Z (z' + 1),
          (⟨volSum lo, fun j => (lo'.map fun r => r.vol * r.fill j).sum / volSum lo⟩ :: hi) ++ Z (z' + 1)) := by
  have hlen : lo'.length = lo.length := (vols_length hv).symm
  have hv' : volSum lo' = volSum lo := (volSum_eq_of_vols hv).symm
  have hpos : 0 < lo.length := List.length_pos_iff.2 hne
  refine ⟨lo.length + z - 1, by omega, ?_⟩
  unfold collapseCopy
  rw [indexNotFilled_eq j0 lo hi z hlo hhi]
  simp only
  split
  · rename_i h1
    have hl1 : lo.length = 1 := by omega
    obtain ⟨r, rfl⟩ := List.length_eq_one_iff.1 hl1
    obtain ⟨r', rfl⟩ := List.length_eq_one_iff.1 (hlen.trans hl1)
    have hr : r.fill = fun _ => 1 := hlo r (by simp)
    have hrv : r.vol = r'.vol := by simpa [vols] using hv
    have hne' : r'.vol ≠ 0 := by rw [← hrv]; exact (hp r (by simp)).ne'
    have e1 : (⟨volSum [r], fun _ => 1⟩ : Row K s) = r := by
      rw [← hr]; simp [volSum]
    have e2 : (⟨volSum [r], fun j => ([r'].map fun r => r.vol * r.fill j).sum / volSum [r]⟩ : Row K s) = r' := by
      simp only [volSum, List.map_cons, List.map_nil, List.sum_cons, List.sum_nil, add_zero, hrv]
      congr 1
      funext j
      rw [mul_div_cancel_left₀ _ hne']
    rw [e1, e2]
    simp only [List.length_singleton]
    rw [show 1 + z - 1 + 1 = z + 1 by omega]
    rfl
  · rename_i h1
    rw [collapseRows_eq _ _ _ _ (by omega) (by simp), collapseRows_eq _ _ _ _ (by omega) (by simp [hlen]),
      volumeFilled_eq _ _ _ (by simp)]
    have e3 : copyFillValues lo.length (lo' ++ hi ++ Z (z + 1)) =
        fun j => (lo'.map fun r => r.vol * r.fill j).sum / volSum lo := by
      funext j
      unfold copyFillValues
      rw [volumeFilled_eq _ _ _ (by simp [hlen]), List.take_append_of_le_length (by simp [hlen]),
        List.take_append_of_le_length (by omega), ← hlen, List.take_length, hv']
    rw [e3]
    have t1 : (lo ++ hi).take lo.length = lo := by simp
    have t2 : (lo ++ hi).drop lo.length = hi := by simp
    have t3 : (lo' ++ hi).drop lo.length = hi := by rw [← hlen]; simp
    rw [t1, t2, t3, show z + 1 + (lo.length - 1) = lo.length + z - 1 + 1 by omega]

theorem notEnough_self (l : WM K s) (e : K) : notEnough l l e = l := by
  induction l with
  | nil => rfl
  | cons r l ih =>
    unfold notEnough at ih ⊢
    rw [List.zipWith_cons_cons, ih]
    congr 1
    have : (fun j => e * r.fill j + (1 - e) * r.fill j) = r.fill := by funext j; ring
    rw [this]

/-- The final bookkeeping when electrons are short. -/
theorem finish_short (dens p : Fin s → K) (n n0 : K) (lo hi : WM K s) (z : ℕ) (hp : Pos (lo ++ hi)) (hne : lo ≠ [])
    (hhi : ∀ r ∈ hi, r.fill ≠ fun _ => 1) (hn : 0 < n) (hn0 : wsum (eDens dens) (lo ++ hi) = n0)
    (hshort : n < wsum (eDens dens) (lo.map (fillRow 1) ++ hi) - n0) :
    ∃ q wm', finishCapture 1 (instantOps dens p).trapped (instantOps dens p).tweak n n0
        (lo.map (fillRow 1) ++ hi ++ Z (z + 1)) (lo ++ hi ++ Z (z + 1)) = .ok (q, wm') ∧
      ∀ d, 0 < d → ∀ j, occ wm' d j =
        if d ≤ volSum lo then
          n / (wsum (eDens dens) (lo.map (fillRow 1) ++ hi) - n0) +
            (1 - n / (wsum (eDens dens) (lo.map (fillRow 1) ++ hi) - n0)) *
              ((lo.map fun r => r.vol * r.fill j).sum / volSum lo)
        else occ hi (d - volSum lo) j := by
  have hs : ∃ j : Fin s, True := by
    by_contra hc
    have hs0 : s = 0 := by
      cases s with
      | zero => rfl
      | succ s => exact (hc ⟨0, trivial⟩).elim
    subst hs0
    have h0 : ∀ l : WM K 0, wsum (eDens dens) l = 0 := by
      intro l
      unfold wsum
      apply List.sum_eq_zero
      intro x hx
      obtain ⟨r, -, rfl⟩ := List.mem_map.1 hx
      simp [eDens]
    rw [h0] at hshort hn0
    rw [← hn0] at hshort
    linarith
  obtain ⟨j0, -⟩ := hs
  set lo1 := lo.map (fillRow (1 : K)) with hlo1
  have hvl : vols lo1 = vols lo := vols_mapRow _ lo
  have hpl : Pos lo1 := pos_of_vols hvl.symm hp.left
  have hvs : volSum lo1 = volSum lo := volSum_eq_of_vols hvl
  obtain ⟨z', hz', hcc⟩ := collapseCopy_lo j0 lo1 lo hi z (by simpa [hlo1] using hne) hpl hvl (by
    intro r hr
    obtain ⟨r0, -, rfl⟩ := List.mem_map.1 hr
    rfl) hhi
  have ht : ∀ (l : WM K s) (z : ℕ), (instantOps dens p).trapped (l ++ Z z) = wsum (eDens dens) l := by
    intro l z
    change cyNTrapped _ _ = _
    rw [cyNTrapped_eq, wsum_append, wsum_Z, add_zero]
  set mean : Fin s → K := fun j => (lo.map fun r => r.vol * r.fill j).sum / volSum lo with hmean
  have hwA : wsum (eDens dens) (⟨volSum lo1, fun _ => 1⟩ :: hi) = wsum (eDens dens) (lo1 ++ hi) := by
    rw [wsum_cons, wsum_append]
    congr 1
    rw [wsum_const (eDens dens) (fun _ => 1) lo1 (by
      intro r hr
      obtain ⟨r0, -, rfl⟩ := List.mem_map.1 hr
      rfl)]
  unfold finishCapture
  simp only [hcc, ht, hwA]
  set w := wsum (eDens dens) (lo1 ++ hi) - n0 with hw
  have hwpos : 0 < w := lt_trans hn hshort
  rw [if_neg (by intro h; rw [h, sub_self] at hw; linarith)]
  have he : 0 < n / w ∧ n / w < 1 := ⟨div_pos hn hwpos, (div_lt_one hwpos).2 hshort⟩
  rw [if_pos he]
  have htw : (instantOps dens p).tweak ((⟨volSum lo1, fun _ => 1⟩ :: hi) ++ Z (z' + 1))
      ((⟨volSum lo1, fun j => (lo.map fun r => r.vol * r.fill j).sum / volSum lo1⟩ :: hi) ++ Z (z' + 1)) (n / w) =
      .ok ((⟨volSum lo, fun j => n / w + (1 - n / w) * mean j⟩ :: hi) ++ Z (z' + 1)) := by
    change Except.ok (notEnough _ _ _) = _
    rw [notEnough_append _ _ _ _ (by simp)]
    congr 2
    have := notEnough_self hi (n / w)
    unfold notEnough at this ⊢
    rw [List.zipWith_cons_cons, this]
    simp only [hvs, hmean, mul_one]
  rw [htw]
  simp only [bind_ok]
  set C : WM K s := ⟨volSum lo, fun j => n / w + (1 - n / w) * mean j⟩ :: hi with hC
  have hpC : Pos C := by
    intro r hr
    rcases List.mem_cons.1 hr with rfl | hr
    · exact hp.left.sum_pos hne
    · exact hp.right r hr
  obtain ⟨k2, hk2, hf2, hcc2⟩ := collapse_eq 1 C z'
  rw [hcc2]
  refine ⟨_, _, rfl, fun d hd j => ?_⟩
  rw [occ_append_Z _ _ d hd j, mergeTop_occ k2 _ C hpC hf2 d hd j, hC, occ_cons]

theorem cutAt_hi_fill (c : K) (act : WM K s) (P : (Fin s → K) → Prop) (h : ∀ r ∈ act, P r.fill) :
    ∀ r ∈ (cutAt c act).2, P r.fill := by
  induction act generalizing c with
  | nil => intro r hr; simp [cutAt] at hr
  | cons r rs ih =>
    unfold cutAt
    split
    · intro x hx
      simp only [List.mem_cons] at hx
      rcases hx with rfl | hx
      · exact h r (by simp)
      · exact h x (by simp [hx])
    · split
      · intro x hx; exact h x (by simp [hx])
      · exact ih _ fun x hx => h x (by simp [hx])

/-- **One transfer with too few electrons.** -/
theorem instantStep_short (dens p : Fin s → K) (f : K → K) (hf : FillModel f) (hd : ∀ j, 0 ≤ dens j)
    (hpr : ∀ j, 0 ≤ p j ∧ p j < 1) (n : K) (act : WM K s) (z : ℕ) (hp : Pos act)
    (hF : ∀ r ∈ act, Frac r.fill) (a : K) (ha : a = n + (electrons dens act - electrons dens (released p act)))
    (hshort : max 0 a < vacant dens (f a) (released p act)) :
    ∃ net wm', icStep (instantOps dens p) f n (act ++ Z (z + 2)) = .ok (net, wm') ∧
      ∀ d, 0 < d → ∀ j, occ wm' d j =
        if d ≤ f a then
          a / vacant dens (f a) (released p act) + (1 - a / vacant dens (f a) (released p act)) *
            (upTo (f a) (released p act) j / f a)
        else occ act d j * p j := by
  have hrl : released p act = act.map (mapRow fun j x => x * p j) := rfl
  set act1 := released p act with hact1
  have hp1 : Pos act1 := by rw [hrl]; exact pos_of_vols (vols_mapRow _ act).symm hp
  have hc : 0 < f a := by
    rcases (hf.nonneg a).eq_or_lt with h | h
    · rw [← h, vacant_zero dens act1 hp1] at hshort
      exact absurd (le_max_left 0 a) (not_le.2 hshort)
    · exact h
  have hn : 0 < a := by
    by_contra h; exact absurd (hf.empty _ (not_lt.1 h)) hc.ne'
  rw [max_eq_right hn.le] at hshort
  have law := instantLaw dens p hd
  have hrel : icRelease (instantOps dens p) (act ++ Z (z + 2)) =
      (electrons dens act - electrons dens act1, act1 ++ Z (z + 2)) := by
    have := icRelease_eq (instantOps dens p) act (z + 1) hp.ne
    rw [law.trapped act (z + 1) hp] at this
    have h2 : (instantOps dens p).trapped (act.map (mapRow (instantOps dens p).release) ++ Z (z + 1 + 1)) =
        wsum (eDens dens) act1 := law.trapped act1 (z + 1) hp1
    rw [h2] at this
    exact this
  have hnot : ∀ r ∈ act1, r.fill ≠ fun _ => 1 := by
    intro r hr hone
    obtain ⟨r0, hr0, rfl⟩ := List.mem_map.1 hr
    have hs : ∃ j : Fin s, True := by
      by_contra hno
      have : vacant dens (f a) act1 = 0 := by
        rw [upTo_vacant]
        apply Finset.sum_eq_zero
        intro j _
        exact (hno ⟨j, trivial⟩).elim
      linarith
    obtain ⟨j, -⟩ := hs
    have h1 := congrFun hone j
    simp only at h1
    have h2 := hF r0 hr0 j
    have h3 := hpr j
    have : r0.fill j * p j < 1 := lt_of_le_of_lt (mul_le_of_le_one_left h3.1 h2.2) h3.2
    linarith
  unfold icStep
  rw [hrel]
  simp only [← ha]
  obtain ⟨z', hz', hcap⟩ := icCapture_cut (instantOps dens p) (eDens dens) law f a act1 z hp1 hn hc
  have e : (instantOps dens p).filled = 1 := rfl
  rw [e] at hcap
  rw [hcap]
  have hpc := cutAt_pos (f a) act1 hc hp1
  have hwB : wsum (eDens dens) ((cutAt (f a) act1).1 ++ (cutAt (f a) act1).2) = wsum (eDens dens) act1 :=
    wsum_cut _ (eDens_zero dens) (f a) act1
  have hwA := wsum_fill_cut dens (f a) act1 hc
  obtain ⟨q, wm', hfin, hocc⟩ := finish_short dens p a (wsum (eDens dens) act1) (cutAt (f a) act1).1 (cutAt (f a) act1).2
    z' hpc (cutAt_ne_nil _ _) (cutAt_hi_fill (f a) act1 (fun x => x ≠ fun _ => 1) hnot) hn hwB (by rw [hwA]; linarith)
  rw [hfin]
  refine ⟨_, _, rfl, fun d hd0 j => ?_⟩
  rw [hocc d hd0 j, hwA, add_sub_cancel_left, cutAt_vol, cutAt_upTo]
  have key := occ_cut (f a) act1 hc d hd0 j
  rw [occ_append _ _ hpc.left d hd0, cutAt_vol] at key
  by_cases h : d ≤ f a
  · rw [if_pos h, if_pos h]
  · rw [if_neg h] at key
    rw [if_neg h, if_neg h, key]
    exact occ_map_all (fun j x => x * p j) (by simp) act d j

end Arctic
