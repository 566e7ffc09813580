import Verif.Lemmas.Conserve
import Verif.Lemmas.Relabel
import Verif.Lemmas.Fold

/-!
# A transfer never changes the size of the watermark array, whatever the state
-/

set_option linter.unusedSectionVars false
set_option linter.unusedVariables false

namespace Arctic

variable {K : Type} [Field K] [LinearOrder K] [IsStrictOrderedRing K] {s : ℕ}

theorem foldl_set_length {α β : Type} (g : List α → β → ℕ) (v : List α → β → α) (l : List β) (a : List α) :
    (l.foldl (fun a i => a.set (g a i) (v a i)) a).length = a.length := by
  induction l generalizing a with
  | nil => rfl
  | cons b l ih => rw [List.foldl_cons, ih]; simp

theorem roll_length {α : Type} (arr : List α) : (roll2dVertical1 arr).length = arr.length := by
  unfold roll2dVertical1
  split
  · rfl
  · simp only [List.length_set]
    generalize List.range' 1 (arr.length - 1) = is
    suffices h : ∀ (n : ℕ) (a : List α), (is.foldl (fun a i => match a[n - i - 1]? with
        | some r => a.set (n - i) r
        | none => a) a).length = a.length from h _ _
    intro n
    induction is with
    | nil => intro a; rfl
    | cons i is ih =>
      intro a
      rw [List.foldl_cons, ih]
      split
      · simp
      · rfl

theorem updateVolumes_length {wm w : WM K s} {c : K} {i : ℤ} (h : updateVolumes wm c i = .ok w) :
    w.length = wm.length := by
  unfold updateVolumes at h
  split at h
  · cases h
  · unfold cyUpdateVolumes at h
    split at h
    · cases h
    · injection h with h
      rw [← h]
      simp only [setVol, List.length_modify]
      split
      · rw [List.length_set, roll_length]
      · rw [foldl_set_length (fun _ i => i), roll_length]

theorem splitAtCloud_length {c : K} {idx mx m' : ℤ} {wm init w i : WM K s}
    (h : splitAtCloud c idx mx wm init = .ok (w, i, m')) : w.length = wm.length ∧ i.length = init.length := by
  unfold splitAtCloud at h
  split at h
  · obtain ⟨w1, h1, h⟩ := bind_eq_ok h
    obtain ⟨i1, h2, h⟩ := bind_eq_ok h
    injection h with h
    injection h with h3 h4
    injection h4 with h4 h5
    subst h3 h4
    exact ⟨updateVolumes_length h1, updateVolumes_length h2⟩
  · injection h with h
    injection h with h3 h4
    injection h4 with h4 h5
    subst h3 h4
    exact ⟨rfl, rfl⟩

theorem newTop_length {c : K} {idx : ℤ} {wm init w i : WM K s} (h : newTopWatermark c idx wm init = .ok (w, i)) :
    w.length = wm.length ∧ i.length = init.length := by
  unfold newTopWatermark at h
  split at h
  · injection h with h
    injection h with h3 h4
    subst h3 h4
    simp [setVol]
  · cases h

theorem mapFills_length (lo hi : ℕ) (g : Fin s → K → K) (wm : WM K s) : (mapFills lo hi g wm).length = wm.length := by
  simp [mapFills]

theorem collapseRows_length (k : ℕ) (wm : WM K s) (r : Row K s) (hk : k ≤ wm.length) :
    (collapseRows k wm r).length = wm.length := by
  simp [collapseRows]; omega

theorem indexNotFilled_length (filled : K) (wm : WM K s) (h : 2 ≤ indexNotFilled filled wm) :
    indexNotFilled filled wm ≤ wm.length := by
  obtain ⟨h1, -⟩ := indexNotFilled_filled filled wm (indexNotFilled filled wm - 1) (by omega)
  omega

theorem collapse_length (filled : K) (wm : WM K s) : (collapse filled wm).length = wm.length := by
  unfold collapse
  simp only
  split
  · rfl
  · exact collapseRows_length _ _ _ (indexNotFilled_length filled wm (by omega))

theorem collapseCopy_length (filled : K) (wm copy : WM K s) (h : copy.length = wm.length) :
    (collapseCopy filled wm copy).1.length = wm.length ∧ (collapseCopy filled wm copy).2.length = wm.length := by
  rw [collapseCopy_fst]
  exact ⟨collapse_length _ _, (collapseCopy_snd_length _ _ _ h).trans h⟩

theorem notEnough_length (wm init : WM K s) (e : K) (h : init.length = wm.length) :
    (notEnough wm init e).length = wm.length := by
  simp [notEnough, h]

theorem finishCapture_length {filled : K} {trapped : WM K s → K} {tweak : WM K s → WM K s → K → Except Err (WM K s)}
    (ht : ∀ w w0 e w', w0.length = w.length → tweak w w0 e = .ok w' → w'.length = w.length) {n n0 c : K}
    {wm init w : WM K s} (hl : init.length = wm.length)
    (h : finishCapture filled trapped tweak n n0 wm init = .ok (c, w)) : w.length = wm.length := by
  obtain ⟨g1, g2⟩ := collapseCopy_length filled wm init hl
  unfold finishCapture at h
  simp only at h
  split at h
  · injection h with h; injection h with h1 h2; rw [← h2, g1]
  · split at h
    · obtain ⟨w1, h1, h⟩ := bind_eq_ok h
      injection h with h; injection h with h2 h3
      rw [← h3, collapse_length, ht _ _ _ _ (g2.trans g1.symm) h1, g1]
    · injection h with h; injection h with h1 h2
      rw [← h2, collapse_length, g1]

theorem slowFirstCapture_length (dens : Fin s → K) (n c : K) (init : WM K s) (p : Fin s → K) (wm : WM K s)
    (hl : init.length = wm.length) : (slowFirstCapture dens n c init p wm).2.length = wm.length := by
  unfold slowFirstCapture
  simp only
  split
  · simp
  · split
    · simp only
      rw [notEnough_length] <;> simp [setVol, hl]
    · simp

theorem slowStep_length {dens : Fin s → K} {p : Probs K s} {f : K → K} {n net : K} {wm w : WM K s}
    (h : slowStep dens p f n wm = .ok (net, w)) : w.length = wm.length := by
  unfold slowStep at h
  simp only at h
  split at h
  · injection h with h
    have := slowFirstCapture_length dens n (f n) wm p.fromEmpty wm rfl
    rw [h] at this
    exact this
  · obtain ⟨⟨n', init, idx, wm1⟩, h1, h⟩ := bind_eq_ok h
    have hl : wm1.length = wm.length ∧ init.length = wm.length := by
      split at h1
      · obtain ⟨o, h2, h1⟩ := bind_eq_ok h1
        injection h1 with h1
        injection h1 with h1 h3
        injection h3 with h3 h4
        injection h4 with h4 h5
        subst h3 h5
        unfold slowCloudBelow at h2
        obtain ⟨⟨wa, ia, ma⟩, g1, h2⟩ := bind_eq_ok h2
        simp only at h2
        obtain ⟨⟨wb, ib, mb⟩, g2, h2⟩ := bind_eq_ok h2
        injection h2 with h2
        subst h2
        have e1 := splitAtCloud_length g1
        have e2 := splitAtCloud_length g2
        rw [mapFills_length] at e2
        exact ⟨e2.1.trans e1.1, e2.2.trans e1.2⟩
      · obtain ⟨⟨wa, ia⟩, h2, h1⟩ := bind_eq_ok h1
        injection h1 with h1
        injection h1 with h1 h3
        injection h3 with h3 h4
        injection h4 with h4 h5
        subst h3 h5
        exact newTop_length h2
    simp only at h
    obtain ⟨⟨c, w'⟩, h2, h⟩ := bind_eq_ok h
    injection h with h
    injection h with h3 h4
    subst h4
    have := finishCapture_length (fun w w0 e w' hl h => by
      injection h with h; rw [← h]; exact notEnough_length _ _ _ hl) (by rw [mapFills_length, hl.1, hl.2]) h2
    rw [this, mapFills_length, hl.1]

/-- The shortage tweak keeps the size. -/
def ICOps.KeepsSize (ops : ICOps K s) : Prop :=
  ∀ w w0 e w', w0.length = w.length → ops.tweak w w0 e = .ok w' → w'.length = w.length

theorem icStep_length {ops : ICOps K s} (ht : ops.KeepsSize) {f : K → K} {n net : K} {wm w : WM K s}
    (h : icStep ops f n wm = .ok (net, w)) : w.length = wm.length := by
  unfold icStep icRelease at h
  simp only at h
  obtain ⟨⟨c, w1⟩, h1, h⟩ := bind_eq_ok h
  injection h with h
  injection h with h2 h3
  subst h3
  suffices hs : ∀ (wm : WM K s) n c, icCapture ops f n wm = .ok (c, w1) → w1.length = wm.length by
    rw [hs _ _ _ h1, mapFills_length]
  clear h1 h2
  intro wm n c h1
  unfold icCapture at h1
  simp only at h1
  split at h1
  · unfold icFirstCapture at h1
    simp only at h1
    split at h1
    · injection h1 with h1; injection h1 with h2 h3; rw [← h3]; simp
    · split at h1
      · obtain ⟨w2, h2, h1⟩ := bind_eq_ok h1
        injection h1 with h1; injection h1 with h3 h4
        rw [← h4, ht _ _ _ _ (by simp [setVol]) h2]; simp
      · injection h1 with h1; injection h1 with h2 h3; rw [← h3]; simp
  · obtain ⟨⟨wa, ia⟩, h2, h1⟩ := bind_eq_ok h1
    have hl : wa.length = wm.length ∧ ia.length = wm.length := by
      split at h2
      · obtain ⟨⟨wb, ib, mb⟩, h3, h2⟩ := bind_eq_ok h2
        injection h2 with h2; injection h2 with h4 h5
        subst h4 h5
        exact splitAtCloud_length h3
      · exact newTop_length h2
    rw [finishCapture_length ht (by rw [mapFills_length, hl.1, hl.2]) h1, mapFills_length, hl.1]

theorem instantOps_keepsSize (dens p : Fin s → K) : (instantOps dens p).KeepsSize :=
  fun w w0 e w' hl h => by
    injection h with h
    rw [← h]; exact notEnough_length _ _ _ hl

theorem trackTimeOps_keepsSize (dens : Fin s → K) (c : Fin s → K → K) (t : K) :
    (trackTimeOps dens c t).KeepsSize := fun w w0 e w' hl h => by cases h

/-- A transfer leaves the species, the class and the size of the array as they are. -/
theorem Mgr.step_shape {m m' : Mgr K} {n t net : K} {f : K → K} (h : m.step n t f = .ok (net, m')) :
    ∃ wm, m' = { m with wm := wm } ∧ wm.length = m.wm.length := by
  unfold Mgr.step at h
  simp only at h
  split at h <;> obtain ⟨⟨net1, wm⟩, h1, h⟩ := bind_eq_ok h <;> injection h with h <;>
    injection h with h2 h3 <;> refine ⟨wm, h3.symm, ?_⟩
  · exact slowStep_length h1
  · exact icStep_length (instantOps_keepsSize _ _) h1
  · exact icStep_length (trackTimeOps_keepsSize _ _ _) h1

/-- so emptying it afterwards is the same as emptying it before. -/
theorem Mgr.step_empty {m m' : Mgr K} {n t net : K} {f : K → K} (h : m.step n t f = .ok (net, m')) :
    m'.empty = m.empty := by
  obtain ⟨wm, rfl, hl⟩ := Mgr.step_shape h
  unfold Mgr.empty
  simp only [List.map_const', hl]

theorem Mgr.empty_empty (m : Mgr K) : m.empty.empty = m.empty := by
  unfold Mgr.empty
  simp

theorem groupsStep_empty {n t net : K} {f : K → K} {ms ms' : List (Mgr K)}
    (h : groupsStep n t f ms = .ok (net, ms')) : ms'.map Mgr.empty = ms.map Mgr.empty := by
  induction ms generalizing net ms' with
  | nil => unfold groupsStep at h; injection h with h; injection h with h1 h2; rw [← h2]
  | cons m ms ih =>
    unfold groupsStep at h
    obtain ⟨⟨net1, m1⟩, h1, h⟩ := bind_eq_ok h
    obtain ⟨⟨net2, ms2⟩, h2, h⟩ := bind_eq_ok h
    injection h with h; injection h with h3 h4
    rw [← h4, List.map_cons, List.map_cons, ih h2, Mgr.step_empty h1]

/-- All managers emptied. -/
def emptied (d : List (List (Mgr K))) : List (List (Mgr K)) := d.map fun ms => ms.map Mgr.empty

theorem emptied_emptied (d : List (List (Mgr K))) : emptied (emptied d) = emptied d := by
  unfold emptied
  simp [Mgr.empty_empty]

theorem emptied_set {d : List (List (Mgr K))} {i : ℕ} {ms ms' : List (Mgr K)} (h : d[i]? = some ms)
    (he : ms'.map Mgr.empty = ms.map Mgr.empty) : emptied (d.set i ms') = emptied d := by
  unfold emptied
  rw [List.map_set, he]
  apply List.ext_getElem?
  intro j
  rw [List.getElem?_set]
  split
  · rename_i hj
    subst hj
    rw [List.getElem?_map, h]
    split
    · rfl
    · rename_i hl
      rw [List.length_map] at hl
      obtain ⟨hl', -⟩ := List.getElem?_eq_some_iff.1 h
      exact absurd hl' hl
  · rfl

theorem emptied_new (groups : List (Group K)) (fr : List K) (N : ℕ) :
    emptied (ATM.new groups fr N).data = (ATM.new groups fr N).data := by
  unfold emptied ATM.new
  simp only [List.map_map]
  refine List.map_congr_left fun frac _ => ?_
  simp only [Function.comp, List.map_map]
  refine List.map_congr_left fun g _ => ?_
  simp only [Function.comp, Mgr.new, Mgr.empty, List.map_replicate]

/-- What a restore brings back. -/
def ATM.eff (a : ATM K) : List (List (Mgr K)) := a.restore.data

theorem ATM.eff_none {a : ATM K} (h : a.saved = none) : a.eff = emptied a.data := by
  unfold ATM.eff ATM.restore
  simp only [h]
  rfl

theorem ATM.eff_some {a : ATM K} {d : List (List (Mgr K))} (h : a.saved = some d) : a.eff = d := by
  unfold ATM.eff ATM.restore
  simp only [h]

theorem ATM.react_data {a a' : ATM K} {ph : ℕ} {n t net : K} {f : K → K} (h : a.react ph n t f = .ok (net, a')) :
    ∃ ms ms', a.data[ph]? = some ms ∧ groupsStep n t f ms = .ok (net, ms') ∧
      a' = { a with data := a.data.set ph ms' } := by
  unfold ATM.react at h
  split at h
  · cases h
  · rename_i ms hms
    obtain ⟨⟨net1, ms'⟩, h1, h⟩ := bind_eq_ok h
    injection h with h
    injection h with h2 h3
    subst h2 h3
    exact ⟨ms, ms', hms, h1, rfl⟩

theorem ATM.react_emptied {a a' : ATM K} {ph : ℕ} {n t net : K} {f : K → K}
    (h : a.react ph n t f = .ok (net, a')) : emptied a'.data = emptied a.data ∧ a'.saved = a.saved := by
  obtain ⟨ms, ms', h1, h2, rfl⟩ := ATM.react_data h
  exact ⟨emptied_set h1 (groupsStep_empty h2), rfl⟩

end Arctic
