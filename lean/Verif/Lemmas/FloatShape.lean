import Verif.Lemmas.FloatRun
import Verif.Lemmas.Columns

/-!
# Over an arbitrary arithmetic a transfer never changes the size of the watermark array

The counterpart of `Verif.Lemmas.StepShape` for the functions of `Verif.Model.Float`.
-/

set_option linter.unusedSectionVars false
set_option linter.unusedVariables false

namespace Arctic.Fp

open Arctic (foldl_set_length roll_length bind_eq_ok)

variable {F : Type} {A : Arith F} {s : ℕ}

theorem updateVolumes_length {wm w : WM F s} {c : F} {i : ℤ} (h : updateVolumes A wm c i = .ok w) :
    w.length = wm.length := by
  unfold updateVolumes at h
  split at h
  · cases h
  · unfold cyUpdateVolumes at h
    split at h
    · cases h
    · injection h with h
      rw [← h]
      simp only [setVol, List.length_modify]
      split
      · rw [List.length_set, roll_length]
      · rw [foldl_set_length (fun _ i => i), roll_length]

theorem splitAtCloud_length {c : F} {idx mx m' : ℤ} {wm init w i : WM F s}
    (h : splitAtCloud A c idx mx wm init = .ok (w, i, m')) : w.length = wm.length ∧ i.length = init.length := by
  unfold splitAtCloud at h
  split at h
  · obtain ⟨w1, h1, h⟩ := bind_eq_ok h
    obtain ⟨i1, h2, h⟩ := bind_eq_ok h
    injection h with h
    injection h with h3 h4
    injection h4 with h4 h5
    subst h3 h4
    exact ⟨updateVolumes_length h1, updateVolumes_length h2⟩
  · injection h with h
    injection h with h3 h4
    injection h4 with h4 h5
    subst h3 h4
    exact ⟨rfl, rfl⟩

theorem newTop_length {c : F} {idx : ℤ} {wm init w i : WM F s} (h : newTopWatermark A c idx wm init = .ok (w, i)) :
    w.length = wm.length ∧ i.length = init.length := by
  unfold newTopWatermark at h
  split at h
  · injection h with h
    injection h with h3 h4
    subst h3 h4
    simp [setVol]
  · cases h

theorem collapse_length (filled : F) (wm : WM F s) : (collapse A filled wm).length = wm.length := by
  unfold collapse
  simp only
  split
  · rfl
  · exact collapseRows_length (indexNotFilled_le _ _)

theorem collapseCopy_length (filled : F) (wm copy : WM F s) (h : copy.length = wm.length) :
    (collapseCopy A filled wm copy).1.length = wm.length ∧ (collapseCopy A filled wm copy).2.length = wm.length := by
  unfold collapseCopy
  simp only
  split
  · exact ⟨rfl, h⟩
  · exact ⟨collapseRows_length (indexNotFilled_le _ _),
      (collapseRows_length ((indexNotFilled_le _ _).trans h.ge)).trans h⟩

theorem notEnough_length (wm init : WM F s) (e : F) (h : init.length = wm.length) :
    (notEnough A wm init e).length = wm.length := by
  simp [notEnough, h]

theorem finishCapture_length {filled : F} {trapped : WM F s → F} {tweak : WM F s → WM F s → F → Except Err (WM F s)}
    (ht : ∀ w w0 e w', w0.length = w.length → tweak w w0 e = .ok w' → w'.length = w.length) {n n0 c : F}
    {wm init w : WM F s} (hl : init.length = wm.length)
    (h : finishCapture A filled trapped tweak n n0 wm init = .ok (c, w)) : w.length = wm.length := by
  obtain ⟨g1, g2⟩ := collapseCopy_length (A := A) filled wm init hl
  unfold finishCapture at h
  simp only at h
  split at h
  · injection h with h; injection h with h1 h2; rw [← h2, g1]
  · obtain ⟨e, h0, h⟩ := bind_eq_ok h
    split at h
    · obtain ⟨w1, h1, h⟩ := bind_eq_ok h
      injection h with h; injection h with h2 h3
      rw [← h3, collapse_length, ht _ _ _ _ (g2.trans g1.symm) h1, g1]
    · injection h with h; injection h with h1 h2
      rw [← h2, collapse_length, g1]

theorem slowFirstCapture_length {dens : Fin s → F} {n c net : F} {init : WM F s} {p : Fin s → F} {wm w : WM F s}
    (hl : init.length = wm.length) (h : slowFirstCapture A dens n c init p wm = .ok (net, w)) :
    w.length = wm.length := by
  unfold slowFirstCapture at h
  simp only at h
  split at h
  · injection h with h; injection h with h1 h2; rw [← h2]; simp
  · obtain ⟨e, h0, h⟩ := bind_eq_ok h
    split at h
    · injection h with h; injection h with h1 h2
      rw [← h2, notEnough_length] <;> simp [setVol, hl]
    · injection h with h; injection h with h1 h2; rw [← h2]; simp

theorem slowStep_length {dens : Fin s → F} {p : Probs F s} {f : F → F} {n net : F} {wm w : WM F s}
    (h : slowStep A dens p f n wm = .ok (net, w)) : w.length = wm.length := by
  unfold slowStep at h
  simp only at h
  split at h
  · exact slowFirstCapture_length rfl h
  · obtain ⟨⟨n', init, idx, wm1⟩, h1, h⟩ := bind_eq_ok h
    have hl : wm1.length = wm.length ∧ init.length = wm.length := by
      split at h1
      · obtain ⟨o, h2, h1⟩ := bind_eq_ok h1
        injection h1 with h1
        injection h1 with h1 h3
        injection h3 with h3 h4
        injection h4 with h4 h5
        subst h3 h5
        unfold slowCloudBelow at h2
        obtain ⟨⟨wa, ia, ma⟩, g1, h2⟩ := bind_eq_ok h2
        simp only at h2
        obtain ⟨⟨wb, ib, mb⟩, g2, h2⟩ := bind_eq_ok h2
        injection h2 with h2
        subst h2
        have e1 := splitAtCloud_length g1
        have e2 := splitAtCloud_length g2
        rw [mapFills_length] at e2
        exact ⟨e2.1.trans e1.1, e2.2.trans e1.2⟩
      · obtain ⟨⟨wa, ia⟩, h2, h1⟩ := bind_eq_ok h1
        injection h1 with h1
        injection h1 with h1 h3
        injection h3 with h3 h4
        injection h4 with h4 h5
        subst h3 h5
        exact newTop_length h2
    simp only at h
    obtain ⟨⟨c, w'⟩, h2, h⟩ := bind_eq_ok h
    injection h with h
    injection h with h3 h4
    subst h4
    have := finishCapture_length (fun w w0 e w' hl h => by
      injection h with h; rw [← h]; exact notEnough_length _ _ _ hl) (by rw [mapFills_length, hl.1, hl.2]) h2
    rw [this, mapFills_length, hl.1]

/-- The shortage tweak keeps the size. -/
def KeepsSize (ops : ICOps F s) : Prop :=
  ∀ w w0 e w', w0.length = w.length → ops.tweak w w0 e = .ok w' → w'.length = w.length

theorem icStep_length {ops : ICOps F s} (ht : KeepsSize ops) {f : F → F} {n net : F} {wm w : WM F s}
    (h : icStep A ops f n wm = .ok (net, w)) : w.length = wm.length := by
  unfold icStep icRelease at h
  simp only at h
  obtain ⟨⟨c, w1⟩, h1, h⟩ := bind_eq_ok h
  injection h with h
  injection h with h2 h3
  subst h3
  suffices hs : ∀ (wm : WM F s) n c, icCapture A ops f n wm = .ok (c, w1) → w1.length = wm.length by
    rw [hs _ _ _ h1, mapFills_length]
  clear h1 h2
  intro wm n c h1
  unfold icCapture at h1
  simp only at h1
  split at h1
  · unfold icFirstCapture at h1
    simp only at h1
    split at h1
    · injection h1 with h1; injection h1 with h2 h3; rw [← h3]; simp
    · obtain ⟨e, h0, h1⟩ := bind_eq_ok h1
      split at h1
      · obtain ⟨w2, h2, h1⟩ := bind_eq_ok h1
        injection h1 with h1; injection h1 with h3 h4
        rw [← h4, ht _ _ _ _ (by simp [setVol]) h2]; simp
      · injection h1 with h1; injection h1 with h2 h3; rw [← h3]; simp
  · obtain ⟨⟨wa, ia⟩, h2, h1⟩ := bind_eq_ok h1
    have hl : wa.length = wm.length ∧ ia.length = wm.length := by
      split at h2
      · obtain ⟨⟨wb, ib, mb⟩, h3, h2⟩ := bind_eq_ok h2
        injection h2 with h2; injection h2 with h4 h5
        subst h4 h5
        exact splitAtCloud_length h3
      · exact newTop_length h2
    rw [finishCapture_length ht (by rw [mapFills_length, hl.1, hl.2]) h1, mapFills_length, hl.1]

theorem instantOps_keepsSize (dens p : Fin s → F) : KeepsSize (instantOps A dens p) :=
  fun w w0 e w' hl h => by
    injection h with h
    rw [← h]; exact notEnough_length _ _ _ hl

theorem trackTimeOps_keepsSize (dens : Fin s → F) (c : Fin s → F → F) (t : F) :
    KeepsSize (trackTimeOps A dens c t) := fun w w0 e w' hl h => by cases h

/-- A transfer leaves the species, the class and the size of the array as they are. -/
theorem step_shape {m m' : Mgr F} {n t net : F} {f : F → F} (h : step A m n t f = .ok (net, m')) :
    ∃ wm, m' = { m with wm := wm } ∧ wm.length = m.wm.length := by
  unfold step at h
  simp only at h
  split at h <;> obtain ⟨⟨net1, wm⟩, h1, h⟩ := bind_eq_ok h <;> injection h with h <;>
    injection h with h2 h3 <;> refine ⟨wm, h3.symm, ?_⟩
  · exact slowStep_length h1
  · exact icStep_length (instantOps_keepsSize _ _) h1
  · exact icStep_length (trackTimeOps_keepsSize _ _ _) h1

/-- so emptying it afterwards is the same as emptying it before. -/
theorem step_empty {m m' : Mgr F} {n t net : F} {f : F → F} (h : step A m n t f = .ok (net, m')) :
    empty A m' = empty A m := by
  obtain ⟨wm, rfl, hl⟩ := step_shape h
  unfold empty
  simp only [List.map_const', hl]

theorem empty_empty (m : Mgr F) : empty A (empty A m) = empty A m := by
  unfold empty
  simp

theorem groupsStep_empty {n t acc net : F} {f : F → F} {ms ms' : List (Mgr F)}
    (h : groupsStep A n t f acc ms = .ok (net, ms')) : ms'.map (empty A) = ms.map (empty A) := by
  induction ms generalizing acc net ms' with
  | nil => unfold groupsStep at h; injection h with h; injection h with h1 h2; rw [← h2]
  | cons m ms ih =>
    unfold groupsStep at h
    obtain ⟨⟨net1, m1⟩, h1, h⟩ := bind_eq_ok h
    obtain ⟨⟨net2, ms2⟩, h2, h⟩ := bind_eq_ok h
    injection h with h; injection h with h3 h4
    rw [← h4, List.map_cons, List.map_cons, ih h2, step_empty h1]

/-- All managers emptied. -/
def emptied (A : Arith F) (d : List (List (Mgr F))) : List (List (Mgr F)) := d.map fun ms => ms.map (empty A)

theorem emptied_emptied (d : List (List (Mgr F))) : emptied A (emptied A d) = emptied A d := by
  unfold emptied
  simp [empty_empty]

theorem emptied_set {d : List (List (Mgr F))} {i : ℕ} {ms ms' : List (Mgr F)} (h : d[i]? = some ms)
    (he : ms'.map (empty A) = ms.map (empty A)) : emptied A (d.set i ms') = emptied A d := by
  unfold emptied
  rw [List.map_set, he]
  apply List.ext_getElem?
  intro j
  rw [List.getElem?_set]
  split
  · rename_i hj
    subst hj
    rw [List.getElem?_map, h]
    split
    · rfl
    · rename_i hl
      rw [List.length_map] at hl
      obtain ⟨hl', -⟩ := List.getElem?_eq_some_iff.1 h
      exact absurd hl' hl
  · rfl

theorem emptied_new (groups : List (Arctic.Group F)) (fr : List F) (N : ℕ) :
    emptied A (newATM A groups fr N).data = (newATM A groups fr N).data := by
  unfold emptied newATM
  simp only [List.map_map]
  refine List.map_congr_left fun frac _ => ?_
  simp only [Function.comp, List.map_map]
  refine List.map_congr_left fun g _ => ?_
  simp only [Function.comp, newMgr, empty, List.map_replicate]

/-- What a restore brings back. -/
def eff (A : Arith F) (a : ATM F) : List (List (Mgr F)) := (restore A a).data

theorem eff_none {a : ATM F} (h : a.saved = none) : eff A a = emptied A a.data := by
  unfold eff restore
  simp only [h]
  rfl

theorem eff_some {a : ATM F} {d : List (List (Mgr F))} (h : a.saved = some d) : eff A a = d := by
  unfold eff restore
  simp only [h]

theorem react_data {a a' : ATM F} {ph : ℕ} {n t net : F} {f : F → F} (h : react A a ph n t f = .ok (net, a')) :
    ∃ ms ms', a.data[ph]? = some ms ∧ groupsStep A n t f A.zero ms = .ok (net, ms') ∧
      a' = { a with data := a.data.set ph ms' } := by
  unfold react at h
  split at h
  · cases h
  · rename_i ms hms
    obtain ⟨⟨net1, ms'⟩, h1, h⟩ := bind_eq_ok h
    injection h with h
    injection h with h2 h3
    subst h2 h3
    exact ⟨ms, ms', hms, h1, rfl⟩

theorem react_emptied {a a' : ATM F} {ph : ℕ} {n t net : F} {f : F → F}
    (h : react A a ph n t f = .ok (net, a')) : emptied A a'.data = emptied A a.data ∧ a'.saved = a.saved := by
  obtain ⟨ms, ms', h1, h2, rfl⟩ := react_data h
  exact ⟨emptied_set h1 (groupsStep_empty h2), rfl⟩

end Arctic.Fp
