import Verif.Lemmas.InstantRun

/-!
# Relabelling species

A manager for the species `Fin s'` whose species `j` behaves like species `φ j` of a manager for
`Fin s`, with densities adding up over each fibre of `φ`, goes through the same states.
-/

set_option linter.unusedSectionVars false
set_option linter.unusedVariables false

namespace Arctic

variable {K : Type} [Field K] [LinearOrder K] [IsStrictOrderedRing K] {s s' : ℕ}

def rlRow (φ : Fin s' → Fin s) (r : Row K s) : Row K s' := ⟨r.vol, fun j => r.fill (φ j)⟩

def rl (φ : Fin s' → Fin s) (wm : WM K s) : WM K s' := wm.map (rlRow φ)

variable (φ : Fin s' → Fin s)

theorem rl_vols (wm : WM K s) : (rl φ wm).map Row.vol = wm.map Row.vol := by
  unfold rl; rw [List.map_map]; rfl

theorem rl_length (wm : WM K s) : (rl φ wm).length = wm.length := by unfold rl; simp

theorem rl_maxIdx (wm : WM K s) : maxWatermarkIndex (rl φ wm) = maxWatermarkIndex wm := by
  unfold maxWatermarkIndex rl; rw [List.map_map]; rfl

theorem rl_index (c : K) (wm : WM K s) (mx : ℤ) :
    watermarkIndexAboveCloud c (rl φ wm) mx = watermarkIndexAboveCloud c wm mx := by
  unfold watermarkIndexAboveCloud cyIndexAbove
  rw [rl_vols, rl_length]

theorem rl_mapFills (lo hi : ℕ) (g : Fin s → K → K) (wm : WM K s) :
    mapFills lo hi (fun j => g (φ j)) (rl φ wm) = rl φ (mapFills lo hi g wm) := by
  unfold mapFills rl
  apply List.ext_getElem
  · simp
  · intro i h1 h2
    simp only [List.getElem_mapIdx, List.getElem_map]
    split <;> rfl

theorem rl_setVol (wm : WM K s) (i : ℕ) (v : K) : setVol (rl φ wm) i v = rl φ (setVol wm i v) := by
  unfold setVol rl
  apply List.ext_getElem
  · simp
  · intro k h1 h2
    simp only [List.getElem_modify, List.getElem_map]
    split <;> rfl

theorem rl_trapped (dens : Fin s → K) (dens' : Fin s' → K)
    (hd : ∀ j, dens j = ∑ i with φ i = j, dens' i) (wm : WM K s) :
    cyNTrapped (rl φ wm) dens' = cyNTrapped wm dens := by
  unfold cyNTrapped rl
  rw [List.map_map]
  congr 1
  apply List.map_congr_left
  intro r _
  change ∑ i, r.vol * r.fill (φ i) * dens' i = ∑ j, r.vol * r.fill j * dens j
  rw [← Finset.sum_fiberwise (s := Finset.univ) (g := φ)]
  apply Finset.sum_congr rfl
  intro j _
  rw [hd j, Finset.mul_sum]
  apply Finset.sum_congr rfl
  intro i hi
  rw [Finset.mem_filter] at hi
  rw [hi.2]

theorem rl_update (wm : WM K s) (c : K) (i : ℕ) :
    cyUpdateVolumes (rl φ wm) c i = (cyUpdateVolumes wm c i).map (rl φ) := by
  by_cases h : wm.length ≤ i + 1
  · unfold cyUpdateVolumes
    rw [rl_length, if_pos h, if_pos h]; rfl
  · obtain ⟨pre, r, rest, rfl, hp⟩ : ∃ pre r rest, wm = pre ++ r :: rest ∧ pre.length = i :=
      ⟨wm.take i, wm[i]'(by omega), wm.drop (i + 1), by
        rw [List.cons_getElem_drop_succ, List.take_append_drop], by rw [List.length_take]; omega⟩
    have hne : rest ≠ [] := by
      rintro rfl
      rw [List.length_append] at h; simp at h; omega
    subst hp
    have e : rl φ (pre ++ r :: rest) = rl φ pre ++ rlRow φ r :: rl φ rest := by unfold rl; simp
    have hne' : rl φ rest ≠ [] := by unfold rl; simpa using hne
    have := cyUpdateVolumes_eq (rl φ pre) (rl φ rest) (rlRow φ r) c hne'
    rw [rl_length] at this
    rw [e, this, cyUpdateVolumes_eq _ _ _ _ hne, rl_vols]
    change _ = Except.ok (rl φ _)
    congr 1
    unfold rl
    rw [List.map_append, List.map_cons, List.map_cons, List.map_dropLast]
    rfl

theorem rl_split (c : K) (idx mx : ℤ) (wm init : WM K s) :
    splitAtCloud c idx mx (rl φ wm) (rl φ init) =
      (splitAtCloud c idx mx wm init).map fun o => (rl φ o.1, rl φ o.2.1, o.2.2) := by
  unfold splitAtCloud
  rw [rl_vols]
  split
  · unfold updateVolumes
    split
    · rfl
    · rw [rl_update, rl_update]
      cases cyUpdateVolumes wm c idx.toNat with
      | error e => rfl
      | ok w =>
        cases cyUpdateVolumes init c idx.toNat with
        | error e => rfl
        | ok w0 => rfl
  · rfl

theorem rl_newTop (c : K) (idx : ℤ) (wm init : WM K s) :
    newTopWatermark c idx (rl φ wm) (rl φ init) =
      (newTopWatermark c idx wm init).map fun o => (rl φ o.1, rl φ o.2) := by
  unfold newTopWatermark
  rw [rl_length, rl_vols]
  split
  · simp only [rl_setVol]; rfl
  · rfl

theorem rl_notEnough (A B : WM K s) (e : K) :
    notEnough (rl φ A) (rl φ B) e = rl φ (notEnough A B e) := by
  unfold notEnough rl
  apply List.ext_getElem
  · simp
  · intro i h1 h2
    simp only [List.getElem_zipWith, List.getElem_map]
    rfl

theorem min?_eq_of_mem_iff (l l' : List ℕ) (h : ∀ x, x ∈ l ↔ x ∈ l') : l.min? = l'.min? := by
  cases hl : l.min? with
  | none =>
    rw [List.min?_eq_none_iff] at hl
    subst hl
    symm
    rw [List.min?_eq_none_iff]
    apply List.eq_nil_iff_forall_not_mem.2
    intro x hx; exact absurd ((h x).2 hx) (by simp)
  | some a =>
    rw [List.min?_eq_some_iff] at hl
    symm
    rw [List.min?_eq_some_iff]
    exact ⟨(h a).1 hl.1, fun b hb => hl.2 b ((h b).2 hb)⟩

theorem rl_indexNotFilled (hφ : Function.Surjective φ) (filled : K) (wm : WM K s) :
    indexNotFilled filled (rl φ wm) = indexNotFilled filled wm := by
  unfold indexNotFilled
  congr 1
  apply min?_eq_of_mem_iff
  intro x
  simp only [List.mem_map, List.mem_finRange, true_and]
  have e : ∀ i, (rl φ wm).map (fun r : Row K s' => decide (r.fill i ≠ filled)) =
      wm.map fun r : Row K s => decide (r.fill (φ i) ≠ filled) := by
    intro i; unfold rl; rw [List.map_map]; rfl
  constructor
  · rintro ⟨i, rfl⟩
    exact ⟨φ i, by rw [e]⟩
  · rintro ⟨j, rfl⟩
    obtain ⟨i, rfl⟩ := hφ j
    exact ⟨i, by rw [e]⟩

theorem rl_collapseRows (k : ℕ) (wm : WM K s) (row0 : Row K s) :
    collapseRows k (rl φ wm) (rlRow φ row0) = rl φ (collapseRows k wm row0) := by
  unfold collapseRows rl
  rw [List.map_set, List.map_rotate, List.map_append, List.map_replicate, List.map_drop]
  rfl

theorem rl_volumeFilled (k : ℕ) (wm : WM K s) : volumeFilled k (rl φ wm) = volumeFilled k wm := by
  unfold volumeFilled
  rw [List.map_take, rl_vols, List.map_take]

theorem rl_collapse (hφ : Function.Surjective φ) (filled : K) (wm : WM K s) :
    collapse filled (rl φ wm) = rl φ (collapse filled wm) := by
  unfold collapse
  simp only [rl_indexNotFilled φ hφ, rl_volumeFilled]
  split
  · rfl
  · rw [← rl_collapseRows]; rfl

theorem rl_copyFill (k : ℕ) (wm : WM K s) :
    copyFillValues k (rl φ wm) = fun j => copyFillValues k wm (φ j) := by
  funext j
  unfold copyFillValues
  rw [rl_volumeFilled]
  congr 2
  unfold rl
  rw [← List.map_take, List.map_map]; rfl

theorem rl_collapseCopy (hφ : Function.Surjective φ) (filled : K) (wm copy : WM K s) :
    collapseCopy filled (rl φ wm) (rl φ copy) =
      (rl φ (collapseCopy filled wm copy).1, rl φ (collapseCopy filled wm copy).2) := by
  unfold collapseCopy
  simp only [rl_indexNotFilled φ hφ, rl_volumeFilled, rl_copyFill]
  split
  · rfl
  · simp only [← rl_collapseRows]; rfl

theorem rl_finish (hφ : Function.Surjective φ) (filled : K) (tr : WM K s → K) (tr' : WM K s' → K)
    (htr : ∀ w, tr' (rl φ w) = tr w) (tw : WM K s → WM K s → K → Except Err (WM K s))
    (tw' : WM K s' → WM K s' → K → Except Err (WM K s'))
    (htw : ∀ w w0 e, tw' (rl φ w) (rl φ w0) e = (tw w w0 e).map (rl φ)) (n n0 : K) (wm init : WM K s) :
    finishCapture filled tr' tw' n n0 (rl φ wm) (rl φ init) =
      (finishCapture filled tr tw n n0 wm init).map fun o => (o.1, rl φ o.2) := by
  unfold finishCapture
  simp only [rl_collapseCopy φ hφ, htr, htw]
  split
  · rfl
  · split
    · cases tw (collapseCopy filled wm init).1 (collapseCopy filled wm init).2
        (n / (tr (collapseCopy filled wm init).1 - n0)) with
      | error e => rfl
      | ok w =>
        change Except.ok _ = Except.ok _
        simp only [htr, rl_collapse φ hφ]
    · simp only [rl_collapse φ hφ]; rfl

theorem rl_icStep (hφ : Function.Surjective φ) (ops : ICOps K s) (ops' : ICOps K s')
    (h1 : ops'.filled = ops.filled) (h2 : ops'.release = fun j => ops.release (φ j))
    (h3 : ∀ w, ops'.trapped (rl φ w) = ops.trapped w)
    (h4 : ∀ w w0 e, ops'.tweak (rl φ w) (rl φ w0) e = (ops.tweak w w0 e).map (rl φ))
    (f : K → K) (n : K) (wm : WM K s) :
    icStep ops' f n (rl φ wm) = (icStep ops f n wm).map fun o => (o.1, rl φ o.2) := by
  have hrel : icRelease ops' (rl φ wm) = ((icRelease ops wm).1, rl φ (icRelease ops wm).2) := by
    unfold icRelease
    rw [h2]
    simp only [rl_maxIdx, rl_mapFills, h3]
  have hcap : ∀ n (w : WM K s), icCapture ops' f n (rl φ w) = (icCapture ops f n w).map fun o => (o.1, rl φ o.2) := by
    intro n w
    unfold icCapture
    simp only [rl_maxIdx, rl_index, h3]
    split
    · unfold icFirstCapture
      have e1 : ∀ c : K, (rl φ w).modify 0 (fun _ => (⟨c, fun _ => ops.filled⟩ : Row K s')) =
          rl φ (w.modify 0 fun _ => ⟨c, fun _ => ops.filled⟩) := by
        intro c
        cases w with
        | nil => rfl
        | cons r l => rfl
      simp only [h1, e1, rl_setVol, h3, h4]
      split
      · rfl
      · split
        · cases ops.tweak (w.modify 0 fun _ => ⟨f n, fun _ => ops.filled⟩) (setVol w 0 (f n))
            (n / ops.trapped (w.modify 0 fun _ => ⟨f n, fun _ => ops.filled⟩)) with
          | error e => rfl
          | ok w2 =>
            change Except.ok _ = Except.ok _
            simp only [h3]
        · rfl
    · have hmf : ∀ (k : ℕ) (v : WM K s), mapFills 0 k (fun _ _ => ops'.filled) (rl φ v) =
          rl φ (mapFills 0 k (fun _ _ => ops.filled) v) := by
        intro k v
        rw [h1]; exact rl_mapFills φ 0 k (fun _ _ => ops.filled) v
      split
      · rw [rl_split]
        cases splitAtCloud (f n) (watermarkIndexAboveCloud (f n) w (maxWatermarkIndex w))
          (maxWatermarkIndex w) w w with
        | error e => rfl
        | ok o =>
          obtain ⟨a, b, c⟩ := o
          change finishCapture ops'.filled ops'.trapped ops'.tweak _ _ (mapFills 0 _ (fun _ _ => ops'.filled) (rl φ a)) (rl φ b) = _
          rw [hmf, h1]
          exact rl_finish φ hφ _ _ _ h3 _ _ h4 _ _ _ _
      · rw [rl_newTop]
        cases newTopWatermark (f n) (watermarkIndexAboveCloud (f n) w (maxWatermarkIndex w)) w w with
        | error e => rfl
        | ok o =>
          obtain ⟨a, b⟩ := o
          change finishCapture ops'.filled ops'.trapped ops'.tweak _ _ (mapFills 0 _ (fun _ _ => ops'.filled) (rl φ a)) (rl φ b) = _
          rw [hmf, h1]
          exact rl_finish φ hφ _ _ _ h3 _ _ h4 _ _ _ _
  unfold icStep
  rw [hrel]
  simp only [hcap]
  cases icCapture ops f (n + (icRelease ops wm).1) (icRelease ops wm).2 with
  | error e => rfl
  | ok o => rfl

theorem rl_slowStep (hφ : Function.Surjective φ) (dens : Fin s → K) (dens' : Fin s' → K)
    (hd : ∀ j, dens j = ∑ i with φ i = j, dens' i) (p : Probs K s) (p' : Probs K s')
    (h1 : ∀ i, p'.fromEmpty i = p.fromEmpty (φ i)) (h2 : ∀ i, p'.fromFull i = p.fromFull (φ i))
    (h3 : ∀ i, p'.fromRelease i = p.fromRelease (φ i)) (f : K → K) (n : K) (wm : WM K s) :
    slowStep dens' p' f n (rl φ wm) = (slowStep dens p f n wm).map fun o => (o.1, rl φ o.2) := by
  have ht := rl_trapped φ dens dens' hd
  have hm1 : ∀ a b (w : WM K s), mapFills a b (fun j x => x * p'.fromRelease j) (rl φ w) =
      rl φ (mapFills a b (fun j x => x * p.fromRelease j) w) := by
    intro a b w
    rw [← rl_mapFills]; congr 1; funext j x; rw [h3]
  have hm2 : ∀ a b (w : WM K s),
      mapFills a b (fun j x => x * p'.fromFull j + (1 - x) * p'.fromEmpty j) (rl φ w) =
      rl φ (mapFills a b (fun j x => x * p.fromFull j + (1 - x) * p.fromEmpty j) w) := by
    intro a b w
    rw [← rl_mapFills]; congr 1; funext j x; rw [h1, h2]
  unfold slowStep
  simp only [rl_maxIdx, rl_index, ht]
  split
  · unfold slowFirstCapture
    have e1 : ∀ c : K, (rl φ wm).modify 0 (fun _ => (⟨c, p'.fromEmpty⟩ : Row K s')) =
        rl φ (wm.modify 0 fun _ => ⟨c, p.fromEmpty⟩) := by
      intro c
      cases wm with
      | nil => rfl
      | cons r l =>
        change _ :: _ = _ :: _
        congr 1
        change (⟨c, p'.fromEmpty⟩ : Row K s') = ⟨c, fun j => p.fromEmpty (φ j)⟩
        congr 1; funext j; exact h1 j
    simp only [e1, rl_setVol, ht, rl_notEnough]
    split
    · rfl
    · split <;> rfl
  · have fin : ∀ nf n0 idx (w init : WM K s),
        (do
          let (captured, wm) ← finishCapture 1 (fun w => cyNTrapped w dens')
            (fun w w0 e => .ok (notEnough w w0 e)) nf n0
            (mapFills 0 idx (fun j x => x * p'.fromFull j + (1 - x) * p'.fromEmpty j) (rl φ w)) (rl φ init)
          (.ok (-captured, wm) : Except Err (K × WM K s'))) =
        (do
          let (captured, wm) ← finishCapture 1 (fun w => cyNTrapped w dens)
            (fun w w0 e => .ok (notEnough w w0 e)) nf n0
            (mapFills 0 idx (fun j x => x * p.fromFull j + (1 - x) * p.fromEmpty j) w) init
          (.ok (-captured, wm) : Except Err (K × WM K s))).map (fun o : K × WM K s => (o.1, rl φ o.2)) := by
      intro nf n0 idx w init
      rw [hm2, rl_finish φ hφ 1 (fun w => cyNTrapped w dens) (fun w => cyNTrapped w dens') ht
        (fun w w0 e => .ok (notEnough w w0 e)) (fun w w0 e => .ok (notEnough w w0 e))
        (fun w w0 e => by rw [rl_notEnough]; rfl)]
      cases finishCapture 1 (fun w => cyNTrapped w dens) (fun w w0 e => .ok (notEnough w w0 e)) nf n0
        (mapFills 0 idx (fun j x => x * p.fromFull j + (1 - x) * p.fromEmpty j) w) init with
      | error e => rfl
      | ok o => rfl
    split
    · unfold slowCloudBelow
      rw [rl_split]
      cases splitAtCloud (f n) (watermarkIndexAboveCloud (f n) wm (maxWatermarkIndex wm))
          (maxWatermarkIndex wm) wm wm with
      | error e => rfl
      | ok o =>
        obtain ⟨a, b, mx⟩ := o
        simp only [Except.map, bind_ok, hm1, ht, rl_index, rl_split]
        generalize mapFills _ _ (fun j x => x * p.fromRelease j) a = a2
        generalize n + (cyNTrapped wm dens - cyNTrapped a2 dens) = nf
        cases splitAtCloud (f nf) (watermarkIndexAboveCloud (f nf) a2 mx) mx a2 b with
        | error e => rfl
        | ok o =>
          obtain ⟨a3, b3, mx3⟩ := o
          simp only [bind_ok]
          exact fin _ _ _ _ _
    · rw [rl_newTop]
      cases newTopWatermark (f n) (watermarkIndexAboveCloud (f n) wm (maxWatermarkIndex wm)) wm wm with
      | error e => rfl
      | ok o =>
        obtain ⟨a, b⟩ := o
        simp only [Except.map, bind_ok]
        exact fin _ _ _ _ _

/-- Kinds of managers whose species `i` behaves like species `φ i`. -/
inductive KindRel (φ : Fin s' → Fin s) : Kind K s → Kind K s' → Prop
  | slow (p : K → Probs K s) (p' : K → Probs K s')
      (h : ∀ t i, (p' t).fromEmpty i = (p t).fromEmpty (φ i) ∧ (p' t).fromFull i = (p t).fromFull (φ i) ∧
        (p' t).fromRelease i = (p t).fromRelease (φ i)) : KindRel φ (.slow p) (.slow p')
  | instant (p : K → Fin s → K) (p' : K → Fin s' → K) (h : ∀ t i, p' t i = p t (φ i)) :
      KindRel φ (.instant p) (.instant p')
  | trackTime (c : Fin s → K → K) (c' : Fin s' → K → K) (h : ∀ i, c' i = c (φ i)) :
      KindRel φ (.trackTime c) (.trackTime c')

theorem step_slow (dens : Fin s → K) (p : K → Probs K s) (wm : WM K s) (n t : K) (f : K → K) :
    Mgr.step ⟨s, dens, .slow p, wm⟩ n t f =
      (slowStep dens (p t) f n wm).map fun o => (o.1, ⟨s, dens, .slow p, o.2⟩) := by
  simp only [Mgr.step]
  cases slowStep dens (p t) f n wm <;> rfl

theorem step_instant (dens : Fin s → K) (p : K → Fin s → K) (wm : WM K s) (n t : K) (f : K → K) :
    Mgr.step ⟨s, dens, .instant p, wm⟩ n t f =
      (icStep (instantOps dens (p t)) f n wm).map fun o => (o.1, ⟨s, dens, .instant p, o.2⟩) := by
  simp only [Mgr.step]
  cases icStep (instantOps dens (p t)) f n wm <;> rfl

theorem step_track (dens : Fin s → K) (c : Fin s → K → K) (wm : WM K s) (n t : K) (f : K → K) :
    Mgr.step ⟨s, dens, .trackTime c, wm⟩ n t f =
      (icStep (trackTimeOps dens c t) f n wm).map fun o => (o.1, ⟨s, dens, .trackTime c, o.2⟩) := by
  simp only [Mgr.step]
  cases icStep (trackTimeOps dens c t) f n wm <;> rfl

theorem rl_step (hφ : Function.Surjective φ) (dens : Fin s → K) (dens' : Fin s' → K)
    (hd : ∀ j, dens j = ∑ i with φ i = j, dens' i) (k : Kind K s) (k' : Kind K s') (hk : KindRel φ k k')
    (f : K → K) (n t : K) (wm : WM K s) :
    Mgr.step ⟨s', dens', k', rl φ wm⟩ n t f =
      (Mgr.step ⟨s, dens, k, wm⟩ n t f).map fun o => (o.1, ⟨s', dens', k', rl φ (if h : o.2.s = s then h ▸ o.2.wm else [])⟩) := by
  unfold Mgr.step
  cases hk with
  | slow p p' h =>
    simp only
    rw [rl_slowStep φ hφ dens dens' hd (p t) (p' t) (fun i => (h t i).1) (fun i => (h t i).2.1)
      (fun i => (h t i).2.2)]
    cases slowStep dens (p t) f n wm with
    | error e => rfl
    | ok o => simp only [Except.map, bind_ok, dif_pos]
  | instant p p' h =>
    simp only
    rw [rl_icStep φ hφ (instantOps dens (p t)) (instantOps dens' (p' t)) rfl
      (by funext j x; change x * p' t j = x * p t (φ j); rw [h])
      (rl_trapped φ dens dens' hd) (fun w w0 e => by
        change Except.ok _ = Except.ok _
        rw [rl_notEnough])]
    cases icStep (instantOps dens (p t)) f n wm with
    | error e => rfl
    | ok o => simp only [Except.map, bind_ok, dif_pos]
  | trackTime c c' h =>
    simp only
    rw [rl_icStep φ hφ (trackTimeOps dens c t) (trackTimeOps dens' c' t) rfl rfl
      (fun w => by
        change cyNTrapped (toFillFractions c' (rl φ w)) dens' = cyNTrapped (toFillFractions c w) dens
        rw [← rl_trapped φ dens dens' hd]
        congr 1
        unfold toFillFractions
        rw [← rl_mapFills]
        have : (rl φ w).map (fun r : Row K s' => decide (r.vol = 0)) = w.map fun r : Row K s => decide (r.vol = 0) := by
          unfold rl; rw [List.map_map]; rfl
        rw [this]
        congr 1; funext j; exact h j) (fun w w0 e => rfl)]
    cases icStep (trackTimeOps dens c t) f n wm with
    | error e => rfl
    | ok o => simp only [Except.map, bind_ok, dif_pos]

/-- Histories of related managers return the same electrons. -/
theorem rl_run (hφ : Function.Surjective φ) (dens : Fin s → K) (dens' : Fin s' → K)
    (hd : ∀ j, dens j = ∑ i with φ i = j, dens' i) (k : Kind K s) (k' : Kind K s') (hk : KindRel φ k k')
    (f : K → K) (h : List (K × K)) : ∀ (wm : WM K s),
    (Mgr.run f ⟨s', dens', k', rl φ wm⟩ h).map Prod.fst = (Mgr.run f ⟨s, dens, k, wm⟩ h).map Prod.fst := by
  induction h with
  | nil => intro wm; rfl
  | cons e h ih =>
    obtain ⟨n, t⟩ := e
    intro wm
    simp only [Mgr.run]
    rw [rl_step φ hφ dens dens' hd k k' hk]
    obtain ⟨r, hr⟩ : ∃ r : Except Err (K × WM K s),
        Mgr.step ⟨s, dens, k, wm⟩ n t f = r.map fun o => (o.1, ⟨s, dens, k, o.2⟩) := by
      cases hk with
      | slow p p' h => exact ⟨_, step_slow ..⟩
      | instant p p' h => exact ⟨_, step_instant ..⟩
      | trackTime p p' h => exact ⟨_, step_track ..⟩
    rw [hr]
    cases r with
    | error e => rfl
    | ok o =>
      obtain ⟨net, w⟩ := o
      simp only [Except.map, bind_ok, dif_pos]
      have := ih w
      cases h1 : Mgr.run f ⟨s', dens', k', rl φ w⟩ h with
      | error e =>
        cases h2 : Mgr.run f ⟨s, dens, k, w⟩ h with
        | error e' => rw [h1, h2] at this; injection this with this; rw [this]
        | ok o' => rw [h1, h2] at this; cases this
      | ok o =>
        cases h2 : Mgr.run f ⟨s, dens, k, w⟩ h with
        | error e' => rw [h1, h2] at this; cases this
        | ok o' =>
          rw [h1, h2] at this
          injection this with this
          simp only [bind_ok]
          rw [this]

end Arctic
