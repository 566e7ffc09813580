import Verif.Lemmas.AddCti
import Verif.Lemmas.NoCharge
import Verif.Props.Readout
import Verif.Props.ClockExamples

/-!
# The clocking loops: C27 – C30, C37, C38

`clockCharge` is `cy_clock_charge_in_one_direction` and `addCti` is `add_cti`.  A result `.ok` is a call that
returns; statements of the form "if the call returns, then …" say nothing about calls that raise.
-/

set_option linter.unusedSectionVars false
set_option linter.unusedVariables false

namespace Arctic

variable {K : Type} [Field K] [LinearOrder K] [IsStrictOrderedRing K]

/-! ## C27 — columns are independent -/

/-- **C27**: in a call that returns, every column of the window gets exactly what processing it alone
gives, and all other columns are returned as they were. -/
theorem C27_columns (img : Image K) (ccd : CcdView K) (roe : Roe K) (groups : List (Group K)) (e o : ℕ)
    (rows columns : List ℕ) (tw : Option (List ℕ)) (hb : roe.emptyBetween = true) (hnd : columns.Nodup)
    (out : Image K) (roe' : Roe K) (h : clockCharge img ccd roe groups e o rows columns tw = .ok (out, roe')) :
    (∀ c ∈ columns, ∃ o1, clockCharge img ccd roe groups e o rows [c] tw = .ok (o1, roe') ∧
      ∀ r, o1.px r c = out.px r c) ∧
    ∀ c, c ∉ columns → ∀ r < img.nr, out.px r c = img.px r c := by
  obtain ⟨cfg, st, h1, h2, rfl⟩ := clockCharge_ok h
  have hb' : cfg.emptyBetween = true := (clockCfg_fields h1).2.2.2.2.2.2.2.trans hb
  constructor
  · intro c hc
    obtain ⟨o1, g1, g2⟩ := columns_split ccd.fill cfg hb' hnd (fresh_new _ _ _) h2 (fresh_new _ _ _) c hc
    exact ⟨_, clockCharge_of h1 g1, fun r => g2.2.2 r⟩
  · intro c hc r hr
    have := (clockLoops_frame _ cfg h2).2.2 r c hc
    simp only [Image.unpad]
    rw [this]
    simp [Image.pad, hr]

/-- **C27**: what a column gets does not depend on the other columns of the image. -/
theorem C27_input (i j : Image K) (ccd : CcdView K) (roe : Roe K) (groups : List (Group K)) (e o : ℕ)
    (rows : List ℕ) (c : ℕ) (tw : Option (List ℕ))
    (hr : i.nr = j.nr) (hc : i.nc = j.nc) (hpx : ∀ r < i.nr, i.px r c = j.px r c)
    (out : Image K) (roe' : Roe K) (h : clockCharge i ccd roe groups e o rows [c] tw = .ok (out, roe')) :
    ∃ out', clockCharge j ccd roe groups e o rows [c] tw = .ok (out', roe') ∧ ∀ r, out'.px r c = out.px r c := by
  obtain ⟨cfg, st, h1, h2, rfl⟩ := clockCharge_ok h
  have hag : AgreeOn c (i.pad (nPadding roe.accessed)) (j.pad (nPadding roe.accessed)) := by
    refine ⟨by simp [Image.pad, hr], by simp [Image.pad, hc], fun r => ?_⟩
    simp only [Image.pad, ← hr]
    split
    · rename_i hr'; exact hpx r hr'
    · rfl
  rw [clockLoops_single] at h2
  obtain ⟨o1, g1, g2⟩ := (column_agree ccd.fill cfg hag (fresh_new _ _ _) (fresh_new _ _ _)).ok_left h2
  rw [← clockLoops_single] at g1
  exact ⟨_, clockCharge_of h1 g1, fun r => (g2.2.2 r).symm⟩

/-- **C27**: if every column can be processed alone, the whole window can be processed; so with
`C27_columns` the result is the column-by-column result. -/
theorem C27_join (img : Image K) (ccd : CcdView K) (roe : Roe K) (groups : List (Group K)) (e o : ℕ)
    (rows columns : List ℕ) (tw : Option (List ℕ)) (hb : roe.emptyBetween = true) (hnd : columns.Nodup)
    (hne : columns ≠ [])
    (h : ∀ c ∈ columns, ∃ r, clockCharge img ccd roe groups e o rows [c] tw = .ok r) :
    ∃ r, clockCharge img ccd roe groups e o rows columns tw = .ok r := by
  obtain ⟨c0, cs, rfl⟩ := List.exists_cons_of_ne_nil hne
  obtain ⟨⟨o0, roe'⟩, h0⟩ := h c0 List.mem_cons_self
  obtain ⟨cfg, st, h1, -, -⟩ := clockCharge_ok h0
  have hb' : cfg.emptyBetween = true := (clockCfg_fields h1).2.2.2.2.2.2.2.trans hb
  obtain ⟨out, g⟩ := columns_join ccd.fill cfg hb' hnd
    (img := img.pad (nPadding roe.accessed)) (a := ATM.new groups ccd.fractions (maxNTransfers roe cfg))
    (b := ATM.new groups ccd.fractions (maxNTransfers roe cfg)) (fresh_new _ _ _) (fresh_new _ _ _) (by
      intro c hc
      obtain ⟨⟨o1, r1⟩, g⟩ := h c hc
      obtain ⟨cfg', st', g1, g2, -⟩ := clockCharge_ok g
      rw [h1] at g1
      injection g1 with g1; injection g1 with g1 _
      subst g1
      exact ⟨st', g2⟩)
  exact ⟨_, clockCharge_of h1 g⟩

/-- **C27**: the order in which the columns are processed does not matter. -/
theorem C27_order (img : Image K) (ccd : CcdView K) (roe : Roe K) (groups : List (Group K)) (e o : ℕ)
    (rows columns columns' : List ℕ) (tw : Option (List ℕ)) (hb : roe.emptyBetween = true) (hnd : columns.Nodup)
    (hperm : columns.Perm columns')
    (out : Image K) (roe' : Roe K) (h : clockCharge img ccd roe groups e o rows columns tw = .ok (out, roe')) :
    ∃ out', clockCharge img ccd roe groups e o rows columns' tw = .ok (out', roe') ∧
      ∀ r < img.nr, ∀ c, out'.px r c = out.px r c := by
  by_cases hne : columns' = []
  · subst hne
    rw [List.perm_nil.1 hperm] at h
    exact ⟨out, h, fun _ _ _ => rfl⟩
  obtain ⟨g1, g2⟩ := C27_columns img ccd roe groups e o rows columns tw hb hnd out roe' h
  have hnd' := hperm.nodup_iff.1 hnd
  obtain ⟨⟨out', roe2⟩, g3⟩ := C27_join img ccd roe groups e o rows columns' tw hb hnd' hne (by
    intro c hc
    obtain ⟨o1, g, -⟩ := g1 c (hperm.mem_iff.2 hc)
    exact ⟨_, g⟩)
  obtain ⟨g4, g5⟩ := C27_columns img ccd roe groups e o rows columns' tw hb hnd' out' roe2 g3
  have hro : roe2 = roe' := by
    obtain ⟨c0, cs, hc0⟩ := List.exists_cons_of_ne_nil hne
    have hm : c0 ∈ columns' := by rw [hc0]; exact List.mem_cons_self
    obtain ⟨oa, ga, -⟩ := g4 c0 hm
    obtain ⟨ob, gb, -⟩ := g1 c0 (hperm.mem_iff.2 hm)
    rw [ga] at gb
    injection gb with gb
    injection gb
  subst hro
  refine ⟨out', g3, fun r hr c => ?_⟩
  by_cases hc : c ∈ columns
  · obtain ⟨oa, ga, ha⟩ := g4 c (hperm.mem_iff.1 hc)
    obtain ⟨ob, gb, hb⟩ := g1 c hc
    rw [ga] at gb
    injection gb with gb
    injection gb with gb _
    rw [← ha, ← hb, gb]
  · rw [g2 c hc r hr, g5 c (fun h => hc (hperm.mem_iff.2 h)) r hr]

/-- A call meeting the hypotheses, in which CTI does change the columns. -/
example : ((clockCharge (exImg 3 2 [[0, 40], [80, 0], [0, 0]]) exCcd exRoe [exGroup] 0 0 [0, 1, 2] [0, 1] none).map
    fun x => x.1.rows) = .ok [[0, 36], [324 / 5, 741 / 200], [20197 / 2000, 234669 / 80000]] := by decide +kernel

/-- Without `empty_traps_between_columns` columns do interact: here the second column receives charge that was
trapped in the first one. -/
example : ((clockCharge (exImg 3 2 [[0, 0], [80, 0], [0, 0]]) exCcd (.standard [1] false false true false) [exGroup]
    1 0 [0, 1, 2] [0, 1] none).map fun x => x.1.px 0 1) ≠ .ok 0 := by decide +kernel

/-! ## C28 — charge never goes negative -/

/-- Non-negative in its range. -/
def Image.NonNeg (i : Image K) : Prop := ∀ r < i.nr, ∀ c < i.nc, 0 ≤ i.px r c

theorem clockCharge_nonneg (img : Image K) (ccd : CcdView K) (roe : Roe K) (groups : List (Group K)) (e o : ℕ)
    (rows columns : List ℕ) (tw : Option (List ℕ)) (out : Image K) (roe' : Roe K)
    (h : clockCharge img ccd roe groups e o rows columns tw = .ok (out, roe')) (h0 : img.NonNeg) : out.NonNeg := by
  obtain ⟨cfg, st, h1, h2, rfl⟩ := clockCharge_ok h
  have hst : st.1.NonNeg := by
    refine clockLoops_inv _ cfg columns (fun i => i.NonNeg) ?_ _ st ?_ h2
    · intro c _ i hi r v _ _ hv _ r' hr' c' hc'
      unfold Image.set
      simp only
      split
      · exact hv
      · exact hi r' hr' c' hc'
    · intro r hr c hc
      simp only [Image.pad] at hr hc ⊢
      split
      · exact h0 r (by assumption) c hc
      · exact le_rfl
  intro r hr c hc
  exact hst r (by simp only [Image.unpad] at hr; omega) c hc

/-- **C28**: whatever the traps, readout, express value and windows, a call that returns gives a non-negative
image for a non-negative image. -/
theorem C28_nonneg (img out : Image K) (par ser par' ser' : Option (Direction K)) (o : ℕ) (pw sw : Window)
    (tw : Option (List ℕ)) (h : addCti img par o pw ser sw tw = .ok (out, par', ser')) (h0 : img.NonNeg) :
    out.NonNeg := by
  obtain ⟨sc, mid, -, h1, h2⟩ := addCti_ok h
  have hmid : mid.NonNeg := by
    rcases h1 with ⟨-, rfl, -⟩ | ⟨d, roe', -, -, h1⟩
    · exact h0
    · exact clockCharge_nonneg _ _ _ _ _ _ _ _ _ _ _ h1 h0
  rcases h2 with ⟨-, rfl, -⟩ | ⟨d, roe', res, -, -, rfl, h2⟩
  · exact hmid
  · have := clockCharge_nonneg _ _ _ _ _ _ _ _ _ _ _ h2 (fun r hr c hc => hmid c hc r hr)
    exact fun r hr c hc => this c hc r hr

/-- A large express multiplier would make the pixel negative without the clamp: with 50 traps per pixel and
`express = 1` a pixel 10 transfers away from readout loses at most what it holds. -/
example : ((addCti (exImg 2 1 [[0], [30]]) (some ⟨exCcd, exRoe, [⟨1, fun _ => 50, .instant fun _ _ => 1 / 2⟩], 1, 10⟩)
    10 .all none .all none).map fun x => x.1.px 1 0) = .ok 0 := by decide +kernel

/-! ## C29 — no traps or no charge means no change -/

/-- **C29**: without traps the image is returned as it is. -/
theorem C29_no_traps (img : Image K) (o : ℕ) (pw sw : Window) :
    addCti img none o pw none sw none = .ok (img, none, none) := rfl

/-- **C29**: the same with a (non-empty) time window and (non-empty) row window. -/
theorem C29_no_traps_time (img : Image K) (o : ℕ) (pw sw : Window) (t : List ℕ) (ht : t ≠ [])
    (hr : pw.resolve img.nr ≠ []) :
    addCti img none o pw none sw (some t) = .ok (img, none, none) := by
  unfold addCti serialColumns
  obtain ⟨a, as, ha⟩ := List.exists_cons_of_ne_nil hr
  obtain ⟨b, bs, rfl⟩ := List.exists_cons_of_ne_nil ht
  simp only [ha, List.head?_cons, List.getLast?_cons]
  rfl

/-- **C29**: traps of zero density, of whatever kind and number, leave a non-negative image unchanged. -/
theorem C29_zero_density (img : Image K) (ccd : CcdView K) (roe : Roe K) (groups : List (Group K)) (e o : ℕ)
    (rows columns : List ℕ) (tw : Option (List ℕ)) (hd : ∀ g ∈ groups, ∀ j, g.dens j = 0)
    (h0 : ∀ r c, 0 ≤ img.px r c) (out : Image K) (roe' : Roe K)
    (h : clockCharge img ccd roe groups e o rows columns tw = .ok (out, roe')) :
    ∀ r < img.nr, ∀ c, out.px r c = img.px r c := by
  obtain ⟨cfg, st, h1, h2, rfl⟩ := clockCharge_ok h
  have hpad0 : ∀ r c, 0 ≤ (img.pad (nPadding roe.accessed)).px r c := by
    intro r c
    simp only [Image.pad]
    split
    · exact h0 r c
    · exact le_rfl
  -- invariant: the image is the input and all traps have density zero
  let Zd : List (List (Mgr K)) → Prop := fun d => ∀ ms ∈ d, ∀ m ∈ ms, ∀ j, m.dens j = 0
  have hZe : ∀ d, Zd d → Zd (emptied d) := by
    intro d hd ms hms m hm j
    unfold emptied at hms
    rw [List.mem_map] at hms
    obtain ⟨ms0, hms0, rfl⟩ := hms
    rw [List.mem_map] at hm
    obtain ⟨m0, hm0, rfl⟩ := hm
    exact hd ms0 hms0 m0 hm0 j
  have hstep : ∀ (n t : K) (f : K → K) (ms ms' : List (Mgr K)) (net : K), (∀ m ∈ ms, ∀ j, m.dens j = 0) →
      groupsStep n t f ms = .ok (net, ms') → ∀ m ∈ ms', ∀ j, m.dens j = 0 := by
    intro n t f ms
    induction ms with
    | nil =>
      intro ms' net _ h m hm
      unfold groupsStep at h; injection h with h; injection h with _ h
      rw [← h] at hm; cases hm
    | cons m0 ms ih =>
      intro ms' net hz h m hm
      unfold groupsStep at h
      obtain ⟨⟨net1, m1⟩, h1, h⟩ := bind_eq_ok h
      obtain ⟨⟨net2, ms2⟩, h2, h⟩ := bind_eq_ok h
      injection h with h; injection h with _ h4
      rw [← h4] at hm
      rcases List.mem_cons.1 hm with rfl | hm
      · obtain ⟨wm, rfl, -⟩ := Mgr.step_shape h1
        exact hz m0 List.mem_cons_self
      · exact ih _ _ (fun m hm => hz m (List.mem_cons_of_mem _ hm)) h2 m hm
  have key := clockLoops_sat (E := fun _ => True) (sys := atmSys ccd.fill) (cfg := cfg) (columns := columns)
    (fun st => st.1 = img.pad (nPadding roe.accessed) ∧ Zd st.2.data ∧ Zd st.2.eff) (by
      rintro c _ k _ j _ step _ phase _ ⟨i, a⟩ ⟨rfl, hz, hz'⟩
      apply sat_of_ok
      intro st' h
      unfold phaseBody at h
      split at h
      · obtain ⟨v, h3, h⟩ := bind_eq_ok h
        obtain ⟨⟨net, s⟩, h4, h⟩ := bind_eq_ok h
        obtain ⟨ms, ms', g1, g2, g3⟩ := ATM.react_data h4
        have hnet : net = 0 := groupsStep_zero_dens (hz ms (List.mem_of_getElem? g1)) g2
        have hs : Zd s.data ∧ Zd s.eff := by
          have e := ATM.react_emptied h4
          rw [ATM.eff_of e.2 e.1]
          refine ⟨?_, hz'⟩
          rw [g3]
          intro ms1 hms1
          rcases List.mem_or_eq_of_mem_set hms1 with hm | rfl
          · exact hz ms1 hm
          · exact hstep _ _ _ _ _ _ (hz ms (List.mem_of_getElem? g1)) g2
        simp only at h
        split at h
        · injection h with h; subst h; exact ⟨rfl, hs⟩
        · obtain ⟨i1, h5, h⟩ := bind_eq_ok h
          injection h with h; subst h
          exact ⟨writeAll_zero hpad0 hnet h5, hs⟩
      · cases h)
    (fun st h => ⟨h.1, h.2.1, by
      change Zd (ATM.save st.2).eff
      rw [ATM.eff_save]; exact h.2.1⟩)
    (fun st h => ⟨h.1, h.2.2, by
      change Zd (ATM.restore st.2).eff
      rw [ATM.eff_restore]; exact h.2.2⟩)
    (fun st h => ⟨h.1, hZe _ h.2.1, by
      have : (ATM.emptyAll st.2).eff = st.2.eff :=
        ATM.eff_of (a := st.2) (a' := st.2.emptyAll) rfl (by rw [ATM.emptied_emptyAll, emptied_emptied])
      change Zd (ATM.emptyAll st.2).eff
      rw [this]; exact h.2.2⟩)
    (img.pad (nPadding roe.accessed), ATM.new groups ccd.fractions (maxNTransfers roe cfg)) (by
      have hz : Zd (ATM.new groups ccd.fractions (maxNTransfers roe cfg)).data := by
        intro ms hms m hm j
        unfold ATM.new at hms
        rw [List.mem_map] at hms
        obtain ⟨fr, -, rfl⟩ := hms
        rw [List.mem_map] at hm
        obtain ⟨g, hg, rfl⟩ := hm
        exact (congrArg (· * fr) (hd g hg j)).trans (zero_mul _)
      exact ⟨rfl, hz, by rw [(fresh_new _ _ _).2.1]; exact hz⟩)
  rw [h2] at key
  obtain ⟨e1, -⟩ := key
  intro r hr c
  simp only [Image.unpad, e1, Image.pad, hr, if_true]

/-- **C29**: an empty image stays empty, whatever the traps, if an empty cloud occupies no volume. -/
theorem C29_empty_image (img : Image K) (ccd : CcdView K) (roe : Roe K) (groups : List (Group K)) (e o : ℕ)
    (rows columns : List ℕ) (tw : Option (List ℕ)) (hf : ∀ ph n, n ≤ 0 → ccd.fill ph n = 0)
    (h0 : ∀ r c, img.px r c = 0) (out : Image K) (roe' : Roe K)
    (h : clockCharge img ccd roe groups e o rows columns tw = .ok (out, roe')) :
    ∀ r c, out.px r c = 0 := by
  obtain ⟨cfg, st, h1, h2, rfl⟩ := clockCharge_ok h
  have hpad0 : ∀ r c, (img.pad (nPadding roe.accessed)).px r c = 0 := by
    intro r c
    simp only [Image.pad, h0, ite_self]
  have key := clockLoops_sat (E := fun _ => True) (sys := atmSys ccd.fill) (cfg := cfg) (columns := columns)
    (fun st => (∀ r c, st.1.px r c = 0) ∧ emptied st.2.data = st.2.data ∧ emptied st.2.eff = st.2.eff) (by
      rintro c _ k _ j _ step _ phase _ ⟨i, a⟩ ⟨hi, hz, hz'⟩
      apply sat_of_ok
      intro st' h
      unfold phaseBody at h
      split at h
      · rename_i ph row0 dwell _ _ _
        obtain ⟨v, h3, h⟩ := bind_eq_ok h
        obtain ⟨⟨net, s⟩, h4, h⟩ := bind_eq_ok h
        obtain ⟨-, -, -, hv⟩ := read_ok h3
        have hn : v * (if ph.isHigh then 1 else 0) ≤ 0 := by rw [hv, hi, zero_mul]
        have h4' : a.react phase (v * (if ph.isHigh then 1 else 0)) dwell (ccd.fill phase) = .ok (net, s) := h4
        have := (ATM.react_empty_zero hz (hf phase) hn dwell phase).ok h4'
        injection this with e1 e2
        subst e2
        simp only at h
        split at h
        · injection h with h; subst h; exact ⟨hi, hz, hz'⟩
        · obtain ⟨i1, h5, h⟩ := bind_eq_ok h
          injection h with h; subst h
          rw [writeAll_zero (fun r c => (hi r c).ge) e1 h5]
          exact ⟨hi, hz, hz'⟩
      · cases h)
    (fun st h => ⟨h.1, h.2.1, by
      change emptied (ATM.save st.2).eff = (ATM.save st.2).eff
      rw [ATM.eff_save]; exact h.2.1⟩)
    (fun st h => ⟨h.1, h.2.2, by
      change emptied (ATM.restore st.2).eff = (ATM.restore st.2).eff
      rw [ATM.eff_restore]; exact h.2.2⟩)
    (fun st h => ⟨h.1, emptied_emptied _, by
      have : (ATM.emptyAll st.2).eff = st.2.eff :=
        ATM.eff_of (a := st.2) (a' := st.2.emptyAll) rfl (by rw [ATM.emptied_emptyAll, emptied_emptied])
      change emptied (ATM.emptyAll st.2).eff = (ATM.emptyAll st.2).eff
      rw [this]; exact h.2.2⟩)
    (img.pad (nPadding roe.accessed), ATM.new groups ccd.fractions (maxNTransfers roe cfg)) ⟨hpad0, emptied_new _ _ _, by rw [(fresh_new groups ccd.fractions (maxNTransfers roe cfg)).2.1]; exact emptied_new _ _ _⟩
  rw [h2] at key
  exact key.1

/-- Calls meeting the hypotheses that do return. -/
example : ((clockCharge (exImg 3 1 [[5], [80], [7]]) exCcd3 exRoe3 [⟨1, fun _ => 0, .instant fun _ _ => 1 / 2⟩,
    ⟨1, fun _ => 0, .slow fun _ => slowProbs⟩] 0 0 [0, 1, 2] [0] none).map
    fun x => x.1.rows) = .ok [[5], [80], [7]] := by decide +kernel

example : ((clockCharge (exImg 3 1 [[0], [0], [0]]) exCcd3 exRoe3 [exGroup,
    ⟨1, fun _ => 7, .slow fun _ => slowProbs⟩] 0 0 [0, 1, 2] [0] none).map
    fun x => x.1.rows) = .ok [[0], [0], [0]] := by decide +kernel

/-! ## C30 — pixels outside the windows are untouched -/

/-- **C30**, any readout: a pixel changes only if its column is in the window and its row is a row of the window
shifted by one of the pixels accessed during clocking. -/
theorem C30_untouched (img : Image K) (ccd : CcdView K) (roe : Roe K) (groups : List (Group K)) (e o : ℕ)
    (rows columns : List ℕ) (tw : Option (List ℕ)) (out : Image K) (roe' : Roe K)
    (h : clockCharge img ccd roe groups e o rows columns tw = .ok (out, roe')) (r c : ℕ) (hr : r < img.nr)
    (hout : c ∉ columns ∨ ∀ w ∈ rows, ((r : ℤ) - w) ∉ roe.accessed) : out.px r c = img.px r c := by
  obtain ⟨cfg, st, h1, h2, rfl⟩ := clockCharge_ok h
  obtain ⟨-, -, hseq, -, -, -, hrows, -⟩ := clockCfg_fields h1
  have key : st.1.px r c = (img.pad (nPadding roe.accessed)).px r c := by
    refine clockLoops_inv _ cfg columns (fun i => i.px r c = (img.pad (nPadding roe.accessed)).px r c) ?_ _ st rfl h2
    rintro c0 hc0 i hi r0 v _ _ _ ⟨w, hw, off, hoff, hro⟩
    unfold Image.set
    simp only
    rw [if_neg]
    · exact hi
    · rintro ⟨rfl, rfl⟩
      rcases hout with hc | hw'
      · exact hc hc0
      · refine hw' w (hrows ▸ hw) ?_
        rw [show ((r : ℤ) - w) = off by omega]
        unfold Roe.accessed pixelsAccessed
        rw [hseq] at hoff
        unfold writeOffsets at hoff
        rw [List.mem_flatMap] at hoff
        obtain ⟨l, hl, hoff⟩ := hoff
        rw [List.mem_flatMap] at hoff
        obtain ⟨p, hp, hoff⟩ := hoff
        refine List.mem_cons_of_mem _ ?_
        rw [List.mem_flatMap]
        refine ⟨l, hl, ?_⟩
        rw [List.mem_flatMap]
        exact ⟨p, hp, List.mem_cons_of_mem _ hoff⟩
  simp only [Image.unpad]
  rw [key]
  simp [Image.pad, hr]

/-- Row (or column) `r` is in the window or directly behind a member of it. -/
def nearWindow (l : List ℕ) (r : ℕ) : Prop := ∃ w ∈ l, r = w ∨ r = w + 1

/-- With forced release only the rows of the window and the rows directly behind them are touched. -/
theorem clockCharge_untouched (img : Image K) (ccd : CcdView K) (roe : Roe K) (groups : List (Group K)) (e o : ℕ)
    (rows columns : List ℕ) (tw : Option (List ℕ)) (hf : roe.force = true) (out : Image K) (roe' : Roe K)
    (h : clockCharge img ccd roe groups e o rows columns tw = .ok (out, roe')) (r c : ℕ) (hr : r < img.nr)
    (hout : c ∉ columns ∨ ¬ nearWindow rows r) : out.px r c = img.px r c := by
  refine C30_untouched img ccd roe groups e o rows columns tw out roe' h r c hr ?_
  rcases hout with h | h
  · exact Or.inl h
  · refine Or.inr fun w hw hacc => h ⟨w, hw, ?_⟩
    have := (C14_accessed roe _ hacc).1 hf
    omega

/-- **C30**: `add_cti` in both directions with forced release: a pixel is returned unchanged if its column is
outside the column window, or its row is neither in the row window nor directly behind it (parallel clocking),
and likewise with rows and columns exchanged (serial clocking). -/
theorem C30_add_cti (img out : Image K) (par ser par' ser' : Option (Direction K)) (o : ℕ) (pw sw : Window)
    (h : addCti img par o pw ser sw none = .ok (out, par', ser'))
    (hp : ∀ d ∈ par, d.roe.force = true) (hs : ∀ d ∈ ser, d.roe.force = true)
    (r c : ℕ) (hr : r < img.nr) (hc : c < img.nc)
    (h1 : par = none ∨ c ∉ sw.resolve img.nc ∨ ¬ nearWindow (pw.resolve img.nr) r)
    (h2 : ser = none ∨ r ∉ pw.resolve img.nr ∨ ¬ nearWindow (sw.resolve img.nc) c) :
    out.px r c = img.px r c := by
  obtain ⟨sc, mid, hsc, g1, g2⟩ := addCti_ok h
  have hsc' : sc = pw.resolve img.nr := by
    rcases hsc with ⟨-, rfl⟩ | ⟨t, ht, -⟩
    · rfl
    · cases ht
  subst hsc'
  have hmid : mid.px r c = img.px r c ∧ mid.nr = img.nr ∧ mid.nc = img.nc := by
    rcases g1 with ⟨-, rfl, -⟩ | ⟨d, roe', e1, -, g1⟩
    · exact ⟨rfl, rfl, rfl⟩
    · refine ⟨clockCharge_untouched _ _ _ _ _ _ _ _ _ (hp d (by rw [e1]; rfl)) _ _ g1 r c hr ?_, clockCharge_shape g1⟩
      rcases h1 with h1 | h1
      · rw [h1] at e1; cases e1
      · exact h1
  rcases g2 with ⟨-, rfl, -⟩ | ⟨d, roe', res, e1, -, rfl, g2⟩
  · exact hmid.1
  · rw [← hmid.1]
    refine clockCharge_untouched mid.transpose _ _ _ _ _ _ _ _ (hs d (by rw [e1]; rfl)) _ _ g2 c r ?_ ?_
    · change c < mid.nc
      rw [hmid.2.2]; exact hc
    · rcases h2 with h2 | h2
      · rw [h2] at e1; cases e1
      · exact h2

/-- **C30**: inside a column window the result is the same as without a column window. -/
theorem C30_column_window (img full : Image K) (d : Direction K) (o : ℕ) (pw : Window) (W : List ℕ)
    (hW : W.Nodup) (hWn : ∀ c ∈ W, c < img.nc) (hne : W ≠ []) (hb : d.roe.emptyBetween = true)
    (p' s' : Option (Direction K)) (h : addCti img (some d) o pw none .all none = .ok (full, p', s')) :
    ∃ out, addCti img (some d) o pw none (.range W) none = .ok (out, p', s') ∧
      ∀ r < img.nr, ∀ c, out.px r c = if c ∈ W then full.px r c else img.px r c := by
  rw [addCti_par] at h
  cases hx : clockCharge img d.ccd d.roe d.groups d.express o (pw.resolve img.nr) (Window.all.resolve img.nc)
      (some (List.range (img.nr + o))) with
  | error e => rw [hx] at h; cases h
  | ok v =>
    obtain ⟨out0, roe'⟩ := v
    rw [hx] at h
    injection h with h; injection h with e1 e2; injection e2 with e2 e3
    simp only at e1 e2 e3
    subst e1
    obtain ⟨k1, -⟩ := C27_columns _ _ _ _ _ _ _ _ _ hb List.nodup_range _ _ hx
    obtain ⟨⟨out, roe2⟩, k2⟩ := C27_join img d.ccd d.roe d.groups d.express o (pw.resolve img.nr) W
      (some (List.range (img.nr + o))) hb hW hne (fun c hc => by
        obtain ⟨o1, g, -⟩ := k1 c (List.mem_range.2 (hWn c hc))
        exact ⟨_, g⟩)
    obtain ⟨k3, k4⟩ := C27_columns _ _ _ _ _ _ _ _ _ hb hW _ _ k2
    have hroe : roe2 = roe' := by
      obtain ⟨c0, cs, rfl⟩ := List.exists_cons_of_ne_nil hne
      obtain ⟨oa, ga, -⟩ := k3 c0 List.mem_cons_self
      obtain ⟨ob, gb, -⟩ := k1 c0 (List.mem_range.2 (hWn c0 List.mem_cons_self))
      rw [ga] at gb
      injection gb with gb; injection gb
    subst hroe
    refine ⟨out, ?_, fun r hr c => ?_⟩
    · rw [addCti_par]
      change (clockCharge img d.ccd d.roe d.groups d.express o (pw.resolve img.nr) W
        (some (List.range (img.nr + o)))).map _ = _
      rw [k2, ← e2, ← e3]; rfl
    · split
      · rename_i hc
        obtain ⟨oa, ga, ha⟩ := k3 c hc
        obtain ⟨ob, gb, hb'⟩ := k1 c (List.mem_range.2 (hWn c hc))
        rw [ga] at gb
        injection gb with gb; injection gb with gb _
        rw [← ha, ← hb', gb]
      · rename_i hc
        exact k4 c hc r hr

/-- A window that does leave something out: the row directly behind the window is changed, the others are not. -/
example : ((addCti (exImg 4 2 [[9, 9], [80, 70], [9, 9], [9, 9]]) (some ⟨exCcd3, exRoe3, [exGroup], 0, 0⟩) 0
    (.range [1]) none (.pixel 1) none).map fun x => x.1.rows) =
    .ok [[9, 9], [80, 923456167907069167 / 15116544000000000],
      [9, 170110855869037 / 16796160000000], [9, 9]] := by decide +kernel

/-! ## C37 — a single-pixel window is a one-element range -/

/-- **C37** -/
theorem C37_pixel (img : Image K) (par ser : Option (Direction K)) (o : ℕ) (pw sw : Window)
    (tw : Option (List ℕ)) (k : ℕ) :
    addCti img par o (.pixel k) ser sw tw = addCti img par o (.range (pyRange k (k + 1))) ser sw tw ∧
    addCti img par o pw ser (.pixel k) tw = addCti img par o pw ser (.range (pyRange k (k + 1))) tw := by
  have : pyRange k (k + 1) = [k] := by
    unfold pyRange
    rw [show ((k : ℤ) + 1 - k).toNat = 1 by omega]
    simp
  rw [this]
  exact ⟨rfl, rfl⟩

/-- **C37** -/
theorem C37_default (img : Image K) (par ser : Option (Direction K)) (o : ℕ) (pw sw : Window)
    (tw : Option (List ℕ)) :
    addCti img par o .all ser sw tw = addCti img par o (.range (pyRange 0 img.nr)) ser sw tw ∧
    addCti img par o pw ser .all tw = addCti img par o pw ser (.range (pyRange 0 img.nc)) tw := by
  have : ∀ n : ℕ, pyRange 0 n = List.range n := by
    intro n
    unfold pyRange
    simp
  rw [this, this]
  exact ⟨rfl, rfl⟩

/-- The windows matter: different pixels give different images. -/
example : ((addCti (exImg 2 2 [[80, 40], [0, 0]]) (some ⟨exCcd, exRoe, [exGroup], 0, 0⟩) 0 (.pixel 0) none (.pixel 0)
      none).map fun x => x.1.rows) = .ok [[72, 40], [0, 0]] ∧
    ((addCti (exImg 2 2 [[80, 40], [0, 0]]) (some ⟨exCcd, exRoe, [exGroup], 0, 0⟩) 0 (.pixel 0) none (.pixel 1)
      none).map fun x => x.1.rows) = .ok [[80, 36], [0, 0]] := by decide +kernel

/-! ## C38 — save/restore book-keeping -/

/-- States of an `AllTrapManager` reachable by any sequence of operations. -/
inductive ATM.Reachable (groups : List (Group K)) (fr : List K) (N : ℕ) : ATM K → Prop
  | new : Reachable groups fr N (ATM.new groups fr N)
  | save {a} : Reachable groups fr N a → Reachable groups fr N a.save
  | restore {a} : Reachable groups fr N a → Reachable groups fr N a.restore
  | emptyAll {a} : Reachable groups fr N a → Reachable groups fr N a.emptyAll
  | react {a a'} (ph : ℕ) (n t : K) (f : K → K) (net : K) : Reachable groups fr N a →
      a.react ph n t f = .ok (net, a') → Reachable groups fr N a'

theorem Mgr.nTrapped_empty (m : Mgr K) : m.empty.nTrapped = 0 := by
  obtain ⟨s, d, k, wm⟩ := m
  have hw : (Mgr.empty ⟨s, d, k, wm⟩).wm = Z wm.length := by
    change wm.map (fun _ => zeroRow K s) = Z wm.length
    unfold Z
    rw [List.map_const']
  unfold Mgr.nTrapped
  cases k with
  | slow pr => simp only [Mgr.empty] at hw ⊢; rw [hw]; exact cyNTrapped_Z _ _
  | instant pe => simp only [Mgr.empty] at hw ⊢; rw [hw]; exact cyNTrapped_Z _ _
  | trackTime c => simp only [Mgr.empty] at hw ⊢; rw [hw, toFillFractions_Z]; exact cyNTrapped_Z _ _

/-- Electrons trapped in a state. -/
def trappedIn (d : List (List (Mgr K))) : K := (d.map fun ms => (ms.map Mgr.nTrapped).sum).sum

theorem trappedIn_emptied (d : List (List (Mgr K))) : trappedIn (emptied d) = 0 := by
  unfold trappedIn emptied
  apply List.sum_eq_zero
  intro x hx
  simp only [List.map_map, List.mem_map] at hx
  obtain ⟨ms, -, rfl⟩ := hx
  apply List.sum_eq_zero
  intro y hy
  simp only [List.map_map, List.mem_map] at hy
  obtain ⟨m, -, rfl⟩ := hy
  exact m.nTrapped_empty

/-- What is remembered as being in the save is what a restore brings back. -/
theorem ATM.Reachable.inSave {groups : List (Group K)} {fr : List K} {N : ℕ} {a : ATM K}
    (h : ATM.Reachable groups fr N a) : a.inSave = trappedIn a.eff := by
  induction h with
  | new =>
    rw [(fresh_new groups fr N).2.1, ← emptied_new groups fr N, trappedIn_emptied]; rfl
  | @save a _ _ => rw [ATM.eff_save]; rfl
  | @restore a _ ih =>
    rw [ATM.eff_restore, ← ih]
    unfold ATM.restore
    cases a.saved <;> rfl
  | @emptyAll a _ ih =>
    rw [ATM.eff_of (a := a) (a' := a.emptyAll) rfl (by rw [ATM.emptied_emptyAll, emptied_emptied]), ← ih]; rfl
  | @react a a' ph n t f net _ hr ih =>
    have e := ATM.react_emptied hr
    rw [ATM.eff_of e.2 e.1, ← ih]
    obtain ⟨ms, ms', -, -, g3⟩ := ATM.react_data hr
    rw [g3]

/-- **C38**: in any reachable state, `save` and `restore` keep
`n_electrons_trapped_previously + n_electrons_trapped_currently`. -/
theorem C38_account (groups : List (Group K)) (fr : List K) (N : ℕ) (a : ATM K)
    (h : ATM.Reachable groups fr N a) :
    a.save.previously + a.save.currently = a.previously + a.currently ∧
    a.restore.previously + a.restore.currently = a.previously + a.currently := by
  refine ⟨rfl, ?_⟩
  have hi := h.inSave
  have hc : a.restore.currently = trappedIn a.eff := rfl
  have hp : a.restore.previously = a.previously + (a.currently - a.inSave) := by
    unfold ATM.restore
    cases a.saved <;> rfl
  rw [hc, hp, hi]
  ring

/-- Transfers between a save and the next restore. -/
inductive ATM.Transfers : ATM K → ATM K → Prop
  | refl (a) : Transfers a a
  | step {a b c} (ph : ℕ) (n t : K) (f : K → K) (net : K) : Transfers a b → b.react ph n t f = .ok (net, c) →
      Transfers a c
  | emptyAll {a b} : Transfers a b → Transfers a b.emptyAll

/-- **C38**: `restore` gives back the state at the last `save`, whatever happened in between. -/
theorem C38_restore_save (a b : ATM K) (h : ATM.Transfers a.save b) : b.restore.data = a.data := by
  have : b.saved = some a.data := by
    generalize hs : a.save = s at h
    induction h with
    | refl => rw [← hs]; rfl
    | step ph n t f net _ hr ih => rw [(ATM.react_emptied hr).2]; exact ih
    | emptyAll _ ih => exact ih
  exact ATM.eff_some this

/-- **C38**: before any save, `restore` empties all traps. -/
theorem C38_restore_unsaved (a b : ATM K) (ha : a.saved = none) (h : ATM.Transfers a b) :
    b.restore.currently = 0 := by
  have : b.saved = none := by
    induction h with
    | refl => exact ha
    | step ph n t f net _ hr ih => rw [(ATM.react_emptied hr).2]; exact ih
    | emptyAll _ ih => exact ih
  change trappedIn b.eff = 0
  rw [ATM.eff_none this, trappedIn_emptied]

/-- **C38**: emptying the traps and saving, as done at the end of a column, drops what was trapped from the
account: afterwards only `n_electrons_trapped_previously` is left, also after the next `restore`. -/
theorem C38_column_end (a : ATM K) :
    a.emptyAll.save.previously + a.emptyAll.save.currently = a.previously ∧
    a.emptyAll.save.restore.previously + a.emptyAll.save.restore.currently = a.previously := by
  have h0 : a.emptyAll.currently = 0 := trappedIn_emptied a.data
  have h1 : a.emptyAll.save.currently = 0 := h0
  refine ⟨?_, ?_⟩
  · rw [h1, add_zero]; rfl
  · change a.previously + (a.emptyAll.currently - a.emptyAll.currently) + a.emptyAll.currently = _
    rw [h0]; ring

/-- A reachable state in which electrons are trapped, saved, and released again. -/
def exAtm : Except Err (ℚ × ℚ × ℚ) := do
  let a := ATM.new [exGroup] [1] 5
  let (_, b) ← a.react 0 80 1 (fun n => n / 200)
  let (_, c) ← b.save.react 0 0 1 (fun n => n / 200)
  .ok (b.currently, c.previously + c.currently, c.restore.previously + c.restore.currently)

example : exAtm = .ok (4, 41 / 20, 41 / 20) := by decide +kernel

end Arctic
