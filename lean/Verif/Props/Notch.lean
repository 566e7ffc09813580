import Verif.Props.NoEffect
import Verif.Props.Trail

set_option linter.unusedSectionVars false
set_option linter.unusedVariables false

/-!
# C88 — charge within the notch is left alone

`well_notch_depth` (ccd.py:63-72): "the number of electrons that fit inside a 'notch' at the bottom of a potential well, occupying
negligible volume and therefore being immune to trapping."
-/

namespace Arctic

section managers
variable {K : Type} [Field K] [LinearOrder K] [IsStrictOrderedRing K] {s : ℕ}

/-- No watermark has any volume. -/
def VolZero (wm : WM K s) : Prop := ∀ r ∈ wm, r.vol = 0

theorem VolZero.replicate (n : ℕ) : VolZero (List.replicate n (zeroRow K s)) := by
  intro r hr
  rw [List.eq_of_mem_replicate hr]
  rfl

theorem VolZero.maxIdx {wm : WM K s} (h : VolZero wm) : maxWatermarkIndex wm = -1 := by
  unfold maxWatermarkIndex argmaxTrue
  cases wm with
  | nil => simp
  | cons r wm =>
    have : r.vol = 0 := h r List.mem_cons_self
    simp [List.findIdx_cons, this]

theorem VolZero.trapped {wm : WM K s} (h : VolZero wm) (dens : Fin s → K) : cyNTrapped wm dens = 0 := by
  unfold cyNTrapped
  apply List.sum_eq_zero
  intro x hx
  obtain ⟨r, hr, rfl⟩ := List.mem_map.1 hx
  exact Finset.sum_eq_zero fun j _ => by rw [h r hr, zero_mul, zero_mul]

theorem VolZero.mapFills {wm : WM K s} (h : VolZero wm) (lo hi : ℕ) (g : Fin s → K → K) : VolZero (mapFills lo hi g wm) := by
  intro r hr
  unfold Arctic.mapFills at hr
  obtain ⟨i, hi, rfl⟩ := List.mem_mapIdx.1 hr
  have := h _ (List.getElem_mem hi)
  split <;> exact this

theorem VolZero.modify {wm : WM K s} (h : VolZero wm) (i : ℕ) (g : Row K s → Row K s) (hg : ∀ r ∈ wm, (g r).vol = 0) :
    VolZero (wm.modify i g) := by
  intro r hr
  obtain ⟨k, hk, rfl⟩ := List.mem_iff_getElem.1 hr
  rw [List.getElem_modify]
  rw [List.length_modify] at hk
  split
  · exact hg _ (List.getElem_mem hk)
  · exact h _ (List.getElem_mem hk)

theorem VolZero.volumeFilled {wm : WM K s} (h : VolZero wm) (k : ℕ) : volumeFilled k wm = 0 := by
  unfold Arctic.volumeFilled
  apply List.sum_eq_zero
  intro x hx
  obtain ⟨r, hr, rfl⟩ := List.mem_map.1 hx
  exact h r (List.mem_of_mem_take hr)

theorem VolZero.collapseRows {wm : WM K s} (h : VolZero wm) (k : ℕ) (row : Row K s) (hr : row.vol = 0) :
    VolZero (collapseRows k wm row) := by
  intro r hm
  unfold Arctic.collapseRows at hm
  rcases List.mem_or_eq_of_mem_set hm with hm | rfl
  · rw [List.mem_rotate] at hm
    rcases List.mem_append.1 hm with hm | hm
    · rw [List.eq_of_mem_replicate hm]; rfl
    · exact h r (List.mem_of_mem_drop hm)
  · exact hr

theorem VolZero.collapseCopy {wm init : WM K s} (h : VolZero wm) (filled : K) : VolZero (collapseCopy filled wm init).1 := by
  unfold Arctic.collapseCopy
  simp only
  split
  · exact h
  · exact h.collapseRows _ _ (h.volumeFilled _)

theorem finishCapture_volZero {filled : K} {trapped : WM K s → K} {tweak : WM K s → WM K s → K → Except Err (WM K s)}
    (ht : ∀ w, VolZero w → trapped w = 0) (n : K) {wm : WM K s} (h : VolZero wm) (init : WM K s) :
    ∃ w, finishCapture filled trapped tweak n 0 wm init = .ok (0, w) ∧ VolZero w := by
  unfold finishCapture
  have := h.collapseCopy (init := init) filled
  simp only [ht _ this, if_true]
  exact ⟨_, rfl, this⟩

theorem slowStep_volZero (dens : Fin s → K) (p : Probs K s) {f : K → K} {n : K} (hn : f n = 0) {wm : WM K s}
    (h : VolZero wm) : ∃ w, slowStep dens p f n wm = .ok (0, w) ∧ VolZero w := by
  have hidx : ∀ (w : WM K s) (mx : ℤ), watermarkIndexAboveCloud (0 : K) w mx = -1 := fun w mx => by
    unfold watermarkIndexAboveCloud; rw [if_pos rfl]
  unfold slowStep
  simp only [h.maxIdx, hn, hidx, h.trapped]
  by_cases h0 : n > 0
  · rw [if_pos ⟨trivial, h0⟩]
    unfold slowFirstCapture
    have hm : VolZero (wm.modify 0 fun _ => ⟨0, p.fromEmpty⟩) := h.modify _ _ fun _ _ => rfl
    simp only [hm.trapped, if_true]
    exact ⟨_, rfl, hm⟩
  · rw [if_neg (fun h => h0 h.2), if_pos (Or.inl le_rfl)]
    unfold slowCloudBelow
    simp only [splitAtCloud_zero, bind_ok]
    have hm := h.mapFills ((-1 : ℤ) + 1).toNat ((-1 : ℤ) + 1).toNat (fun j x => x * p.fromRelease j)
    simp only [hm.trapped, sub_zero, add_zero, hn, hidx, splitAtCloud_zero, bind_ok]
    obtain ⟨w, h1, h2⟩ := finishCapture_volZero (filled := 1) (trapped := fun w => cyNTrapped w dens)
      (tweak := fun w w0 e => .ok (notEnough w w0 e)) (fun w hw => hw.trapped dens) n
      (hm.mapFills 0 ((-1 : ℤ) + 1).toNat (fun j x => x * p.fromFull j + (1 - x) * p.fromEmpty j)) wm
    rw [h1]
    exact ⟨w, by simp only [bind_ok, neg_zero, zero_sub], h2⟩

theorem icStep_volZero {ops : ICOps K s} (ht : ∀ w, VolZero w → ops.trapped w = 0) {f : K → K} {n : K} (hn : f n = 0)
    {wm : WM K s} (h : VolZero wm) : ∃ w, icStep ops f n wm = .ok (0, w) ∧ VolZero w := by
  have hidx : ∀ (w : WM K s) (mx : ℤ), watermarkIndexAboveCloud (0 : K) w mx = -1 := fun w mx => by
    unfold watermarkIndexAboveCloud; rw [if_pos rfl]
  unfold icStep icRelease
  have hm := h.mapFills 0 (maxWatermarkIndex wm + 1).toNat ops.release
  simp only [ht _ h, ht _ hm, sub_self, add_zero]
  generalize Arctic.mapFills 0 (maxWatermarkIndex wm + 1).toNat ops.release wm = wm1 at hm
  unfold icCapture
  simp only [hm.maxIdx, hn, hidx, ht _ hm]
  by_cases h0 : n > 0
  · rw [if_pos ⟨trivial, h0⟩]
    unfold icFirstCapture
    have hm2 : VolZero (wm1.modify 0 fun _ => ⟨0, fun _ => ops.filled⟩) := hm.modify _ _ fun _ _ => rfl
    simp only [ht _ hm2, if_true]
    exact ⟨_, by simp only [bind_ok, neg_zero, zero_sub], hm2⟩
  · rw [if_neg (fun h => h0 h.2), if_pos (Or.inl le_rfl)]
    simp only [splitAtCloud_zero, bind_ok]
    obtain ⟨w, h1, h2⟩ := finishCapture_volZero (filled := ops.filled) (trapped := ops.trapped) (tweak := ops.tweak) ht n
      (hm.mapFills 0 ((-1 : ℤ) + 1).toNat (fun _ _ => ops.filled)) wm1
    rw [h1]
    exact ⟨w, by simp only [bind_ok, neg_zero, zero_sub], h2⟩

/-- A cloud without volume takes nothing from traps without filled volume, and gives nothing. -/
theorem Mgr.step_volZero {m : Mgr K} {f : K → K} {n : K} (hn : f n = 0) (h : VolZero m.wm) (t : K) :
    ∃ m', m.step n t f = .ok (0, m') ∧ VolZero m'.wm := by
  obtain ⟨s, d, k, wm⟩ := m
  unfold Mgr.step
  cases k with
  | slow p =>
    obtain ⟨w, h1, h2⟩ := slowStep_volZero d (p t) hn h
    simp only [h1, bind_ok]
    exact ⟨_, rfl, h2⟩
  | instant p =>
    obtain ⟨w, h1, h2⟩ := icStep_volZero (ops := instantOps d (p t)) (fun w hw => hw.trapped d) hn h
    simp only [h1, bind_ok]
    exact ⟨_, rfl, h2⟩
  | trackTime c =>
    obtain ⟨w, h1, h2⟩ := icStep_volZero (ops := trackTimeOps d c t)
      (fun w hw => VolZero.trapped (hw.mapFills _ _ _) d) hn h
    simp only [h1, bind_ok]
    exact ⟨_, rfl, h2⟩

theorem groupsStep_volZero {ms : List (Mgr K)} {f : K → K} {n : K} (hn : f n = 0) (h : ∀ m ∈ ms, VolZero m.wm) (t : K) :
    ∃ ms', groupsStep n t f ms = .ok (0, ms') ∧ ∀ m ∈ ms', VolZero m.wm := by
  induction ms with
  | nil => exact ⟨[], rfl, fun m hm => by cases hm⟩
  | cons m ms ih =>
    obtain ⟨m', h1, h2⟩ := Mgr.step_volZero hn (h m List.mem_cons_self) t
    obtain ⟨ms', h3, h4⟩ := ih fun m hm => h m (List.mem_cons_of_mem _ hm)
    unfold groupsStep
    rw [h1, h3]
    refine ⟨m' :: ms', by simp only [bind_ok, add_zero], fun m0 hm0 => ?_⟩
    rcases List.mem_cons.1 hm0 with rfl | hm0
    · exact h2
    · exact h4 m0 hm0

/-- All managers of all phases are in such a state. -/
def DataZero (d : List (List (Mgr K))) : Prop := ∀ ms ∈ d, ∀ m ∈ ms, VolZero m.wm

theorem DataZero.emptied (d : List (List (Mgr K))) : DataZero (emptied d) := by
  intro ms hms m hm r hr
  unfold Arctic.emptied at hms
  obtain ⟨ms0, -, rfl⟩ := List.mem_map.1 hms
  obtain ⟨m0, -, rfl⟩ := List.mem_map.1 hm
  unfold Mgr.empty at hr
  obtain ⟨r0, -, rfl⟩ := List.mem_map.1 hr
  rfl

theorem DataZero.new (groups : List (Arctic.Group K)) (fr : List K) (n : ℕ) : DataZero (ATM.new groups fr n).data := by
  intro ms hms m hm
  unfold ATM.new at hms
  obtain ⟨x, -, rfl⟩ := List.mem_map.1 hms
  obtain ⟨g, -, rfl⟩ := List.mem_map.1 hm
  exact VolZero.replicate _

/-- Adding zero electrons to pixels of a non-negative image. -/
theorem writeAll_same {img img' : Image K} (h0 : ∀ r < img.nr, ∀ c < img.nc, 0 ≤ img.px r c) {row0 : ℤ} {c : ℕ} {mult : K}
    {rel : List (ℤ × K)} (h : writeAll img row0 c 0 mult rel = .ok img') : img' = img := by
  induction rel generalizing img with
  | nil => unfold writeAll at h; injection h with h; exact h.symm
  | cons o rel ih =>
    obtain ⟨off, frac⟩ := o
    unfold writeAll at h
    obtain ⟨i1, h1, h2⟩ := bind_eq_ok h
    have : i1 = img := by
      unfold writeBack at h1
      obtain ⟨old, h3, h4⟩ := bind_eq_ok h1
      injection h4 with h4
      obtain ⟨a1, a2, a3, rfl⟩ := read_ok h3
      rw [← h4]
      simp only [zero_mul, add_zero]
      rw [if_neg (not_lt.2 (h0 _ (by omega) _ a3))]
      unfold Image.set
      congr 1
      funext i j
      split
      · rename_i hij; rw [hij.1, hij.2]
      · rfl
    subst this
    exact ih h0 h2

/-- Nothing happens to an image whose clouds have no volume. -/
theorem clockLoops_volZero {fill : ℕ → K → K} {cfg : ClockCfg K} {columns : List ℕ} {img : Image K} {a : ATM K}
    (h0 : ∀ r < img.nr, ∀ c < img.nc, 0 ≤ img.px r c)
    (hf : ∀ ph ∈ cfg.phases, fill ph 0 = 0 ∧ ∀ r < img.nr, ∀ c < img.nc, fill ph (img.px r c) = 0)
    (ha : DataZero a.data) (ha' : DataZero a.eff) {st : Image K × ATM K}
    (h : clockLoops (atmSys fill) cfg columns (img, a) = .ok st) : st.1 = img := by
  have key := clockLoops_sat (E := fun _ => True) (sys := atmSys fill) (cfg := cfg) (columns := columns)
    (fun st => st.1 = img ∧ DataZero st.2.data ∧ DataZero st.2.eff) (by
      rintro c _ k _ j _ step _ phase hph ⟨i, a⟩ ⟨rfl, hz, hz'⟩
      apply sat_of_ok
      intro st' h
      unfold phaseBody at h
      split at h
      · rename_i ph row0 dwell _ _ _
        obtain ⟨v, h3, h⟩ := bind_eq_ok h
        obtain ⟨⟨net, s⟩, h4, h⟩ := bind_eq_ok h
        obtain ⟨a1, a2, a3, hv⟩ := read_ok h3
        have hn : fill phase (v * (if ph.isHigh then 1 else 0)) = 0 := by
          split
          · rw [mul_one, hv]; exact (hf phase hph).2 _ (by omega) _ a3
          · rw [mul_zero]; exact (hf phase hph).1
        obtain ⟨ms, ms', g1, g2, g3⟩ := ATM.react_data h4
        obtain ⟨ms1, g4, g5⟩ := groupsStep_volZero hn (hz ms (List.mem_of_getElem? g1)) dwell
        rw [g4] at g2
        injection g2 with g2
        injection g2 with e1 e2
        subst e1 e2
        have hs : DataZero s.data ∧ DataZero s.eff := by
          have e := ATM.react_emptied h4
          rw [ATM.eff_of e.2 e.1]
          refine ⟨?_, hz'⟩
          rw [g3]
          intro ms2 hms2
          rcases List.mem_or_eq_of_mem_set hms2 with hm | rfl
          · exact hz ms2 hm
          · exact g5
        simp only at h
        split at h
        · injection h with h; subst h; exact ⟨rfl, hs⟩
        · obtain ⟨i1, h5, h⟩ := bind_eq_ok h
          injection h with h; subst h
          exact ⟨writeAll_same h0 h5, hs⟩
      · cases h)
    (fun st h => ⟨h.1, h.2.1, by
      change DataZero (ATM.save st.2).eff
      rw [ATM.eff_save]; exact h.2.1⟩)
    (fun st h => ⟨h.1, h.2.2, by
      change DataZero (ATM.restore st.2).eff
      rw [ATM.eff_restore]; exact h.2.2⟩)
    (fun st h => ⟨h.1, DataZero.emptied _, by
      change DataZero (ATM.emptyAll st.2).eff
      rw [ATM.eff_emptyAll]; exact h.2.2⟩)
    (img, a) ⟨rfl, ha, ha'⟩
  rw [h] at key
  exact key.1

theorem DataZero.new_eff (groups : List (Arctic.Group K)) (fr : List K) (n : ℕ) : DataZero (ATM.new groups fr n).eff := by
  rw [(fresh_new _ _ _).2.1]; exact DataZero.new _ _ _

/-- **C88** for any filling law and any readout, traps of any class: an image without negative pixels whose charge takes no
volume in any phase with traps comes back unchanged. -/
theorem C88_clock (img out : Image K) (ccd : CcdView K) (roe roe' : Roe K) (groups : List (Arctic.Group K)) (e o : ℕ)
    (rows columns : List ℕ) (tw : Option (List ℕ)) (h0 : ∀ r < img.nr, ∀ c < img.nc, 0 ≤ img.px r c)
    (hf : ∀ ph < ccd.fractions.length, ccd.fill ph 0 = 0 ∧ ∀ r < img.nr, ∀ c < img.nc, ccd.fill ph (img.px r c) = 0)
    (h : clockCharge img ccd roe groups e o rows columns tw = .ok (out, roe')) : out.Same img := by
  obtain ⟨cfg, st, h1, h2, rfl⟩ := clockCharge_ok h
  have hph : ∀ ph ∈ cfg.phases, ph < ccd.fractions.length := by
    intro ph hp
    rw [(clockCfg_fields h1).2.2.2.2.2.1] at hp
    unfold positiveIndices at hp
    exact List.mem_range.1 (List.mem_filter.1 hp).1
  have := clockLoops_volZero (img := img.pad (nPadding roe.accessed)) (by
      intro r _ c hc
      simp only [Image.pad]
      split
      · rename_i hr; exact h0 r hr c hc
      · exact le_rfl) (by
      intro ph hp
      refine ⟨(hf ph (hph ph hp)).1, fun r _ c hc => ?_⟩
      simp only [Image.pad]
      split
      · rename_i hr; exact (hf ph (hph ph hp)).2 r hr c hc
      · exact (hf ph (hph ph hp)).1) (DataZero.new _ _ _) (DataZero.new_eff _ _ _) h2
  rw [this]
  refine ⟨by simp [Image.unpad, Image.pad], rfl, fun r hr c hc => ?_⟩
  have hr' : r < img.nr := by simpa [Image.unpad, Image.pad] using hr
  simp only [Image.unpad, Image.pad, hr', if_true]

end managers

/-! ## Python objects -/

/-- All charge is within the notch, in every phase of the CCD. -/
def CCD.InNotch (c : CCD) (img : Image ℝ) : Prop :=
  ∀ ph < c.fractions.length, ∃ notch full power, c.HasPhase ph notch full power ∧ 0 ≤ notch ∧ notch < full ∧ 0 < power ∧
    ∀ r < img.nr, ∀ k < img.nc, img.px r k ≤ notch

/-- No pixel is negative. -/
def Image.NoNegative (img : Image ℝ) : Prop := ∀ r < img.nr, ∀ k < img.nc, 0 ≤ img.px r k

theorem Image.Same.noNegative {i j : Image ℝ} (h : i.Same j) (hj : j.NoNegative) : i.NoNegative := fun r hr k hk => by
  rw [h.px r hr k hk]; exact hj r (h.nr ▸ hr) k (h.nc ▸ hk)

theorem CCD.InNotch.of_same {c : CCD} {i j : Image ℝ} (h : i.Same j) (hj : c.InNotch j) : c.InNotch i := fun ph hph => by
  obtain ⟨n, f, p, h1, h2, h3, h4, h5⟩ := hj ph hph
  exact ⟨n, f, p, h1, h2, h3, h4, fun r hr k hk => by rw [h.px r hr k hk]; exact h5 r (h.nr ▸ hr) k (h.nc ▸ hk)⟩

theorem CCD.InNotch.transpose {c : CCD} {i : Image ℝ} (h : c.InNotch i) : c.InNotch i.transpose := fun ph hph => by
  obtain ⟨n, f, p, h1, h2, h3, h4, h5⟩ := h ph hph
  exact ⟨n, f, p, h1, h2, h3, h4, fun r hr k hk => h5 k hk r hr⟩

theorem Image.NoNegative.transpose {i : Image ℝ} (h : i.NoNegative) : i.transpose.NoNegative :=
  fun r hr k hk => h k hk r hr

theorem allTrapManager_zero {traps : PyTraps} {fr : List ℝ} {n : ℕ} {a : ATM ℝ} (h : allTrapManager traps fr n = .ok a) :
    DataZero a.data ∧ DataZero a.eff := by
  unfold allTrapManager at h
  obtain ⟨outer, -, h⟩ := bind_eq_ok h
  split at h
  · injection h with h; subst h
    exact ⟨DataZero.new _ _ _, DataZero.new_eff _ _ _⟩
  · obtain ⟨groups, -, h⟩ := bind_eq_ok h
    injection h with h; subst h
    exact ⟨DataZero.new _ _ _, DataZero.new_eff _ _ _⟩

/-- **C88** for one direction with trap objects of any classes, alone or in groups, and any readout. -/
theorem C88_objects (img out : Image ℝ) (c : CCD) (roe roe' : Roe ℝ) (traps : PyTraps) (e o : ℕ) (rows columns : List ℕ)
    (tw : Option (List ℕ)) (h0 : img.NoNegative) (hn : c.InNotch img)
    (h : clockChargePy img (some c) roe traps e o rows columns tw = .ok (out, roe')) : out.Same img := by
  unfold clockChargePy at h
  obtain ⟨⟨cfg, r⟩, h1, h⟩ := bind_eq_ok h
  obtain ⟨mg, hm, h⟩ := bind_eq_ok h
  obtain ⟨⟨i, st⟩, h2, h⟩ := bind_eq_ok h
  injection h with h
  injection h with h3 h4
  subst h3
  have hf : ∀ ph ∈ cfg.phases, c.view.fill ph 0 = 0 ∧ ∀ r < img.nr, ∀ k < img.nc, c.view.fill ph (img.px r k) = 0 := by
    intro ph hp
    rw [(clockCfg_fields h1).2.2.2.2.2.1] at hp
    unfold positiveIndices at hp
    obtain ⟨n, f, p, q1, q2, q3, q4, q5⟩ := hn ph (List.mem_range.1 (List.mem_filter.1 hp).1)
    rw [CCD.view_fill_notch q1 q2 q3 q4]
    have := (notchFill_model q2 q3 q4).2
    exact ⟨this 0 q2, fun r hr k hk => this _ (q5 r hr k hk)⟩
  have := clockLoops_volZero (img := img.pad (nPadding roe.accessed)) (by
      intro r _ k hk
      simp only [Image.pad]
      split
      · rename_i hr; exact h0 r hr k hk
      · exact le_rfl) (by
      intro ph hp
      refine ⟨(hf ph hp).1, fun r _ k hk => ?_⟩
      simp only [Image.pad]
      split
      · rename_i hr; exact (hf ph hp).2 r hr k hk
      · exact (hf ph hp).1) (allTrapManager_zero hm).1 (allTrapManager_zero hm).2 h2
  simp only at this
  rw [this]
  refine ⟨by simp [Image.unpad, Image.pad], rfl, fun r hr k hk => ?_⟩
  have hr' : r < img.nr := by simpa [Image.unpad, Image.pad] using hr
  simp only [Image.unpad, Image.pad, hr', if_true]

theorem C88_direction {d : PyDirection} {img out : Image ℝ} {rows columns : List ℕ} {tw : Option (List ℕ)} {roe' : Roe ℝ}
    (h0 : img.NoNegative) (hn : ∀ c ∈ d.ccd, c.InNotch img) (h : d.clock img rows columns tw = .ok (out, roe')) :
    out.Same img := by
  obtain ⟨c, r, t, e, o⟩ := d
  unfold PyDirection.clock at h
  cases t with
  | none =>
    injection h with h
    injection h with h _
    rw [← h]; exact Image.Same.refl _
  | some t =>
    cases c with
    | none =>
      unfold clockChargePy at h
      obtain ⟨⟨m, mon, r⟩, -, h⟩ := bind_eq_ok h
      obtain ⟨sv, -, h⟩ := bind_eq_ok h
      cases h
    | some c => exact C88_objects img out c _ roe' t e o rows columns tw h0 (hn c rfl) h

/-- **C88** for `add_cti`, with any readouts, windows and time window. -/
theorem C88_add_cti (img out : Image ℝ) (par ser : PyDirection) (pw sw : Window) (tw : Option (List ℕ)) (rp rs : Roe ℝ)
    (h0 : img.NoNegative) (hp : ∀ c ∈ par.ccd, c.InNotch img) (hs : ∀ c ∈ ser.ccd, c.InNotch img)
    (h : addCtiPy img par pw ser sw tw = .ok (out, rp, rs)) : out.Same img := by
  rw [addCtiPy_windows] at h
  obtain ⟨cols, -, h⟩ := bind_eq_ok h
  obtain ⟨⟨mid, r1⟩, g1, h⟩ := bind_eq_ok h
  obtain ⟨⟨fin, r2⟩, g2, h⟩ := bind_eq_ok h
  injection h with h
  injection h with h _
  subst h
  have m1 := C88_direction h0 hp g1
  have m2 := C88_direction (m1.noNegative h0).transpose (fun c hc => ((hs c hc).of_same m1).transpose) g2
  exact m2.transpose.trans m1

/-- **C88** for `remove_cti`. -/
theorem C88_remove_cti (img : Image ℝ) (n : ℕ) (par ser : PyDirection) (pw sw : Window) (tw : Option (List ℕ))
    (h0 : img.NoNegative) (hp : ∀ c ∈ par.ccd, c.InNotch img) (hs : ∀ c ∈ ser.ccd, c.InNotch img)
    (out : Image ℝ × Option (Roe ℝ) × Option (Roe ℝ)) (h : removeCtiPy img n par pw ser sw tw = .ok out) :
    out.1.Same img := by
  unfold removeCtiPy at h
  have key : ∀ (m : ℕ) (cur : Image ℝ) (s : Option (Roe ℝ) × Option (Roe ℝ)), cur.Same img →
      removeIter (fun cur s => do
          let (out, rp, rs) ← addCtiPy cur { par with roe := s.1 } pw { ser with roe := s.2 } sw tw
          .ok (out, s.1.map fun _ => rp, s.2.map fun _ => rs)) img m (cur, s) = .ok out → out.1.Same img := by
    intro m
    induction m with
    | zero =>
      intro cur s hc h
      unfold removeIter at h
      injection h with h
      rw [← h]; exact hc
    | succ m ih =>
      intro cur s hc h
      unfold removeIter at h
      obtain ⟨⟨added, s'⟩, h1, h⟩ := bind_eq_ok h
      obtain ⟨⟨out', rp, rs⟩, h2, h3⟩ := bind_eq_ok h1
      injection h3 with h3
      injection h3 with h3 h4
      subst h3
      have hadd := C88_add_cti cur out' { par with roe := s.1 } { ser with roe := s.2 } pw sw tw rp rs (hc.noNegative h0)
        (fun c hcc => (hp c hcc).of_same hc) (fun c hcc => (hs c hcc).of_same hc) h2
      refine ih ⟨cur.nr, cur.nc, fun r c => cur.px r c + (img.px r c - out'.px r c)⟩ s' ⟨hc.nr, hc.nc, fun r hr k hk => ?_⟩ h
      have e1 := hc.px r hr k hk
      have e2 := hadd.px r (hadd.nr ▸ hr) k (hadd.nc ▸ hk)
      simp only
      rw [e2, e1]
      ring
  exact key n img _ (Image.Same.refl _) h

/-! ## Examples -/

/-- A call with traps of all three classes. -/
example : ((addCti (exImg 3 1 [[20], [40], [10]]) (some ⟨⟨[1], fun _ => fillNotch40⟩, .standard [1] true true true false,
      [⟨1, fun _ => 1000, .instant fun _ _ => 1 / 2⟩, ⟨1, fun _ => 1000, .slow fun _ => slowProbs⟩,
        ⟨1, fun _ => 1000, .trackTime fun _ x => 1 / (1 + x)⟩], 0, 0⟩) 0 .all none .all none).map
      fun x => x.1.rows) = .ok [[20], [40], [10]] := by decide +kernel

/-- A CCD with a notch of 40 electrons and an image. -/
example : (⟨[1], [100], [1], [40], []⟩ : CCD).InNotch ⟨2, 1, fun r _ => if r = 0 then 40 else 7⟩ := by
  intro ph hph
  obtain rfl : ph = 0 := by simpa using hph
  refine ⟨40, 100, 1, ⟨rfl, rfl, rfl⟩, by norm_num, by norm_num, one_pos, fun r hr k hk => ?_⟩
  simp only
  split <;> norm_num

/-- **C88** (counterexample): the charge in the notch is not immune to trapping when there is more: if the traps reached by
the charge above the notch outnumber all electrons, all are captured. -/
theorem C88_above_false :
    ((addCti (exImg 1 1 [[80]]) (some ⟨⟨[1], fun _ => fillNotch40⟩, .standard [1] true true true false,
      [⟨1, fun _ => 1000, .instant fun _ _ => 1 / 2⟩], 0, 0⟩) 0 .all none .all none).map fun x => x.1.rows) =
      .ok [[0]] := by decide +kernel

end Arctic
