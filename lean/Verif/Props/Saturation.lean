import Verif.Lemmas.Saturation
import Verif.Props.Delay

/-!
# C89 — charge above the full well passes through
-/

set_option linter.unusedSectionVars false
set_option linter.unusedVariables false

namespace Arctic
open Finset

variable {K : Type} [Field K] [LinearOrder K] [IsStrictOrderedRing K]

/-- Clouds of `L` electrons fill the pixel, and suffice for all traps of a pixel. -/
structure Saturates (ccd : CcdView K) (groups : List (Group K)) (L : K) : Prop where
  pos : 0 < L
  full : ∀ ph < ccd.fractions.length, ∀ n, L ≤ n → ccd.fill ph n = 1
  traps : trapsPerPixel groups ccd.fractions ≤ L

/-- Two images of the same shape that differ only in pixels that hold at least `L r c` electrons in both. -/
structure DifferAbove (L : ℕ → ℕ → K) (img img' : Image K) : Prop where
  nr : img'.nr = img.nr
  nc : img'.nc = img.nc
  bright : ∀ r < img.nr, ∀ c < img.nc, img'.px r c = img.px r c ∨ (L r c ≤ img.px r c ∧ L r c ≤ img'.px r c)

theorem phaseTraps_le (groups : List (Group K)) (fractions : List K) (M : ℕ) (hg : ∀ g ∈ groups, ∀ j, 0 ≤ g.dens j)
    (hfr : ∀ x ∈ fractions, 0 ≤ x) (ph : ℕ) :
    phaseTraps (ATM.new groups fractions M).data ph ≤ trapsPerPixel groups fractions := by
  rw [phaseTraps_new]
  refine mul_le_mul_of_nonneg_left ?_ (groups_sum_nonneg hg)
  cases h : fractions[ph]? with
  | none => exact List.sum_nonneg hfr
  | some f => exact List.single_le_sum hfr f (List.mem_of_getElem? h)

/-- Everything for one direction: `T w` bounds the multipliers of row `w` added over the passes. -/
theorem pixel_apart (img img' out : Image K) (ccd : CcdView K) (roe roe' : Roe K) (groups : List (Group K)) (e o : ℕ)
    (rows columns : List ℕ) (tw : Option (List ℕ))
    (hk : NoSaves roe ∨ roe.isPumping = true ∨ (e = 0 ∧ FullReadout o rows tw roe)) (hb : roe.emptyBetween = true)
    (hforce : roe.force = true)
    (hr : RowsFound rows roe) (hnd : rows.Nodup) (hndc : columns.Nodup) (hrows : ∀ w ∈ rows, w < img.nr)
    (hcols : ∀ c ∈ columns, c < img.nc)
    (hlen : ccd.fractions.length ≤ roe.nPhases) (hfr : ∀ x ∈ ccd.fractions, 0 ≤ x)
    (hfill : ∀ ph < ccd.fractions.length, FillModel (ccd.fill ph))
    (hg : ∀ g ∈ groups, (∀ j, 0 ≤ g.dens j) ∧ g.kind.Ok (0 < ·)) {T : ℕ → K} (hT0 : ∀ w, 0 ≤ T w) (hT : Monotone T)
    (hsum : ∀ (m : Mat K) mon roe1, roe.express rows e o tw = .ok (m, mon, roe1) → ∀ j < rows.length,
      ∑ k ∈ range m.nr, |m.e k j| ≤ T (rows.getD j 0)) {L : K} (hL : Saturates ccd groups L)
    (hd : DifferAbove (fun r _ => L + roe.dwell.length * (trapsPerPixel groups ccd.fractions * T r)) img img')
    (h : clockCharge img ccd roe groups e o rows columns tw = .ok (out, roe')) :
    ∃ out', clockCharge img' ccd roe groups e o rows columns tw = .ok (out', roe') ∧ out'.nr = out.nr ∧ out'.nc = out.nc ∧
      ∀ r < img.nr, ∀ c < img.nc, out'.px r c = out.px r c + (img'.px r c - img.px r c) := by
  have hlow : ∀ w ∈ rows, ∀ z ∈ roe.accessed, 0 ≤ (w : ℤ) + z := by
    intro w _ z hz
    have := (C14_accessed roe z hz).1 hforce
    omega
  have hg0 : ∀ g ∈ groups, ∀ j, 0 ≤ g.dens j := fun g hgm => (hg g hgm).1
  obtain ⟨cfg, st, h1, h2, rfl⟩ := clockCharge_ok h
  obtain ⟨f1, f2, f3, f4, f5, f6, f7, f8⟩ := clockCfg_fields h1
  have hb' : cfg.emptyBetween = true := f8.trans hb
  obtain ⟨N, pos, s1, s2⟩ := schedule_of h1 hk
  have hrun := runCfg_of h1 hfill hlen hr img.nr hrows hlow
  have hfresh := fresh_new groups ccd.fractions (maxNTransfers roe cfg)
  set D0 := (ATM.new groups ccd.fractions (maxNTransfers roe cfg)).data with hD0
  have hB : ∀ ph, 0 ≤ phaseTraps D0 ph := by
    intro ph
    rw [hD0, phaseTraps_new]
    refine mul_nonneg (groups_sum_nonneg hg0) ?_
    cases hx : ccd.fractions[ph]? with
    | none => exact le_rfl
    | some f => exact hfr f (List.mem_of_getElem? hx)
  set p := nPadding roe.accessed with hp
  -- one column of the second image
  have hcol : ∀ c ∈ columns, ∃ o1 o2, clockLoops (atmSys ccd.fill) cfg [c] (img.pad p,
      ATM.new groups ccd.fractions (maxNTransfers roe cfg)) = .ok o1 ∧ AgreeOn c o1.1 st.1 ∧
      clockLoops (atmSys ccd.fill) cfg [c] (img'.pad p, ATM.new groups ccd.fractions (maxNTransfers roe cfg)) = .ok o2 ∧
      ∀ r < img.nr, o2.1.px r c = o1.1.px r c + (img'.px r c - img.px r c) := by
    intro c hc
    obtain ⟨o1, h3, h4⟩ := columns_split ccd.fill cfg hb' hndc (fresh_new _ _ _) h2 (fresh_new _ _ _) c hc
    have h3' := h3
    rw [clockLoops_single] at h3'
    have hsat := columnBody_satSys (tr := True) (C := img.nc) hrun s1 (hcols c hc) D0 hL.pos
      (fun ph hph => hL.full ph (hrun.phases ph hph))
      (fun ph _ => (phaseTraps_le groups ccd.fractions _ hg0 hfr ph).trans hL.traps) _ (by
      have h6 := dataOk_new (tr := True) (M := N * cfg.steps.length) groups ccd.fractions hfr
        fun g hgm => ⟨(hg g hgm).1, (hg g hgm).2, fun _ => trivial⟩
      refine ⟨⟨rfl, rfl, ?_, ?_⟩, hfresh.1, ?_⟩
      · simp only [s2]; exact h6
      · simp only [s2, (fresh_new groups ccd.fractions (N * cfg.steps.length)).2.1]; exact h6
      · simp only; rw [hfresh.2.1]; exact hfresh.2.2) h3'
    have hAp : Apart c L (fun r => if r < img.nr then img'.px r c - img.px r c else 0)
        (fun r => ((List.range cfg.expr.nr).map fun k => ((monitoredRows cfg k).map fun j =>
          |cfg.expr.e k j| * visit cfg (phaseTraps D0) r j).sum).sum)
        (img.pad p, ATM.new groups ccd.fractions (maxNTransfers roe cfg))
        (img'.pad p, ATM.new groups ccd.fractions (maxNTransfers roe cfg)) := by
      refine ⟨?_, hd.nc, rfl, fun r => ?_, fun r => ?_⟩
      · simp only [Image.pad]; rw [hd.nr]
      · simp only [Image.pad, hd.nr]
        by_cases hrr : r < img.nr
        · simp only [if_pos hrr]; ring
        · simp only [if_neg hrr, add_zero]
      · by_cases hrr : r < img.nr
        · simp only [if_pos hrr, Image.pad, hd.nr]
          have hv := visits_total h1 hforce hr hnd hrun hfr hg0 hT0 hT hsum (maxNTransfers roe cfg) r
          rcases hd.bright r hrr c (hcols c hc) with q | ⟨q1, q2⟩
          · left; rw [q, sub_self]
          · right
            constructor <;> linarith
        · left; rw [if_neg hrr]
    obtain ⟨o2, g1, g2⟩ := columnBody_apart hL.pos.le hB (fun s ph n dw o => satSys_ok) hAp hsat
    have g3 : columnBody (atmSys ccd.fill) cfg (img'.pad p,
        ATM.new groups ccd.fractions (maxNTransfers roe cfg)) c = .ok o2 := by
      rcases columnBody_sat_lim (atmSys ccd.fill) (phaseTraps D0) L cfg c (img'.pad p,
        ATM.new groups ccd.fractions (maxNTransfers roe cfg)) with he | he
      · rw [← he, g1]
      · rw [g1] at he; cases he
    refine ⟨o1, o2, h3, h4, by rw [clockLoops_single]; exact g3, fun r hrr => ?_⟩
    have := g2.pixels r
    rw [if_pos hrr] at this
    exact this
  obtain ⟨st', h2'⟩ := columns_join ccd.fill cfg hb' hndc hfresh hfresh (img := img'.pad p) fun c hc => by
    obtain ⟨-, o2, -, -, q, -⟩ := hcol c hc
    exact ⟨o2, q⟩
  have hf := clockLoops_frame _ cfg h2
  have hf' := clockLoops_frame _ cfg h2'
  refine ⟨st'.1.unpad p, clockCharge_of h1 h2', ?_, ?_, fun r hrr c hcc => ?_⟩
  · simp only [Image.unpad]
    rw [hf.1, hf'.1]
    simp only [Image.pad, hd.nr]
  · simp only [Image.unpad]
    rw [hf.2.1, hf'.2.1]
    exact hd.nc
  · simp only [Image.unpad]
    by_cases hc : c ∈ columns
    · obtain ⟨o1, o2, q1, q2, q3, q4⟩ := hcol c hc
      obtain ⟨o3, q5, q6⟩ := columns_split ccd.fill cfg hb' hndc hfresh h2' hfresh c hc
      rw [q3] at q5
      injection q5 with q5
      subst q5
      rw [← q2.2.2 r, ← q6.2.2 r]
      exact q4 r hrr
    · rw [hf.2.2 r c hc, hf'.2.2 r c hc]
      simp only [Image.pad, hd.nr, if_pos hrr]
      ring

/-! ## C89 -/

/-- **C89** for one direction with a standard readout: electrons above a level at which the pixel is full — with a margin
for what the traps can take on the way — make no difference to the traps. They arrive in their pixel, all of them, and no
other pixel changes. -/
theorem C89_clock (img img' out : Image K) (ccd : CcdView K) (dw : List K) (i : Bool) (roe' : Roe K)
    (groups : List (Group K)) (e o : ℕ) (rows columns : List ℕ) (tw : Option (List ℕ)) (hcov : Covering o rows tw)
    (hnd : rows.Nodup) (hndc : columns.Nodup) (hrows : ∀ w ∈ rows, w < img.nr) (hcols : ∀ c ∈ columns, c < img.nc)
    (hlen : ccd.fractions.length ≤ dw.length) (hfr : ∀ x ∈ ccd.fractions, 0 ≤ x)
    (hfill : ∀ ph < ccd.fractions.length, FillModel (ccd.fill ph))
    (hg : ∀ g ∈ groups, (∀ j, 0 ≤ g.dens j) ∧ g.kind.Ok (0 < ·)) {L : K} (hL : Saturates ccd groups L)
    (hd : DifferAbove (fun r _ => L + dw.length * (trapsPerPixel groups ccd.fractions * ((r : K) + 1 + o))) img img')
    (h : clockCharge img ccd (.standard dw true true true i) groups e o rows columns tw = .ok (out, roe')) :
    ∃ out', clockCharge img' ccd (.standard dw true true true i) groups e o rows columns tw = .ok (out', roe') ∧
      out'.nr = out.nr ∧ out'.nc = out.nc ∧
      ∀ r < img.nr, ∀ c < img.nc, out'.px r c = out.px r c + (img'.px r c - img.px r c) := by
  refine pixel_apart img img' out ccd (.standard dw true true true i) roe' groups e o rows columns tw (Or.inl rfl) rfl rfl
    trivial hnd hndc hrows hcols hlen hfr hfill hg (T := fun w => (w : K) + 1 + o) (fun w => by positivity)
    (fun a b hab => ?_) (standard_multipliers hcov) hL hd h
  have : (a : K) ≤ b := by exact_mod_cast hab
  simp only
  linarith

/-- **C89** for charge injection. -/
theorem C89_injection (img img' out : Image K) (ccd : CcdView K) (dw : List K) (n : ℕ) (i : Bool) (roe' : Roe K)
    (groups : List (Group K)) (e o : ℕ) (columns : List ℕ) (hndc : columns.Nodup) (hcols : ∀ c ∈ columns, c < img.nc)
    (hlen : ccd.fractions.length ≤ dw.length) (hfr : ∀ x ∈ ccd.fractions, 0 ≤ x)
    (hfill : ∀ ph < ccd.fractions.length, FillModel (ccd.fill ph))
    (hg : ∀ g ∈ groups, (∀ j, 0 ≤ g.dens j) ∧ g.kind.Ok (0 < ·)) {L : K} (hL : Saturates ccd groups L)
    (hd : DifferAbove (fun _ _ => L + dw.length * (trapsPerPixel groups ccd.fractions * n)) img img')
    (h : clockCharge img ccd (.injection dw (some n) true true i) groups e o (List.range img.nr) columns none =
      .ok (out, roe')) :
    ∃ out', clockCharge img' ccd (.injection dw (some n) true true i) groups e o (List.range img.nr) columns none =
        .ok (out', roe') ∧ out'.nr = out.nr ∧ out'.nc = out.nc ∧
      ∀ r < img.nr, ∀ c < img.nc, out'.px r c = out.px r c + (img'.px r c - img.px r c) :=
  pixel_apart img img' out ccd (.injection dw (some n) true true i) roe' groups e o (List.range img.nr) columns none
    (Or.inl trivial) rfl rfl (fun x hx => by rw [List.length_range]; exact List.mem_range.1 hx) List.nodup_range hndc
    (fun w hw => List.mem_range.1 hw) hcols hlen hfr hfill hg (T := fun _ => (n : K)) (fun w => Nat.cast_nonneg _)
    (fun a b _ => le_rfl) injection_multipliers hL hd h

theorem RunsDirection.apart {rows : List ℕ} {d : Direction K} (h : RunsDirection rows d) {img img' out : Image K} {o : ℕ}
    {columns : List ℕ} {tw : Option (List ℕ)} {roe' : Roe K} (hcov : Covering o rows tw) (hnd : rows.Nodup)
    (hndc : columns.Nodup) (hrows : ∀ w ∈ rows, w < img.nr) (hcols : ∀ c ∈ columns, c < img.nc) {L : K}
    (hL : Saturates d.ccd d.groups L) (hd : DifferAbove (fun r _ => L + d.most (r + o + 1)) img img')
    (hr : clockCharge img d.ccd d.roe d.groups d.express o rows columns tw = .ok (out, roe')) :
    ∃ out', clockCharge img' d.ccd d.roe d.groups d.express o rows columns tw = .ok (out', roe') ∧
      out'.nr = out.nr ∧ out'.nc = out.nc ∧
      ∀ r < img.nr, ∀ c < img.nc, out'.px r c = out.px r c + (img'.px r c - img.px r c) := by
  obtain ⟨⟨dw, i, hroe, hlen⟩, h2, h3, h4, h5⟩ := h
  rw [hroe] at hr ⊢
  refine C89_clock img img' out d.ccd dw i roe' d.groups d.express o rows columns tw hcov hnd hndc hrows hcols hlen h2 h3 h4
    hL ⟨hd.nr, hd.nc, fun r hrr c hc => ?_⟩ hr
  have e : d.most (r + o + 1) = dw.length * (trapsPerPixel d.groups d.ccd.fractions * ((r : K) + 1 + o)) := by
    unfold Direction.most
    rw [hroe]
    simp only [Roe.dwell]
    push_cast
    ring
  have := hd.bright r hrr c hc
  rw [e] at this
  exact this

theorem mostChange_nonneg {rows cols : List ℕ} {par ser : Option (Direction K)} (hp : ∀ d ∈ par, RunsDirection rows d)
    (hs : ∀ d ∈ ser, RunsDirection cols d) (o r c : ℕ) : 0 ≤ mostChange par ser o r c := by
  unfold mostChange
  refine add_nonneg ?_ ?_
  · cases par with
    | none => exact le_rfl
    | some d => exact (hp d rfl).most_nonneg _
  · cases ser with
    | none => exact le_rfl
    | some d => exact (hs d rfl).most_nonneg _

theorem addCti_of {img mid out : Image K} {par ser par' ser' : Option (Direction K)} {o : ℕ} {pw sw : Window}
    (h1 : par = none ∧ mid = img ∧ par' = none ∨ ∃ d roe', par = some d ∧ par' = some { d with roe := roe' } ∧
      clockCharge img d.ccd d.roe d.groups d.express o (pw.resolve img.nr) (sw.resolve img.nc)
        (some (List.range (img.nr + o))) = .ok (mid, roe'))
    (h2 : ser = none ∧ out = mid ∧ ser' = none ∨ ∃ d roe' res, ser = some d ∧ ser' = some { d with roe := roe' } ∧
      out = res.transpose ∧ clockCharge mid.transpose d.ccd d.roe d.groups d.express d.offset (sw.resolve img.nc)
        (pw.resolve img.nr) none = .ok (res, roe')) :
    addCti img par o pw ser sw none = .ok (out, par', ser') := by
  unfold addCti
  rcases h1 with ⟨rfl, rfl, rfl⟩ | ⟨d, roe', rfl, rfl, hr⟩
  · rcases h2 with ⟨rfl, rfl, rfl⟩ | ⟨d, roe', res, rfl, rfl, rfl, hr⟩
    · rfl
    · simp only [bind_ok, hr]
  · rcases h2 with ⟨rfl, rfl, rfl⟩ | ⟨d', roe'', res, rfl, rfl, rfl, hr'⟩
    · simp only [bind_ok, Option.getD_none, hr]
    · simp only [bind_ok, Option.getD_none, hr, hr']

/-- **C89** for `add_cti`: if two images differ only in pixels that are bright in both — at least `L`, which fills the
pixel and all traps, and what the traps can take on the way (`mostChange`, C84) — then the results differ by exactly the
same: the charge above the full well passes through. -/
theorem C89_add_cti (img img' out : Image K) (par ser par' ser' : Option (Direction K)) (o : ℕ) (pw sw : Window)
    (hp : ∀ d ∈ par, RunsDirection (pw.resolve img.nr) d) (hs : ∀ d ∈ ser, RunsDirection (sw.resolve img.nc) d)
    (hpn : (pw.resolve img.nr).Nodup) (hsn : (sw.resolve img.nc).Nodup)
    (hpr : ∀ w ∈ pw.resolve img.nr, w < img.nr) (hsr : ∀ w ∈ sw.resolve img.nc, w < img.nc) {L : K} (hL0 : 0 ≤ L)
    (hLp : ∀ d ∈ par, Saturates d.ccd d.groups L) (hLs : ∀ d ∈ ser, Saturates d.ccd d.groups L)
    (hd : DifferAbove (fun r c => L + mostChange par ser o r c) img img')
    (h : addCti img par o pw ser sw none = .ok (out, par', ser')) :
    ∃ out', addCti img' par o pw ser sw none = .ok (out', par', ser') ∧ out'.nr = img.nr ∧ out'.nc = img.nc ∧
      ∀ r < img.nr, ∀ c < img.nc, out'.px r c = out.px r c + (img'.px r c - img.px r c) := by
  obtain ⟨serCols, mid, hsc, h1, h2⟩ := addCti_ok h
  have hsc' : serCols = pw.resolve img.nr := by
    rcases hsc with ⟨-, e⟩ | ⟨t, e, -⟩
    · exact e
    · cases e
  subst hsc'
  have hmp : ∀ r, 0 ≤ par.elim (0 : K) fun d => d.most (r + o + 1) := by
    intro r
    cases par with
    | none => exact le_rfl
    | some d => exact (hp d rfl).most_nonneg _
  have hms : ∀ c, 0 ≤ ser.elim (0 : K) fun d => d.most (c + d.offset + 1) := by
    intro c
    cases ser with
    | none => exact le_rfl
    | some d => exact (hs d rfl).most_nonneg _
  -- parallel
  have hmid : ∃ mid', (par = none ∧ mid' = img' ∧ par' = none ∨ ∃ d roe', par = some d ∧ par' = some { d with roe := roe' } ∧
      clockCharge img' d.ccd d.roe d.groups d.express o (pw.resolve img'.nr) (sw.resolve img'.nc)
        (some (List.range (img'.nr + o))) = .ok (mid', roe')) ∧
      (mid.nr = img.nr ∧ mid.nc = img.nc ∧ mid'.nr = img.nr ∧ mid'.nc = img.nc) ∧ ∀ r < img.nr, ∀ c < img.nc,
        mid'.px r c = mid.px r c + (img'.px r c - img.px r c) ∧
        (0 ≤ img.px r c → |mid.px r c - img.px r c| ≤ par.elim 0 fun d => d.most (r + o + 1)) := by
    rw [hd.nr, hd.nc]
    rcases h1 with ⟨rfl, rfl, rfl⟩ | ⟨d, roe', rfl, rfl, hr⟩
    · exact ⟨img', Or.inl ⟨rfl, rfl, rfl⟩, ⟨rfl, rfl, hd.nr, hd.nc⟩, fun r _ c _ => ⟨by ring, fun _ => by simp⟩⟩
    · have hsh := clockCharge_shape hr
      have hq := (hp d rfl).change (Or.inr ⟨img.nr, rfl, hpr⟩) hpn hsn hpr hsr hr
      obtain ⟨mid', m1, m2, m3, m4⟩ := (hp d rfl).apart (Or.inr ⟨img.nr, rfl, hpr⟩) hpn hsn hpr hsr (hLp d rfl)
        ⟨hd.nr, hd.nc, fun r hrr c hc => (hd.bright r hrr c hc).imp_right fun q => by
          have := hms c
          unfold mostChange at q
          simp only [Option.elim_some] at q
          exact ⟨by linarith [q.1], by linarith [q.2]⟩⟩ hr
      exact ⟨mid', Or.inr ⟨d, roe', rfl, rfl, m1⟩, ⟨hsh.1, hsh.2, m2.trans hsh.1, m3.trans hsh.2⟩, fun r hrr c hc =>
        ⟨m4 r hrr c hc, fun h0 => (hq.2 r c hrr h0).2⟩⟩
  obtain ⟨mid', k1, ⟨k2, k3, k4, k5⟩, k6⟩ := hmid
  rcases h2 with ⟨rfl, rfl, rfl⟩ | ⟨d, roe', res, rfl, rfl, rfl, hr⟩
  · exact ⟨mid', addCti_of k1 (Or.inl ⟨rfl, rfl, rfl⟩), k4, k5, fun r hrr c hc => (k6 r hrr c hc).1⟩
  · have hsh := clockCharge_shape hr
    obtain ⟨res', m1, m2, m3, m4⟩ := (hs d rfl).apart (img' := mid'.transpose) (Or.inl rfl) hsn hpn
      (fun w hw => by change w < mid.nc; rw [k3]; exact hsr w hw)
      (fun w hw => by change w < mid.nr; rw [k2]; exact hpr w hw) (hLs d rfl)
      ⟨by change mid'.nc = mid.nc; rw [k3, k5], by change mid'.nr = mid.nr; rw [k2, k4], fun c hcc r hrr => by
        change c < mid.nc at hcc
        change r < mid.nr at hrr
        rw [k3] at hcc
        rw [k2] at hrr
        change mid'.px r c = mid.px r c ∨ _ ≤ mid.px r c ∧ _ ≤ mid'.px r c
        obtain ⟨a1, a2⟩ := k6 r hrr c hcc
        rcases hd.bright r hrr c hcc with q | ⟨q1, q2⟩
        · left; rw [a1, q]; ring
        · right
          have b1 := hmp r
          have b2 := hms c
          unfold mostChange at q1 q2
          simp only [Option.elim_some] at q1 q2 b2
          have b3 := (abs_le.1 (a2 (by linarith))).1
          rw [a1]
          constructor <;> linarith⟩ hr
    refine ⟨res'.transpose, addCti_of k1 (Or.inr ⟨d, roe', res', rfl, rfl, rfl, ?_⟩), ?_, ?_, fun r hrr c hc => ?_⟩
    · rw [hd.nr, hd.nc]; exact m1
    · change res'.nc = _; rw [m3, hsh.2]; exact k2
    · change res'.nr = _; rw [m2, hsh.1]; exact k3
    · change res'.px c r = res.px c r + _
      rw [m4 c (by change c < mid.nc; omega) r (by change r < mid.nr; omega)]
      change res.px c r + (mid'.px r c - mid.px r c) = _
      rw [(k6 r hrr c hc).1]
      ring

/-- **C89** for `remove_cti` with any number of iterations: the same, if the pixels in question hold twice the margin. -/
theorem C89_remove_cti (img img' out : Image K) (n : ℕ) (par ser par' ser' : Option (Direction K)) (o : ℕ)
    (pw sw : Window)
    (hp : ∀ d ∈ par, RunsDirection (pw.resolve img.nr) d) (hs : ∀ d ∈ ser, RunsDirection (sw.resolve img.nc) d)
    (hpn : (pw.resolve img.nr).Nodup) (hsn : (sw.resolve img.nc).Nodup)
    (hpr : ∀ w ∈ pw.resolve img.nr, w < img.nr) (hsr : ∀ w ∈ sw.resolve img.nc, w < img.nc) {L : K} (hL0 : 0 ≤ L)
    (hLp : ∀ d ∈ par, Saturates d.ccd d.groups L) (hLs : ∀ d ∈ ser, Saturates d.ccd d.groups L)
    (hd : DifferAbove (fun r c => L + 2 * mostChange par ser o r c) img img')
    (h : removeCti img n par o pw ser sw none = .ok (out, par', ser')) :
    ∃ out', removeCti img' n par o pw ser sw none = .ok (out', par', ser') ∧ out'.nr = img.nr ∧ out'.nc = img.nc ∧
      ∀ r < img.nr, ∀ c < img.nc, out'.px r c = out.px r c + (img'.px r c - img.px r c) := by
  induction n generalizing out par' ser' with
  | zero =>
    rw [C36_zero] at h ⊢
    injection h with h
    injection h with h1 h2
    subst h1
    exact ⟨img', by rw [h2], hd.nr, hd.nc, fun r _ c _ => by ring⟩
  | succ n ih =>
    obtain ⟨cur, p, s, added, h1, h2, h3, h4, h5⟩ := (C36_iteration img n par ser o pw sw none out par' ser').1 h
    obtain ⟨cur', g1, g2, g3, g4⟩ := ih cur p s h1
    obtain ⟨⟨c1, c2, rfl, rfl⟩, c4⟩ := C84_remove_cti img cur n par ser p s o pw sw hp hs hpn hsn hpr hsr h1
    have hm := mostChange_nonneg hp hs o
    obtain ⟨added', a1, a2, a3, a4⟩ := C89_add_cti cur cur' added p s par' ser' o pw sw (by rw [c1]; exact hp)
      (by rw [c2]; exact hs) (by rw [c1]; exact hpn) (by rw [c2]; exact hsn) (by rw [c1]; exact hpr)
      (by rw [c2]; exact hsr) hL0 hLp hLs ⟨g2.trans c1.symm, g3.trans c2.symm, fun r hrr c hc => by
        rw [c1] at hrr
        rw [c2] at hc
        rcases hd.bright r hrr c hc with q | ⟨q1, q2⟩
        · left; rw [g4 r hrr c hc, q]; ring
        · right
          have b := hm r c
          have := (abs_le.1 (c4 r hrr c hc (by linarith) (Or.inr (by linarith)))).1
          rw [g4 r hrr c hc]
          constructor <;> linarith⟩ h2
    refine ⟨improve img' cur' added', (C36_iteration img' n p s o pw sw none _ par' ser').2
      ⟨cur', p, s, added', g1, a1, rfl, rfl, fun r c => rfl⟩, g2, g3, fun r hrr c hc => ?_⟩
    simp only [improve]
    rw [h5 r c, a4 r (by omega) c (by omega), g4 r hrr c hc]
    ring

/-! ### Python objects and the HST preset -/

theorem ExactObjects.saturates {full power dw : ℝ} {gs : List (List Trap)} {i : Bool} {c : CCD} {o : ℕ} {d : PyDirection}
    (h : ExactObjects full power dw gs i c o d) (hfew : trapCount gs ≤ full) :
    Saturates c.view (gs.map groupOf) full := by
  refine ⟨h.full, fun ph hph n hn => ?_, ?_⟩
  · change ph < c.fractions.length at hph
    rw [h.phase.1] at hph
    obtain rfl : ph = 0 := by simpa using hph
    rw [CCD.view_fill h.phase.2 h.full h.power]
    unfold wellFill
    have h1 : 1 ≤ n / full := (one_le_div h.full).2 hn
    rw [max_eq_right (by linarith), min_eq_left h1, Real.one_rpow]
  · unfold trapsPerPixel
    have e1 : ((gs.map groupOf).map fun g => ∑ j, g.dens j).sum = trapCount gs :=
      groupCount_objects gs fun l hl => (h.groups.2 l hl).1
    have e2 : c.view.fractions = [1] := h.phase.1
    rw [e1, e2, List.sum_singleton, mul_one]
    exact hfew

/-- **C89** with Python objects: instant-capture traps in any number of groups, no more of them in a pixel than the full
well holds. -/
theorem C89_objects {full power dw : ℝ} {gs : List (List Trap)} {i : Bool} {c : CCD} {o : ℕ} {d : PyDirection}
    (h : ExactObjects full power dw gs i c o d) (hfew : trapCount gs ≤ full) (img img' : Image ℝ) (hnr : 0 < img.nr)
    (e : ℕ) (he : e = 0 ∨ e + 1 ≠ img.nr)
    (hd : DifferAbove (fun r _ => full + trapCount gs * ((r + o + 1 : ℕ) : ℝ)) img img') :
    ∃ out out', addCtiPy img ⟨some c, some (.standard [dw] true true true i), some (.list (gs.map .group)), e, o⟩ .all
        .absent .all none = .ok (out, .standard [dw] true true true i, Roe.default) ∧
      addCtiPy img' ⟨some c, some (.standard [dw] true true true i), some (.list (gs.map .group)), e, o⟩ .all
        .absent .all none = .ok (out', .standard [dw] true true true i, Roe.default) ∧
      ∀ r < img.nr, ∀ k < img.nc, out'.px r k = out.px r k + (img'.px r k - img.px r k) := by
  obtain ⟨out, g1, g2⟩ := h.returns img hnr e he
  obtain ⟨out', g3, g4⟩ := h.returns img' (by rw [hd.nr]; exact hnr) e (by rw [hd.nr]; exact he)
  refine ⟨out, out', g1, g3, fun r hr k hk => ?_⟩
  have hs : ¬ ShortMatrix true (List.range img.nr) e := by
    rintro ⟨-, h1, h2⟩
    have hmax : (List.range img.nr).max? = some (img.nr - 1) := by
      rw [List.max?_eq_some_iff]
      exact ⟨List.mem_range.2 (by omega), fun x hx => by have := List.mem_range.1 hx; omega⟩
    rw [hmax] at h2
    injection h2 with h2
    rcases he with he | he
    · exact h1 he
    · omega
  obtain ⟨out'', k1, -, -, k4⟩ := (h.runs e o (List.range img.nr) hs).apart (img := img) (img' := img')
    (columns := List.range img.nc) (Or.inr ⟨img.nr, rfl, fun x hx => List.mem_range.1 hx⟩) List.nodup_range
    List.nodup_range (fun w hw => List.mem_range.1 hw) (fun w hw => List.mem_range.1 hw) (h.saturates hfew)
    ⟨hd.nr, hd.nc, fun r hr k hk => by rw [h.most]; exact hd.bright r hr k hk⟩ g2
  rw [hd.nr, hd.nc] at g4
  have : clockCharge img' c.view (.standard [dw] true true true i) (gs.map groupOf) e o (List.range img.nr)
      (List.range img.nc) (some (List.range (img.nr + o))) = .ok (out'', .standard [dw] true true true i) := k1
  rw [g4] at this
  injection this with this
  injection this with this _
  rw [this]
  exact k4 r hr k hk

/-- **C89** for the HST preset: as long as the traps of a date do not outnumber the full well of 84700 electrons. -/
theorem C89_hst (date : ℝ) (hdate : 2452334.5 ≤ date) (hfew : hstTotalDensity date ≤ 84700) (img img' : Image ℝ)
    (hnr : 0 < img.nr) (e o : ℕ) (he : e = 0 ∨ e + 1 ≠ img.nr)
    (hd : DifferAbove (fun r _ => 84700 + hstTotalDensity date * ((r + o + 1 : ℕ) : ℝ)) img img') :
    ∃ traps ccd roe out out', modelForHstAcs date = .ok (traps, ccd, roe) ∧
      addCtiPy img ⟨some ccd, some roe, some (.list (traps.map .trap)), e, o⟩ .all .absent .all none =
        .ok (out, roe, Roe.default) ∧
      addCtiPy img' ⟨some ccd, some roe, some (.list (traps.map .trap)), e, o⟩ .all .absent .all none =
        .ok (out', roe, Roe.default) ∧
      ∀ r < img.nr, ∀ k < img.nc, out'.px r k = out.px r k + (img'.px r k - img.px r k) := by
  obtain ⟨traps, ccd, h, hne, hx⟩ := hst_exact date hdate o
  rw [← hst_count h] at hfew hd
  obtain ⟨out, out', g1, g2, g3⟩ := C89_objects hx hfew img img' hnr e he hd
  exact ⟨traps, ccd, _, out, out', h, (addCtiPy_trap_list img ⟨some ccd, some (.standard [1] true true true false), none, e, o⟩
    traps hne .all .absent .all none).trans g1, (addCtiPy_trap_list img' ⟨some ccd, some (.standard [1] true true true false),
    none, e, o⟩ traps hne .all .absent .all none).trans g2, g3⟩

/-! ### examples -/

/-- The level of the example: 100 electrons fill the pixel, there are 10 traps. -/
example : Saturates exSafe.ccd exSafe.groups 100 :=
  ⟨by norm_num, fun ph _ n hn => by
    change fill100 n = 1
    unfold fill100
    rw [min_eq_left (by linarith), max_eq_right zero_le_one], by decide +kernel⟩

/-- 300 electrons more in a pixel of 500 arrive; the other pixels, with charge and a trail, do not notice. -/
example : ((addCti (exImg 3 1 [[20], [0], [500]]) (some exSafe) 1 .all none .all none).map fun x => x.1.rows) =
      .ok [[81 / 5], [6327 / 4000], [1848873 / 4000]] ∧
    ((addCti (exImg 3 1 [[20], [0], [800]]) (some exSafe) 1 .all none .all none).map fun x => x.1.rows) =
      .ok [[81 / 5], [6327 / 4000], [1848873 / 4000 + 300]] ∧
    DifferAbove (fun r c => 100 + mostChange (some exSafe) none 1 r c) (exImg 3 1 [[20], [0], [500]])
      (exImg 3 1 [[20], [0], [800]]) :=
  ⟨by decide +kernel, by decide +kernel, rfl, rfl, by decide +kernel⟩

/-- Three iterations of `remove_cti` return the 300 electrons, too. -/
example : ((removeCti (exImg 3 1 [[20], [0], [500]]) 3 (some exSafe) 1 .all none .all none).map fun x => x.1.rows) =
      .ok [[1232959 / 50000], [-68818779 / 20000000], [10750208079 / 20000000]] ∧
    ((removeCti (exImg 3 1 [[20], [0], [800]]) 3 (some exSafe) 1 .all none .all none).map fun x => x.1.rows) =
      .ok [[1232959 / 50000], [-68818779 / 20000000], [10750208079 / 20000000 + 300]] :=
  ⟨by decide +kernel, by decide +kernel⟩

/-- **C89** is *false* without the margin: 101 electrons fill the pixel at first, but fewer arrive after each transfer, and
of 100 more not all are found in the result. -/
theorem C89_margin_false :
    ((addCti (exImg 3 1 [[0], [0], [101]]) (some exSafe) 1 .all none .all none).map fun x => x.1.rows) =
      .ok [[0], [0], [66339 / 1000]] ∧
    ((addCti (exImg 3 1 [[0], [0], [201]]) (some exSafe) 1 .all none .all none).map fun x => x.1.rows) =
      .ok [[0], [0], [161]] ∧
    DifferAbove (fun r c => 100) (exImg 3 1 [[0], [0], [101]]) (exImg 3 1 [[0], [0], [201]]) :=
  ⟨by decide +kernel, by decide +kernel, rfl, rfl, by decide +kernel⟩

end Arctic
