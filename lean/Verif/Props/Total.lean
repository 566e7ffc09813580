import Verif.Lemmas.RunCfg
import Verif.Lemmas.AddCti
import Verif.Props.Charge

/-!
# C51 — when `add_cti` raises nothing; C52 — traps that are not emptied between columns
-/

set_option linter.unusedSectionVars false
set_option linter.unusedVariables false

namespace Arctic
open Finset

variable {K : Type} [Field K] [LinearOrder K] [IsStrictOrderedRing K]

/-! ## C51 -/

/-- **C51** for one direction: once the matrices have been computed, the loops raise nothing — whatever the pixel
values (negative ones and too large ones included), the number of groups, steps, phases and species, as long as capture
is instant (for finite capture times see C62). The only
exception possible with continuum traps is a `TypeError`. -/
theorem C51_clock (img : Image K) (ccd : CcdView K) (roe : Roe K) (groups : List (Group K)) (e o : ℕ)
    (rows columns : List ℕ) (tw : Option (List ℕ)) (hm : ∃ x, clockCfg roe ccd e o rows tw = .ok x)
    (hk : NoSaves roe ∨ roe.isPumping = true ∨ (e = 0 ∧ FullReadout o rows tw roe)) (hb : roe.emptyBetween = true)
    (hr : RowsFound rows roe) (hrows : ∀ w ∈ rows, w < img.nr) (hcols : ∀ c ∈ columns, c < img.nc)
    (hlow : ∀ w ∈ rows, ∀ z ∈ roe.accessed, 0 ≤ (w : ℤ) + z)
    (hlen : ccd.fractions.length ≤ roe.nPhases) (hfr : ∀ x ∈ ccd.fractions, 0 ≤ x)
    (hfill : ∀ ph < ccd.fractions.length, FillModel (ccd.fill ph))
    (hg : ∀ g ∈ groups, (∀ j, 0 ≤ g.dens j) ∧ g.kind.Ok (0 < ·)) :
    (∃ out roe', clockCharge img ccd roe groups e o rows columns tw = .ok (out, roe')) ∨
      (∃ g ∈ groups, g.kind.isTrack) ∧ clockCharge img ccd roe groups e o rows columns tw = .error .typeError := by
  obtain ⟨⟨cfg, roe'⟩, hcfg⟩ := hm
  obtain ⟨N, pos, h1, h2⟩ := schedule_of hcfg hk
  have h3 := runCfg_of hcfg hfill hlen hr img.nr hrows hlow
  have h4 : cfg.emptyBetween = true := (clockCfg_fields hcfg).2.2.2.2.2.2.2.trans hb
  have h5 := okState_loops (tr := ∃ g ∈ groups, g.kind.isTrack) (C := img.nc) h3 h1 h4 columns hcols
    (img.pad (nPadding roe.accessed), ATM.new groups ccd.fractions (maxNTransfers roe cfg)) (by
      have h6 := dataOk_new (tr := ∃ g ∈ groups, g.kind.isTrack) (M := N * cfg.steps.length) groups ccd.fractions hfr
        fun g hgm => ⟨(hg g hgm).1, (hg g hgm).2, fun ht => ⟨g, hgm, ht⟩⟩
      rw [h2]
      refine ⟨rfl, rfl, h6, ?_⟩
      simp only [(fresh_new groups ccd.fractions (N * cfg.steps.length)).2.1]
      exact h6)
  unfold clockCharge
  rw [hcfg]
  simp only [bind, Except.bind]
  cases hc : clockLoops (atmSys ccd.fill) cfg columns
    (img.pad (nPadding roe.accessed), ATM.new groups ccd.fractions (maxNTransfers roe cfg)) with
  | error er =>
    obtain ⟨q1, rfl⟩ := h5.err hc
    exact Or.inr ⟨q1, rfl⟩
  | ok v => exact Or.inl ⟨_, _, rfl⟩

/-- Hypotheses on one direction of `add_cti` for a row window: a standard readout with forced release and emptied
traps (first transfers and columns), as many steps as phases, non-negative densities and fractions. -/
structure RunsDirection (rows : List ℕ) (d : Direction K) : Prop where
  roe : ∃ dw i, d.roe = .standard dw true true true i ∧ d.ccd.fractions.length ≤ dw.length
  fractions : ∀ x ∈ d.ccd.fractions, 0 ≤ x
  fill : ∀ ph < d.ccd.fractions.length, FillModel (d.ccd.fill ph)
  groups : ∀ g ∈ d.groups, (∀ j, 0 ≤ g.dens j) ∧ g.kind.Ok (0 < ·)
  express : ¬ ShortMatrix true rows d.express

theorem standard_cfg (dw : List K) (i : Bool) (ccd : CcdView K) (e o : ℕ) (rows : List ℕ) (tw : Option (List ℕ))
    (hne : rows ≠ []) (hs : ¬ ShortMatrix true rows e) (ht : ∀ t ∈ tw, t ≠ []) :
    ∃ x, clockCfg (.standard dw true true true i) ccd e o rows tw = .ok x := by
  cases ha : rows.max? with
  | none => exact absurd (List.max?_eq_none_iff.1 ha) hne
  | some a =>
    unfold clockCfg
    simp only [Roe.express]
    rw [roeExpress_eq true i rows e o tw a ha hs]
    have : ∃ m, restrictTimeSpan (expressFull (K := K) true i (a + 1) e o) tw = .ok m := by
      cases tw with
      | none => exact ⟨_, rfl⟩
      | some t =>
        have := ht t rfl
        obtain ⟨x, l, rfl⟩ := List.exists_cons_of_ne_nil this
        simp only [restrictTimeSpan, List.head?_cons]
        cases hl : (x :: l).getLast? with
        | none => exact absurd (List.getLast?_eq_none_iff.1 hl) (by simp)
        | some y => exact ⟨_, rfl⟩
    obtain ⟨m, hm⟩ := this
    rw [hm]
    exact ⟨_, rfl⟩

theorem RunsDirection.run {rows : List ℕ} {d : Direction K} (h : RunsDirection rows d) (img : Image K) (o : ℕ)
    (columns : List ℕ) (tw : Option (List ℕ)) (hne : rows ≠ []) (ht : ∀ t ∈ tw, t ≠ [])
    (hrows : ∀ w ∈ rows, w < img.nr) (hcols : ∀ c ∈ columns, c < img.nc) :
    (∃ out roe', clockCharge img d.ccd d.roe d.groups d.express o rows columns tw = .ok (out, roe')) ∨
      (∃ g ∈ d.groups, g.kind.isTrack) ∧
        clockCharge img d.ccd d.roe d.groups d.express o rows columns tw = .error .typeError := by
  obtain ⟨⟨dw, i, hroe, hlen⟩, h2, h3, h4, h5⟩ := h
  rw [hroe]
  refine C51_clock img d.ccd _ d.groups d.express o rows columns tw ?_ (Or.inl rfl) rfl trivial hrows hcols ?_ hlen h2
    h3 h4
  · exact standard_cfg dw i d.ccd d.express o rows tw hne h5 ht
  · intro w _ z hz
    have := (C14_accessed (.standard dw true true true i) z hz).1 rfl
    omega

/-- **C51**: `add_cti` with standard readouts in either or both directions raises nothing for any image, any values,
any traps with instant capture, any offsets and any express value other than the last row of the window (see C02). With continuum traps the
only exception possible is the `TypeError` of the failed division for too few electrons. -/
theorem C51_add_cti (img : Image K) (par ser : Option (Direction K)) (o : ℕ) (pw sw : Window)
    (hp : ∀ d ∈ par, RunsDirection (pw.resolve img.nr) d) (hs : ∀ d ∈ ser, RunsDirection (sw.resolve img.nc) d)
    (hpw : pw.resolve img.nr ≠ []) (hsw : sw.resolve img.nc ≠ [])
    (hpr : ∀ w ∈ pw.resolve img.nr, w < img.nr) (hsr : ∀ w ∈ sw.resolve img.nc, w < img.nc) :
    (∃ out par' ser', addCti img par o pw ser sw none = .ok (out, par', ser')) ∨
      (∃ d, (d ∈ par ∨ d ∈ ser) ∧ ∃ g ∈ d.groups, g.kind.isTrack) ∧
        addCti img par o pw ser sw none = .error .typeError := by
  have hnr : 0 < img.nr := by
    obtain ⟨x, l, hx⟩ := List.exists_cons_of_ne_nil hpw
    have := hpr x (by rw [hx]; exact List.mem_cons_self)
    omega
  have hser : ∀ (d : Direction K) (mid : Image K), d ∈ ser → mid.nr = img.nr → mid.nc = img.nc → _ :=
    fun d mid hd h1 h2 => (hs d hd).run mid.transpose d.offset (pw.resolve img.nr) none hsw (fun t ht => by cases ht)
      (fun w hw => by change w < mid.nc; rw [h2]; exact hsr w hw)
      (fun w hw => by change w < mid.nr; rw [h1]; exact hpr w hw)
  unfold addCti
  simp only [bind, Except.bind, Option.getD_none]
  cases par with
  | none =>
    cases ser with
    | none => exact Or.inl ⟨_, _, _, rfl⟩
    | some d =>
      simp only
      rcases hser d img rfl rfl rfl with ⟨out, roe', q⟩ | ⟨q1, q2⟩
      · rw [q]; exact Or.inl ⟨_, _, _, rfl⟩
      · rw [q2]; exact Or.inr ⟨⟨d, Or.inr rfl, q1⟩, rfl⟩
  | some d =>
    simp only
    rcases (hp d rfl).run img o (sw.resolve img.nc) (some (List.range (img.nr + o))) hpw
      (fun t ht => by cases ht; intro h; rw [List.range_eq_nil] at h; omega) hpr hsr with ⟨out, roe', q⟩ | ⟨q1, q2⟩
    · rw [q]
      simp only
      have hsh := clockCharge_shape q
      cases ser with
      | none => exact Or.inl ⟨_, _, _, rfl⟩
      | some d' =>
        simp only
        rcases hser d' out rfl hsh.1 hsh.2 with ⟨out, roe', q⟩ | ⟨q1, q2⟩
        · rw [q]; exact Or.inl ⟨_, _, _, rfl⟩
        · rw [q2]; exact Or.inr ⟨⟨d', Or.inr rfl, q1⟩, rfl⟩
    · rw [q2]
      exact Or.inr ⟨⟨d, Or.inl rfl, q1⟩, rfl⟩

/-- The hypotheses of `C51_add_cti` hold for the example direction, with negative pixels. -/
example : RunsDirection (Window.all.resolve 3) exSafe :=
  ⟨⟨_, _, rfl, by decide⟩, goodFill_exCcd.1, fun ph h => (goodFill_exCcd.2 ph h).1, by
    intro g hg
    rcases List.mem_singleton.1 hg with rfl
    exact ⟨fun _ => by change (0 : ℚ) ≤ 10; norm_num, fun _ _ _ => by norm_num⟩, by
    rintro ⟨-, h, -⟩; exact h rfl⟩

/-- **C51** is *false* for traps with finite capture time if there are many of them: two rows of the watermark array are
reserved per transfer, three can be needed (see C19), and reading out this column accesses memory behind the array. -/
theorem C51_slow_false :
    (match addCti (exImg 5 1 [[30], [20], [1], [2], [10]])
      (some ⟨exCcd, .standard [1] true true true false, [⟨1, fun _ => 1000, .slow fun _ => slowProbs⟩], 0, 0⟩) 0 .all
      none .all none with
    | .error e => some e
    | .ok _ => none) = some .outOfBounds := by decide +kernel

/-- **C51** is *false* for charge injection with a window that does not start at row 0: the matrix has a column for
every row up to the last one of the window, and looking these up in the window is an `IndexError`. No such call ever
completes. -/
theorem C51_injection_false (img : Image K) (ccd : CcdView K) (dwell : List K) (n : Option ℕ) (eb f i : Bool)
    (groups : List (Group K)) (e o : ℕ) (rows columns : List ℕ) (tw : Option (List ℕ))
    (hrows : ∃ x ∈ rows, rows.length ≤ x) (hcol : columns ≠ []) (hstep : ∃ s < dwell.length, 0 < dwell.getD s 0)
    (hphase : ∃ p < ccd.fractions.length, 0 < ccd.fractions.getD p 0) (r : Image K × Roe K) :
    clockCharge img ccd (.injection dwell n eb f i) groups e o rows columns tw ≠ .ok r := by
  intro h
  obtain ⟨cfg, st, h1, h2, -⟩ := clockCharge_ok (out := r.1) (roe' := r.2) h
  obtain ⟨f1, f2, f3, f4, f5, f6, f7, f8⟩ := clockCfg_fields h1
  simp only [Roe.express] at f1
  obtain ⟨⟨⟨m, mon⟩, n'⟩, g1, g2⟩ := bind_eq_ok f1
  injection g2 with g2
  injection g2 with g3 g4
  injection g4 with g4 _
  obtain ⟨x, hx, hxl⟩ := hrows
  have hmat : 0 < m.nr ∧ rows.length < mon.nc ∧ mon.e 0 rows.length = true := by
    unfold injectionExpress nPixelsOfWindow at g1
    cases hw : rows.max? with
    | none => rw [hw] at g1; cases g1
    | some a =>
      rw [hw] at g1
      simp only [bind, Except.bind] at g1
      split at g1
      · cases g1
      · rename_i hE
        split at g1
        · cases g1
        · split at g1
          · cases g1
          · rename_i q hq
            injection g1 with g1
            injection g1 with g1 _
            injection g1 with g1 g5
            have hxa : x ≤ a := (List.max?_eq_some_iff.1 hw).2 x hx
            have hn : 0 < n.getD (a + 1 + o) := by
              by_contra hc
              have h0 : n.getD (a + 1 + o) = 0 := by omega
              rw [h0] at hE
              apply hE
              unfold effectiveExpress
              split <;> omega
            have hE' : 0 < effectiveExpress e (n.getD (a + 1 + o)) := Nat.pos_of_ne_zero hE
            subst g1 g5
            refine ⟨?_, by simp only; omega, ?_⟩
            · rw [(restrictTimeSpan_shape hq).1]; exact hE'
            · simp only [decide_eq_true_eq]
              exact div_pos (by exact_mod_cast hn) (by exact_mod_cast hE')
  obtain ⟨m1, m2, m3⟩ := hmat
  have hjm : rows.length ∈ monitoredRows cfg 0 := mem_monitoredRows.2 (by rw [← g4]; exact ⟨m2, m3⟩)
  obtain ⟨c, cs, rfl⟩ := List.exists_cons_of_ne_nil hcol
  unfold clockLoops at h2
  obtain ⟨s1, s2, q1⟩ := foldlM_ok_mem h2 c List.mem_cons_self
  unfold columnBody at q1
  obtain ⟨s3, q2, -⟩ := bind_eq_ok q1
  obtain ⟨s4, s5, q3⟩ := foldlM_ok_mem q2 0 (List.mem_range.2 (by rw [← g3]; exact m1))
  unfold expressBody at q3
  obtain ⟨s6, s7, q4⟩ := foldlM_ok_mem q3 _ hjm
  unfold rowBody at q4
  obtain ⟨s8, q5, -⟩ := bind_eq_ok q4
  obtain ⟨step, hs1, hs2⟩ := hstep
  obtain ⟨s9, s10, q6⟩ := foldlM_ok_mem q5 step (by rw [f5]; exact mem_positiveIndices.2 ⟨hs1, hs2⟩)
  unfold stepBody at q6
  obtain ⟨p, hp1, hp2⟩ := hphase
  obtain ⟨s11, s12, q7⟩ := foldlM_ok_mem q6 p (by rw [f6]; exact mem_positiveIndices.2 ⟨hp1, hp2⟩)
  unfold phaseBody at q7
  split at q7
  · rename_i ph row0 dw e1 e2 e3
    rw [f7, List.getElem?_eq_none le_rfl] at e2
    cases e2
  · cases q7

/-- Row 1 of a two-row image, charge injection. -/
example : ((addCti (exImg 2 1 [[80], [40]]) (some ⟨exCcd, .injection [1] none true true false, [exGroup], 0, 0⟩) 0
    (.range [1]) none .all none).map fun x => x.1.rows) = .error .indexError := by decide +kernel

/-! ## C52 -/

/-- **C52** is *false*: with `empty_traps_between_columns = False` more electrons vanish than there are traps. One row
of six columns; every column's electrons are followed into the same ten traps, whose watermark array has room for the
transfers of one column only. From the third column on the array is full; the position of the first unused row is then
taken to be 0, and the trapped electrons are overwritten as if the traps were empty. -/
theorem C52_full_array_false :
    ((addCti (exImg 1 6 [[90, 80, 70, 60, 50, 40]]) (some ⟨exCcd, .standard [1] true false true false, [exGroup], 0, 0⟩)
      0 .all none .all none).map fun x => x.1.rows) =
      .ok [[81, 3211 / 40, 2509 / 40, 2149 / 40, 1789 / 40, 1429 / 40]] ∧
    (81 + 3211 / 40 + 2509 / 40 + 2149 / 40 + 1789 / 40 + 1429 / 40 + 10 : ℚ) < 90 + 80 + 70 + 60 + 50 + 40 := by
  decide +kernel

end Arctic
