import Verif.Lemmas.Windows
import Verif.Props.ClockMore
import Verif.Props.Express
import Verif.Props.Readout

/-!
# C75: negative window indices

numpy and Python count a negative index from the end.  The clocking code does so when it selects the columns of the
express matrix, but not when it accesses the image.
-/

set_option linter.unusedSectionVars false
set_option linter.unusedVariables false

namespace Arctic
open Win

section
variable {K : Type} [Field K] [LinearOrder K] [IsStrictOrderedRing K] {S : Type}

/-- For windows of natural numbers the model with arbitrary numbers is the model of `Verif.Model.Main`. -/
theorem C75_natural [FloorRing K] (img : Image K) (par ser : Option (Direction K)) (o : ℕ) (pw sw : Window)
    (tw : Option (List ℕ)) :
    Win.addCti img par o (ZWindow.ofNat pw) ser (ZWindow.ofNat sw) (tw.map (nums K)) =
      Arctic.addCti img par o pw ser sw tw := by
  unfold Win.addCti Arctic.addCti
  simp only [resolve_ofNat]
  have e1 : (tw.map (nums K)).getD ((List.range (img.nr + o)).map fun (i : ℕ) => (i : K)) =
      nums K (tw.getD (List.range (img.nr + o))) := by cases tw <;> rfl
  have e2 : ∀ (i : Image K) (d : Direction K), Win.clockCharge i d.ccd d.roe d.groups d.express o
      (ints (pw.resolve img.nr)) (ints (sw.resolve img.nc)) (some (nums K (tw.getD (List.range (img.nr + o))))) =
      Arctic.clockCharge i d.ccd d.roe d.groups d.express o (pw.resolve img.nr) (sw.resolve img.nc)
        (some (tw.getD (List.range (img.nr + o)))) := fun i d =>
    clockCharge_ints i d.ccd d.roe d.groups d.express o _ _ (some (tw.getD (List.range (img.nr + o))))
  have e3 : ∀ (i : Image K) (d : Direction K) (l : List ℕ), Win.clockCharge i d.ccd d.roe d.groups d.express d.offset
      (ints (sw.resolve img.nc)) (ints l) none =
      Arctic.clockCharge i d.ccd d.roe d.groups d.express d.offset (sw.resolve img.nc) l none := fun i d l =>
    clockCharge_ints i d.ccd d.roe d.groups d.express d.offset _ l none
  simp only [e1, e2]
  cases tw with
  | none =>
    simp only [Option.map_none, bind, Except.bind, e3]
    cases par <;> cases ser <;> rfl
  | some l =>
    simp only [Option.map_some, bind, Except.bind]
    rw [serialColumns_ints]
    cases Arctic.serialColumns (pw.resolve img.nr) l o with
    | error x => rfl
    | ok cols =>
      simp only [Except.map, e3]
      cases par <;> cases ser <;> rfl

/-! ## Windows that lie entirely below zero -/

/-- What a call with the negative row `a` as the last row of its window raises: there are `a + 1 + offset` transfers
to compute. -/
def negativeRowErr (a : ℤ) (offset : ℕ) : Err :=
  if a + 1 + offset < 0 then .valueError else if a + 1 + offset = 0 then .zeroDivisionError else .indexError

theorem roeExpress_negative (ef i : Bool) (w : List ℤ) (e o : ℕ) (tw : Option (List K)) (a : ℤ) (hw : w.max? = some a)
    (ha : a < 0) : Win.roeExpress (K := K) ef i w e o tw = .error (negativeRowErr a o) := by
  unfold Win.roeExpress negativeRowErr
  rw [hw]
  unfold Win.expressFull
  simp only
  by_cases h1 : a + 1 + (o : ℤ) < 0
  · rw [if_pos h1, if_pos h1]; rfl
  rw [if_neg h1, if_neg h1]
  by_cases h2 : a + 1 + (o : ℤ) = 0
  · rw [if_pos h2, if_pos h2]; rfl
  rw [if_neg h2, if_neg h2]
  have hmem : a ∈ w := List.max?_mem hw
  have hsel : ∀ (m : Mat Bool), m.nc ≤ o → Win.selectCols (dropCols m o) w = .error .indexError := by
    intro m hm
    unfold Win.selectCols
    rw [if_neg]
    rw [List.all_eq_true]
    intro hall
    have := hall a hmem
    unfold npIndex dropCols at this
    simp only at this
    rw [if_neg (by omega), if_neg (by omega)] at this
    cases this
  by_cases h3 : a + 1 < 0
  · rw [if_pos h3]
    simp only [bind, Except.bind]
    rw [hsel _ (by simp only [expressBase]; omega)]
  · rw [if_neg h3]
    have : a + 1 = 0 := by omega
    simp only [bind, Except.bind, this, Int.toNat_zero]
    rw [hsel]
    have hx := expressFull_cases (K := K) ef i 0 e o
    rcases hx with ⟨-, h⟩ | ⟨-, h, -⟩ | ⟨-, h, -⟩
    · rw [h]; simp [expressBase]
    · omega
    · omega

/-- **C75**, part 1. A row window with negative entries only always raises, before any memory is accessed — it does not
mean the last rows.  Which exception it is depends on the offset. -/
theorem C75_all_negative (img : Image K) (ccd : CcdView K) (dw : List K) (ef eb f i : Bool)
    (groups : List (Arctic.Group K)) (e o : ℕ) (rows columns : List ℤ) (tw : Option (List K)) (a : ℤ)
    (hr : rows.max? = some a) (ha : a < 0) :
    Win.clockCharge img ccd (.standard dw ef eb f i) groups e o rows columns tw = .error (negativeRowErr a o) := by
  unfold Win.clockCharge Win.clockCfg Win.express
  simp only [bind, Except.bind]
  rw [roeExpress_negative ef i rows e o tw a hr ha]

/-- The same for `add_cti`: `parallel_window_range = k` with a negative `k`. -/
theorem C75_negative_pixel [FloorRing K] (img : Image K) (d : Direction K) (dw : List K) (ef eb f i : Bool)
    (hd : d.roe = .standard dw ef eb f i) (o : ℕ) (ser : Option (Direction K)) (sw : ZWindow) (k : ℤ) (hk : k < 0) :
    Win.addCti img (some d) o (.pixel k) ser sw none = .error (negativeRowErr k o) := by
  unfold Win.addCti
  simp only [bind, Except.bind, ZWindow.resolve]
  rw [hd, C75_all_negative img d.ccd dw ef eb f i d.groups d.express o [k] _ _ k rfl hk]

/-! ## Windows that reach below zero, negative columns, and trap pumping -/

theorem win_reach {sys : TrapSys K S} {cfg : ClockCfg K} {rows columns : List ℤ} {st st' : Image K × S}
    (h : Win.clockLoops sys cfg rows columns st = .ok st') {c : ℤ} (hc : c ∈ columns) {k : ℕ} (hk : k < cfg.expr.nr)
    {j : ℕ} (hj : j ∈ monitoredRows cfg k) {step : ℕ} (hs : step ∈ cfg.steps) {phase : ℕ} (hp : phase ∈ cfg.phases) :
    ∃ s1 s2, Win.phaseBody sys cfg rows c j (cfg.expr.e k j) step s1 phase = .ok s2 := by
  unfold Win.clockLoops at h
  obtain ⟨s1, s2, q1⟩ := foldlM_ok_mem h c hc
  unfold Win.columnBody at q1
  obtain ⟨s3, q2, -⟩ := bind_eq_ok q1
  obtain ⟨s4, s5, q3⟩ := foldlM_ok_mem q2 k (List.mem_range.2 hk)
  unfold Win.expressBody at q3
  obtain ⟨s6, s7, q4⟩ := foldlM_ok_mem q3 j hj
  unfold Win.rowBody at q4
  obtain ⟨s8, q5, -⟩ := bind_eq_ok q4
  obtain ⟨s9, s10, q6⟩ := foldlM_ok_mem q5 step hs
  unfold Win.stepBody at q6
  exact foldlM_ok_mem q6 phase hp

theorem win_errors {E : Err → Prop} {sys : TrapSys K S} {cfg : ClockCfg K} {rows columns : List ℤ}
    (h : ∀ c ∈ columns, ∀ k < cfg.expr.nr, ∀ j ∈ monitoredRows cfg k, ∀ step ∈ cfg.steps, ∀ phase ∈ cfg.phases, ∀ st,
      Sat E (fun _ => True) (Win.phaseBody sys cfg rows c j (cfg.expr.e k j) step st phase)) (st : Image K × S) :
    Sat E (fun _ => True) (Win.clockLoops sys cfg rows columns st) := by
  unfold Win.clockLoops
  refine Sat.fold' _ _ _ (fun c hc st _ => ?_) st trivial
  unfold Win.columnBody
  refine Sat.bind (Q := fun _ => True) (Sat.fold' _ _ _ (fun k hk st _ => ?_) st trivial) fun _ _ => trivial
  unfold Win.expressBody
  refine Sat.fold' _ _ _ (fun j hj st _ => ?_) _ trivial
  unfold Win.rowBody
  refine Sat.bind (Q := fun _ => True) (Sat.fold' _ _ _ (fun step hs st _ => ?_) st trivial) fun _ _ => trivial
  unfold Win.stepBody
  exact Sat.fold' _ _ _ (fun phase hp st _ => h c hc k (List.mem_range.1 hk) j hj step hs phase hp st) st trivial

theorem win_read_sat (img : Image K) (r c : ℤ) : Sat (· = Err.outOfBounds) (fun _ => True) (Win.read img r c) := by
  unfold Win.read Image.read
  split
  · split
    · trivial
    · rfl
  · rfl

theorem win_writeAll_sat (img : Image K) (r c : ℤ) (net mult : K) (l : List (ℤ × K)) :
    Sat (· = Err.outOfBounds) (fun _ => True) (Win.writeAll img r c net mult l) := by
  induction l generalizing img with
  | nil => trivial
  | cons x l ih =>
    obtain ⟨off, frac⟩ := x
    unfold Win.writeAll Win.writeBack
    exact Sat.bind (Q := fun _ => True) (Sat.bind (Q := fun _ => True) (win_read_sat _ _ _) fun _ _ => trivial)
      fun img' _ => ih img'

theorem clockSequence_get (roe : Roe K) (step phase : ℕ) (hs : step < roe.nSteps) (hp : phase < roe.nPhases) :
    (roe.clockSequence[step]?.bind fun l => l[phase]?) = some (genPhase roe.nPhases roe.force step phase) := by
  unfold Roe.clockSequence genClockSequence
  rw [List.getElem?_map, List.getElem?_range hs]
  simp only [Option.map_some, Option.bind_some]
  rw [List.getElem?_map, List.getElem?_range hp]
  rfl

/-- Trap systems whose computation never raises: whatever goes wrong then is an access to the image. -/
def NeverRaises (sys : TrapSys K S) : Prop := ∀ s ph n t, ∃ r, sys.react s ph n t = .ok r

theorem win_out_of_bounds {sys : TrapSys K S} (hsys : NeverRaises sys) {roe roe' : Roe K} {ccd : CcdView K} {e o : ℕ}
    {rows columns : List ℤ} {tw : Option (List K)} {cfg : ClockCfg K}
    (hcfg : Win.clockCfg roe ccd e o rows tw = .ok (cfg, roe')) (hlen : cfg.monitor.nc ≤ rows.length)
    (hfr : ∀ p, 0 < ccd.fractions.getD p 0 → p < roe.nPhases) (st : Image K × S)
    (hno : ∀ st', Win.clockLoops sys cfg rows columns st ≠ .ok st') :
    Win.clockLoops sys cfg rows columns st = .error .outOfBounds := by
  have hf : cfg.clockSeq = roe.clockSequence ∧ cfg.dwell = roe.dwell ∧ cfg.steps = positiveIndices roe.dwell ∧
      cfg.phases = positiveIndices ccd.fractions := by
    unfold Win.clockCfg at hcfg
    obtain ⟨⟨m, mon, r1⟩, h1, h⟩ := bind_eq_ok hcfg
    simp only at h
    obtain ⟨sv, h2, h⟩ := bind_eq_ok h
    injection h with h
    injection h with h _
    subst h
    exact ⟨rfl, rfl, rfl, rfl⟩
  obtain ⟨f1, f2, f3, f4⟩ := hf
  have key : Sat (· = Err.outOfBounds) (fun _ => True) (Win.clockLoops sys cfg rows columns st) := by
    refine win_errors (fun c _ k _ j hj step hs phase hp st => ?_) st
    rw [f3, mem_positiveIndices] at hs
    rw [f4, mem_positiveIndices] at hp
    have g1 := clockSequence_get roe step phase hs.1 (hfr phase hp.2)
    have hjl : j < rows.length := by
      unfold monitoredRows at hj
      rw [List.mem_filter, List.mem_range] at hj
      omega
    unfold Win.phaseBody
    rw [f1, f2, g1, List.getElem?_eq_getElem hjl, List.getElem?_eq_getElem hs.1]
    simp only
    refine Sat.bind (Q := fun _ => True) (win_read_sat _ _ _) fun v _ => ?_
    obtain ⟨r, hr⟩ := hsys st.2 phase (v * if (genPhase (K := K) roe.nPhases roe.force step phase).isHigh = true then 1 else 0)
      roe.dwell[step]
    rw [hr]
    obtain ⟨net, s⟩ := r
    change Sat _ _ (if _ then _ else _)
    split
    · trivial
    · exact Sat.bind (Q := fun _ => True) (win_writeAll_sat _ _ _ _ _ _) fun _ _ => trivial
  cases hx : Win.clockLoops sys cfg rows columns st with
  | ok st' => exact absurd hx (hno st')
  | error x => rw [key.err hx]

theorem win_selectCols_ok {α : Type} {m m' : Mat α} {w : List ℤ} (h : Win.selectCols m w = .ok m') :
    (∀ i ∈ w, (npIndex m.nc i).isSome) ∧
      m' = ⟨m.nr, w.length, fun i j => m.e i ((npIndex m.nc (w.getD j 0)).getD 0)⟩ := by
  unfold Win.selectCols at h
  split at h
  · rename_i hw
    injection h with h
    exact ⟨List.all_eq_true.1 hw, h.symm⟩
  · cases h

theorem win_restrict_shape {m r : Mat K} {tw : Option (List K)} (h : Win.restrictTimeSpan m tw = .ok r) :
    r.nr = m.nr ∧ r.nc = m.nc := by
  cases tw with
  | none => simp only [Win.restrictTimeSpan] at h; injection h with h; subst h; exact ⟨rfl, rfl⟩
  | some l =>
    simp only [Win.restrictTimeSpan] at h
    split at h
    · injection h with h; subst h; exact ⟨rfl, rfl⟩
    · cases h

/-- A matrix is only found when the largest row is not negative; every row of the window, also one that is counted from
the end, is then monitored in some pass. -/
theorem win_monitored {ef i : Bool} {w : List ℤ} {e o : ℕ} {tw : Option (List K)} {m : Mat K} {mon : Mat Bool}
    (h : Win.roeExpress (K := K) ef i w e o tw = .ok (m, mon)) :
    mon.nc = w.length ∧ ∀ j < w.length, ∃ k < m.nr, mon.e k j = true := by
  cases hw : w.max? with
  | none => unfold Win.roeExpress at h; rw [hw] at h; cases h
  | some a =>
    have ha : 0 ≤ a := by
      by_contra hc
      rw [roeExpress_negative ef i w e o tw a hw (by omega)] at h
      cases h
    obtain ⟨n, rfl⟩ := Int.eq_ofNat_of_zero_le ha
    have hx := expressFull_nat (K := K) ef i (n + 1) e o (by omega)
    push_cast at hx
    unfold Win.roeExpress at h
    rw [hw] at h
    simp only at h
    rw [hx] at h
    obtain ⟨full, h0, h⟩ := bind_eq_ok h
    injection h0 with h0
    subst h0
    obtain ⟨mon', h1, h⟩ := bind_eq_ok h
    obtain ⟨full', h2, h⟩ := bind_eq_ok h
    obtain ⟨m', h3, h⟩ := bind_eq_ok h
    injection h with h
    injection h with h4 h5
    subst h4 h5
    obtain ⟨g1, g2⟩ := win_selectCols_ok h1
    obtain ⟨-, g3⟩ := win_selectCols_ok h3
    have hshape := win_restrict_shape h2
    -- the matrix is not too short: the last pixel has a column
    have hlast := g1 _ (List.max?_mem hw)
    have hnc : n < (expressFull (K := K) ef i (n + 1) e o).nc - o := by
      rw [show (dropCols (⟨(expressFull (K := K) ef i (n + 1) e o).nr, (expressFull (K := K) ef i (n + 1) e o).nc,
        fun i_1 j => decide ((expressFull (K := K) ef i (n + 1) e o).e i_1 j > 0)⟩ : Mat Bool) o).nc =
        (expressFull (K := K) ef i (n + 1) e o).nc - o from rfl, npIndex_nat] at hlast
      by_contra hc
      rw [if_neg hc] at hlast
      cases hlast
    have hs : ¬ (ef = true ∧ effectiveExpress e (n + 1 + o) + 1 = n + 1) := by
      intro hs
      rw [expressFull_nc ef i (n + 1) e o (by omega), if_pos hs] at hnc
      omega
    rw [g2]
    refine ⟨rfl, fun j hj => ?_⟩
    simp only
    generalize hq : (npIndex (dropCols (⟨(expressFull (K := K) ef i (n + 1) e o).nr,
      (expressFull (K := K) ef i (n + 1) e o).nc,
      fun i_1 j => decide ((expressFull (K := K) ef i (n + 1) e o).e i_1 j > 0)⟩ : Mat Bool) o).nc (w.getD j 0)) = q
    have hsome : q.isSome := by
      rw [← hq, List.getD_eq_getElem _ _ hj]
      exact g1 _ (List.getElem_mem hj)
    obtain ⟨p, rfl⟩ := Option.isSome_iff_exists.1 hsome
    have hp : p < (expressFull (K := K) ef i (n + 1) e o).nc - o := by
      change npIndex ((expressFull (K := K) ef i (n + 1) e o).nc - o) _ = _ at hq
      unfold npIndex at hq
      split at hq
      · injection hq with hq; omega
      · split at hq
        · injection hq with hq; omega
        · cases hq
    rw [expressFull_nc ef i (n + 1) e o (by omega), if_neg hs] at hp
    have hsum := sum_expressFull (K := K) ef i (n + 1) e o (p + o) (by omega) (by omega) hs
    obtain ⟨k, hk, hpos⟩ : ∃ k ∈ Finset.range (expressFull (K := K) ef i (n + 1) e o).nr,
        0 < (expressFull (K := K) ef i (n + 1) e o).e k (p + o) := by
      by_contra hcon
      have hle : ∀ k ∈ Finset.range (expressFull (K := K) ef i (n + 1) e o).nr,
          (expressFull (K := K) ef i (n + 1) e o).e k (p + o) ≤ 0 := by
        intro k hk
        by_contra hlt
        exact hcon ⟨k, hk, not_le.1 hlt⟩
      have := Finset.sum_nonpos hle
      rw [hsum] at this
      have : (0 : K) < ((p + o : ℕ) : K) + 1 := by positivity
      linarith
    refine ⟨k, ?_, ?_⟩
    · rw [g3]
      change k < full'.nr
      rw [hshape.1]
      exact Finset.mem_range.1 hk
    · change decide (_ > 0) = true
      rw [decide_eq_true_eq]
      exact hpos

theorem win_clockCfg_fields {roe roe' : Roe K} {ccd : CcdView K} {e o : ℕ} {rows : List ℤ} {tw : Option (List K)}
    {cfg : ClockCfg K} (h : Win.clockCfg roe ccd e o rows tw = .ok (cfg, roe')) :
    Win.express roe rows e o tw = .ok (cfg.expr, cfg.monitor, roe') ∧
    cfg.clockSeq = roe.clockSequence ∧ cfg.dwell = roe.dwell ∧ cfg.steps = positiveIndices roe.dwell ∧
      cfg.phases = positiveIndices ccd.fractions := by
  unfold Win.clockCfg at h
  obtain ⟨⟨m, mon, r1⟩, h1, h⟩ := bind_eq_ok h
  simp only at h
  obtain ⟨sv, h2, h⟩ := bind_eq_ok h
  injection h with h
  injection h with h h'
  subst h h'
  exact ⟨h1, rfl, rfl, rfl, rfl⟩

theorem getD_pos_lt {l : List K} {p : ℕ} (h : 0 < l.getD p 0) : p < l.length := by
  by_contra hc
  rw [List.getD_eq_default _ _ (by omega)] at h
  exact lt_irrefl _ h

/-- A phase in which there are traps and in which time is spent while its potential is high. -/
def ActivePhase (dw : List K) (ccd : CcdView K) (p : ℕ) : Prop := 0 < dw.getD p 0 ∧ 0 < ccd.fractions.getD p 0

/-- No call of the loops reaches the end if the window contains a negative row or a negative column. -/
theorem win_standard_not_ok (sys : TrapSys K S) (ccd : CcdView K) (dw : List K) (ef eb f i : Bool) (e o : ℕ)
    (rows columns : List ℤ) (tw : Option (List K)) (cfg : ClockCfg K) (roe' : Roe K)
    (hcfg : Win.clockCfg (.standard dw ef eb f i) ccd e o rows tw = .ok (cfg, roe')) (p : ℕ)
    (hp : ActivePhase dw ccd p) (j : ℕ) (hj : j < rows.length) (c : ℤ) (hc : c ∈ columns) (hneg : rows[j] < 0 ∨ c < 0)
    (st st' : Image K × S) : Win.clockLoops sys cfg rows columns st ≠ .ok st' := by
  intro h
  obtain ⟨f1, f2, f3, f4, f5⟩ := win_clockCfg_fields hcfg
  simp only [Win.express] at f1
  obtain ⟨⟨m, mon⟩, g1, g2⟩ := bind_eq_ok f1
  injection g2 with g2
  injection g2 with g3 g4
  injection g4 with g4 _
  obtain ⟨hnc, hmon⟩ := win_monitored g1
  obtain ⟨k, hk, hkj⟩ := hmon j hj
  have hpl := getD_pos_lt hp.1
  obtain ⟨s1, s2, q⟩ := win_reach h hc (k := k) (j := j) (step := p) (phase := p) (by rw [← g3]; exact hk)
    (by unfold monitoredRows; rw [List.mem_filter, List.mem_range, ← g4, hnc]; exact ⟨hj, hkj⟩)
    (by rw [f4, mem_positiveIndices]; exact ⟨hpl, hp.1⟩)
    (by rw [f5, mem_positiveIndices]; exact ⟨getD_pos_lt hp.2, hp.2⟩)
  have hseq := clockSequence_get (.standard dw ef eb f i) p p (show p < dw.length from hpl) (show p < dw.length from hpl)
  unfold Win.phaseBody at q
  rw [f2, f3, hseq, List.getElem?_eq_getElem hj, List.getElem?_eq_getElem (show p < (Roe.standard dw ef eb f i).dwell.length from hpl)] at q
  simp only at q
  obtain ⟨v, q1, -⟩ := bind_eq_ok q
  have hhigh : (genPhase (K := K) dw.length f p p).isHigh = true := by
    have hn : 0 < dw.length := by omega
    have hsp := stepPrime_eq dw.length p hn (by omega)
    rw [if_pos hpl] at hsp
    have : highPhase dw.length p = p := by
      unfold highPhase; rw [hsp]; exact Int.emod_eq_of_lt (by omega) (by omega)
    simp only [genPhase, this, decide_true]
  have hcap := (C13_high_captures_own_pixel (K := K) dw.length f p p hpl hhigh).2
  change Win.read s1.1 (rows[j] + (genPhase (K := K) dw.length f p p).captureFrom) c = _ at q1
  rw [hcap, add_zero] at q1
  unfold Win.read at q1
  split at q1
  · have := (read_ok q1).1
    omega
  · cases q1

/-- The row that `k` means when counted from the end of `n` rows. -/
def fromEnd (n : ℕ) (k : ℤ) : ℤ := if k < 0 then n + k else k

theorem npIndex_fromEnd {n : ℕ} {k : ℤ} (h : -(n : ℤ) ≤ k) : npIndex n (fromEnd n k) = npIndex n k := by
  unfold npIndex fromEnd
  by_cases hk : k < 0
  · rw [if_pos hk, if_pos ⟨by omega, by omega⟩, if_neg (by omega), if_pos ⟨h, hk⟩]
  · rw [if_neg hk]

theorem selectCols_fromEnd {α : Type} (m : Mat α) (w : List ℤ) (h : ∀ k ∈ w, -(m.nc : ℤ) ≤ k) :
    Win.selectCols m (w.map (fromEnd m.nc)) = Win.selectCols m w := by
  have hall : (w.map (fromEnd m.nc)).all (fun i => (npIndex m.nc i).isSome) =
      w.all (fun i => (npIndex m.nc i).isSome) := by
    rw [List.all_map]
    rw [Bool.eq_iff_iff, List.all_eq_true, List.all_eq_true]
    refine forall₂_congr fun k hk => ?_
    simp only [Function.comp]
    rw [npIndex_fromEnd (h k hk)]
  unfold Win.selectCols
  rw [hall, List.length_map]
  split
  · congr 2
    funext i j
    have hget : (w.map (fromEnd m.nc)).getD j 0 = fromEnd m.nc (w.getD j 0) := by
      by_cases hj : j < w.length
      · rw [List.getD_eq_getElem _ _ (by simpa using hj), List.getD_eq_getElem _ _ hj, List.getElem_map]
      · rw [List.getD_eq_default _ _ (by simpa using hj), List.getD_eq_default _ _ (by omega)]; rfl
    rw [hget, npIndex_fromEnd]
    by_cases hj : j < w.length
    · rw [List.getD_eq_getElem _ _ hj]; exact h _ (List.getElem_mem hj)
    · rw [List.getD_eq_default _ _ (by omega)]; omega
  · rfl

theorem selectCols_last {α : Type} {m : Mat α} {w : List ℤ} {n : ℕ} (hn : (n : ℤ) ∈ w) (h : m.nc ≤ n) :
    Win.selectCols m w = .error .indexError := by
  unfold Win.selectCols
  rw [if_neg]
  intro hall
  have := List.all_eq_true.1 hall _ hn
  rw [npIndex_nat, if_neg (by omega)] at this
  cases this

/-- **C75**: the matrices do count from the end: negative rows are those of the window with the rows they mean, where
the last row, `-1`, is the largest row of the window. -/
theorem C75_from_end (ef i : Bool) (w : List ℤ) (e o : ℕ) (tw : Option (List K)) (n : ℕ) (hw : w.max? = some (n : ℤ))
    (h : ∀ k ∈ w, -((n + 1 : ℕ) : ℤ) ≤ k) :
    Win.roeExpress (K := K) ef i w e o tw = Win.roeExpress ef i (w.map (fromEnd (n + 1))) e o tw := by
  have hmem : (n : ℤ) ∈ w := List.max?_mem hw
  have hle : ∀ k ∈ w, k ≤ n := fun k hk => ((List.max?_eq_some_iff.1 hw).2 k hk)
  have hn : fromEnd (n + 1) (n : ℤ) = n := by unfold fromEnd; rw [if_neg (by omega)]
  have hmem' : (n : ℤ) ∈ w.map (fromEnd (n + 1)) := List.mem_map.2 ⟨n, hmem, hn⟩
  have hw' : (w.map (fromEnd (n + 1))).max? = some (n : ℤ) := by
    refine List.max?_eq_some_iff.2 ⟨hmem', fun k hk => ?_⟩
    obtain ⟨q, hq, rfl⟩ := List.mem_map.1 hk
    have := hle q hq
    unfold fromEnd
    split <;> push_cast <;> omega
  have hx := expressFull_nat (K := K) ef i (n + 1) e o (by omega)
  push_cast at hx
  unfold Win.roeExpress
  rw [hw, hw']
  simp only
  rw [hx]
  simp only [bind, Except.bind]
  have hnc := expressFull_nc (K := K) ef i (n + 1) e o (by omega)
  have key : ∀ {α : Type} (m : Mat α), m.nc = (expressFull (K := K) ef i (n + 1) e o).nc →
      Win.selectCols (dropCols m o) w = Win.selectCols (dropCols m o) (w.map (fromEnd (n + 1))) := by
    intro α m hm
    have hd : (dropCols m o).nc = m.nc - o := rfl
    split at hnc
    · rw [selectCols_last hmem (by omega), selectCols_last hmem' (by omega)]
    · have hd' : (dropCols m o).nc = n + 1 := by omega
      have := selectCols_fromEnd (dropCols m o) w (by rw [hd']; exact h)
      rw [hd'] at this
      exact this.symm
  rw [← key (⟨(expressFull (K := K) ef i (n + 1) e o).nr, (expressFull (K := K) ef i (n + 1) e o).nc,
    fun i_1 j => decide ((expressFull (K := K) ef i (n + 1) e o).e i_1 j > 0)⟩ : Mat Bool) rfl]
  cases hs : Win.selectCols (dropCols (⟨(expressFull (K := K) ef i (n + 1) e o).nr,
    (expressFull (K := K) ef i (n + 1) e o).nc,
    fun i_1 j => decide ((expressFull (K := K) ef i (n + 1) e o).e i_1 j > 0)⟩ : Mat Bool) o) w with
  | error x => rfl
  | ok v =>
    simp only
    cases hr : Win.restrictTimeSpan (expressFull (K := K) ef i (n + 1) e o) tw with
    | error x => rfl
    | ok m => simp only [key m (win_restrict_shape hr).2]

/-- `range(-2, 3)` selects the columns of rows 1, 2, 0, 1, 2. -/
example : (Win.roeExpress (K := ℚ) false false [-2, -1, 0, 1, 2] 0 0 none).map (fun x =>
    (List.range x.1.nr).map fun i => (List.range x.1.nc).map fun j => x.1.e i j) =
    .ok [[1, 1, 1, 1, 1], [1, 1, 0, 1, 1], [0, 1, 0, 0, 1]] := by decide +kernel

/-- **C75**, part 2. Is false: a window that reaches below zero, such as `range(-2, 3)`, or a negative column is
accepted, and memory outside the image is accessed — for any image and any traps, if some phase has traps and is high
for some time. -/
theorem C75_out_of_bounds {sys : TrapSys K S} (hsys : NeverRaises sys) (ccd : CcdView K) (dw : List K)
    (ef eb f i : Bool) (e o : ℕ) (rows columns : List ℤ) (tw : Option (List K)) (cfg : ClockCfg K) (roe' : Roe K)
    (hcfg : Win.clockCfg (.standard dw ef eb f i) ccd e o rows tw = .ok (cfg, roe'))
    (hph : ∀ p, 0 < ccd.fractions.getD p 0 → p < dw.length) (p : ℕ) (hp : ActivePhase dw ccd p)
    (hr : rows ≠ []) (hc : columns ≠ []) (hneg : (∃ r ∈ rows, r < 0) ∨ ∃ c ∈ columns, c < 0) (st : Image K × S) :
    Win.clockLoops sys cfg rows columns st = .error .outOfBounds := by
  have hlen : cfg.monitor.nc ≤ rows.length := by
    obtain ⟨f1, -⟩ := win_clockCfg_fields hcfg
    simp only [Win.express] at f1
    obtain ⟨⟨m, mon⟩, g1, g2⟩ := bind_eq_ok f1
    injection g2 with g2
    injection g2 with g3 g4
    injection g4 with g4 _
    rw [← g4, (win_monitored g1).1]
  refine win_out_of_bounds hsys hcfg hlen hph st fun st' => ?_
  rcases hneg with ⟨r, hr', hneg⟩ | ⟨c, hc', hneg⟩
  · obtain ⟨j, hj⟩ := List.getElem?_of_mem hr'
    obtain ⟨hjl, hj'⟩ := List.getElem?_eq_some_iff.1 hj
    obtain ⟨c, cs, rfl⟩ := List.exists_cons_of_ne_nil hc
    exact win_standard_not_ok sys ccd dw ef eb f i e o rows _ tw cfg roe' hcfg p hp j hjl c List.mem_cons_self
      (Or.inl (by rw [hj']; exact hneg)) st st'
  · obtain ⟨r, rs, rfl⟩ := List.exists_cons_of_ne_nil hr
    exact win_standard_not_ok sys ccd dw ef eb f i e o _ columns tw cfg roe' hcfg p hp 0 (by simp) c hc'
      (Or.inr hneg) st st'

/-- With the trap managers of arcticpy: no such call of `cy_clock_charge_in_one_direction` returns. -/
theorem C75_never_returns (img : Image K) (ccd : CcdView K) (dw : List K) (ef eb f i : Bool)
    (groups : List (Arctic.Group K)) (e o : ℕ) (rows columns : List ℤ) (tw : Option (List K)) (p : ℕ)
    (hp : ActivePhase dw ccd p) (hc : columns ≠ [])
    (hneg : (∃ r ∈ rows, r < 0) ∨ ∃ c ∈ columns, c < 0) (r : Image K × Roe K) :
    Win.clockCharge img ccd (.standard dw ef eb f i) groups e o rows columns tw ≠ .ok r := by
  intro h
  unfold Win.clockCharge at h
  obtain ⟨⟨cfg, roe'⟩, h1, h⟩ := bind_eq_ok h
  simp only at h
  obtain ⟨st, h2, -⟩ := bind_eq_ok h
  rcases hneg with ⟨r, hr', hneg⟩ | ⟨c, hc', hneg⟩
  · obtain ⟨j, hj⟩ := List.getElem?_of_mem hr'
    obtain ⟨hjl, hj'⟩ := List.getElem?_eq_some_iff.1 hj
    obtain ⟨c, cs, rfl⟩ := List.exists_cons_of_ne_nil hc
    exact win_standard_not_ok _ ccd dw ef eb f i e o rows _ tw cfg roe' h1 p hp j hjl c List.mem_cons_self
      (Or.inl (by rw [hj']; exact hneg)) _ st h2
  · have hr : rows ≠ [] := by
      rintro rfl
      simp only [Win.clockCfg, Win.express, Win.roeExpress] at h1
      cases h1
    obtain ⟨r, rs, rfl⟩ := List.exists_cons_of_ne_nil hr
    exact win_standard_not_ok _ ccd dw ef eb f i e o _ columns tw cfg roe' h1 p hp 0 (by simp) c hc'
      (Or.inr hneg) _ st h2

/-- **C75**, part 3. Is false for trap pumping in the same way: pumping a pixel given by a negative index builds its
matrices and then accesses memory outside the image. -/
theorem C75_pumping {sys : TrapSys K S} (hsys : NeverRaises sys) (ccd : CcdView K) (dw : List K) (n : ℕ) (ef i : Bool)
    (hn : 0 < n) (e o : ℕ) (k : ℤ) (hk : k < 0) (columns : List ℤ) (hc : columns ≠ []) (tw : Option (List K))
    (hph : ∀ p, 0 < ccd.fractions.getD p 0 → p < dw.length / 2) (p : ℕ) (hp : ActivePhase dw ccd p) :
    ∃ cfg roe', Win.clockCfg (.pumping dw n ef i) ccd e o [k] tw = .ok (cfg, roe') ∧
      ∀ st : Image K × S, Win.clockLoops sys cfg [k] columns st = .error .outOfBounds := by
  obtain ⟨m, mon, h⟩ := C11_exists (K := K) ef i n 1 e hn
  have hsum := C11_total ef i n 1 e m mon h 0 (by omega)
  have hshape : m.nc = 1 ∧ mon = ⟨m.nr, m.nc, fun i j => decide (m.e i j > 0)⟩ := by
    unfold pumpingExpress at h
    simp only [bind, Except.bind] at h
    split at h
    · cases h
    · simp only [Except.ok.injEq, Prod.mk.injEq] at h
      obtain ⟨rfl, rfl⟩ := h
      exact ⟨rfl, rfl⟩
  obtain ⟨q, hq, hpos⟩ : ∃ q ∈ Finset.range m.nr, 0 < m.e q 0 := by
    by_contra hcon
    have hle : ∀ q ∈ Finset.range m.nr, m.e q 0 ≤ 0 := by
      intro q hq
      by_contra hlt
      exact hcon ⟨q, hq, not_le.1 hlt⟩
    have := Finset.sum_nonpos hle
    rw [hsum] at this
    have : (0 : K) < (n : K) := by exact_mod_cast hn
    linarith
  have hcfg : ∃ cfg roe', Win.clockCfg (.pumping dw n ef i) ccd e o [k] tw = .ok (cfg, roe') := by
    unfold Win.clockCfg Win.express
    simp only [bind, Except.bind, List.length_singleton, h, Roe.save, pumpingSave]
    rw [if_neg (by omega)]
    exact ⟨_, _, rfl⟩
  obtain ⟨cfg, roe', hcfg⟩ := hcfg
  refine ⟨cfg, roe', hcfg, fun st => ?_⟩
  obtain ⟨f1, f2, f3, f4, f5⟩ := win_clockCfg_fields hcfg
  simp only [Win.express, bind, Except.bind, List.length_singleton, h] at f1
  injection f1 with f1
  injection f1 with g3 g4
  injection g4 with g4 _
  have hp2 := hph p hp.2
  refine win_out_of_bounds hsys hcfg (by rw [← g4, hshape.2]; exact hshape.1.le) hph st fun st' hst => ?_
  obtain ⟨c, cs, rfl⟩ := List.exists_cons_of_ne_nil hc
  have hpl := getD_pos_lt hp.1
  obtain ⟨s1, s2, r⟩ := win_reach hst List.mem_cons_self (k := q) (j := 0) (step := p) (phase := p)
    (by rw [← g3]; exact Finset.mem_range.1 hq)
    (by
      unfold monitoredRows
      rw [List.mem_filter, List.mem_range, ← g4, hshape.2]
      exact ⟨by simp only; omega, by simpa using hpos⟩)
    (by rw [f4, mem_positiveIndices]; exact ⟨hpl, hp.1⟩)
    (by rw [f5, mem_positiveIndices]; exact ⟨getD_pos_lt hp.2, hp.2⟩)
  have hseq := clockSequence_get (.pumping dw n ef i) p p (show p < dw.length from hpl) (show p < dw.length / 2 from hp2)
  unfold Win.phaseBody at r
  rw [f2, f3, hseq, List.getElem?_eq_getElem (show p < (Roe.pumping dw n ef i).dwell.length from hpl)] at r
  simp only [List.getElem?_cons_zero] at r
  obtain ⟨v, r1, -⟩ := bind_eq_ok r
  have hhigh : (genPhase (K := K) (dw.length / 2) false p p).isHigh = true := by
    have hsp := stepPrime_eq (dw.length / 2) p (by omega) (by omega)
    rw [if_pos hp2] at hsp
    have : highPhase (dw.length / 2) p = p := by
      unfold highPhase; rw [hsp]; exact Int.emod_eq_of_lt (by omega) (by omega)
    simp only [genPhase, this, decide_true]
  have hcap := (C13_high_captures_own_pixel (K := K) (dw.length / 2) false p p hp2 hhigh).2
  change Win.read s1.1 (k + (genPhase (K := K) (dw.length / 2) false p p).captureFrom) c = _ at r1
  rw [hcap, add_zero] at r1
  unfold Win.read at r1
  split at r1
  · have := (read_ok r1).1
    omega
  · cases r1

end

/-! ## Examples -/

section
open Win

/-- Four rows, two columns, the traps of `exGroup`. -/
def exWin (roe : Roe ℚ) (rows columns : ZWindow) (o : ℕ) : Except Err (List (List ℚ)) :=
  (Win.addCti (exImg 4 2 [[40, 10], [80, 20], [5, 0], [0, 0]]) (some ⟨exCcd, roe, [exGroup], 0, 0⟩) o rows none columns
    none).map fun r => (List.range 4).map fun i => (List.range 2).map fun j => r.1.px i j

-- the last row, written as in Python
example : exWin exRoe (.pixel (-1)) .all 0 = .error .zeroDivisionError := by decide +kernel
example : exWin exRoe (.pixel (-1)) .all 2 = .error .indexError := by decide +kernel
example : exWin exRoe (.pixel (-2)) .all 0 = .error .valueError := by decide +kernel
-- a window that reaches below zero, and the last column, written as in Python
example : exWin exRoe (.range [-2, -1, 0, 1, 2]) .all 0 = .error .outOfBounds := by decide +kernel
example : exWin exRoe .all (.pixel (-1)) 0 = .error .outOfBounds := by decide +kernel
-- too far below zero for numpy
example : exWin exRoe (.range [-4, 0, 1, 2]) .all 0 = .error .indexError := by decide +kernel
-- pumping the last pixel
example : exWin (.pumping [1, 1] 3 true false) (.pixel (-1)) .all 0 = .error .outOfBounds := by decide +kernel
-- the same windows without negative numbers return
example : (exWin exRoe (.range [0, 1, 2]) (.pixel 1) 0).isOk = true := by decide +kernel
example : ActivePhase (K := ℚ) [1] exCcd 0 := by unfold ActivePhase; decide +kernel
example : NeverRaises (K := ℚ) (S := Unit) ⟨id, id, id, fun s _ _ _ => .ok (0, s)⟩ := fun s _ _ _ => ⟨_, rfl⟩
example : ∃ r, Win.clockCfg exRoe exCcd 0 0 [-2, -1, 0, 1, 2] none = .ok r := ⟨_, rfl⟩

end
end Arctic
