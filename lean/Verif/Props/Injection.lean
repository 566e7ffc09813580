import Verif.Props.ExpressAccuracy

/-!
# C83 — charge injection repeats one pass
-/

set_option linter.unusedSectionVars false
set_option linter.unusedVariables false

namespace Arctic

open Finset (range)

/-- One transfer of all rows of a column: the charge of the rows, one after the other, passes traps that were empty before. -/
noncomputable def Ref.onePass (f : ℝ → ℝ) (dw : ℝ) (ts : List Ref.Traps) (R : ℕ) (x : ℕ → ℝ) : ℕ → ℝ :=
  Ref.pass f dw ts x ((List.range R).map fun r => (r, 1))

/-! ## The matrices -/

/-- The multiplier of pass `k` of `E` if `n` transfers are made, of which the first `T` are of interest. -/
noncomputable def injectionShare (n E T k : ℕ) : ℝ :=
  min (T : ℝ) (((k : ℝ) + 1) * ((n : ℝ) / E)) - min (T : ℝ) ((k : ℝ) * ((n : ℝ) / E))

theorem range_max (R : ℕ) (hR : 0 < R) : (List.range R).max? = some (R - 1) := by
  rw [List.max?_eq_some_iff]
  refine ⟨List.mem_range.2 (by omega), fun b hb => ?_⟩
  have := List.mem_range.1 hb
  omega

/-- The matrices of charge injection, without or with a time window from the start. -/
theorem injection_matrix (n R e o : ℕ) (hn : 0 < n) (hR : 0 < R) (tw : Option (List ℕ)) (T : ℕ)
    (htw : tw = none ∧ n ≤ T ∨ tw = some (List.range T) ∧ 0 < T) :
    ∃ (m : Mat ℝ) (mon : Mat Bool), injectionExpress false (some n) (List.range R) e o tw = .ok ((m, mon), n) ∧
      m.nr = effectiveExpress e n ∧ mon.nc = R ∧ (∀ k < m.nr, ∀ j, m.e k j = injectionShare n (effectiveExpress e n) T k) ∧
      ∀ k j, mon.e k j = true := by
  have hE := effectiveExpress_pos e n hn
  set E := effectiveExpress e n with hEd
  have hEr : (0 : ℝ) < E := by exact_mod_cast hE
  have hnr : (0 : ℝ) < n := by exact_mod_cast hn
  have hc : (0 : ℝ) < (n : ℝ) / E := div_pos hnr hEr
  unfold injectionExpress nPixelsOfWindow
  rw [range_max R hR]
  simp only [bind, Except.bind, Option.getD_some, Bool.false_eq_true, if_false]
  rw [if_neg (by change ¬E = 0; omega)]
  rcases htw with ⟨rfl, hT⟩ | ⟨rfl, hT⟩
  · refine ⟨_, _, rfl, rfl, by simp; omega, fun k hk j => ?_, fun k j => by simpa using hc⟩
    change (n : ℝ) / E = _
    unfold injectionShare
    have hk' : (k : ℝ) + 1 ≤ E := by exact_mod_cast (show k + 1 ≤ E from hk)
    have h1 : ((k : ℝ) + 1) * ((n : ℝ) / E) ≤ T := by
      have h2 := mul_le_mul_of_nonneg_right hk' hc.le
      rw [mul_div_cancel₀ _ hEr.ne'] at h2
      have : (n : ℝ) ≤ T := by exact_mod_cast hT
      linarith
    rw [min_eq_right h1, min_eq_right (by linarith)]
    ring
  · have hrange : List.range T = rangeAB 0 T := by
      unfold rangeAB; rw [List.range_eq_range', Nat.sub_zero]
    rw [hrange, restrict_eq _ hT]
    refine ⟨_, _, rfl, rfl, by simp; omega, fun k hk j => ?_, fun k j => by simpa using hc⟩
    have hcs : ∀ k, cumsum0 (⟨E, R - 1 + 1, fun _ _ => (n : ℝ) / E⟩ : Mat ℝ) k j = ((k : ℝ) + 1) * ((n : ℝ) / E) := by
      intro k
      rw [cumsum0_eq]
      simp
    have hwd : ∀ z : ℝ, 0 ≤ z → windowed ((0 : ℕ) : ℝ) (T : ℕ) z = min (T : ℝ) z := by
      intro z hz
      unfold windowed
      rw [Nat.cast_zero, sub_zero, sub_zero, max_eq_right hz]
    have hk0 : (0 : ℝ) ≤ k := Nat.cast_nonneg _
    unfold injectionShare
    change (if k = 0 then windowed ((0 : ℕ) : ℝ) (T : ℕ) (cumsum0 (⟨E, R - 1 + 1, fun _ _ => (n : ℝ) / E⟩ : Mat ℝ) 0 j)
      else windowed ((0 : ℕ) : ℝ) (T : ℕ) (cumsum0 (⟨E, R - 1 + 1, fun _ _ => (n : ℝ) / E⟩ : Mat ℝ) k j) -
        windowed ((0 : ℕ) : ℝ) (T : ℕ) (cumsum0 (⟨E, R - 1 + 1, fun _ _ => (n : ℝ) / E⟩ : Mat ℝ) (k - 1) j)) = _
    simp only [hcs]
    rw [hwd _ (by positivity), hwd _ (by positivity), hwd _ (by positivity)]
    cases k with
    | zero => simp
    | succ k => simp

/-- Every transfer is represented. -/
theorem injectionShare_full (n T k : ℕ) (hn : 0 < n) : injectionShare n n T k = if k < T then 1 else 0 := by
  have h1 : (n : ℝ) / n = 1 := div_self (by exact_mod_cast hn.ne')
  unfold injectionShare
  rw [h1, mul_one, mul_one]
  split
  · rename_i h
    have : (k : ℝ) + 1 ≤ T := by exact_mod_cast h
    rw [min_eq_right this, min_eq_right (by linarith)]
    ring
  · rename_i h
    have : (T : ℝ) ≤ k := by exact_mod_cast not_lt.1 h
    rw [min_eq_left (by linarith), min_eq_left this]
    ring

/-- The time window covers all transfers. -/
theorem injectionShare_covered (n E T k : ℕ) (hk : k < E) (hT : n ≤ T) : injectionShare n E T k = (n : ℝ) / E := by
  have hE : (0 : ℝ) < E := by exact_mod_cast (by omega : 0 < E)
  have hk' : (k : ℝ) + 1 ≤ E := by exact_mod_cast hk
  have hc : (0 : ℝ) ≤ (n : ℝ) / E := by positivity
  have h1 : ((k : ℝ) + 1) * ((n : ℝ) / E) ≤ T := by
    have h2 := mul_le_mul_of_nonneg_right hk' hc
    rw [mul_div_cancel₀ _ hE.ne'] at h2
    have : (n : ℝ) ≤ T := by exact_mod_cast hT
    linarith
  unfold injectionShare
  rw [min_eq_right h1, min_eq_right (by linarith)]
  ring

/-! ## Passes -/

theorem pass_zero (f : ℝ → ℝ) (dw : ℝ) (ts : List Ref.Traps) (l : List ℕ) (x : ℕ → ℝ) :
    Ref.pass f dw ts x (l.map fun r => (r, 0)) = x := by
  unfold Ref.pass
  induction l generalizing ts with
  | nil => rfl
  | cons r l ih =>
    rw [List.map_cons, List.foldl_cons]
    have : Ref.row f dw (x, ts) (r, 0) = (x, (ts.map fun t => t.transfer f dw (x r)).map Prod.snd) := by
      unfold Ref.row
      simp
    rw [this]
    exact ih _

theorem readout_iterate (f : ℝ → ℝ) (dw : ℝ) (ts : List Ref.Traps) (R n T : ℕ) (x : ℕ → ℝ) :
    Ref.readout f dw ts ((List.range n).map fun k => (List.range R).map fun r => (r, if k < T then (1 : ℝ) else 0)) x =
      (Ref.onePass f dw ts R)^[min n T] x := by
  induction n with
  | zero =>
    unfold Ref.readout
    rw [List.range_zero, List.map_nil, List.foldl_nil, Nat.zero_min]
    rfl
  | succ n ih =>
    unfold Ref.readout at *
    rw [List.range_succ, List.map_append, List.foldl_append, ih]
    simp only [List.map_cons, List.map_nil, List.foldl_cons, List.foldl_nil]
    by_cases h : n < T
    · simp only [if_pos h]
      rw [show min (n + 1) T = min n T + 1 by omega, Function.iterate_succ_apply']
      rfl
    · simp only [if_neg h]
      rw [show min (n + 1) T = min n T by omega]
      exact pass_zero f dw ts _ _

/-- The passes of charge injection: every row in every pass, with a multiplier that depends on the pass only. -/
noncomputable def injectionPasses (R E : ℕ) (mult : ℕ → ℝ) : List (List (ℕ × ℝ)) :=
  (List.range E).map fun k => (List.range R).map fun r => (r, mult k)

theorem injection_passes {R E : ℕ} {mult : ℕ → ℝ} {m : Mat ℝ} {mon : Mat Bool} (h1 : m.nr = E)
    (h2 : ∀ k < m.nr, ∀ j, m.e k j = mult k) (h3 : ∀ k j, mon.e k j = true) :
    matrixPasses (List.range R) m mon = injectionPasses R E mult := by
  unfold matrixPasses injectionPasses
  rw [h1, List.length_range]
  refine List.map_congr_left fun k hk => ?_
  rw [List.filter_eq_self.2 fun j _ => h3 k j]
  refine List.map_congr_left fun j hj => ?_
  rw [h2 k (by rw [h1]; exact List.mem_range.1 hk) j, List.getD_eq_getElem _ _ (by simpa using hj), List.getElem_range]

theorem readout_passes_congr {f : ℝ → ℝ} {dw : ℝ} {ts : List Ref.Traps} {R E : ℕ} {mult mult' : ℕ → ℝ}
    (h : ∀ k < E, mult k = mult' k) : injectionPasses R E mult = injectionPasses R E mult' := by
  unfold injectionPasses
  exact List.map_congr_left fun k hk => by rw [h k (List.mem_range.1 hk)]

/-! ## The clock loop -/

theorem injection_clock (img : Image ℝ) (fill : ℕ → ℝ → ℝ) (frac dw : ℝ) (n : ℕ) (traps : List Ref.Traps) (e o : ℕ)
    (rows columns : List ℕ) (tw : Option (List ℕ)) (m : Mat ℝ) (mon : Mat Bool)
    (hm : injectionExpress false (some n) rows e o tw = .ok ((m, mon), n)) (hmon : mon.nc = rows.length) (hfound : ∀ x ∈ rows, x < rows.length)
    (hdw : 0 < dw) (hfrac : 0 < frac) (hf : FillModel (fill 0))
    (hpos : ∀ n, 0 < n → 0 < fill 0 n) (ht : ∀ t ∈ traps, t.Ok) (hrows : ∀ w ∈ rows, w < img.nr)
    (hcols : ∀ c ∈ columns, c < img.nc) (hnd : columns.Nodup) :
    ∃ out, clockCharge img ⟨[frac], fill⟩ (.injection [dw] (some n) true true false) (traps.map Ref.Traps.group) e o rows
        columns tw = .ok (out, .injection [dw] (some n) true true false) ∧ out.nr = img.nr ∧ out.nc = img.nc ∧
      ∀ r < img.nr, ∀ c, out.px r c = if c ∈ columns then
        Ref.readout (fill 0) dw (traps.map fun t => t.inPhase frac) (matrixPasses rows m mon) (fun r => img.px r c) r
        else img.px r c := by
  have hcfg : clockCfg (.injection [dw] (some n) true true false) ⟨[frac], fill⟩ e o rows tw =
      .ok (onePhaseCfg rows dw m mon, .injection [dw] (some n) true true false) := by
    unfold clockCfg onePhaseCfg
    simp only [Roe.express, hm, bind, Except.bind, Roe.save, injectionSave, Roe.clockSequence, Roe.nSteps,
      Roe.nPhases, Roe.dwell, Roe.force, Roe.emptyBetween, List.length_singleton, one_phase_sequence]
    simp [positiveIndices, hdw, hfrac]
  have hacc : (Roe.injection [dw] (some n) true true false).accessed = [0, 0, 0] := by
    unfold Roe.accessed Roe.clockSequence
    simp only [Roe.nSteps, Roe.nPhases, Roe.dwell, Roe.force, List.length_singleton, one_phase_sequence]
    simp [pixelsAccessed]
  have hpad : nPadding (Roe.injection [dw] (some n) true true false).accessed = 0 := by rw [hacc]; rfl
  obtain ⟨out, st, g1, g2⟩ := C54_refinement img ⟨[frac], fill⟩ (.injection [dw] (some n) true true false) _ traps e o rows
    columns tw _ hcfg (Or.inl trivial) rfl hfound hrows hcols
    (fun w _ z hz => by rw [hacc] at hz; simp at hz; omega) (by simp [Roe.nPhases])
    ⟨by simp [hfrac.le], fun ph hph => by
      obtain rfl : ph = 0 := by simpa using hph
      exact ⟨hf, hpos⟩⟩ ht
  rw [hpad] at g1 g2
  obtain ⟨out', g3, g4, g5, g6⟩ := refSys_columns (fill := fill) (dw := dw)
    (cfg := onePhaseCfg rows dw m mon)
    ⟨rfl, rfl, rfl, rfl, fun _ _ => rfl, rfl⟩ hmon.le (traps.map fun t => t.inPhase frac)
    (by rw [List.map_map]; rfl) columns (img.pad 0) hnd hcols (fun w hw => by simpa [Image.pad] using hrows w hw)
  have e1 : RefState.new traps [frac] = ⟨[traps.map fun t => t.inPhase frac], [traps.map fun t => t.inPhase frac]⟩ := rfl
  simp only [e1] at g1
  rw [g3] at g1
  injection g1 with g1
  injection g1 with g1 _
  subst g1
  refine ⟨_, g2, by simp [Image.unpad, g5, Image.pad], by simp [Image.unpad, g6, Image.pad], fun r hr c => ?_⟩
  change out'.px r c = _
  rw [g4]
  have hpasses : (List.range (onePhaseCfg rows dw m mon).expr.nr).map (todo (onePhaseCfg rows dw m mon)) =
      matrixPasses rows m mon := by
    unfold matrixPasses todo monitoredRows onePhaseCfg
    simp only [hmon]
  split
  · simp only [hpasses]
    refine readout_congr (fill 0) dw _ img.nr _ ?_ _ _ (fun r hr => by simp [Image.pad, hr]) r hr
    intro p hp x hx
    unfold matrixPasses at hp
    obtain ⟨k, -, rfl⟩ := List.mem_map.1 hp
    obtain ⟨j, hj, rfl⟩ := List.mem_map.1 hx
    have hj' := List.mem_range.1 (List.mem_filter.1 hj).1
    simp only
    rw [List.getD_eq_getElem _ _ hj']
    exact hrows _ (List.getElem_mem hj')
  · simp [Image.pad, hr]

/-- The direction with a charge injection readout of `n` transfers. -/
noncomputable def PyDirection.injected (d : PyDirection) (dw : ℝ) (n : ℕ) : PyDirection :=
  { d with roe := some (.injection [dw] (some n) true true false) }

section
variable {full power dw : ℝ} {gs : List (List Trap)} {c : CCD} {o : ℕ} {d : PyDirection} {i : Bool}

theorem ExactObjects.run_injection (h : ExactObjects full power dw gs i c o d) (n e : ℕ) (hn : 0 < n) (img : Image ℝ)
    (hnr : 0 < img.nr) (tw : Option (List ℕ)) (T : ℕ) (htw : tw = none ∧ n ≤ T ∨ tw = some (List.range T) ∧ 0 < T) :
    ∃ out, clockChargePy img (some c) (.injection [dw] (some n) true true false) (.list (gs.map .group)) e o
        (List.range img.nr) (List.range img.nc) tw = .ok (out, .injection [dw] (some n) true true false) ∧
      out.nr = img.nr ∧ out.nc = img.nc ∧ ∀ r < img.nr, ∀ c < img.nc, out.px r c =
        Ref.readout (wellFill full power) dw (gs.map Ref.ofTraps)
          (injectionPasses img.nr (effectiveExpress e n) (injectionShare n (effectiveExpress e n) T)) (fun r => img.px r c) r := by
  obtain ⟨h0, ⟨h1, h2⟩, h3, h4, h5, h6, h7⟩ := h
  have hw := wellFill_exact h3 h4
  have hv : c.view = ⟨[1], c.view.fill⟩ := by
    rw [← h1]; rfl
  have hfill := CCD.view_fill h2 h3 h4
  have htraps : ∀ t ∈ gs.map Ref.ofTraps, t.Ok := by
    intro t ht
    obtain ⟨l, hl, rfl⟩ := List.mem_map.1 ht
    exact Ref.ofTraps_ok (h7 l hl).2
  obtain ⟨m, mon, hm, m1, m2, m3, m4⟩ := injection_matrix n img.nr e o hn hnr tw T htw
  obtain ⟨out, g1, g2, g3, g4⟩ := injection_clock img c.view.fill 1 dw n (gs.map Ref.ofTraps) e o (List.range img.nr)
    (List.range img.nc) tw m mon hm (by rw [m2, List.length_range]) (fun x hx => by simpa using hx) h5 one_pos
    (by rw [hfill]; exact hw.1) (by rw [hfill]; exact hw.2) htraps
    (fun w hw => List.mem_range.1 hw) (fun c hc => List.mem_range.1 hc) List.nodup_range
  refine ⟨out, ?_, g2, g3, fun r hr c' hc' => ?_⟩
  · rw [clockChargePy_groups img c _ gs h6 (fun l hl => (h7 l hl).1) (by rw [h1]; simp), hv, ← g1, List.map_map]
    congr 1
    exact List.map_congr_left fun l hl => Ref.ofTraps_group (h7 l hl).1 (h7 l hl).2
  · rw [g4 r hr c', if_pos (List.mem_range.2 hc'), hfill, injection_passes m1 m3 m4]
    simp only [inPhase_one, List.map_map]
    rfl

/-- **C83**: `add_cti` with charge injection of `n` transfers and `express = 0`: every column is put through the same single pass
`min n (rows + offset)` times. -/
theorem C83_add_cti (h : ExactObjects full power dw gs i c o d) (n : ℕ) (hn : 0 < n) (img : Image ℝ) (hnr : 0 < img.nr) :
    ∃ out, addCtiPy img (d.injected dw n) .all .absent .all none =
        .ok (out, .injection [dw] (some n) true true false, Roe.default) ∧
      out.SameShape img ∧ ∀ r < img.nr, ∀ c < img.nc, out.px r c =
        (Ref.onePass (wellFill full power) dw (gs.map Ref.ofTraps) img.nr)^[min n (img.nr + o)] (fun r => img.px r c) r := by
  obtain ⟨out, g1, g2, g3, g4⟩ := h.run_injection n 0 hn img hnr (some (List.range (img.nr + o))) (img.nr + o)
    (Or.inr ⟨rfl, by omega⟩)
  refine ⟨out, ?_, ⟨g2, g3⟩, fun r hr c hc => ?_⟩
  · rw [h.eq]
    unfold addCtiPy PyDirection.absent PyDirection.injected
    simp only [Window.resolve, bind, Except.bind, Option.getD_none, Option.getD_some]
    rw [g1]
  · rw [g4 r hr c hc, ← readout_iterate]
    have e : effectiveExpress 0 n = n := rfl
    rw [e, readout_passes_congr (f := wellFill full power) (dw := dw) (ts := gs.map Ref.ofTraps)
      (fun k _ => injectionShare_full n (img.nr + o) k hn)]
    rfl

/-- **C83** with serial clocking: the serial readout acts on the rows of the result of the parallel one. -/
theorem C83_serial {fs ps ds : ℝ} {gs' : List (List Trap)} {is : Bool} {cs : CCD} {os : ℕ} {ser : PyDirection}
    (h : ExactObjects full power dw gs i c o d) (hs : ExactObjects fs ps ds gs' is cs os ser) (n : ℕ) (hn : 0 < n) (img : Image ℝ)
    (hnr : 0 < img.nr) (hnc : 0 < img.nc) :
    ∃ out, addCtiPy img (d.injected dw n) .all ser .all none =
        .ok (out, .injection [dw] (some n) true true false, .standard [ds] true true true is) ∧
      out.SameShape img ∧ ∀ r < img.nr, ∀ c < img.nc, out.px r c =
        Ref.readout (wellFill fs ps) ds (gs'.map Ref.ofTraps) (Ref.allPasses img.nc os)
          (fun c => (Ref.onePass (wellFill full power) dw (gs.map Ref.ofTraps) img.nr)^[min n (img.nr + o)]
            (fun r => img.px r c) r) c := by
  obtain ⟨mid, g1, g2, g3, g4⟩ := h.run_injection n 0 hn img hnr (some (List.range (img.nr + o))) (img.nr + o)
    (Or.inr ⟨rfl, by omega⟩)
  have e1 : mid.transpose.nr = img.nc := g3
  have e2 : mid.transpose.nc = img.nr := g2
  obtain ⟨out, q1, q2, q3, q4⟩ := hs.run mid.transpose (by rw [e1]; exact hnc) none (Or.inl rfl)
  rw [e1, e2] at q1
  refine ⟨out.transpose, ?_, ⟨q3.trans e2, q2.trans e1⟩, fun r hr c hc => ?_⟩
  · rw [h.eq, hs.eq]
    unfold addCtiPy PyDirection.injected
    simp only [Window.resolve, bind, Except.bind, Option.getD_none, Option.getD_some]
    rw [g1]
    simp only
    rw [q1]
  · change out.px c r = _
    rw [q4 c (by rw [e1]; exact hc) r (by rw [e2]; exact hr), e1]
    refine readout_congr _ ds _ img.nc _ ?_ _ _ (fun c hc => ?_) c hc
    · intro p hp x hx
      obtain ⟨k, -, rfl⟩ := List.mem_map.1 hp
      obtain ⟨j, hj, rfl⟩ := List.mem_map.1 hx
      exact List.mem_range.1 (List.mem_filter.1 hj).1
    · change mid.px r c = _
      rw [g4 r hr c hc, ← readout_iterate]
      have e : effectiveExpress 0 n = n := rfl
      rw [e, readout_passes_congr (f := wellFill full power) (dw := dw) (ts := gs.map Ref.ofTraps)
        (fun k _ => injectionShare_full n (img.nr + o) k hn)]
      rfl

theorem iterate_congr (f : ℝ → ℝ) (dw : ℝ) (ts : List Ref.Traps) (R n : ℕ) (x y : ℕ → ℝ) (h : ∀ r < R, x r = y r) :
    ∀ r < R, (Ref.onePass f dw ts R)^[n] x r = (Ref.onePass f dw ts R)^[n] y r := by
  intro r hr
  have e := fun x => readout_iterate f dw ts R n n x
  rw [Nat.min_self] at e
  rw [← e, ← e]
  refine readout_congr f dw ts R _ ?_ x y h r hr
  intro p hp q hq
  obtain ⟨k, -, rfl⟩ := List.mem_map.1 hp
  obtain ⟨j, hj, rfl⟩ := List.mem_map.1 hq
  exact List.mem_range.1 hj

/-- **C83**: `a` transfers and then `b` more are `a + b` transfers. -/
theorem C83_compose (h : ExactObjects full power dw gs i c o d) (a b : ℕ) (ha : 0 < a) (hb : 0 < b) (img : Image ℝ)
    (hnr : 0 < img.nr) (hab : a + b ≤ img.nr + o) :
    ∃ mid out out' roes roes' roes'', addCtiPy img (d.injected dw a) .all .absent .all none = .ok (mid, roes) ∧
      addCtiPy mid (d.injected dw b) .all .absent .all none = .ok (out, roes') ∧
      addCtiPy img (d.injected dw (a + b)) .all .absent .all none = .ok (out', roes'') ∧
      out.SameShape img ∧ out'.SameShape img ∧ ∀ r < img.nr, ∀ c < img.nc, out.px r c = out'.px r c := by
  obtain ⟨mid, a1, a2, a3⟩ := C83_add_cti h a ha img hnr
  obtain ⟨out, b1, b2, b3⟩ := C83_add_cti h b hb mid (by rw [a2.1]; exact hnr)
  obtain ⟨out', c1, c2, c3⟩ := C83_add_cti h (a + b) (by omega) img hnr
  refine ⟨mid, out, out', _, _, _, a1, b1, c1, ⟨b2.1.trans a2.1, b2.2.trans a2.2⟩, c2, fun r hr c hc => ?_⟩
  rw [b3 r (by rw [a2.1]; exact hr) c (by rw [a2.2]; exact hc), c3 r hr c hc, a2.1,
    show min (a + b) (img.nr + o) = b + a by omega, Function.iterate_add_apply, show min b (img.nr + o) = b by omega]
  refine iterate_congr _ dw _ img.nr b _ _ (fun r hr => ?_) r hr
  rw [a3 r hr c hc, show min a (img.nr + o) = a by omega]

/-! ### the first transfers of a standard readout -/

theorem windowed_full (i : Bool) (R n : ℕ) (hR : 0 < R) (hn : 0 < n) :
    ∃ (m : Mat ℝ) (mon : Mat Bool), roeExpress true i (List.range R) 0 (n - 1) (some (List.range n)) = .ok (m, mon) ∧
      m.nr = R + (n - 1) ∧ ∀ k < m.nr, ∀ j < R, (m.e k j = if k < n then 1 else 0) ∧ (k < n → mon.e k j = true) := by
  have ha := range_max R hR
  have hRR : R - 1 + 1 = R := by omega
  obtain ⟨m0, mon0, g1, g2, g3, g4⟩ := C04_entries (K := ℝ) true i (List.range R) (n - 1) (R - 1) ha
  have hs : ¬ ShortMatrix true (List.range R) 0 := by rintro ⟨_, h, _⟩; exact h rfl
  have hmon0 := C03_monitor_iff_pos true i (List.range R) 0 (n - 1) m0 mon0 g1
  have hrange : List.range n = rangeAB 0 n := by
    unfold rangeAB; rw [List.range_eq_range', Nat.sub_zero]
  have g1' := g1
  rw [roeExpress_eq true i (List.range R) 0 (n - 1) none (R - 1) ha hs] at g1'
  simp only [restrictTimeSpan, Except.bind, Except.ok.injEq, Prod.mk.injEq] at g1'
  obtain ⟨f1, f2⟩ := g1'
  set F := expressFull (K := ℝ) true i (R - 1 + 1) 0 (n - 1) with hF
  have hentry : ∀ k, ∀ j < R, F.e k (j + (n - 1)) = if k ≤ j + (n - 1) then 1 else 0 := by
    intro k j hj
    have := g4 k j (by simpa using hj)
    rw [← f1] at this
    simp only [List.getElem_range] at this
    have e : (List.range R).getD j 0 = j := by
      rw [List.getD_eq_getElem _ _ (by simpa using hj), List.getElem_range]
    rw [e] at this
    exact this
  have hnrF : F.nr = R + (n - 1) := by
    rw [← f1] at g2
    simp only at g2
    omega
  have hcs : ∀ k, ∀ j < R, cumsum0 F k (j + (n - 1)) = min ((k : ℝ) + 1) ((j : ℝ) + (n - 1 : ℕ) + 1) := by
    intro k j hj
    rw [cumsum0_eq]
    induction k with
    | zero => simp [hentry 0 j hj]
              positivity
    | succ k ih =>
      rw [Finset.sum_range_succ, ih, hentry (k + 1) j hj]
      split
      · rename_i h
        have : ((k : ℝ) + 1) ≤ (j : ℝ) + (n - 1 : ℕ) := by exact_mod_cast h
        rw [min_eq_left (by linarith), Nat.cast_succ, min_eq_left (by linarith)]
      · rename_i h
        have : (j : ℝ) + (n - 1 : ℕ) ≤ k := by exact_mod_cast (by omega : j + (n - 1) ≤ k)
        rw [min_eq_right (by linarith), Nat.cast_succ, min_eq_right (by linarith)]
        ring
  have h := roeExpress_eq (K := ℝ) true i (List.range R) 0 (n - 1) (some (rangeAB 0 n)) (R - 1) ha hs
  rw [← hF, restrict_eq F hn] at h
  simp only [Except.bind] at h
  rw [f2, ← hrange] at h
  refine ⟨_, mon0, h, hnrF, fun k hk j hj => ?_⟩
  have e : (List.range R).getD j 0 = j := by
    rw [List.getD_eq_getElem _ _ (by simpa using hj), List.getElem_range]
  have hwd : ∀ z : ℝ, 0 ≤ z → windowed ((0 : ℕ) : ℝ) (n : ℕ) z = min (n : ℝ) z := by
    intro z hz
    unfold windowed
    rw [Nat.cast_zero, sub_zero, sub_zero, max_eq_right hz]
  have hn1 : ((n - 1 : ℕ) : ℝ) + 1 = n := by exact_mod_cast (by omega : n - 1 + 1 = n)
  have hj0 : (0 : ℝ) ≤ j := Nat.cast_nonneg _
  have cut : ∀ k : ℕ, min (n : ℝ) (min ((k : ℝ) + 1) ((j : ℝ) + (n - 1 : ℕ) + 1)) = min (n : ℝ) ((k : ℝ) + 1) := by
    intro k
    rw [← min_assoc, min_comm (n : ℝ) ((k : ℝ) + 1), min_assoc, min_eq_left (a := (n : ℝ)) (by linarith)]
  have n0 : ∀ k : ℕ, (0 : ℝ) ≤ min ((k : ℝ) + 1) ((j : ℝ) + (n - 1 : ℕ) + 1) := fun k => by positivity
  constructor
  · simp only [e, hcs _ j hj]
    rw [hwd _ (n0 _), hwd _ (n0 _), hwd _ (n0 _), cut, cut, cut]
    cases k with
    | zero =>
      have : (1 : ℝ) ≤ n := by exact_mod_cast hn
      simp [hn, this]
    | succ k =>
      rw [if_neg (Nat.succ_ne_zero k), Nat.succ_sub_one, Nat.cast_succ]
      split
      · rename_i h
        have : (k : ℝ) + 1 + 1 ≤ n := by exact_mod_cast h
        rw [min_eq_right this, min_eq_right (by linarith)]
        ring
      · rename_i h
        have : (n : ℝ) ≤ k + 1 := by exact_mod_cast not_lt.1 h
        rw [min_eq_left (by linarith), min_eq_left this]
        ring
  · intro hkn
    rw [(hmon0 k j).2.2.2, g4 k j (by simpa using hj), List.getElem_range, if_pos (by omega)]
    exact one_pos

/-- Passes of weight zero do nothing. -/
theorem readout_silent (f : ℝ → ℝ) (dw : ℝ) (ts : List Ref.Traps) (ps : List (List (ℕ × ℝ)))
    (h : ∀ p ∈ ps, ∀ x ∈ p, x.2 = 0) (x : ℕ → ℝ) : Ref.readout f dw ts ps x = x := by
  induction ps with
  | nil =>
    unfold Ref.readout
    rw [List.foldl_nil]
  | cons p ps ih =>
    have e : p = (p.map Prod.fst).map fun r => (r, 0) := by
      rw [List.map_map]
      refine (List.map_id p).symm.trans (List.map_congr_left fun q hq => ?_)
      exact Prod.ext rfl (h p List.mem_cons_self q hq)
    unfold Ref.readout at *
    rw [List.foldl_cons, e, pass_zero]
    exact ih fun q hq => h q (List.mem_cons_of_mem _ hq)

/-- **C83**: charge injection of `n` transfers is a standard readout of the same rows, `n - 1` pixels away from the register,
stopped after `n` transfers. -/
theorem C83_standard (h : ExactObjects full power dw gs i c o d) (n : ℕ) (hn : 0 < n) (img : Image ℝ) (hnr : 0 < img.nr)
    (hno : n ≤ img.nr + o) :
    ∃ out out' roes roes', addCtiPy img (d.injected dw n) .all .absent .all none = .ok (out, roes) ∧
      addCtiPy img { d with offset := n - 1 } .all .absent .all (some (List.range n)) = .ok (out', roes') ∧
      out.SameShape img ∧ out'.SameShape img ∧ ∀ r < img.nr, ∀ c < img.nc, out.px r c = out'.px r c := by
  obtain ⟨out, a1, a2, a3⟩ := C83_add_cti h n hn img hnr
  obtain ⟨m, mon, hm, m1, m2⟩ := windowed_full i img.nr n hnr hn
  have h' := h
  obtain ⟨h0, ⟨h1, h2⟩, h3, h4, h5, h6, h7⟩ := h
  have hw := wellFill_exact h3 h4
  have hv : c.view = ⟨[1], c.view.fill⟩ := by
    rw [← h1]; rfl
  have hfill := CCD.view_fill h2 h3 h4
  have htraps : ∀ t ∈ gs.map Ref.ofTraps, t.Ok := by
    intro t ht
    obtain ⟨l, hl, rfl⟩ := List.mem_map.1 ht
    exact Ref.ofTraps_ok (h7 l hl).2
  obtain ⟨out', g1, g2, g3, g4⟩ := C53_clock img c.view.fill 1 dw i (gs.map Ref.ofTraps) 0 (n - 1) (List.range img.nr)
    (List.range img.nc) (some (List.range n)) m mon hm h5 one_pos (by rw [hfill]; exact hw.1) (by rw [hfill]; exact hw.2) htraps
    (fun w hw => List.mem_range.1 hw) (fun c hc => List.mem_range.1 hc) List.nodup_range
  have hpy : clockChargePy img (some c) (.standard [dw] true true true i) (.list (gs.map .group)) 0 (n - 1)
      (List.range img.nr) (List.range img.nc) (some (List.range n)) = .ok (out', .standard [dw] true true true i) := by
    rw [clockChargePy_groups img c _ gs h6 (fun l hl => (h7 l hl).1) (by rw [h1]; simp), hv, ← g1, List.map_map]
    congr 1
    exact List.map_congr_left fun l hl => Ref.ofTraps_group (h7 l hl).1 (h7 l hl).2
  have hser : ∃ sc, serialColumns (List.range img.nr) (List.range n) (n - 1) = .ok sc := by
    have hr1 : ∀ k, 0 < k → (List.range k).head? = some 0 := by
      intro k hk
      cases k with
      | zero => omega
      | succ k => simp [List.range_succ_eq_map]
    have hr2 : ∀ k, 0 < k → (List.range k).getLast? = some (k - 1) := by
      intro k hk
      cases k with
      | zero => omega
      | succ k => simp [List.range_succ]
    unfold serialColumns
    rw [hr1 _ hnr, hr1 _ hn, hr2 _ hnr, hr2 _ hn]
    exact ⟨_, rfl⟩
  obtain ⟨sc, hsc⟩ := hser
  refine ⟨out, out', _, (.standard [dw] true true true i, Roe.default), a1, ?_, a2, ⟨g2, g3⟩, fun r hr c' hc' => ?_⟩
  · rw [h0]
    unfold addCtiPy PyDirection.absent
    simp only [Window.resolve, bind, Except.bind, Option.getD_none, Option.getD_some]
    rw [hsc]
    simp only
    rw [hpy]
  · rw [a3 r hr c' hc', g4 r hr c', if_pos (List.mem_range.2 hc'), hfill, min_eq_left hno]
    have hsplit : matrixPasses (List.range img.nr) m mon =
        ((List.range n).map fun k => (List.range img.nr).map fun r => (r, if k < n then (1 : ℝ) else 0)) ++
        (List.range (img.nr - 1)).map fun k => ((List.range img.nr).filter fun j => mon.e (n + k) j).map fun r => (r, 0) := by
      unfold matrixPasses
      rw [m1, List.length_range, show img.nr + (n - 1) = n + (img.nr - 1) by omega, List.range_add, List.map_append]
      have entry : ∀ j < img.nr, (List.range img.nr).getD j 0 = j := fun j hj => by
        rw [List.getD_eq_getElem _ _ (by simpa using hj), List.getElem_range]
      congr 1
      · refine List.map_congr_left fun k hk => ?_
        have hk' := List.mem_range.1 hk
        have hall : ∀ j < img.nr, (m.e k j = if k < n then 1 else 0) ∧ (k < n → mon.e k j = true) :=
          m2 k (by rw [m1]; omega)
        rw [List.filter_eq_self.2 fun j hj => (hall j (List.mem_range.1 hj)).2 hk']
        refine List.map_congr_left fun j hj => ?_
        rw [(hall j (List.mem_range.1 hj)).1, entry j (List.mem_range.1 hj)]
      · rw [List.map_map]
        refine List.map_congr_left fun k hk => ?_
        have hk' := List.mem_range.1 hk
        refine List.map_congr_left fun j hj => ?_
        have hj' := List.mem_range.1 (List.mem_filter.1 hj).1
        rw [(m2 (n + k) (by rw [m1]; omega) j hj').1, if_neg (by omega), entry j hj']
    rw [hsplit]
    unfold Ref.readout
    rw [List.foldl_append]
    have silent := readout_silent (wellFill full power) dw ((gs.map Ref.ofTraps).map fun t => t.inPhase 1)
      ((List.range (img.nr - 1)).map fun k => ((List.range img.nr).filter fun j => mon.e (n + k) j).map fun r => (r, (0 : ℝ)))
      (by
        intro p hp x hx
        obtain ⟨k, -, rfl⟩ := List.mem_map.1 hp
        obtain ⟨j, -, rfl⟩ := List.mem_map.1 hx
        rfl)
    unfold Ref.readout at silent
    rw [silent]
    have it := readout_iterate (wellFill full power) dw (gs.map Ref.ofTraps) img.nr n n (fun r => img.px r c')
    rw [Nat.min_self] at it
    rw [← it]
    unfold Ref.readout
    simp only [inPhase_one, List.map_map]
    rfl

/-! ### what one pass does -/

theorem gains_at {f : ℝ → ℝ} {dw : ℝ} (R : ℕ) (x : ℕ → ℝ) (ts : List Ref.Traps) {r : ℕ} (hr : r < R) :
    Ref.gains f dw (List.range R) x ts r = Ref.gain f dw (Ref.afters f dw (List.range r) x ts) (x r) := by
  obtain ⟨k, rfl⟩ : ∃ k, R = r + (k + 1) := ⟨R - r - 1, by omega⟩
  rw [List.range_add, gains_append, if_neg (by simp), List.range_succ_eq_map, List.map_cons, Nat.add_zero, Ref.gains, if_pos rfl]

theorem onePass_gains {f : ℝ → ℝ} {dw L : ℝ} (hf : LipFill f L) (R : ℕ) {ts : List Ref.Traps} (hts : Ref.Few dw L ts) (x : ℕ → ℝ)
    (hx : ∀ r < R, 0 ≤ x r) {r : ℕ} (hr : r < R) :
    Ref.onePass f dw ts R x r = x r + Ref.gain f dw (Ref.afters f dw (List.range r) x ts) (x r) ∧
      0 ≤ Ref.onePass f dw ts R x r := by
  have h1 := fold_gains hf (fun _ => 1) (List.range R) x ts hts List.nodup_range
    (fun r hr => ⟨hx r (List.mem_range.1 hr), zero_le_one, by rw [one_mul]; exact hts.few⟩) r
  rw [if_pos (List.mem_range.2 hr), one_mul] at h1
  have e : Ref.onePass f dw ts R x r = x r + Ref.gains f dw (List.range R) x ts r := h1
  have h2 := gains_low hf (List.range R) x ts hts (hx r hr)
  have h3 := mul_le_mul_of_nonneg_right hts.few (hx r hr)
  refine ⟨by rw [e, gains_at R x ts hr], by rw [e]; linarith⟩

theorem Ref.Spent.below {dw : ℝ} {ts ts0 : List Ref.Traps} (h : Ref.Spent dw ts ts0) (hts : ∀ t ∈ ts, t.Reg dw) :
    Ref.Below dw ts0 ts := by
  induction h with
  | nil => exact .nil
  | @cons t t0 ts ts0 h hs ih =>
    obtain ⟨rfl, h2⟩ := h
    have ht := hts t List.mem_cons_self
    exact .cons ⟨t.occ, rfl, ht, fun d j => (ht.frac d j).1⟩ (ih fun x hx => hts x (List.mem_cons_of_mem _ hx))

/-- The later a row, the fuller the traps it meets, if the rows do not get fainter. -/
theorem afters_below {f : ℝ → ℝ} {dw L : ℝ} (hf : LipFill f L) {ts : List Ref.Traps} (hts : Ref.Few dw L ts)
    (hs : Ref.Spent dw ts ts) (R : ℕ) (x : ℕ → ℝ) (hx : ∀ r < R, 0 ≤ x r) (hup : ∀ r, r + 1 < R → x r ≤ x (r + 1)) (r : ℕ)
    (hr : r + 1 < R) :
    Ref.Below dw (Ref.afters f dw (List.range r) x ts) (Ref.afters f dw (List.range (r + 1)) x ts) := by
  have step : ∀ r, Ref.afters f dw (List.range (r + 1)) x ts = Ref.after f dw (Ref.afters f dw (List.range r) x ts) (x r) := by
    intro r
    unfold Ref.afters
    rw [List.range_succ, List.foldl_append]
    rfl
  induction r with
  | zero =>
    rw [step]
    exact (hs.after hf hts (x 0)).below (hts.after hf (x 0)).1.reg
  | succ r ih =>
    have hfew := (afters_facts hf (List.range r) x ts ts hts hs fun q hq => hx q (by have := List.mem_range.1 hq; omega)).1
    have := ((ih (by omega)).step hf hfew (hup r (by omega))).1
    rw [step (r + 1), step r]
    rw [step r] at this
    exact this

theorem onePass_rising {f : ℝ → ℝ} {dw L : ℝ} (hf : LipFill f L) {ts : List Ref.Traps} (hts : Ref.Few dw L ts)
    (hs : Ref.Spent dw ts ts) (R : ℕ) (x : ℕ → ℝ) (hx : ∀ r < R, 0 ≤ x r) (hup : ∀ r, r + 1 < R → x r ≤ x (r + 1)) (r : ℕ)
    (hr : r + 1 < R) : Ref.onePass f dw ts R x r ≤ Ref.onePass f dw ts R x (r + 1) := by
  rw [(onePass_gains hf R hts x hx (by omega : r < R)).1, (onePass_gains hf R hts x hx hr).1]
  have hfew := afters_facts hf (List.range r) x ts ts hts hs fun q hq => hx q (by have := List.mem_range.1 hq; omega)
  have := ((afters_below hf hts hs R x hx hup r hr).step hf hfew.1 (hup r hr)).2
  rw [hfew.2.1] at this
  have h1 := mul_le_mul_of_nonneg_right hts.few (sub_nonneg.2 (hup r hr))
  linarith

theorem ExactObjects.few_traps (h : ExactObjects full power dw gs i c o d) (hpw : 1 ≤ power)
    (hfew : trapCount gs * (power / full) ≤ 1) : Ref.Few dw (power / full) (gs.map Ref.ofTraps) :=
  h.few (wellFill_lip h.full hpw).nonneg_slope hfew

theorem ExactObjects.spent (h : ExactObjects full power dw gs i c o d) :
    Ref.Spent dw (gs.map Ref.ofTraps) (gs.map Ref.ofTraps) :=
  Ref.ofTraps_spent h.dwell fun l hl => (h.groups.2 l hl).2

theorem iterate_rising (h : ExactObjects full power dw gs i c o d) (hpw : 1 ≤ power) (hfew : trapCount gs * (power / full) ≤ 1)
    (R N : ℕ) (x : ℕ → ℝ) (hx : ∀ r < R, 0 ≤ x r) (hup : ∀ r, r + 1 < R → x r ≤ x (r + 1)) :
    (∀ r < R, 0 ≤ (Ref.onePass (wellFill full power) dw (gs.map Ref.ofTraps) R)^[N] x r) ∧
      ∀ r, r + 1 < R → (Ref.onePass (wellFill full power) dw (gs.map Ref.ofTraps) R)^[N] x r ≤
        (Ref.onePass (wellFill full power) dw (gs.map Ref.ofTraps) R)^[N] x (r + 1) := by
  have hf := wellFill_lip h.full hpw
  have hF := h.few_traps hpw hfew
  induction N with
  | zero => exact ⟨hx, hup⟩
  | succ N ih =>
    simp only [Function.iterate_succ_apply']
    exact ⟨fun r hr => (onePass_gains hf R hF _ ih.1 hr).2, fun r hr => onePass_rising hf hF h.spent R _ ih.1 ih.2 r hr⟩

/-- **C83**: columns that do not get fainter with the row number come out as such: of a flat injection block the first row loses
most. -/
theorem C83_rising (h : ExactObjects full power dw gs i c o d) (hpw : 1 ≤ power) (hfew : trapCount gs * (power / full) ≤ 1)
    (n : ℕ) (hn : 0 < n) (img : Image ℝ) (hnr : 0 < img.nr) (himg : ∀ r < img.nr, ∀ c < img.nc, 0 ≤ img.px r c)
    (hup : ∀ r, r + 1 < img.nr → ∀ c < img.nc, img.px r c ≤ img.px (r + 1) c) :
    ∃ out roes, addCtiPy img (d.injected dw n) .all .absent .all none = .ok (out, roes) ∧ out.SameShape img ∧
      ∀ r, r + 1 < img.nr → ∀ c < img.nc, out.px r c ≤ out.px (r + 1) c := by
  obtain ⟨out, a1, a2, a3⟩ := C83_add_cti h n hn img hnr
  refine ⟨out, _, a1, a2, fun r hr c hc => ?_⟩
  rw [a3 r (by omega) c hc, a3 (r + 1) hr c hc]
  exact (iterate_rising h hpw hfew img.nr _ (fun r => img.px r c) (fun r hr => himg r hr c hc) fun r hr => hup r hr c hc).2 r hr

theorem iterate_first (h : ExactObjects full power dw gs i c o d) (hpw : 1 ≤ power) (hfew : trapCount gs * (power / full) ≤ 1)
    (R N : ℕ) (hR : 0 < R) (x : ℕ → ℝ) (hx : ∀ r < R, 0 ≤ x r) :
    (∀ r < R, 0 ≤ (Ref.onePass (wellFill full power) dw (gs.map Ref.ofTraps) R)^[N] x r) ∧
    (Ref.onePass (wellFill full power) dw (gs.map Ref.ofTraps) R)^[N] x 0 =
      (fun z => z - trapCount gs * wellFill full power z)^[N] (x 0) := by
  have hf := wellFill_lip h.full hpw
  have hF := h.few_traps hpw hfew
  induction N with
  | zero => exact ⟨hx, rfl⟩
  | succ N ih =>
    simp only [Function.iterate_succ_apply']
    refine ⟨fun r hr => (onePass_gains hf R hF _ ih.1 hr).2, ?_⟩
    rw [(onePass_gains hf R hF _ ih.1 hR).1, ← ih.2]
    simp only [List.range_zero, Ref.afters, List.foldl_nil]
    rw [gain_empty hf hF]
    ring

/-- **C83**: the first row. Every transfer takes the number of traps inside its cloud from it. -/
theorem C83_first (h : ExactObjects full power dw gs i c o d) (hpw : 1 ≤ power) (hfew : trapCount gs * (power / full) ≤ 1)
    (n : ℕ) (hn : 0 < n) (img : Image ℝ) (hnr : 0 < img.nr) (himg : ∀ r < img.nr, ∀ c < img.nc, 0 ≤ img.px r c) :
    ∃ out roes, addCtiPy img (d.injected dw n) .all .absent .all none = .ok (out, roes) ∧ out.SameShape img ∧
      ∀ c < img.nc, out.px 0 c = (fun z => z - trapCount gs * wellFill full power z)^[min n (img.nr + o)] (img.px 0 c) := by
  obtain ⟨out, a1, a2, a3⟩ := C83_add_cti h n hn img hnr
  refine ⟨out, _, a1, a2, fun c hc => ?_⟩
  rw [a3 0 hnr c hc]
  exact (iterate_first h hpw hfew img.nr _ hnr (fun r => img.px r c) fun r hr => himg r hr c hc).2

theorem iterate_linear {N : ℝ} (hN : 0 ≤ N) (hfull : 0 < full) (hfew : N / full ≤ 1) (m : ℕ) (z : ℝ) (h0 : 0 ≤ z)
    (h1 : z ≤ full) : (fun z => z - N * wellFill full 1 z)^[m] z = (1 - N / full) ^ m * z := by
  have hk : 0 ≤ N / full := div_nonneg hN hfull.le
  induction m with
  | zero => simp
  | succ m ih =>
    rw [Function.iterate_succ_apply', ih]
    have p0 : 0 ≤ (1 - N / full) ^ m := pow_nonneg (by linarith) m
    have p1 : (1 - N / full) ^ m ≤ 1 := pow_le_one₀ (by linarith) (by linarith)
    have b0 := mul_nonneg p0 h0
    have b1 : (1 - N / full) ^ m * z ≤ full := by nlinarith
    have e : wellFill full 1 ((1 - N / full) ^ m * z) = (1 - N / full) ^ m * z / full := by
      unfold wellFill
      rw [Real.rpow_one, max_eq_right (div_nonneg b0 hfull.le), min_eq_right (by rw [div_le_one hfull]; exact b1)]
    simp only [e]
    rw [pow_succ]
    field_simp

/-- **C83**: the first row for `well_fill_power = 1`: `1 - N / full_well_depth` is left per transfer. -/
theorem C83_first_linear (h : ExactObjects full 1 dw gs i c o d) (hfew : trapCount gs ≤ full) (n : ℕ) (hn : 0 < n) (img : Image ℝ)
    (hnr : 0 < img.nr) (himg : ∀ r < img.nr, ∀ c < img.nc, 0 ≤ img.px r c) (hsat : ∀ c < img.nc, img.px 0 c ≤ full) :
    ∃ out roes, addCtiPy img (d.injected dw n) .all .absent .all none = .ok (out, roes) ∧ out.SameShape img ∧
      ∀ c < img.nc, out.px 0 c = (1 - trapCount gs / full) ^ min n (img.nr + o) * img.px 0 c := by
  have hk : trapCount gs * (1 / full) ≤ 1 := by rw [mul_one_div, div_le_one h.full]; exact hfew
  obtain ⟨out, roes, a1, a2, a3⟩ := C83_first h le_rfl hk n hn img hnr himg
  refine ⟨out, roes, a1, a2, fun c hc => ?_⟩
  rw [a3 c hc]
  exact iterate_linear h.count_nonneg h.full (by rw [div_le_one h.full]; exact hfew) _ _ (himg 0 hnr c hc) (hsat c hc)

/-! ### fewer computed passes -/

theorem injectionShare_nonneg (n E T k : ℕ) : 0 ≤ injectionShare n E T k := by
  unfold injectionShare
  have : (0 : ℝ) ≤ (n : ℝ) / E := by positivity
  exact sub_nonneg.2 (min_le_min le_rfl (by nlinarith))

theorem injectionShare_sum (n E T : ℕ) (hE : 0 < E) : ∑ k ∈ range E, injectionShare n E T k = (min n T : ℕ) := by
  have := Finset.sum_range_sub (fun j : ℕ => min (T : ℝ) ((j : ℝ) * ((n : ℝ) / E))) E
  simp only [Nat.cast_add, Nat.cast_one, Nat.cast_zero, zero_mul] at this
  unfold injectionShare
  rw [this, mul_div_cancel₀ _ (by exact_mod_cast hE.ne' : (E : ℝ) ≠ 0), min_eq_right (Nat.cast_nonneg T), sub_zero, Nat.cast_min,
    min_comm]

noncomputable def injectionSlot (n E T k : ℕ) : Slot := ⟨0, injectionShare n E T k, fun _ => injectionShare n E T k⟩

theorem injection_frozen {f : ℝ → ℝ} {dw L : ℝ} (hf : LipFill f L) {ts : List Ref.Traps} (hts : Ref.Few dw L ts)
    (hsp : Ref.Spent dw ts ts) (h0 : Ref.filling ts = 0) (hl : 2 * (Ref.totals ts * L) < 1) (R n E T : ℕ) (hE : 0 < E) {σ : ℝ}
    (hσ : σ = (min n T : ℕ) * passSlope 1 (2 * (Ref.totals ts * L))) (h1 : σ ≤ 1) (x : ℕ → ℝ) (hx : ∀ r < R, 0 ≤ x r) :
    ∑ r ∈ range R, |Ref.readout f dw ts (injectionPasses R E (injectionShare n E T)) x r - x r -
      (min n T : ℕ) * Ref.unitPass f dw ts R 0 0 x r| ≤ σ ^ 2 * ∑ r ∈ range R, x r := by
  have hG := unitPass_rates hf ts hts hsp h0 hl R 0
  have hk := mul_nonneg (Ref.totals_nonneg hts.reg) hts.slope
  have hs2 : 2 * (Ref.totals ts * L) ≤ passSlope 1 (2 * (Ref.totals ts * L)) := by
    unfold passSlope
    rw [one_mul, le_div_iff₀ (by linarith)]
    nlinarith
  set s := passSlope 1 (2 * (Ref.totals ts * L)) with hs
  have hs0 := hG.slope
  have sum := injectionShare_sum n E T hE
  have load : slotLoad s ((List.range E).map (injectionSlot n E T)) = σ := by
    unfold slotLoad
    rw [List.map_map, list_range_sum]
    simp only [Function.comp_apply, injectionSlot]
    rw [← Finset.sum_mul, sum, hσ]
  have ok : ∀ k ∈ List.range E, Fits R 0 ((List.range R).map fun r => (r, injectionShare n E T k)) (injectionSlot n E T k) ∧
      (injectionSlot n E T k).Ok R s := by
    intro k hk'
    have hle : injectionShare n E T k ≤ (min n T : ℕ) := by
      rw [← sum]
      exact Finset.single_le_sum (f := injectionShare n E T) (fun j _ => injectionShare_nonneg n E T j)
        (Finset.mem_range.2 (List.mem_range.1 hk'))
    refine ⟨⟨fun _ => true, by simp [injectionSlot], fun r _ h => absurd rfl h, Or.inl fun r _ => by simp [injectionSlot]⟩,
      fun r _ => injectionShare_nonneg n E T k, fun r _ => le_rfl, injectionShare_nonneg n E T k, ?_⟩
    change injectionShare n E T k * (s / 2) ≤ 1
    have := mul_le_mul_of_nonneg_right hle hs0
    linarith
  have ok' : ∀ p ∈ (List.range E).map (injectionSlot n E T), p.Ok R s := by
    intro p hp
    obtain ⟨k, hk, rfl⟩ := List.mem_map.1 hp
    exact (ok k hk).2
  have e := readout_slots hf hts hs2 hG (List.range E) _ (injectionSlot n E T) ok x hx
  have key := run_frozen_sq hG _ ok' x hx load.le h1
  have fr : ∀ r, frozen (Ref.unitPass f dw ts R 0) ((List.range E).map (injectionSlot n E T)) x r =
      (min n T : ℕ) * Ref.unitPass f dw ts R 0 0 x r := by
    intro r
    unfold frozen
    rw [List.map_map, list_range_sum]
    simp only [Function.comp_apply, injectionSlot]
    rw [← Finset.sum_mul, sum]
  simp only [fr] at key
  unfold injectionPasses
  rw [e]
  exact key

/-- **C83**: `express` with charge injection. Where all transfers together cost a fraction `σ` at most, an image computed with fewer
passes differs from that of all passes by `2 σ²` of the charge at most: there is no error of first order. -/
theorem C83_express (h : ExactObjects full power dw gs i c o d) (hpw : 1 ≤ power) (n e : ℕ) (hn : 0 < n) (img : Image ℝ)
    (hnr : 0 < img.nr) (himg : ∀ r < img.nr, ∀ c < img.nc, 0 ≤ img.px r c) (l σ : ℝ)
    (hl : l = 2 * (trapCount gs * (power / full))) (hl1 : l < 1) (hσ : σ = (min n (img.nr + o) : ℕ) * (l / (1 - l))) (h1 : σ ≤ 1) :
    ∃ a b roes roes', addCtiPy img { d.injected dw n with express := e } .all .absent .all none = .ok (a, roes) ∧
      addCtiPy img (d.injected dw n) .all .absent .all none = .ok (b, roes') ∧ a.SameShape img ∧ b.SameShape img ∧
      a.dist b ≤ 2 * σ ^ 2 * img.total := by
  have hf := wellFill_lip h.full hpw
  have hF := h.few_traps hpw (by
    have := mul_nonneg h.count_nonneg hf.nonneg_slope
    linarith)
  have tot := Ref.ofTraps_totals gs
  have run : ∀ e, ∃ out roes, addCtiPy img { d.injected dw n with express := e } .all .absent .all none = .ok (out, roes) ∧
      out.SameShape img ∧ ∀ r < img.nr, ∀ c < img.nc, out.px r c =
        Ref.readout (wellFill full power) dw (gs.map Ref.ofTraps) (injectionPasses img.nr (effectiveExpress e n)
          (injectionShare n (effectiveExpress e n) (img.nr + o))) (fun r => img.px r c) r := by
    intro e
    obtain ⟨out, g1, g2, g3, g4⟩ := h.run_injection n e hn img hnr (some (List.range (img.nr + o))) (img.nr + o)
      (Or.inr ⟨rfl, by omega⟩)
    refine ⟨out, (.injection [dw] (some n) true true false, Roe.default), ?_, ⟨g2, g3⟩, g4⟩
    rw [h.eq]
    unfold addCtiPy PyDirection.absent PyDirection.injected
    simp only [Window.resolve, bind, Except.bind, Option.getD_none, Option.getD_some]
    rw [g1]
  have near : ∀ e, ∀ c < img.nc, ∑ r ∈ range img.nr, |Ref.readout (wellFill full power) dw (gs.map Ref.ofTraps)
      (injectionPasses img.nr (effectiveExpress e n) (injectionShare n (effectiveExpress e n) (img.nr + o)))
        (fun r => img.px r c) r - img.px r c - (min n (img.nr + o) : ℕ) *
          Ref.unitPass (wellFill full power) dw (gs.map Ref.ofTraps) img.nr 0 0 (fun r => img.px r c) r| ≤
      σ ^ 2 * ∑ r ∈ range img.nr, img.px r c := by
    intro e c hc
    exact injection_frozen hf hF h.spent (Ref.ofTraps_filling gs) (by rw [tot, ← hl]; exact hl1) img.nr n _ (img.nr + o)
      (effectiveExpress_pos e n hn) (by rw [tot, ← hl, hσ, passSlope, one_mul]) h1 (fun r => img.px r c)
      fun r hr => himg r hr c hc
  obtain ⟨a, roes, a1, a2, a3⟩ := run e
  obtain ⟨b, roes', b1, b2, b3⟩ := run 0
  have b1' : addCtiPy img (d.injected dw n) .all .absent .all none = .ok (b, roes') := by
    rw [← b1, h.eq]
    rfl
  refine ⟨a, b, roes, roes', a1, b1', a2, b2, ?_⟩
  have e1 : a.dist b = ∑ c ∈ range img.nc, ∑ r ∈ range img.nr, |a.px r c - b.px r c| := by
    unfold Image.dist
    rw [a2.1, a2.2, Finset.sum_comm]
  have e2 : img.total = ∑ c ∈ range img.nc, ∑ r ∈ range img.nr, img.px r c := by
    unfold Image.total
    rw [Finset.sum_comm]
  rw [e1, e2, Finset.mul_sum]
  refine Finset.sum_le_sum fun c hc => ?_
  have hc' := Finset.mem_range.1 hc
  have q1 := near e c hc'
  have q2 := near 0 c hc'
  refine le_trans ?_ ((add_le_add q1 q2).trans (le_of_eq (by ring)))
  rw [← Finset.sum_add_distrib]
  refine Finset.sum_le_sum fun r hr => ?_
  have hr' := Finset.mem_range.1 hr
  rw [a3 r hr' c hc', b3 r hr' c hc']
  refine le_trans (le_of_eq ?_) (abs_sub _ _)
  congr 1
  ring

/-! ### correction -/

theorem ExactObjects.mild_injection (h : ExactObjects full power dw gs i c o d) (hpw : 1 ≤ power)
    (hfew : 2 * (trapCount gs * (power / full)) < 1) (R N : ℕ) :
    Mild R 0 0 (lossSlope (2 * (trapCount gs * (power / full))) N)
      ((Ref.onePass (wellFill full power) dw (gs.map Ref.ofTraps) R)^[N]) := by
  have hf := wellFill_lip h.full hpw
  have hF := h.few_traps hpw (by
    have := mul_nonneg h.count_nonneg hf.nonneg_slope
    linarith)
  have htot := Ref.ofTraps_totals gs
  have e : (Ref.onePass (wellFill full power) dw (gs.map Ref.ofTraps) R)^[N] =
      Ref.readout (wellFill full power) dw (gs.map Ref.ofTraps)
        ((List.range N).map fun k => (List.range R).map fun r => (r, if k < N then (1 : ℝ) else 0)) := by
    funext x
    have := readout_iterate (wellFill full power) dw (gs.map Ref.ofTraps) R N N x
    rw [Nat.min_self] at this
    exact this.symm
  have good : GoodPasses R 1 ((List.range N).map fun k => (List.range R).map fun r => (r, if k < N then (1 : ℝ) else 0)) := by
    constructor
    · intro todo ht
      obtain ⟨k, -, rfl⟩ := List.mem_map.1 ht
      rw [List.map_map]
      simpa [Function.comp_def] using List.nodup_range
    · intro todo ht p hp
      obtain ⟨k, -, rfl⟩ := List.mem_map.1 ht
      obtain ⟨r, hr, rfl⟩ := List.mem_map.1 hp
      refine ⟨List.mem_range.1 hr, ?_, ?_⟩ <;> dsimp only <;> split <;> norm_num
  have key := readout_lip hf R 1 zero_le_one _ hF (by rw [one_mul]; exact hF.few) (by rw [htot]; exact hfew) _ good
  rw [← e] at key
  rw [htot, List.length_map, List.length_range, lossSlope_eq hfew] at key
  have zero := readout_zero hf hF (Ref.ofTraps_vacant gs)
    ((List.range N).map fun k => (List.range R).map fun r => (r, if k < N then (1 : ℝ) else 0))
  rw [← e] at zero
  refine ⟨fun x hx => (key x x hx hx).1, fun x hx => ?_, fun x y hx hy => (key x y hx hy).2⟩
  have := (key x (fun _ => 0) hx fun _ _ => le_rfl).2
  rw [zero] at this
  simpa only [sub_zero, colDist_zero hx] using this

/-- **C83**: `remove_cti` with charge injection converges to the image before the transfers. -/
theorem C83_remove_cti (h : ExactObjects full power dw gs i c o d) (hpw : 1 ≤ power) (n : ℕ) (hn : 0 < n) (truth : Image ℝ)
    (hnr : 0 < truth.nr) (l q : ℝ) (hl : l = 2 * (trapCount gs * (power / full))) (hl1 : l < 1)
    (hq : q = (1 / (1 - l)) ^ min n (truth.nr + o) - 1) (hq1 : q ≤ 1)
    (htruth : ∀ r < truth.nr, ∀ c < truth.nc, q * truth.total ≤ truth.px r c) (hpos : 0 ≤ truth.total) :
    ∃ img roes, addCtiPy truth (d.injected dw n) .all .absent .all none = .ok (img, roes) ∧
      ∀ k, ∃ out, removeCtiPy img k (d.injected dw n) .all .absent .all none = .ok (out, (d.injected dw n).roe, none) ∧
        out.SameShape truth ∧ out.dist truth ≤ q ^ (k + 1) * truth.total := by
  have hl0 : 0 ≤ l := by
    rw [hl]
    have := mul_nonneg h.count_nonneg (wellFill_lip h.full hpw).nonneg_slope
    linarith
  have hM := h.mild_injection hpw (by rw [← hl]; exact hl1) truth.nr (min n (truth.nr + o))
  rw [← hl] at hM
  have hq0 := lossSlope_nonneg hl0 hl1 (min n (truth.nr + o))
  have hqe : lossSlope l (min n (truth.nr + o)) = q := by rw [hq]; rfl
  rw [hqe] at hM hq0
  have ht0 : ∀ r < truth.nr, ∀ c < truth.nc, 0 ≤ truth.px r c := fun r hr c hc =>
    (mul_nonneg hq0 hpos).trans (htruth r hr c hc)
  have run : ∀ x : Image ℝ, x.SameShape truth → ∃ y, addCtiPy x (d.injected dw n) .all .absent .all none =
        .ok (y, .injection [dw] (some n) true true false, Roe.default) ∧ y.SameShape truth ∧
      ∀ r < truth.nr, ∀ c < truth.nc, y.px r c =
        (Ref.onePass (wellFill full power) dw (gs.map Ref.ofTraps) truth.nr)^[min n (truth.nr + o)] (fun r => x.px r c) r := by
    intro x hx
    obtain ⟨y, g1, g2, g3⟩ := C83_add_cti h n hn x (by rw [hx.1]; exact hnr)
    rw [hx.1, hx.2] at g3
    exact ⟨y, g1, ⟨g2.1.trans hx.1, g2.2.trans hx.2⟩, g3⟩
  obtain ⟨img, t1, t2, t3⟩ := run truth ⟨rfl, rfl⟩
  have hdist : img.dist truth ≤ q * truth.total := by
    have e1 : img.dist truth = ∑ c ∈ range truth.nc, ∑ r ∈ range truth.nr, |img.px r c - truth.px r c| := by
      unfold Image.dist
      rw [t2.1, t2.2, Finset.sum_comm]
    have e2 : truth.total = ∑ c ∈ range truth.nc, ∑ r ∈ range truth.nr, truth.px r c := by
      unfold Image.total
      rw [Finset.sum_comm]
    rw [e1, e2, Finset.mul_sum]
    refine Finset.sum_le_sum fun c hc => ?_
    have hc' := Finset.mem_range.1 hc
    refine le_trans (le_of_eq ?_) (hM.small (fun r => truth.px r c) fun r hr => ht0 r hr c hc')
    exact Finset.sum_congr rfl fun r hr => by rw [t3 r (Finset.mem_range.1 hr) c hc']
  refine ⟨img, _, t1, fun k => ?_⟩
  have hroe : (d.injected dw n).roe = some (.injection [dw] (some n) true true false) := rfl
  obtain ⟨out, o1, o2, o3⟩ : ∃ out, removeCtiPy img k (d.injected dw n) .all .absent .all none =
      .ok (out, (d.injected dw n).roe, none) ∧ out.SameShape truth ∧ out.dist truth ≤ q ^ k * img.dist truth := by
    refine removeIter_converges _ ((d.injected dw n).roe, none) truth img 0 q hq0 hq1 t2
      (fun r hr c hc => by rw [zero_add]; exact hdist.trans (htruth r hr c hc)) (fun x hx hlow => by
      obtain ⟨y, g1, g2, g3⟩ := run x hx
      refine ⟨y, ?_, g2, ?_⟩
      · simp only [bind, Except.bind]
        have e2 : addCtiPy x { d.injected dw n with roe := (d.injected dw n).roe } .all { PyDirection.absent with roe := none }
            .all none = .ok (y, .injection [dw] (some n) true true false, Roe.default) := g1
        rw [e2]
        simp only [hroe, Option.map_some, Option.map_none]
      · have e : x.dist truth = ∑ c ∈ Finset.range truth.nc, ∑ r ∈ Finset.range truth.nr, |x.px r c - truth.px r c| := by
          unfold Image.dist
          rw [hx.1, hx.2, Finset.sum_comm]
        rw [e, Finset.sum_comm, Finset.mul_sum]
        refine Finset.sum_le_sum fun c hc => ?_
        have hc' := Finset.mem_range.1 hc
        refine le_trans (le_of_eq ?_) (hM.lip (fun r => x.px r c) (fun r => truth.px r c) (fun r hr => hlow r hr c hc')
          (fun r hr => ht0 r hr c hc'))
        refine Finset.sum_congr rfl fun r hr => ?_
        rw [g3 r (Finset.mem_range.1 hr) c hc', t3 r (Finset.mem_range.1 hr) c hc']) k
  refine ⟨out, o1, o2, o3.trans ?_⟩
  rw [pow_succ, mul_assoc]
  exact mul_le_mul_of_nonneg_left hdist (pow_nonneg hq0 k)

end

/-! ### examples -/

/-- A linear well of 10000 electrons with half a trap per pixel; a flat block of four rows of 1000 electrons makes six transfers, of
which the window of `add_cti` keeps the first four plus the offset. -/
example (c : CCD) (d : PyDirection) (h : ExactObjects 10000 1 1 [[.instant (1 / 2) 5 false]] true c 1 d) :
    ∃ out roes, addCtiPy ⟨4, 2, fun _ _ => 1000⟩ (d.injected 1 6) .all .absent .all none = .ok (out, roes) ∧
      (∀ c < 2, out.px 0 c = (1 - 1 / 20000) ^ 5 * 1000) ∧ ∀ r, r + 1 < 4 → ∀ c < 2, out.px r c ≤ out.px (r + 1) c := by
  have hc : trapCount [[.instant (1 / 2) 5 false]] = 1 / 2 := by simp [trapCount, Trap.density]
  obtain ⟨out, roes, a1, a2, a3⟩ := C83_first_linear h (by rw [hc]; norm_num) 6 (by norm_num)
    (⟨4, 2, fun _ _ => 1000⟩ : Image ℝ) (by norm_num) (fun _ _ _ _ => by norm_num) (fun _ _ => by norm_num)
  obtain ⟨out', roes', b1, b2, b3⟩ := C83_rising h le_rfl (by rw [hc]; norm_num) 6 (by norm_num)
    (⟨4, 2, fun _ _ => 1000⟩ : Image ℝ) (by norm_num) (fun _ _ _ _ => by norm_num) (fun _ _ _ _ => le_rfl)
  rw [a1] at b1
  injection b1 with b1
  injection b1 with b1 _
  subst b1
  refine ⟨out, roes, a1, fun c hc' => ?_, b3⟩
  rw [a3 c hc', hc]
  norm_num

/-- The same block, three of its transfers computed in one pass and undone by `remove_cti`. -/
example (c : CCD) (d : PyDirection) (h : ExactObjects 10000 1 1 [[.instant (1 / 2) 5 false]] true c 1 d) :
    (∃ a b roes roes', addCtiPy ⟨4, 2, fun _ _ => 1000⟩ { d.injected 1 3 with express := 1 } .all .absent .all none = .ok (a, roes) ∧
      addCtiPy ⟨4, 2, fun _ _ => 1000⟩ (d.injected 1 3) .all .absent .all none = .ok (b, roes') ∧ a.dist b ≤ 1 / 100) ∧
    ∃ img roes, addCtiPy ⟨4, 2, fun _ _ => 1000⟩ (d.injected 1 3) .all .absent .all none = .ok (img, roes) ∧
      ∀ k, ∃ out, removeCtiPy img k (d.injected 1 3) .all .absent .all none = .ok (out, (d.injected 1 3).roe, none) ∧
        out.dist ⟨4, 2, fun _ _ => 1000⟩ ≤ (1 / 1000) ^ (k + 1) * 8000 := by
  have htot : Image.total (⟨4, 2, fun _ _ => 1000⟩ : Image ℝ) = 8000 := by
    simp [Image.total]; norm_num
  have hc : trapCount [[.instant (1 / 2) 5 false]] = 1 / 2 := by simp [trapCount, Trap.density]
  constructor
  · obtain ⟨a, b, roes, roes', a1, b1, -, -, hd⟩ := C83_express h le_rfl 3 1 (by norm_num) (⟨4, 2, fun _ _ => 1000⟩ : Image ℝ)
      (by norm_num) (fun _ _ _ _ => by norm_num) (1 / 10000) (3 * (1 / 9999)) (by rw [hc]; norm_num) (by norm_num)
      (by norm_num) (by norm_num)
    refine ⟨a, b, roes, roes', a1, b1, hd.trans ?_⟩
    rw [htot]
    norm_num
  · obtain ⟨q, hq⟩ : ∃ q : ℝ, q = (1 / (1 - 1 / 10000)) ^ 3 - 1 := ⟨_, rfl⟩
    have q0 : 0 ≤ q := by rw [hq]; norm_num
    have q1 : q ≤ 1 / 1000 := by rw [hq]; norm_num
    obtain ⟨img, roes, g1, g2⟩ := C83_remove_cti h le_rfl 3 (by norm_num) (⟨4, 2, fun _ _ => 1000⟩ : Image ℝ) (by norm_num)
      (1 / 10000) q (by rw [hc]; norm_num) (by norm_num) (by rw [hq]; norm_num) (by linarith)
      (fun _ _ _ _ => by rw [htot]; dsimp only; linarith) (by rw [htot]; norm_num)
    refine ⟨img, roes, g1, fun k => ?_⟩
    obtain ⟨out, o1, -, o3⟩ := g2 k
    refine ⟨out, o1, o3.trans ?_⟩
    rw [htot]
    exact mul_le_mul_of_nonneg_right (pow_le_pow_left₀ q0 q1 _) (by norm_num)

end Arctic
