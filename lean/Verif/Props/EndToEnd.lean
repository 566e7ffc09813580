import Verif.Model.Objects
import Verif.Props.Reference
import Verif.Props.TrapLists
import Verif.Props.CCD

/-!
# C55 — `add_cti` with arcticpy's own objects
-/

set_option linter.unusedSectionVars false
set_option linter.unusedVariables false

namespace Arctic

/-! ## Specification -/

/-- Fraction of the pixel's volume filled by `n` electrons, for a full well of `full` electrons. -/
noncomputable def wellFill (full power n : ℝ) : ℝ := (min 1 (max 0 (n / full))) ^ power

/-- Trap species with exponential release, none of them filled. -/
noncomputable def Ref.ofTraps (traps : List Trap) : Ref.Traps where
  s := traps.length
  dens j := traps[j].density
  keep x j := Real.exp (-x / traps[j].releaseTimescale)
  occ _ _ := 0

/-- An instant-capture trap with non-negative density and positive release timescale. -/
def Trap.Bulk (t : Trap) : Prop :=
  ∃ d τ b, t = .instant d τ b ∧ 0 ≤ d ∧ 0 < τ

/-! ## Objects and views -/

theorem allTrapManager_groups (gs : List (List Trap)) (hgs : gs ≠ []) (hg : ∀ l ∈ gs, l ≠ []) (fractions : List ℝ)
    (hf : fractions ≠ []) (N : ℕ) :
    allTrapManager (.list (gs.map .group)) fractions N = .ok (ATM.new (gs.map groupOf) fractions N) := by
  have hout : (PyTraps.list (gs.map .group)).normal = .ok (gs.map fun l => .inl (l.map .trap)) := by
    cases gs with
    | nil => exact absurd rfl hgs
    | cons g gs => simp [PyTraps.normal, Function.comp_def]
  have hm : (gs.map fun l => (Sum.inl (l.map PyItem.trap) : List PyItem ⊕ Trap)).mapM
      (fun g => do groupOfTraps (← pyGroup g)) = .ok (gs.map groupOf) := by
    rw [List.mapM_map]
    refine mapM_ok _ _ _ fun l hl => ?_
    simp only [Function.comp, pyGroup_traps l (hg l hl)]
    exact groupOfTraps_ok (hg l hl)
  simp only [allTrapManager, hout, hf, if_false]
  change ((gs.map fun l => (Sum.inl (l.map PyItem.trap) : List PyItem ⊕ Trap)).mapM
    (fun g => do groupOfTraps (← pyGroup g)) >>= _) = _
  rw [hm]; rfl

/-- Clocking with objects is clocking with their views. -/
theorem clockChargePy_groups (img : Image ℝ) (c : CCD) (roe : Roe ℝ) (gs : List (List Trap)) (hgs : gs ≠ [])
    (hg : ∀ l ∈ gs, l ≠ []) (hf : c.fractions ≠ []) (e o : ℕ) (rows columns : List ℕ) (tw : Option (List ℕ)) :
    clockChargePy img (some c) roe (.list (gs.map .group)) e o rows columns tw =
      clockCharge img c.view roe (gs.map groupOf) e o rows columns tw := by
  unfold clockChargePy clockCharge
  simp only [allTrapManager_groups gs hgs hg c.fractions hf]
  rfl

theorem Ref.ofTraps_group {l : List Trap} (hl : l ≠ []) (hb : ∀ t ∈ l, t.Bulk) :
    groupOf l = (Ref.ofTraps l).group := by
  cases l with
  | nil => exact absurd rfl hl
  | cons a l =>
    obtain ⟨d, τ, b, rfl, -, -⟩ := hb a (by simp)
    unfold groupOf groupOfTraps Ref.ofTraps Ref.Traps.group
    simp only
    congr 2
    funext x j
    unfold fillFromRelease Trap.emissionRate
    congr 1
    simp only [Fin.getElem_fin]
    ring

theorem Ref.ofTraps_ok {l : List Trap} (hb : ∀ t ∈ l, t.Bulk) : (Ref.ofTraps l).Ok := by
  refine ⟨fun j => ?_, fun x hx j => ?_⟩
  · obtain ⟨d, τ, b, h, h1, h2⟩ := hb l[j] (List.getElem_mem _)
    change 0 ≤ l[j].density
    rw [h]; exact h1
  · obtain ⟨d, τ, b, h, h1, h2⟩ := hb l[j] (List.getElem_mem _)
    change 0 ≤ Real.exp (-x / l[j].releaseTimescale) ∧ Real.exp (-x / l[j].releaseTimescale) < 1
    rw [h]
    refine ⟨(Real.exp_pos _).le, Real.exp_lt_one_iff.2 ?_⟩
    exact div_neg_of_neg_of_pos (by linarith) h2

/-- The filling law of a CCD without a notch. -/
theorem CCD.view_fill {c : CCD} {ph : ℕ} {full power : ℝ} (h : c.HasPhase ph 0 full power) (hf : 0 < full)
    (hp : 0 < power) : c.view.fill ph = wellFill full power := by
  funext n
  obtain ⟨h0, h1, h2, h3⟩ := C40_values c ph 0 full power h le_rfl hf hp
  unfold CCD.view wellFill
  rcases le_total n 0 with hn | hn
  · simp only [h1 n hn]
    rw [max_eq_left (div_nonpos_of_nonpos_of_nonneg hn hf.le), min_eq_right zero_le_one, Real.zero_rpow hp.ne']
  · have hq : 0 ≤ n / full := div_nonneg hn hf.le
    rw [max_eq_right hq]
    rcases le_total n full with hf' | hf'
    · simp only [h3 n hn hf', sub_zero]
      rw [min_eq_right ((div_le_one hf).2 hf')]
    · simp only [h2 n hf']
      rw [min_eq_left ((one_le_div hf).2 hf'), Real.one_rpow]

theorem wellFill_exact {full power : ℝ} (hf : 0 < full) (hp : 0 < power) :
    FillModel (wellFill full power) ∧ ∀ n, 0 < n → 0 < wellFill full power n := by
  have h01 : ∀ n, 0 ≤ min 1 (max 0 (n / full)) := fun n => le_min zero_le_one (le_max_left _ _)
  refine ⟨⟨fun n => Real.rpow_nonneg (h01 n) _, fun n => ?_, fun n hn => ?_⟩, fun n hn => ?_⟩
  · exact Real.rpow_le_one (h01 n) (min_le_left _ _) hp.le
  · unfold wellFill
    rw [max_eq_left (div_nonpos_of_nonpos_of_nonneg hn hf.le), min_eq_right zero_le_one, Real.zero_rpow hp.ne']
  · exact Real.rpow_pos_of_pos (lt_min one_pos (lt_max_of_lt_right (div_pos hn hf))) _

/-! ## C55 -/

/-- The arguments of one direction that are followed exactly: a single-phase CCD without a notch, a standard readout
with one dwell time, and groups of instant-capture traps. -/
structure ExactObjects (full power dw : ℝ) (gs : List (List Trap)) (i : Bool) (c : CCD) (o : ℕ) (d : PyDirection) :
    Prop where
  eq : d = ⟨some c, some (.standard [dw] true true true i), some (.list (gs.map .group)), 0, o⟩
  phase : c.fractions = [1] ∧ c.HasPhase 0 0 full power
  full : 0 < full
  power : 0 < power
  dwell : 0 < dw
  groups : gs ≠ [] ∧ ∀ l ∈ gs, l ≠ [] ∧ ∀ t ∈ l, t.Bulk

theorem ExactObjects.run {full power dw : ℝ} {gs : List (List Trap)} {i : Bool} {c : CCD} {o : ℕ} {d : PyDirection}
    (h : ExactObjects full power dw gs i c o d) (img : Image ℝ) (hnr : 0 < img.nr) (tw : Option (List ℕ))
    (hcov : Covering o (List.range img.nr) tw) :
    ∃ out, clockChargePy img (some c) (.standard [dw] true true true i) (.list (gs.map .group)) 0 o
        (List.range img.nr) (List.range img.nc) tw = .ok (out, .standard [dw] true true true i) ∧
      out.nr = img.nr ∧ out.nc = img.nc ∧ ∀ r < img.nr, ∀ c < img.nc, out.px r c =
        Ref.readout (wellFill full power) dw (gs.map Ref.ofTraps) (Ref.allPasses img.nr o) (fun r => img.px r c) r := by
  obtain ⟨h0, ⟨h1, h2⟩, h3, h4, h5, h6, h7⟩ := h
  have hw := wellFill_exact h3 h4
  have hv : c.view = ⟨[1], c.view.fill⟩ := by
    rw [← h1]; rfl
  have hx : ExactDirection (c.view.fill 0) dw (gs.map Ref.ofTraps) := by
    rw [CCD.view_fill h2 h3 h4]
    refine ⟨h5, hw.1, hw.2, fun t ht => ?_⟩
    obtain ⟨l, hl, rfl⟩ := List.mem_map.1 ht
    exact Ref.ofTraps_ok (h7 l hl).2
  obtain ⟨out, g1, g2, g3, g4⟩ := hx.run img hnr i o tw hcov
  refine ⟨out, ?_, g2, g3, fun r hr c' hc' => ?_⟩
  · rw [clockChargePy_groups img c _ gs h6 (fun l hl => (h7 l hl).1) (by rw [h1]; simp), hv, ← g1, List.map_map]
    congr 1
    exact List.map_congr_left fun l hl => Ref.ofTraps_group (h7 l hl).1 (h7 l hl).2
  · rw [g4 r hr c' hc', CCD.view_fill h2 h3 h4, List.map_map]
    rfl

/-- **C55**: `add_cti` called with a `CCD`, a `ROE` and lists of `TrapInstantCapture` for both directions: every pixel
of the result is the reference simulation of the serial readout of its row after that of the parallel readout of the
columns, the well filling being `min(1, max(0, n/full))^power` and the fraction of filled traps that stay filled
`exp(-dwell/release_timescale)`. The readout objects are unchanged. -/
theorem C55_add_cti (img : Image ℝ) (hnr : 0 < img.nr) (hnc : 0 < img.nc) (fp fs pp ps dp ds : ℝ)
    (gp gs : List (List Trap)) (ip is : Bool) (cp cs : CCD) (op os : ℕ) (par ser : PyDirection)
    (hp : ExactObjects fp pp dp gp ip cp op par) (hs : ExactObjects fs ps ds gs is cs os ser) :
    ∃ out, addCtiPy img par .all ser .all none =
        .ok (out, .standard [dp] true true true ip, .standard [ds] true true true is) ∧
      out.nr = img.nr ∧ out.nc = img.nc ∧
      ∀ r < img.nr, ∀ c < img.nc, out.px r c =
        Ref.readout (wellFill fs ps) ds (gs.map Ref.ofTraps) (Ref.allPasses img.nc os)
          (fun c => Ref.readout (wellFill fp pp) dp (gp.map Ref.ofTraps) (Ref.allPasses img.nr op)
            (fun r => img.px r c) r) c := by
  obtain ⟨mid, g1, g2, g3, g4⟩ := hp.run img hnr (some (List.range (img.nr + op)))
    (Or.inr ⟨img.nr, rfl, fun x hx => List.mem_range.1 hx⟩)
  have e1 : mid.transpose.nr = img.nc := g3
  have e2 : mid.transpose.nc = img.nr := g2
  obtain ⟨out, q1, q2, q3, q4⟩ := hs.run mid.transpose (by rw [e1]; exact hnc) none (Or.inl rfl)
  rw [e1, e2] at q1
  refine ⟨out.transpose, ?_, q3.trans e2, q2.trans e1, ?_⟩
  · rw [hp.eq, hs.eq]
    unfold addCtiPy
    simp only [Window.resolve, bind, Except.bind, Option.getD_none, Option.getD_some]
    rw [g1]
    simp only
    rw [q1]
  · intro r hr c hc
    change out.px c r = _
    rw [q4 c (by rw [e1]; exact hc) r (by rw [e2]; exact hr), e1]
    refine readout_congr (wellFill fs ps) ds _ img.nc _ ?_ _ _ (fun c hc => ?_) c hc
    · intro p hp x hx
      unfold Ref.allPasses at hp
      obtain ⟨k, -, rfl⟩ := List.mem_map.1 hp
      obtain ⟨j, hj, rfl⟩ := List.mem_map.1 hx
      exact List.mem_range.1 (List.mem_filter.1 hj).1
    · exact g4 r hr c hc

/-- **C55** for parallel clocking only. -/
theorem C55_parallel (img : Image ℝ) (hnr : 0 < img.nr) (full power dw : ℝ) (gs : List (List Trap)) (i : Bool) (c : CCD)
    (o : ℕ) (par : PyDirection) (h : ExactObjects full power dw gs i c o par) :
    ∃ out, addCtiPy img par .all .absent .all none = .ok (out, .standard [dw] true true true i, Roe.default) ∧
      out.nr = img.nr ∧ out.nc = img.nc ∧
      ∀ r < img.nr, ∀ c < img.nc, out.px r c =
        Ref.readout (wellFill full power) dw (gs.map Ref.ofTraps) (Ref.allPasses img.nr o) (fun r => img.px r c) r := by
  obtain ⟨out, g1, g2, g3, g4⟩ := h.run img hnr (some (List.range (img.nr + o)))
    (Or.inr ⟨img.nr, rfl, fun x hx => List.mem_range.1 hx⟩)
  refine ⟨out, ?_, g2, g3, g4⟩
  rw [h.eq]
  unfold addCtiPy PyDirection.absent
  simp only [Window.resolve, bind, Except.bind, Option.getD_none, Option.getD_some]
  rw [g1]

/-- **C55** without a readout object: the default is the readout `ROE()` with one dwell time of 1, traps emptied between
columns and for first transfers. -/
theorem C55_default (img : Image ℝ) (hnr : 0 < img.nr) (full power : ℝ) (gs : List (List Trap)) (c : CCD) (o : ℕ)
    (h : ExactObjects full power 1 gs false c o
      ⟨some c, some (.standard [1] true true true false), some (.list (gs.map .group)), 0, o⟩) :
    ∃ out, addCtiPy img ⟨some c, none, some (.list (gs.map .group)), 0, o⟩ .all .absent .all none =
        .ok (out, .standard [1] true true true false, .standard [1] true true true false) ∧
      out.nr = img.nr ∧ out.nc = img.nc ∧
      ∀ r < img.nr, ∀ c < img.nc, out.px r c =
        Ref.readout (wellFill full power) 1 (gs.map Ref.ofTraps) (Ref.allPasses img.nr o) (fun r => img.px r c) r := by
  obtain ⟨out, g1, g2, g3, g4⟩ := C55_parallel img hnr full power 1 gs false c o _ h
  exact ⟨out, g1, g2, g3, g4⟩

/-- A list of traps is one group. -/
theorem addCtiPy_trap_list (img : Image ℝ) (d : PyDirection) (traps : List Trap) (hne : traps ≠ []) (w : Window)
    (ser : PyDirection) (sw : Window) (tw : Option (List ℕ)) :
    addCtiPy img { d with traps := some (.list (traps.map .trap)) } w ser sw tw =
      addCtiPy img { d with traps := some (.list ([traps].map .group)) } w ser sw tw := by
  unfold addCtiPy clockChargePy
  simp only [fun fr N => (C47_input_forms (.instant 0 1 false) traps hne fr N).2]
  rfl

/-- The objects of the HST preset. -/
theorem hst_exact (date : ℝ) (hd : 2452334.5 ≤ date) (o : ℕ) :
    ∃ traps ccd, modelForHstAcs date = .ok (traps, ccd, .standard [1] true true true false) ∧ traps ≠ [] ∧
      ExactObjects 84700 0.478 1 [traps] false ccd o
        ⟨some ccd, some (.standard [1] true true true false), some (.list ([traps].map .group)), 0, o⟩ := by
  obtain ⟨⟨traps, ccd, roe⟩, h⟩ := (C42_dates date).2.2 hd
  obtain ⟨d₁, d₂, d₃, τ₁, τ₂, τ₃, ht, p1, p2, p3, -, -, -, t1, t2, t3, hc, hfr, hroe⟩ := C42_species date traps ccd roe h
  have hne : traps ≠ [] := by rw [ht]; simp
  refine ⟨traps, ccd, by rw [h, hroe], hne, rfl, ⟨hfr, hc⟩, by norm_num, by norm_num, one_pos, by simp, ?_⟩
  intro l hl
  rcases List.mem_singleton.1 hl with rfl
  refine ⟨hne, fun t htm => ?_⟩
  rw [ht] at htm
  simp only [List.mem_cons, List.not_mem_nil, or_false] at htm
  rcases htm with rfl | rfl | rfl
  · exact ⟨_, _, _, rfl, p1.le, t1⟩
  · exact ⟨_, _, _, rfl, p2.le, t1.trans t2⟩
  · exact ⟨_, _, _, rfl, p3.le, (t1.trans t2).trans t3⟩

/-- **C55** for the HST preset: for every date from launch on, `traps, ccd, roe = model_for_HST_ACS(date)` followed by
`add_cti(image, parallel_traps=traps, parallel_ccd=ccd, parallel_roe=roe, parallel_offset=o)` computes the reference
simulation with the three species of the date and the filling law `(n / 84700)^0.478`. -/
theorem C55_hst (date : ℝ) (hd : 2452334.5 ≤ date) (img : Image ℝ) (hnr : 0 < img.nr) (o : ℕ) :
    ∃ traps ccd roe, modelForHstAcs date = .ok (traps, ccd, roe) ∧
      ∃ out, addCtiPy img ⟨some ccd, some roe, some (.list (traps.map .trap)), 0, o⟩ .all .absent .all none =
          .ok (out, roe, Roe.default) ∧ out.nr = img.nr ∧ out.nc = img.nc ∧
        ∀ r < img.nr, ∀ c < img.nc, out.px r c =
          Ref.readout (wellFill 84700 0.478) 1 [Ref.ofTraps traps] (Ref.allPasses img.nr o) (fun r => img.px r c) r := by
  obtain ⟨traps, ccd, h, hne, hx⟩ := hst_exact date hd o
  obtain ⟨out, g1, g2, g3, g4⟩ := C55_parallel img hnr _ _ _ _ _ _ _ _ hx
  refine ⟨traps, ccd, _, h, out, ?_, g2, g3, g4⟩
  exact (addCtiPy_trap_list img ⟨some ccd, some (.standard [1] true true true false), none, 0, o⟩ traps hne .all .absent
    .all none).trans g1

/-- **C55**, objects left out: traps without a CCD raise `AttributeError` (once the matrices have been computed), no
traps leave the image alone. -/
theorem C55_missing (img : Image ℝ) (roe : Option (Roe ℝ)) (ccd : Option CCD) (t : PyTraps) (e o : ℕ) (w sw : Window)
    (m : Mat ℝ × Mat Bool × Roe ℝ) (sv : Mat Bool)
    (hm : (roe.getD Roe.default).express (w.resolve img.nr) e o (some (List.range (img.nr + o))) = .ok m)
    (hs : (roe.getD Roe.default).save m.1 = .ok sv) :
    addCtiPy img ⟨none, roe, some t, e, o⟩ w .absent sw none = .error .attributeError ∧
      addCtiPy img ⟨ccd, roe, none, e, o⟩ w .absent sw none = .ok (img, roe.getD Roe.default, Roe.default) := by
  constructor
  · unfold addCtiPy clockChargePy
    simp only [bind, Except.bind, Option.getD_none, hm, hs]
  · rfl

/-- Traps without a CCD, three rows. -/
example (t : PyTraps) : addCtiPy ⟨3, 1, fun _ _ => 50⟩ ⟨none, none, some t, 0, 0⟩ .all .absent .all none =
    .error .attributeError := by
  obtain ⟨m, mon, h⟩ := express_full false 3 0 (by norm_num) (some (List.range 3))
    (Or.inr ⟨3, rfl, fun x hx => List.mem_range.1 hx⟩)
  have hm : (Roe.default).express (List.range 3) 0 0 (some (List.range 3)) = .ok (m, mon, Roe.default) := by
    unfold Roe.default Roe.express
    simp only [h, bind, Except.bind]
  exact (C55_missing ⟨3, 1, fun _ _ => 50⟩ none none t 0 0 .all .all (m, mon, Roe.default) _ hm rfl).1

/-- A CCD and traps as a user would make them. -/
example : ∃ c, CCD.new (.scalar 1) (.scalar 1000) (.scalar 0) (.scalar 1) none = .ok c ∧
    ExactObjects 1000 1 1 [[.instant 10 2 false], [.instant 1 5 false, .instant 3 7 false]] false c 4
      ⟨some c, some (.standard [1] true true true false),
        some (.list [.group [.instant 10 2 false], .group [.instant 1 5 false, .instant 3 7 false]]), 0, 4⟩ := by
  refine ⟨_, rfl, rfl, ⟨rfl, rfl, rfl, rfl⟩, by norm_num, by norm_num, by norm_num, by simp, ?_⟩
  intro l hl
  simp only [List.mem_cons, List.not_mem_nil, or_false] at hl
  rcases hl with rfl | rfl <;> refine ⟨by simp, fun t ht => ?_⟩ <;>
    simp only [List.mem_cons, List.not_mem_nil, or_false] at ht
  · subst ht; exact ⟨_, _, _, rfl, by norm_num, by norm_num⟩
  · rcases ht with rfl | rfl <;> exact ⟨_, _, _, rfl, by norm_num, by norm_num⟩

end Arctic
