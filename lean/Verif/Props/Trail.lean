import Verif.Lemmas.TrailPass
import Verif.Props.RefSlow

/-!
# C74 — the trail of a bright pixel
-/

set_option linter.unusedSectionVars false
set_option linter.unusedVariables false

namespace Arctic

/-! ## One direction -/

theorem oneLevel_new {x : ℝ} (g : Group ℝ) {M : ℕ} (hM : 0 < M) : OneLevel x 0 0 g (Mgr.new (fun j => g.dens j * 1) g.kind M) := by
  obtain ⟨s, dens, kind⟩ := g
  have hp : 1 ≤ kind.perTransfer := by cases kind <;> simp [Kind.perTransfer]
  have h1 : 1 ≤ M * kind.perTransfer := Nat.mul_pos hM hp
  refine ⟨M * kind.perTransfer - 1, fun _ => 0, ?_, fun h => absurd rfl h⟩
  unfold Mgr.new
  simp only [mul_one]
  rw [show 1 + M * kind.perTransfer = (M * kind.perTransfer - 1 + 1) + 1 by omega, List.replicate_succ]
  rfl

/-- What holds of the column `c`: one bright pixel in row `b`, which is not used up, and all others within the notch. -/
structure BrightPixel (f : ℝ → ℝ) (depth : ℝ) (held : ℕ → ℝ) (col : ℕ → ℝ) (n b transfers : ℕ) : Prop where
  row : b < n
  nonneg : ∀ r < n, 0 ≤ col r
  left : 0 < brightAfter f (held 0) (col b) transfers
  before : ∀ r < b, col r ≤ depth
  behind : ∀ j, b + 1 + j < n → col (b + 1 + j) + trailAfter f held (col b) transfers j ≤ depth

theorem BrightPixel.trailOk {f : ℝ → ℝ} {depth dw : ℝ} (hdw : 0 ≤ dw) {gs : List (Group ℝ)}
    (hg : ∀ g ∈ gs, g.Fading dw) {img : ℕ → ℝ} {n b T : ℕ} (h : BrightPixel f depth (heldBy gs dw) img n b T)
    (hf : FillModel f) (hn : ∀ y, y ≤ depth → f y = 0) : TrailOk f depth (heldBy gs dw) img n b T where
  fill := hf
  notch := hn
  row := h.row
  nonneg := h.nonneg
  dark r hr hrb := by
    unfold trailCol
    split
    · rename_i h1; exact h.before r (by omega)
    · rename_i h1
      have e : r = b + 1 + (r - b - 1) := by omega
      have := h.behind (r - b - 1) (by omega)
      rwa [← e] at this
  bright := by
    have := h.row
    unfold trailCol
    rw [if_neg (by omega), if_pos rfl]
    exact h.left
  heldNonneg := heldBy_nonneg hg hdw
  heldAnti := heldBy_anti hg hdw

/-- **C74** for one direction: single-phase standard readout, `express = 0`, any offset, any groups of the three trap
classes, a filling function that is 0 up to the notch depth; in every column one bright pixel, the others within the
notch. Pixels in front of the bright one are unchanged; the bright one loses the capture of empty traps in each of its
transfers; the pixel `j + 1` behind it gains what the traps release in the `j + 1`-th dwell time after each capture. -/
theorem C74_clock (img : Image ℝ) (fill : ℕ → ℝ → ℝ) (depth dw : ℝ) (i : Bool) (gs : List (Group ℝ)) (o : ℕ)
    (tw : Option (List ℕ)) (b : ℕ → ℕ) (hcov : Covering o (List.range img.nr) tw) (hdw : 0 < dw) (hnr : 0 < img.nr)
    (hf : FillModel (fill 0)) (hn : ∀ y, y ≤ depth → fill 0 y = 0) (hg : ∀ g ∈ gs, g.Fading dw)
    (hb : ∀ c < img.nc, BrightPixel (fill 0) depth (heldBy gs dw) (fun r => img.px r c) img.nr (b c) (b c + o + 1)) :
    ∃ out, clockCharge img ⟨[1], fill⟩ (.standard [dw] true true true i) gs 0 o (List.range img.nr) (List.range img.nc) tw =
        .ok (out, .standard [dw] true true true i) ∧ out.nr = img.nr ∧ out.nc = img.nc ∧
      ∀ c < img.nc, (∀ r < b c, out.px r c = img.px r c) ∧
        out.px (b c) c = brightAfter (fill 0) (heldBy gs dw 0) (img.px (b c) c) (b c + o + 1) ∧
        ∀ j, b c + 1 + j < img.nr → out.px (b c + 1 + j) c =
          img.px (b c + 1 + j) c + trailAfter (fill 0) (heldBy gs dw) (img.px (b c) c) (b c + o + 1) j := by
  obtain ⟨m, mon, hm⟩ := express_full i img.nr o hnr tw hcov
  obtain ⟨a, ha, -, q, -, hm1, hm2⟩ := roeExpress_ok hm
  have hmon : mon.nc = (List.range img.nr).length := by rw [hm2]
  have hmc : m.nc = img.nr := by
    rw [hm1]; simp
  have hcfg : clockCfg (.standard [dw] true true true i) ⟨[1], fill⟩ 0 o (List.range img.nr) tw =
      .ok (onePhaseCfg (List.range img.nr) dw m mon, .standard [dw] true true true i) := by
    unfold clockCfg onePhaseCfg
    simp only [Roe.express, hm, bind, Except.bind, Roe.save, roeSave, if_true, Roe.clockSequence, Roe.nSteps,
      Roe.nPhases, Roe.dwell, Roe.force, Roe.emptyBetween, List.length_singleton, one_phase_sequence]
    simp [positiveIndices, hdw]
  have hacc : (Roe.standard [dw] true true true i).accessed = [0, 0, 0] := by
    unfold Roe.accessed Roe.clockSequence
    simp only [Roe.nSteps, Roe.nPhases, Roe.dwell, Roe.force, List.length_singleton, one_phase_sequence]
    simp [pixelsAccessed]
  have hpad : nPadding (Roe.standard [dw] true true true i).accessed = 0 := by rw [hacc]; rfl
  have hM : maxNTransfers (.standard [dw] true true true i) (onePhaseCfg (List.range img.nr) dw m mon) = img.nr := by
    unfold maxNTransfers onePhaseCfg Roe.isPumping
    simp [hmc]
  have hpasses : (List.range (onePhaseCfg (List.range img.nr) dw m mon).expr.nr).map
      (todo (onePhaseCfg (List.range img.nr) dw m mon)) =
      (List.range (img.nr + o)).map fun k => ((List.range img.nr).filter fun r => decide (k ≤ r + o)).map fun r =>
        (r, (1 : ℝ)) := by
    have h1 : (List.range (onePhaseCfg (List.range img.nr) dw m mon).expr.nr).map
        (todo (onePhaseCfg (List.range img.nr) dw m mon)) = matrixPasses (List.range img.nr) m mon := by
      unfold matrixPasses todo monitoredRows onePhaseCfg
      simp only [hmon]
    rw [h1, fullPasses hnr hcov hm]
    rfl
  have hms : List.Forall₂ (OneLevel dw 0 0) gs (gs.map fun g => Mgr.new (fun j => g.dens j * 1) g.kind img.nr) := by
    rw [List.forall₂_map_right_iff]
    exact List.forall₂_same.2 fun g _ => oneLevel_new g hnr
  have hem : emptied [gs.map fun g => Mgr.new (fun j => g.dens j * (1 : ℝ)) g.kind img.nr] =
      [gs.map fun g => Mgr.new (fun j => g.dens j * 1) g.kind img.nr] := by
    unfold emptied
    simp only [List.map_cons, List.map_nil, List.map_map]
    congr 1
    refine List.map_congr_left fun g _ => ?_
    simp [Mgr.empty, Mgr.new]
  obtain ⟨out, a', g1, g2, g3, g4⟩ := atmSys_columns (fill := fill) (dw := dw)
    (cfg := onePhaseCfg (List.range img.nr) dw m mon) ⟨rfl, rfl, rfl, rfl, fun _ _ => rfl, rfl⟩ hmon.le
    (gs.map fun g => Mgr.new (fun j => g.dens j * 1) g.kind img.nr) hem
    (fun c => trailCol (fill 0) (heldBy gs dw) (fun r => (img.pad 0).px r c) img.nr (b c) (b c + o + 1))
    (List.range img.nc) (img.pad 0) (ATM.new gs [1] img.nr) List.nodup_range (fun c hc => List.mem_range.1 hc)
    (fun w hw => by simpa [Image.pad] using List.mem_range.1 hw)
    ((ATM.eff_none rfl).trans hem) hem (fun c hc => by
      have hc' := List.mem_range.1 hc
      have hbc := (hb c hc').trailOk hdw.le hg hf hn
      have hpx : ∀ r < img.nr, (img.pad 0).px r c = img.px r c := fun r hr => by simp [Image.pad, hr]
      have hbc' : BrightPixel (fill 0) depth (heldBy gs dw) (fun r => (img.pad 0).px r c) img.nr (b c) (b c + o + 1) := by
        obtain ⟨h1, h2, h3, h4, h5⟩ := hb c hc'
        refine ⟨h1, fun r hr => by rw [hpx r hr]; exact h2 r hr, by rw [hpx _ h1]; exact h3, fun r hr => ?_, fun j hj => ?_⟩
        · rw [hpx r (hr.trans h1)]; exact h4 r hr
        · rw [hpx _ hj, hpx _ h1]; exact h5 j hj
      have := trail_passes hdw.le hg (hbc'.trailOk hdw.le hg hf hn) hms (img.nr + o)
      rw [hpasses, this, min_eq_right (by have := hbc'.row; omega)])
  refine ⟨out.unpad 0, ?_, by simp [Image.unpad, g3, Image.pad], by simp [Image.unpad, g4, Image.pad], fun c hc => ?_⟩
  · unfold clockCharge
    rw [hcfg]
    simp only [bind, Except.bind]
    rw [hpad, hM, g1]
  · have hr := (hb c hc).row
    have e : ∀ r < img.nr, (out.unpad 0).px r c =
        trailCol (fill 0) (heldBy gs dw) (fun r => (img.pad 0).px r c) img.nr (b c) (b c + o + 1) r := by
      intro r hr
      change out.px r c = _
      rw [g2, if_pos (List.mem_range.2 hc)]
    have hpx : ∀ r < img.nr, (img.pad 0).px r c = img.px r c := fun r hr => by simp [Image.pad, hr]
    refine ⟨fun r hrb => ?_, ?_, fun j hj => ?_⟩
    · rw [e r (by omega)]
      unfold trailCol
      rw [if_pos (Or.inl hrb)]
      exact hpx r (by omega)
    · rw [e _ hr]
      unfold trailCol
      rw [if_neg (by omega), if_pos rfl]
      simp only [hpx _ hr]
    · rw [e _ hj]
      unfold trailCol
      rw [if_neg (by omega), if_neg (by omega)]
      simp only [hpx _ hj, hpx _ hr]
      congr 2
      omega

/-- The electrons missing from the bright pixel. -/
theorem brightAfter_loss (f : ℝ → ℝ) (cap N : ℝ) (t : ℕ) :
    N - brightAfter f cap N t = (∑ k ∈ Finset.range t, f (brightAfter f cap N k)) * cap := by
  induction t with
  | zero => simp [brightAfter]
  | succ t ih =>
    rw [Finset.sum_range_succ, add_mul, ← ih]
    change N - (brightAfter f cap N t - f (brightAfter f cap N t) * cap) = _
    ring

/-- **C74**, shape of the trail: the electrons in the pixel `j + 1` behind the bright one are to the electrons missing
from the bright one as the captured electrons released in the `j + 1`-th dwell time are to all captured electrons. -/
theorem C74_shape (f : ℝ → ℝ) (held : ℕ → ℝ) (N : ℝ) (t j : ℕ) :
    trailAfter f held N t j * held 0 = (N - brightAfter f (held 0) N t) * (held j - held (j + 1)) := by
  rw [brightAfter_loss]
  unfold trailAfter
  rw [← Finset.sum_mul]
  ring

/-- **C74**, the trail is complete: what is missing from the bright pixel is in the first `J` pixels behind it, except for
what the traps still held `J` dwell times after each capture. -/
theorem C74_complete (f : ℝ → ℝ) (held : ℕ → ℝ) (N : ℝ) (t J : ℕ) :
    N - brightAfter f (held 0) N t = ∑ j ∈ Finset.range J, trailAfter f held N t j +
      (∑ k ∈ Finset.range t, f (brightAfter f (held 0) N k)) * held J := by
  rw [brightAfter_loss]
  induction J with
  | zero => simp
  | succ J ih =>
    rw [ih, Finset.sum_range_succ]
    unfold trailAfter
    rw [← Finset.sum_mul (f := fun k => f (brightAfter f (held 0) N k))]
    ring

/-- Simple conditions: the traps that `transfers` clouds of full volume fill have room in the bright pixel and, above any
other pixel, below the notch depth. -/
theorem BrightPixel.of_capacity {f : ℝ → ℝ} (hf : FillModel f) {depth : ℝ} {held : ℕ → ℝ} (h0 : ∀ a, 0 ≤ held a)
    (ha : ∀ a, held (a + 1) ≤ held a) {col : ℕ → ℝ} {n b t : ℕ} (hb : b < n) (hc : ∀ r < n, 0 ≤ col r)
    (hN : t * held 0 < col b) (hd : ∀ r < n, r ≠ b → col r + t * held 0 ≤ depth) :
    BrightPixel f depth held col n b t := by
  have hmax : ∀ a, held a ≤ held 0 := fun a => by
    induction a with
    | zero => exact le_rfl
    | succ a ih => exact (ha a).trans ih
  have hs : ∑ k ∈ Finset.range t, f (brightAfter f (held 0) (col b) k) ≤ t := by
    calc _ ≤ ∑ _k ∈ Finset.range t, (1 : ℝ) := Finset.sum_le_sum fun k _ => hf.le_one _
      _ = t := by simp
  have hs0 : 0 ≤ ∑ k ∈ Finset.range t, f (brightAfter f (held 0) (col b) k) := Finset.sum_nonneg fun k _ => hf.nonneg _
  have ht : (0 : ℝ) ≤ t * held 0 := mul_nonneg (Nat.cast_nonneg t) (h0 0)
  refine ⟨hb, hc, ?_, fun r hr => ?_, fun j hj => ?_⟩
  · have := brightAfter_loss f (held 0) (col b) t
    have h2 := mul_le_mul_of_nonneg_right hs (h0 0)
    linarith
  · have := hd r (hr.trans hb) hr.ne
    linarith
  · have := hd (b + 1 + j) hj (by omega)
    have h2 : trailAfter f held (col b) t j ≤ t * held 0 := by
      unfold trailAfter
      rw [← Finset.sum_mul]
      refine mul_le_mul hs ?_ (sub_nonneg.2 (ha j)) (Nat.cast_nonneg t)
      have := h0 (j + 1)
      have := hmax j
      linarith
    linarith

/-! ## Python objects -/

/-- Fraction of the traps of one species that captured an electron from a passing cloud and hold it `a` dwell times later:
after a `Trap`, a `TrapInstantCapture` or a lifetime continuum at the head of the group. -/
noncomputable def Trap.heldLater (head t : Trap) (dw : ℝ) (a : ℕ) : ℝ :=
  match head with
  | .trap .. => t.balance * (1 - t.memory dw) * Real.exp (-(a * dw) / t.releaseTimescale)
  | .instant .. => Real.exp (-(a * dw) / t.releaseTimescale)
  | .continuum .. => t.fillFraction (a * dw)

/-- Electrons held per unit volume by the groups of traps. -/
noncomputable def heldByTraps (gs : List (List Trap)) (dw : ℝ) (a : ℕ) : ℝ :=
  (gs.map fun l => match l with
    | [] => 0
    | head :: _ => (l.map fun t => t.density * head.heldLater t dw a).sum).sum

theorem EveryGroup.fading {l : List Trap} (h : EveryGroup l) {dw : ℝ} (hdw : 0 < dw) : (groupOf l).Fading dw := by
  cases hl : l with
  | nil => exact absurd hl h.ne_nil
  | cons head rest =>
    rw [hl] at h
    have hs : ∀ j : Fin (head :: rest).length, (head :: rest)[j].Sensible := fun j => (h.all _ (List.getElem_mem _)).1
    unfold groupOf groupOfTraps Group.Fading
    simp only
    refine ⟨fun j => (hs j).density, ?_⟩
    cases head with
    | trap d τ c s =>
      have hp := C25_fillProbs (fun j : Fin (Trap.trap d τ c s :: rest).length => (Trap.trap d τ c s :: rest)[j])
        (fun j => ⟨(hs j).timescale, (h.all _ (List.getElem_mem _)).2⟩) hdw
      exact ⟨fun j => ⟨(hp j).1, (hp j).2.1.trans (hp j).2.2.1⟩, fun j => ⟨(hp j).1.trans (hp j).2.1, (hp j).2.2.1⟩,
        fun j => ⟨(hp j).2.2.2.1.le, (hp j).2.2.2.2.le⟩⟩
    | instant d τ s =>
      simp only
      intro j
      refine ⟨(Real.exp_pos _).le, Real.exp_le_one_iff.2 ?_⟩
      have := (hs j).timescale
      unfold Trap.emissionRate
      have h2 : 0 ≤ 1 / (Trap.instant d τ s :: rest)[j].releaseTimescale * dw := by positivity
      simp only [Fin.getElem_fin] at h2 ⊢
      linarith
    | continuum d f m s =>
      simp only
      exact ⟨fun j => (hs j).law.1, fun j y z hy hyz =>
        ⟨((hs j).law.2 z (hy.trans hyz)).1, (hs j).anti y z hy hyz⟩⟩

theorem fillFromRelease_pow (t : Trap) (dw : ℝ) (a : ℕ) :
    fillFromRelease t dw ^ a = Real.exp (-(a * dw) / t.releaseTimescale) := by
  unfold fillFromRelease Trap.emissionRate
  rw [← Real.exp_nat_mul]
  congr 1
  ring

theorem heldBy_traps {gs : List (List Trap)} (h : ∀ l ∈ gs, EveryGroup l) {dw : ℝ} (hdw : 0 < dw) (a : ℕ) :
    heldBy (gs.map groupOf) dw a = heldByTraps gs dw a := by
  unfold heldBy heldByTraps
  rw [List.map_map]
  congr 1
  refine List.map_congr_left fun l hl => ?_
  have hg := h l hl
  cases l with
  | nil => exact absurd rfl hg.ne_nil
  | cons head rest =>
    simp only [Function.comp, groupOf, groupOfTraps]
    rw [← Fin.sum_univ_fun_getElem]
    cases head with
    | trap d τ c s =>
      have e := slowOf_probs hg hdw
      simp only [Group.held]
      refine Finset.sum_congr rfl fun j _ => ?_
      have e2 : (fillProbs (fun j : Fin (Trap.trap d τ c s :: rest).length => (Trap.trap d τ c s :: rest)[j]) dw).fromEmpty j =
          (Trap.trap d τ c s :: rest)[j].balance * (1 - (Trap.trap d τ c s :: rest)[j].memory dw) :=
        congrArg (fun p : Probs ℝ _ => p.fromEmpty j) e
      rw [e2]
      change _ * (_ * fillFromRelease _ dw ^ a) = _
      rw [fillFromRelease_pow]
      rfl
    | instant d τ s =>
      simp only [Group.held]
      refine Finset.sum_congr rfl fun j _ => ?_
      rw [fillFromRelease_pow]
      rfl
    | continuum d f m s => rfl

/-- The filling law of a CCD with a notch. -/
noncomputable def notchFill (notch full power n : ℝ) : ℝ := (min 1 (max 0 ((n - notch) / (full - notch)))) ^ power

theorem CCD.view_fill_notch {c : CCD} {ph : ℕ} {notch full power : ℝ} (h : c.HasPhase ph notch full power)
    (h0 : 0 ≤ notch) (hf : notch < full) (hp : 0 < power) : c.view.fill ph = notchFill notch full power := by
  funext n
  obtain ⟨-, h1, h2, h3⟩ := C40_values c ph notch full power h h0 hf hp
  unfold CCD.view notchFill
  have hfn : 0 < full - notch := by linarith
  rcases le_total n notch with hn | hn
  · simp only [h1 n hn]
    rw [max_eq_left (div_nonpos_of_nonpos_of_nonneg (by linarith) hfn.le), min_eq_right zero_le_one, Real.zero_rpow hp.ne']
  · have hq : 0 ≤ (n - notch) / (full - notch) := div_nonneg (by linarith) hfn.le
    rw [max_eq_right hq]
    rcases le_total n full with hf' | hf'
    · simp only [h3 n hn hf']
      rw [min_eq_right ((div_le_one hfn).2 (by linarith))]
    · simp only [h2 n hf']
      rw [min_eq_left ((one_le_div hfn).2 (by linarith)), Real.one_rpow]

theorem notchFill_model {notch full power : ℝ} (h0 : 0 ≤ notch) (hf : notch < full) (hp : 0 < power) :
    FillModel (notchFill notch full power) ∧ ∀ n, n ≤ notch → notchFill notch full power n = 0 := by
  have h01 : ∀ n, 0 ≤ min 1 (max 0 ((n - notch) / (full - notch))) := fun n => le_min zero_le_one (le_max_left _ _)
  have hz : ∀ n, n ≤ notch → notchFill notch full power n = 0 := by
    intro n hn
    unfold notchFill
    rw [max_eq_left (div_nonpos_of_nonpos_of_nonneg (by linarith) (by linarith)), min_eq_right zero_le_one,
      Real.zero_rpow hp.ne']
  exact ⟨⟨fun n => Real.rpow_nonneg (h01 n) _, fun n => Real.rpow_le_one (h01 n) (min_le_left _ _) hp.le,
    fun n hn => hz n (hn.trans h0)⟩, hz⟩

/-- The arguments of one direction: a CCD of one phase with a notch, a standard readout with one dwell time, groups of any
trap objects, `express = 0`. -/
structure NotchObjects (notch full power dw : ℝ) (gs : List (List Trap)) (i : Bool) (c : CCD) (o : ℕ) (d : PyDirection) :
    Prop where
  eq : d = ⟨some c, some (.standard [dw] true true true i), some (.list (gs.map .group)), 0, o⟩
  phase : c.fractions = [1] ∧ c.HasPhase 0 notch full power
  notch : 0 ≤ notch ∧ notch < full
  power : 0 < power
  dwell : 0 < dw
  groups : gs ≠ [] ∧ ∀ l ∈ gs, EveryGroup l

/-- What is expected of a column of `n` pixels with a bright pixel in row `b`. -/
def TrailLeft (f : ℝ → ℝ) (held : ℕ → ℝ) (n b transfers : ℕ) (col out : ℕ → ℝ) : Prop :=
  (∀ r < b, out r = col r) ∧ out b = brightAfter f (held 0) (col b) transfers ∧
    ∀ j, b + 1 + j < n → out (b + 1 + j) = col (b + 1 + j) + trailAfter f held (col b) transfers j

theorem NotchObjects.run {notch full power dw : ℝ} {gs : List (List Trap)} {i : Bool} {c : CCD} {o : ℕ} {d : PyDirection}
    (h : NotchObjects notch full power dw gs i c o d) (img : Image ℝ) (hnr : 0 < img.nr) (tw : Option (List ℕ))
    (hcov : Covering o (List.range img.nr) tw) (b : ℕ → ℕ)
    (hb : ∀ c < img.nc, BrightPixel (notchFill notch full power) notch (heldByTraps gs dw) (fun r => img.px r c) img.nr
      (b c) (b c + o + 1)) :
    ∃ out, clockChargePy img (some c) (.standard [dw] true true true i) (.list (gs.map .group)) 0 o
        (List.range img.nr) (List.range img.nc) tw = .ok (out, .standard [dw] true true true i) ∧
      out.nr = img.nr ∧ out.nc = img.nc ∧ ∀ c < img.nc, TrailLeft (notchFill notch full power) (heldByTraps gs dw) img.nr
        (b c) (b c + o + 1) (fun r => img.px r c) fun r => out.px r c := by
  obtain ⟨h0, ⟨h1, h2⟩, ⟨h3, h4⟩, h5, h6, h7, h8⟩ := h
  have hw := notchFill_model h3 h4 h5
  have hv : c.view = ⟨[1], c.view.fill⟩ := by
    rw [← h1]; rfl
  have he : heldBy (gs.map groupOf) dw = heldByTraps gs dw := funext fun a => heldBy_traps h8 h6 a
  have hfill := CCD.view_fill_notch h2 h3 h4 h5
  obtain ⟨out, g1, g2, g3, g4⟩ := C74_clock img c.view.fill notch dw i (gs.map groupOf) o tw b hcov h6 hnr
    (by rw [hfill]; exact hw.1) (by rw [hfill]; exact hw.2)
    (fun g hg => by obtain ⟨l, hl, rfl⟩ := List.mem_map.1 hg; exact (h8 l hl).fading h6)
    (by rw [hfill, he]; exact hb)
  refine ⟨out, ?_, g2, g3, fun c' hc' => ?_⟩
  · rw [clockChargePy_groups img c _ gs h7 (fun l hl => (h8 l hl).ne_nil) (by rw [h1]; simp), hv, ← g1]
  · have := g4 c' hc'
    rw [hfill, he] at this
    exact this

/-- **C74** for `add_cti` with parallel clocking: `add_cti` called with a single-phase `CCD` with a notch, a standard `ROE`
and groups of any trap objects, on an image with one bright pixel per column. -/
theorem C74_parallel (img : Image ℝ) (hnr : 0 < img.nr) (notch full power dw : ℝ) (gs : List (List Trap)) (i : Bool)
    (c : CCD) (o : ℕ) (par : PyDirection) (h : NotchObjects notch full power dw gs i c o par) (b : ℕ → ℕ)
    (hb : ∀ c < img.nc, BrightPixel (notchFill notch full power) notch (heldByTraps gs dw) (fun r => img.px r c) img.nr
      (b c) (b c + o + 1)) :
    ∃ out, addCtiPy img par .all .absent .all none = .ok (out, .standard [dw] true true true i, Roe.default) ∧
      out.nr = img.nr ∧ out.nc = img.nc ∧ ∀ c < img.nc, TrailLeft (notchFill notch full power) (heldByTraps gs dw) img.nr
        (b c) (b c + o + 1) (fun r => img.px r c) fun r => out.px r c := by
  obtain ⟨out, g1, g2, g3, g4⟩ := h.run img hnr (some (List.range (img.nr + o)))
    (Or.inr ⟨img.nr, rfl, fun x hx => List.mem_range.1 hx⟩) b hb
  refine ⟨out, ?_, g2, g3, g4⟩
  rw [h.eq]
  unfold addCtiPy PyDirection.absent
  simp only [Window.resolve, bind, Except.bind, Option.getD_none, Option.getD_some]
  rw [g1]

/-- **C74** for `add_cti` with serial clocking: the trail lies along the rows. -/
theorem C74_serial (img : Image ℝ) (hnc : 0 < img.nc) (notch full power dw : ℝ) (gs : List (List Trap)) (i : Bool)
    (c : CCD) (o : ℕ) (ser : PyDirection) (h : NotchObjects notch full power dw gs i c o ser) (b : ℕ → ℕ)
    (hb : ∀ r < img.nr, BrightPixel (notchFill notch full power) notch (heldByTraps gs dw) (img.px r) img.nc
      (b r) (b r + o + 1)) :
    ∃ out, addCtiPy img .absent .all ser .all none = .ok (out, Roe.default, .standard [dw] true true true i) ∧
      out.nr = img.nr ∧ out.nc = img.nc ∧ ∀ r < img.nr, TrailLeft (notchFill notch full power) (heldByTraps gs dw) img.nc
        (b r) (b r + o + 1) (img.px r) (out.px r) := by
  obtain ⟨out, g1, g2, g3, g4⟩ := h.run img.transpose hnc none (Or.inl rfl) b hb
  refine ⟨out.transpose, ?_, g3, g2, g4⟩
  rw [h.eq]
  unfold addCtiPy PyDirection.absent
  simp only [Window.resolve, bind, Except.bind, Option.getD_none, Option.getD_some]
  have e1 : img.transpose.nr = img.nc := rfl
  have e2 : img.transpose.nc = img.nr := rfl
  rw [e1, e2] at g1
  rw [g1]

/-- **C74** for one species of instant-capture traps: the trail decays exponentially with the release timescale. The pixel
`j + 1` behind the bright one gains the fraction `exp(-j·dwell/τ)·(1 - exp(-dwell/τ))` of what the bright one lost. -/
theorem C74_exponential {notch full power dw d τ : ℝ} (hd : 0 < d) (s : Bool) {n b t : ℕ} {col out : ℕ → ℝ}
    (h : TrailLeft (notchFill notch full power) (heldByTraps [[.instant d τ s]] dw) n b t col out) (j : ℕ)
    (hj : b + 1 + j < n) :
    out (b + 1 + j) - col (b + 1 + j) =
      (col b - out b) * (Real.exp (-(j * dw) / τ) * (1 - Real.exp (-dw / τ))) := by
  obtain ⟨-, h1, h2⟩ := h
  have e : ∀ a, heldByTraps [[.instant d τ s]] dw a = d * Real.exp (-(a * dw) / τ) := by
    intro a
    simp [heldByTraps, Trap.density, Trap.heldLater, Trap.releaseTimescale]
  have e0 : heldByTraps [[.instant d τ s]] dw 0 = d := by rw [e]; simp
  have h3 := C74_shape (notchFill notch full power) (heldByTraps [[.instant d τ s]] dw) (col b) t j
  rw [h2 j hj, h1]
  have h4 : Real.exp (-(((j + 1 : ℕ) : ℝ) * dw) / τ) = Real.exp (-(j * dw) / τ) * Real.exp (-dw / τ) := by
    rw [← Real.exp_add]
    congr 1
    push_cast
    ring
  rw [e j, e (j + 1), h4, e0] at h3
  have h5 : trailAfter (notchFill notch full power) (heldByTraps [[.instant d τ s]] dw) (col b) t j =
      (col b - brightAfter (notchFill notch full power) d (col b) t) *
        (Real.exp (-(j * dw) / τ) * (1 - Real.exp (-dw / τ))) := by
    have := mul_right_cancel₀ hd.ne' (a := trailAfter (notchFill notch full power) (heldByTraps [[.instant d τ s]] dw) (col b) t j)
      (c := (col b - brightAfter (notchFill notch full power) d (col b) t) *
        (Real.exp (-(j * dw) / τ) * (1 - Real.exp (-dw / τ))))
    refine this (h3.trans ?_)
    ring
  rw [e0, ← h5]
  ring

/-! ### examples -/

/-- A notch of 100 electrons, and traps of all three classes. -/
theorem trailObjects : NotchObjects 100 1100 1 1 [[.instant 10 1 false], [.trap 5 2 1 false], [Trap.logNormalTrap 2 3 0.5]]
    false ⟨[1], [1100], [1], [100], [.num 1100]⟩ 2
    ⟨some ⟨[1], [1100], [1], [100], [.num 1100]⟩, some (.standard [1] true true true false),
      some (.list ([[.instant 10 1 false], [.trap 5 2 1 false], [Trap.logNormalTrap 2 3 0.5]].map .group)), 0, 2⟩ := by
  refine ⟨rfl, ⟨rfl, rfl, rfl, rfl⟩, ⟨by norm_num, by norm_num⟩, one_pos, one_pos, by simp, fun l hl => ?_⟩
  simp only [List.mem_cons, List.not_mem_nil, or_false] at hl
  rcases hl with rfl | rfl | rfl
  · refine ⟨by simp, fun t ht => ?_⟩
    rcases List.mem_singleton.1 ht with rfl
    exact ⟨⟨by norm_num, by norm_num⟩, le_rfl⟩
  · refine ⟨by simp, fun t ht => ?_⟩
    rcases List.mem_singleton.1 ht with rfl
    exact ⟨⟨by norm_num, by norm_num⟩, by simp only [Trap.captureTimescale]; norm_num⟩
  · refine ⟨by simp, fun t ht => ?_⟩
    rcases List.mem_singleton.1 ht with rfl
    exact ⟨⟨by norm_num, by norm_num, C45_logNormal (by norm_num) (by norm_num)⟩, le_rfl⟩

/-- A bright pixel of 1000 electrons in row 1 among pixels of 20, 30 and 0 electrons. -/
example : BrightPixel (notchFill 100 1100 1) 100
    (heldByTraps [[.instant 10 1 false], [.trap 5 2 1 false], [Trap.logNormalTrap 2 3 0.5]] 1) (fun r => [20, 1000, 30, 0].getD r 0)
    4 1 (1 + 2 + 1) := by
  have hg := trailObjects.groups.2
  have he := funext fun a => heldBy_traps hg one_pos a
  have hf : ∀ g ∈ [[Trap.instant 10 1 false], [.trap 5 2 1 false], [Trap.logNormalTrap 2 3 0.5]].map groupOf,
      g.Fading (1 : ℝ) := fun g h => by
    obtain ⟨l, hl, rfl⟩ := List.mem_map.1 h
    exact (hg l hl).fading one_pos
  have h0 : heldByTraps [[.instant 10 1 false], [.trap 5 2 1 false], [Trap.logNormalTrap 2 3 0.5]] 1 0 ≤ 17 := by
    have e := (C45_logNormalTrap 2 (mu := 3) (sigma := 0.5) (by norm_num) (by norm_num)).1
    have e1 := Real.exp_pos (-(1 + 1 / 2) : ℝ)
    simp only [heldByTraps, List.map_cons, List.map_nil, List.sum_cons, List.sum_nil, Trap.heldLater, Trap.logNormalTrap,
      Trap.balance, Trap.memory, Trap.releaseTimescale, Trap.captureTimescale, Trap.density, Nat.cast_zero, zero_mul,
      neg_zero, zero_div, Real.exp_zero] at e ⊢
    rw [e]
    norm_num at e1 ⊢
    linarith
  refine BrightPixel.of_capacity (notchFill_model (by norm_num) (by norm_num) one_pos).1
    (by rw [← he]; exact heldBy_nonneg hf zero_le_one) (by rw [← he]; exact heldBy_anti hf zero_le_one) (by norm_num)
    ?_ (by simp; linarith) ?_
  · intro r hr
    interval_cases r <;> simp
  · intro r hr hne
    interval_cases r <;> simp at hne ⊢ <;> linarith

/-- **C74** needs the notch: without one the pixels behind the bright one lose part of what they gain. -/
theorem C74_no_notch_false :
    (match clockCharge (K := ℚ) ⟨3, 1, fun r _ => if r = 0 then 100 else 0⟩ ⟨[1], fun _ => fill100⟩
        (.standard [1] true true true false) [⟨1, fun _ => 10, .instant fun _ _ => 1 / 2⟩] 0 0 (List.range 3) [0] none with
      | .ok (o, _) => [o.px 0 0, o.px 1 0, o.px 2 0]
      | .error _ => []) = [90, 171 / 40, 74727 / 32000] ∧
    brightAfter fill100 (heldBy [⟨1, fun _ => 10, .instant fun _ _ => 1 / 2⟩] 1 0) 100 1 = 90 ∧
    trailAfter fill100 (heldBy [⟨1, fun _ => 10, .instant fun _ _ => 1 / 2⟩] 1) 100 1 0 = 5 := by
  decide +kernel

end Arctic
