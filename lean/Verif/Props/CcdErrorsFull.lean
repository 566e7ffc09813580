import Verif.Props.TimeUnits

/-!
# C112: errors of the full well depth and of the dwell time, traps of all classes

Two descriptions of a detector with other full well depths, dwell times and traps. Densities are compared in units of the full well
depth, rates in units of the dwell time. The second description in the units of the first (C64, C113) has the same CCD and the same
clocking, so that C110 applies.
-/

set_option linter.unusedSectionVars false
set_option linter.unusedVariables false

namespace Arctic

open MeasureTheory Set

/-! ## Descriptions -/

/-- Two traps of the same class in CCDs with full well depths `f` and `f'` that are clocked with dwell times `w` and `w'`: densities
per full well depth, release and capture rates per dwell time that differ by a fraction `ε` at most, distributions of the lifetimes in
units of the dwell time that differ by `ε` at most in the mean. -/
inductive Trap.NearCcd (ε f w f' w' : ℝ) : Trap → Trap → Prop
  | instant (d τ d' τ' : ℝ) (b b' : Bool) (hd : Within ε (d / f) (d' / f')) (hτ : Within ε (w / τ) (w' / τ')) :
      NearCcd ε f w f' w' (.instant d τ b) (.instant d' τ' b')
  | trap (d τ c d' τ' c' : ℝ) (b b' : Bool) (hd : Within ε (d / f) (d' / f')) (hτ : Within ε (w / τ) (w' / τ'))
      (hc : Within ε (w / c) (w' / c')) (h0 : c = 0 ↔ c' = 0) : NearCcd ε f w f' w' (.trap d τ c b) (.trap d' τ' c' b')
  | continuum (d mu sigma d' mu' sigma' : ℝ) (p p' : ℝ → ℝ → ℝ → ℝ) (hd : Within ε (d / f) (d' / f'))
      (hp : ∫ x in Ioi (0 : ℝ), |w * p (w * x) mu sigma - w' * p' (w' * x) mu' sigma'| ≤ ε) :
      NearCcd ε f w f' w' (.continuum d p mu sigma) (.continuum d' p' mu' sigma')

/-- Groups of traps in two CCDs, one by one. -/
def NearCcds (ε f w f' w' : ℝ) (gs gs' : List (List Trap)) : Prop :=
  List.Forall₂ (fun l l' => List.Forall₂ (Trap.NearCcd ε f w f' w') l l' ∧ ∀ t ∈ l, ∀ u ∈ l, Trap.SameClass t u) gs gs'

/-! ## The second description in the units of the first -/

/-- Groups with other units of charge and of time. -/
noncomputable def rescaleAll (lam mu : ℝ) (gs : List (List Trap)) : List (List Trap) := gs.map (List.map (Trap.rescale lam mu))

theorem Within.unit {ε a b k k' : ℝ} (hk : 0 < k) (h : Within ε (a / k) (b / k')) : Within ε a (k / k' * b) := by
  unfold Within at *
  have e1 : a - k / k' * b = k * (a / k - b / k') := by field_simp
  have e2 : ε * (k / k' * b) = k * (ε * (b / k')) := by ring
  rw [e1, e2, abs_mul, abs_of_pos hk]
  exact mul_le_mul_of_nonneg_left h hk.le

theorem Within.rate {ε x y w w' : ℝ} (hw : 0 < w) (h : Within ε (w / x) (w' / y)) : Within ε (1 / x) (1 / (w / w' * y)) := by
  unfold Within at *
  have e0 : 1 / (w / w' * y) = 1 / w * (w' / y) := by
    rw [one_div, mul_inv, inv_div]; ring
  have e1 : 1 / x = 1 / w * (w / x) := by field_simp
  rw [e0, e1, ← mul_sub, abs_mul, abs_of_pos (by positivity : 0 < 1 / w)]
  calc 1 / w * |w / x - w' / y| ≤ 1 / w * (ε * (w' / y)) := mul_le_mul_of_nonneg_left h (by positivity)
    _ = ε * (1 / w * (w' / y)) := by ring

theorem Trap.NearCcd.unit {ε f w f' w' : ℝ} (hf : 0 < f) (hw : 0 < w) (hw' : 0 < w') {t t' : Trap}
    (h : Trap.NearCcd ε f w f' w' t t') : Trap.NearSame ε t (t'.rescale (f / f') (w / w')) := by
  cases h with
  | instant d τ d' τ' b b' hd hτ => exact .instant _ _ _ _ _ _ (hd.unit hf) (hτ.rate hw)
  | trap d τ c d' τ' c' b b' hd hτ hc h0 =>
    refine .trap _ _ _ _ _ _ _ _ (hd.unit hf) (hτ.rate hw) (hc.rate hw) ?_
    rw [h0, mul_eq_zero]
    exact ⟨Or.inr, fun h => h.resolve_left (div_pos hw hw').ne'⟩
  | continuum d mu sigma d' mu' sigma' p p' hd hp =>
    refine .continuum _ _ _ _ _ _ _ _ (hd.unit hf) ?_
    have hmu := div_pos hw hw'
    simp only [mul_div_cancel_left₀ _ hmu.ne']
    have key := integral_comp_mul_left_Ioi (fun τ => |p τ mu sigma - p' (τ / (w / w')) mu' sigma' / (w / w')|) 0 hw
    rw [mul_zero, smul_eq_mul, inv_mul_eq_div, eq_div_iff hw.ne', mul_comm] at key
    rw [← key, ← integral_const_mul]
    refine le_trans (le_of_eq ?_) hp
    refine setIntegral_congr_fun measurableSet_Ioi fun x _ => ?_
    change w * |p (w * x) mu sigma - p' (w * x / (w / w')) mu' sigma' / (w / w')| =
      |w * p (w * x) mu sigma - w' * p' (w' * x) mu' sigma'|
    rw [← abs_of_pos hw, ← abs_mul, abs_of_pos hw]
    congr 1
    have e : w * x / (w / w') = w' * x := by field_simp
    rw [e]
    field_simp

theorem NearCcds.unit {ε f w f' w' : ℝ} (hf : 0 < f) (hw : 0 < w) (hw' : 0 < w') {gs gs' : List (List Trap)}
    (h : NearCcds ε f w f' w' gs gs') : NearAll ε gs (rescaleAll (f / f') (w / w') gs') := by
  unfold NearAll rescaleAll
  rw [List.forall₂_map_right_iff]
  refine List.Forall₂.imp (fun l l' hl => ⟨?_, hl.2⟩) h
  rw [List.forall₂_map_right_iff]
  exact List.Forall₂.imp (fun t t' ht => ht.unit hf hw hw') hl.1

theorem Trap.rescale_stretched {lam mu : ℝ} (hmu : 0 < mu) (t : Trap) : Trap.Stretched mu (t.rescale lam 1) (t.rescale lam mu) := by
  cases t with
  | instant d τ b => simp only [Trap.rescale, one_mul]; exact .instant ..
  | trap d τ c b => simp only [Trap.rescale, one_mul]; exact .trap ..
  | continuum d p m s =>
    simp only [Trap.rescale, one_mul]
    refine .continuum _ _ _ _ _ _ fun τ hτ => ?_
    simp only [mul_div_cancel_left₀ _ hmu.ne', div_one]

theorem rescaleAll_stretched {lam mu : ℝ} (hmu : 0 < mu) (gs : List (List Trap)) :
    StretchedAll mu (rescaleAll lam 1 gs) (rescaleAll lam mu gs) := by
  unfold StretchedAll rescaleAll
  rw [List.forall₂_map_left_iff, List.forall₂_map_right_iff]
  refine List.forall₂_same.2 fun l _ => ?_
  rw [List.forall₂_map_left_iff, List.forall₂_map_right_iff]
  exact List.forall₂_same.2 fun t _ => Trap.rescale_stretched hmu t

section scaled
variable {mu : ℝ}

theorem Trap.Sensible.rescale {lam : ℝ} (hlam : 0 < lam) (hmu : 0 < mu) {t : Trap}
    (h : t.Sensible ∧ 0 ≤ t.captureTimescale) : (t.rescale lam mu).Sensible ∧ 0 ≤ (t.rescale lam mu).captureTimescale := by
  cases t with
  | trap d τ c b => exact ⟨⟨mul_nonneg hlam.le h.1.1, mul_pos hmu h.1.2⟩, mul_nonneg hmu.le h.2⟩
  | instant d τ b => exact ⟨⟨mul_nonneg hlam.le h.1.1, mul_pos hmu h.1.2⟩, h.2⟩
  | continuum d p m s =>
    refine ⟨⟨mul_nonneg hlam.le h.1.1, mul_pos hmu h.1.2.1, ?_⟩, h.2⟩
    simp only [mul_div_cancel_left₀ _ hmu.ne']
    exact h.1.2.2.stretch hmu

theorem trapCount_rescaleAll (lam mu : ℝ) (gs : List (List Trap)) : trapCount (rescaleAll lam mu gs) = lam * trapCount gs := by
  have inner : ∀ l : List Trap, ((l.map (Trap.rescale lam mu)).map Trap.density).sum = lam * (l.map Trap.density).sum := by
    intro l
    induction l with
    | nil => simp
    | cons t l ih =>
      rw [List.map_cons, List.map_cons, List.map_cons, List.sum_cons, List.sum_cons, ih, rescale_density]
      ring
  unfold trapCount rescaleAll
  induction gs with
  | nil => simp
  | cons l gs ih =>
    simp only [List.map_cons, List.sum_cons] at ih ⊢
    rw [ih, inner]
    ring

end scaled

section columns
variable {full power dw : ℝ} {gs : List (List Trap)} {i : Bool} {c : CCD} {o : ℕ} {d : PyDirection} {lam mu : ℝ}

/-- Objects in other units. -/
theorem FullObjects.rescale (h : FullObjects full power dw gs i c o d) (hlam : 0 < lam) (hmu : 0 < mu) :
    FullObjects (lam * full) power (mu * dw) (rescaleAll lam mu gs) i (c.scaleCharge lam) o
      ⟨some (c.scaleCharge lam), some (.standard [mu * dw] true true true i),
        some (.list ((rescaleAll lam mu gs).map .group)), 0, o⟩ := by
  refine ⟨rfl, ⟨h.phase.1, ?_, ?_, h.phase.2.power⟩, mul_pos hlam h.full, h.power, mul_pos hmu h.dwell, ?_, fun l hl => ?_⟩
  · change (c.notchDepth.map fun x => lam * x)[0]? = some 0
    rw [List.getElem?_map, h.phase.2.notch]
    simp
  · change (c.fullWellDepth.map fun x => lam * x)[0]? = some (lam * full)
    rw [List.getElem?_map, h.phase.2.full]
    simp
  · unfold rescaleAll
    simpa using h.groups.1
  · obtain ⟨l0, m, rfl⟩ := List.mem_map.1 hl
    refine ⟨by simpa using (h.groups.2 l0 m).ne_nil, fun t hm => ?_⟩
    obtain ⟨t0, m0, rfl⟩ := List.mem_map.1 hm
    exact Trap.Sensible.rescale hlam hmu ((h.groups.2 l0 m).all t0 m0)

/-- The reference readout of a column in other units. -/
theorem FullObjects.rescaled (h : FullObjects full power dw gs i c o d) (hlam : 0 < lam) (hmu : 0 < mu)
    (hfew : trapCount gs * (power / full) ≤ 1) (n : ℕ) (hn : 0 < n) (y : ℕ → ℝ)
    (hy : ∀ r < n, 0 ≤ y r) (r : ℕ) (hr : r < n) :
    Ref.stepReadout (Ref.fullStep (wellFill (lam * full) power) (mu * dw)) ((rescaleAll lam mu gs).map Ref.fullOf)
        (Ref.allPasses n o) (fun r => lam * y r) r =
      lam * Ref.stepReadout (Ref.fullStep (wellFill full power) dw) (gs.map Ref.fullOf) (Ref.allPasses n o) y r := by
  rw [readout_time _ _ (rescaleAll_stretched hmu gs) hmu]
  have h' := h.rescale hlam one_pos
  have hfew' : trapCount (rescaleAll lam 1 gs) * (power / (lam * full)) ≤ 1 := by
    rw [trapCount_rescaleAll]
    refine le_trans (le_of_eq ?_) hfew
    have := h.full
    field_simp
  obtain ⟨a, a1, -, -, -, a4⟩ := h.run hfew (⟨n, 1, fun r _ => y r⟩ : Image ℝ) (fun r hr c _ => hy r hr) hn none (Or.inl rfl)
  obtain ⟨b, b1, -, -, -, b4⟩ := h'.run hfew' (⟨n, 1, fun r _ => lam * y r⟩ : Image ℝ)
    (fun r hr c _ => mul_nonneg hlam.le (hy r hr)) hn none (Or.inl rfl)
  have key := clockChargePy_scaled hlam one_pos (⟨n, 1, fun r _ => y r⟩ : Image ℝ) (some c) (.standard [dw] true true true i)
    (.list (gs.map .group)) (Or.inl rfl) 0 o (List.range n) (List.range 1) none
  have e : (PyTraps.list (gs.map .group)).map (Trap.rescale lam 1) = .list ((rescaleAll lam 1 gs).map .group) := by
    unfold PyTraps.map rescaleAll
    simp only [List.map_map]
    rfl
  rw [e] at key
  have b1' : clockChargePy ((⟨n, 1, fun r _ => y r⟩ : Image ℝ).scale lam) (Option.map (CCD.scaleCharge lam) (some c))
    ((Roe.standard [dw] true true true i).scaleTime 1) (.list ((rescaleAll lam 1 gs).map .group)) 0 o (List.range n)
    (List.range 1) none = .ok (b, .standard [1 * dw] true true true i) := b1
  rw [b1', a1] at key
  have eb : b = a.scale lam := by
    injection key with key
    exact (Prod.mk.inj key).1
  have := b4 r hr 0 one_pos
  have ha := a4 r hr 0 one_pos
  rw [eb, one_mul] at this
  change lam * a.px r 0 = _ at this
  rw [← this, ha]

variable {full' dw' : ℝ} {gs' : List (List Trap)} {i' : Bool} {c' : CCD} {d' : PyDirection}

/-- Two descriptions of a column. -/
theorem full_close_ccd {ε δ l : ℝ} (h : FullObjects full power dw gs i c o d) (h' : FullObjects full' power dw' gs' i' c' o d')
    (h0 : 0 ≤ ε) (h1 : ε ≤ 1) (hδ : Within δ full' full) (hn : NearCcds ε full dw full' dw' gs gs')
    (hl : 4 * (trapCount gs * (power / full)) ≤ l) (hl' : 4 * (trapCount gs' * (power / full')) ≤ l) (hl1 : l < 1) (n : ℕ)
    (hn0 : 0 < n) :
    Close n 0 (ε + δ / 10) (lossSlope l (n + o))
      (Ref.stepReadout (Ref.fullStep (wellFill full power) dw) (gs.map Ref.fullOf) (Ref.allPasses n o))
      (Ref.stepReadout (Ref.fullStep (wellFill full' power) dw') (gs'.map Ref.fullOf) (Ref.allPasses n o)) := by
  have hf := h.full
  have hf' := h'.full
  have hw := h.dwell
  have hw' := h'.dwell
  have hlam : 0 < full / full' := div_pos hf hf'
  have hmu : 0 < dw / dw' := div_pos hw hw'
  have k := h.slope_nonneg
  have k' := h'.slope_nonneg
  have hr := h'.rescale hlam hmu
  have e1 : full / full' * full' = full := by field_simp
  have e2 : dw / dw' * dw' = dw := by field_simp
  have res := h'.rescaled hlam hmu (by linarith) n hn0
  rw [e1, e2] at hr res
  have ec : trapCount (rescaleAll (full / full') (dw / dw') gs') * (power / full) = trapCount gs' * (power / full') := by
    rw [trapCount_rescaleAll]
    field_simp
  have C := full_close h hr h0 h1 (hn.unit hf hw hw') hl (by rw [ec]; exact hl') hl1 n
  have M := (hr.mild (by rw [ec]; linarith) n).mono le_rfl (lossSlope_mono (by rw [ec]; exact hl') hl1 (n + o))
  set lam := full / full' with hlame
  set q := lossSlope l (n + o) with hq
  have q0 : 0 ≤ q := lossSlope_nonneg (by linarith) hl1 _
  set A := Ref.stepReadout (Ref.fullStep (wellFill full power) dw) (gs.map Ref.fullOf) (Ref.allPasses n o)
  set B := Ref.stepReadout (Ref.fullStep (wellFill full power) dw) ((rescaleAll lam (dw / dw') gs').map Ref.fullOf)
    (Ref.allPasses n o)
  set B' := Ref.stepReadout (Ref.fullStep (wellFill full' power) dw') (gs'.map Ref.fullOf) (Ref.allPasses n o)
  have eB : ∀ y : ℕ → ℝ, (∀ r < n, 0 ≤ y r) → ∀ r < n, B' y r = 1 / lam * B (fun r => lam * y r) r := by
    intro y hy r hr
    rw [res y hy r hr]
    field_simp
  have hlam1 : |1 - 1 / lam| ≤ δ := by
    have : 1 - 1 / lam = (full - full') / full := by rw [hlame]; field_simp
    rw [this, abs_div, abs_of_pos hf, div_le_iff₀ hf, abs_sub_comm]
    exact hδ
  have gap : ∀ y : ℕ → ℝ, (∀ r < n, 0 ≤ y r) → colDist n (B y) (B' y) ≤ 2 * δ * q * ∑ r ∈ Finset.range n, y r := by
    intro y hy
    have hly : ∀ r < n, 0 ≤ lam * y r := fun r hr => mul_nonneg hlam.le (hy r hr)
    have L := M.lip (fun r => lam * y r) y hly hy
    have S := M.small y hy
    have T0 : 0 ≤ ∑ r ∈ Finset.range n, y r := Finset.sum_nonneg fun r hr => hy r (Finset.mem_range.1 hr)
    have ed : colDist n (fun r => lam * y r) y = |lam - 1| * ∑ r ∈ Finset.range n, y r := by
      unfold colDist
      rw [Finset.mul_sum]
      refine Finset.sum_congr rfl fun r hr => ?_
      rw [show lam * y r - y r = (lam - 1) * y r by ring, abs_mul, abs_of_nonneg (hy r (Finset.mem_range.1 hr))]
    rw [ed] at L
    have step : colDist n (B y) (B' y) ≤
        1 / lam * ∑ r ∈ Finset.range n, |B (fun r => lam * y r) r - lam * y r - (B y r - y r)| +
          |1 - 1 / lam| * ∑ r ∈ Finset.range n, |B y r - y r| := by
      unfold colDist
      rw [Finset.mul_sum, Finset.mul_sum, ← Finset.sum_add_distrib]
      refine Finset.sum_le_sum fun r hr => ?_
      rw [eB y hy r (Finset.mem_range.1 hr)]
      have : B y r - 1 / lam * B (fun r => lam * y r) r =
          -(1 / lam * (B (fun r => lam * y r) r - lam * y r - (B y r - y r))) + (1 - 1 / lam) * (B y r - y r) := by
        field_simp
        ring
      rw [this]
      refine (abs_add_le _ _).trans (le_of_eq ?_)
      rw [abs_neg, abs_mul, abs_mul, abs_of_pos (by positivity : 0 < 1 / lam)]
    have el : 1 / lam * |lam - 1| = |1 - 1 / lam| := by
      rw [← abs_of_pos (by positivity : 0 < 1 / lam), ← abs_mul, abs_of_pos (by positivity : 0 < 1 / lam)]
      congr 1
      field_simp
    calc colDist n (B y) (B' y) ≤ _ := step
      _ ≤ 1 / lam * (q * (|lam - 1| * ∑ r ∈ Finset.range n, y r)) + |1 - 1 / lam| * (q * ∑ r ∈ Finset.range n, y r) :=
        add_le_add (mul_le_mul_of_nonneg_left L (by positivity)) (mul_le_mul_of_nonneg_left S (abs_nonneg _))
      _ = 2 * |1 - 1 / lam| * (q * ∑ r ∈ Finset.range n, y r) := by rw [← el]; ring
      _ ≤ 2 * δ * (q * ∑ r ∈ Finset.range n, y r) := mul_le_mul_of_nonneg_right (by linarith) (mul_nonneg q0 T0)
      _ = 2 * δ * q * ∑ r ∈ Finset.range n, y r := by ring
  refine ⟨fun y hy => ?_, fun x y hx hy => ?_⟩
  · have t := C.total (fun r => lam * y r) fun r hr => mul_nonneg hlam.le (hy r hr)
    rw [Finset.sum_congr rfl fun r hr => eB y hy r (Finset.mem_range.1 hr), ← Finset.mul_sum]
    rw [← Finset.mul_sum] at t
    calc 1 / lam * ∑ r ∈ Finset.range n, B (fun r => lam * y r) r ≤ 1 / lam * (lam * ∑ r ∈ Finset.range n, y r) :=
        mul_le_mul_of_nonneg_left t (by positivity)
      _ = ∑ r ∈ Finset.range n, y r := by field_simp
  · have a := C.near x y hx hy
    have b := gap y hy
    have tri : colDist n (A x) (B' y) ≤ colDist n (A x) (B y) + colDist n (B y) (B' y) := by
      unfold colDist
      rw [← Finset.sum_add_distrib]
      exact Finset.sum_le_sum fun r _ => abs_sub_le _ _ _
    refine tri.trans ((add_le_add a b).trans (le_of_eq ?_))
    ring

end columns

/-! ## C112 -/

section main
variable {fp fs fp' fs' pp ps dp ds dp' ds' : ℝ} {gp gp' gs gs' : List (List Trap)} {ip is ip' is' : Bool} {cp cs cp' cs' : CCD}
  {op os : ℕ} {par ser par' ser' : PyDirection}

/-- **C112**: `add_cti` with two descriptions of the detector, traps of all classes, `well_fill_power ≥ 1`. The full well depths differ
by a fraction `δ`, the densities per full well depth and the rates per dwell time by a fraction `ε` at most. Let `λ` be at least four
times the numbers of traps per pixel times `power / full_well_depth` and
`q = (1-λ_p)^-(rows+offset_p) · (1-λ_s)^-(columns+offset_s) - 1`. Then the images differ by at most `(20 ε + 2 δ) q` times the charge
of the image, summed over all pixels. -/
theorem C112_add_cti (hp : FullObjects fp pp dp gp ip cp op par) (hs : FullObjects fs ps ds gs is cs os ser)
    (hp' : FullObjects fp' pp dp' gp' ip' cp' op par') (hs' : FullObjects fs' ps ds' gs' is' cs' os ser') (ε δ : ℝ)
    (h0 : 0 ≤ ε) (h1 : ε ≤ 1) (δp : Within δ fp' fp) (δs : Within δ fs' fs) (np : NearCcds ε fp dp fp' dp' gp gp')
    (ns : NearCcds ε fs ds fs' ds' gs gs') (img : Image ℝ) (hnr : 0 < img.nr) (hnc : 0 < img.nc) (himg : img.NonNeg) (lp ls q : ℝ)
    (hlp : 4 * (trapCount gp * (pp / fp)) ≤ lp) (hlp' : 4 * (trapCount gp' * (pp / fp')) ≤ lp)
    (hls : 4 * (trapCount gs * (ps / fs)) ≤ ls) (hls' : 4 * (trapCount gs' * (ps / fs')) ≤ ls) (hlp1 : lp < 1) (hls1 : ls < 1)
    (hq : q = (1 / (1 - lp)) ^ (img.nr + op) * (1 / (1 - ls)) ^ (img.nc + os) - 1) :
    ∃ a b roes roes', addCtiPy img par .all ser .all none = .ok (a, roes) ∧
      addCtiPy img par' .all ser' .all none = .ok (b, roes') ∧ a.SameShape img ∧ b.SameShape img ∧
      a.dist b ≤ (20 * ε + 2 * δ) * q * img.total := by
  have kp := hp.slope_nonneg
  have ks := hs.slope_nonneg
  have kp' := hp'.slope_nonneg
  have ks' := hs'.slope_nonneg
  have d0 : 0 ≤ δ := by
    by_contra hneg
    have := mul_neg_of_neg_of_pos (not_le.1 hneg) hp.full
    unfold Within at δp
    linarith [abs_nonneg (fp' - fp)]
  have mP := (hp.mild (by linarith) img.nr).mono le_rfl (lossSlope_mono hlp hlp1 (img.nr + op))
  have mP' := (hp'.mild (by linarith) img.nr).mono le_rfl (lossSlope_mono hlp' hlp1 (img.nr + op))
  have cP := full_close_ccd hp hp' h0 h1 δp np hlp hlp' hlp1 img.nr hnr
  have cS := full_close_ccd hs hs' h0 h1 δs ns hls hls' hls1 img.nc hnc
  obtain ⟨a, a1, a2, a3, a4⟩ := C103_add_cti hp hs (by linarith) (by linarith) img himg hnr hnc
  obtain ⟨b, b1, b2, b3, b4⟩ := C103_add_cti hp' hs' (by linarith) (by linarith) img himg hnr hnc
  refine ⟨a, b, _, _, a1, b1, ⟨a2, a3⟩, ⟨b2, b3⟩, ?_⟩
  have key := close_image cP cS mP mP' (by linarith) (lossSlope_nonneg (by linarith) hls1 _) img.px himg
  have e : (1 + lossSlope lp (img.nr + op)) * (1 + lossSlope ls (img.nc + os)) - 1 = q := by
    rw [hq]; unfold lossSlope; ring
  rw [e, show 20 * (ε + δ / 10) = 20 * ε + 2 * δ by ring] at key
  refine le_trans (le_of_eq ?_) key
  unfold Image.dist
  rw [a2, a3]
  refine Finset.sum_congr rfl fun r hr => Finset.sum_congr rfl fun c hc => ?_
  rw [a4 r (Finset.mem_range.1 hr) c (Finset.mem_range.1 hc), b4 r (Finset.mem_range.1 hr) c (Finset.mem_range.1 hc)]

/-- **C112**: `remove_cti` with another description of the detector than the one that the image was made with. If `q < 1` and every
pixel of the true image has at least `q + (20 ε + 2 δ) q / (1-q)` times the total charge of the image, the image returned after `n`
iterations differs from the true image by at most `q^(n+1) + (20 ε + 2 δ) q / (1-q)` times its total charge. -/
theorem C112_remove_cti (hp : FullObjects fp pp dp gp ip cp op par) (hs : FullObjects fs ps ds gs is cs os ser)
    (hp' : FullObjects fp' pp dp' gp' ip' cp' op par') (hs' : FullObjects fs' ps ds' gs' is' cs' os ser') (ε δ : ℝ)
    (h0 : 0 ≤ ε) (h1 : ε ≤ 1) (δp : Within δ fp' fp) (δs : Within δ fs' fs) (np : NearCcds ε fp dp fp' dp' gp gp')
    (ns : NearCcds ε fs ds fs' ds' gs gs') (truth : Image ℝ) (hnr : 0 < truth.nr) (hnc : 0 < truth.nc) (lp ls q : ℝ)
    (hlp : 4 * (trapCount gp * (pp / fp)) ≤ lp) (hlp' : 4 * (trapCount gp' * (pp / fp')) ≤ lp)
    (hls : 4 * (trapCount gs * (ps / fs)) ≤ ls) (hls' : 4 * (trapCount gs' * (ps / fs')) ≤ ls) (hlp1 : lp < 1) (hls1 : ls < 1)
    (hq : q = (1 / (1 - lp)) ^ (truth.nr + op) * (1 / (1 - ls)) ^ (truth.nc + os) - 1) (hq1 : q < 1) (hpos : 0 ≤ truth.total)
    (htruth : ∀ r < truth.nr, ∀ c < truth.nc, (q + (20 * ε + 2 * δ) * q / (1 - q)) * truth.total ≤ truth.px r c) :
    ∃ img roes, addCtiPy truth par' .all ser' .all none = .ok (img, roes) ∧
      ∀ n, ∃ out, removeCtiPy img n par .all ser .all none = .ok (out, par.roe, ser.roe) ∧ out.SameShape truth ∧
        out.dist truth ≤ (q ^ (n + 1) + (20 * ε + 2 * δ) * q / (1 - q)) * truth.total := by
  have kp := hp.slope_nonneg
  have ks := hs.slope_nonneg
  have kp' := hp'.slope_nonneg
  have ks' := hs'.slope_nonneg
  have d0 : 0 ≤ δ := by
    by_contra hneg
    have := mul_neg_of_neg_of_pos (not_le.1 hneg) hp.full
    unfold Within at δp
    linarith [abs_nonneg (fp' - fp)]
  have mP := (hp.mild (by linarith) truth.nr).mono le_rfl (lossSlope_mono hlp hlp1 (truth.nr + op))
  have mP' := (hp'.mild (by linarith) truth.nr).mono le_rfl (lossSlope_mono hlp' hlp1 (truth.nr + op))
  have mS := (hs.mild (by linarith) truth.nc).mono le_rfl (lossSlope_mono hls hls1 (truth.nc + os))
  have mS' := (hs'.mild (by linarith) truth.nc).mono le_rfl (lossSlope_mono hls' hls1 (truth.nc + os))
  have cP := full_close_ccd hp hp' h0 h1 δp np hlp hlp' hlp1 truth.nr hnr
  have cS := full_close_ccd hs hs' h0 h1 δs ns hls hls' hls1 truth.nc hnc
  have q0p := lossSlope_nonneg (by linarith : 0 ≤ lp) hlp1 (truth.nr + op)
  have q0s := lossSlope_nonneg (by linarith : 0 ≤ ls) hls1 (truth.nc + os)
  have qe : (1 + lossSlope lp (truth.nr + op)) * (1 + lossSlope ls (truth.nc + os)) - 1 = q := by
    rw [hq]; unfold lossSlope; ring
  have hq0 : 0 ≤ q := by rw [← qe]; nlinarith
  have hE : 0 ≤ (20 * ε + 2 * δ) * q := mul_nonneg (by linarith) hq0
  have hd : 0 ≤ (20 * ε + 2 * δ) * q / (1 - q) := div_nonneg hE (by linarith)
  have ht0 : ∀ r < truth.nr, ∀ c < truth.nc, 0 ≤ truth.px r c := fun r hr c hc =>
    (mul_nonneg (by linarith) hpos).trans (htruth r hr c hc)
  have key := close_image cP cS mP mP' (by linarith) q0s truth.px ht0
  rw [qe, show 20 * (ε + δ / 10) = 20 * ε + 2 * δ by ring] at key
  exact remove_other hp' hs' (by linarith) (by linarith) hp hs (by linarith) (by linarith) truth hnr hnc _ _ q
    ((20 * ε + 2 * δ) * q) q0s qe hq0 hq1 hE mP mS mP' mS' hpos htruth key

end main

/-! ### a case -/

/-- A CCD whose full well is deeper by one per cent with the traps of `exFull`. -/
theorem exDeeper : FullObjects 1010 1 1
    [[.logNormalTrap 0.1 3 (1 / 2)], [.trap 0.1 2 0.1 false], [.instant 0.1 5 false]] false
    ⟨[1], [1010], [1], [0], [.num 1010]⟩ 2
    ⟨some ⟨[1], [1010], [1], [0], [.num 1010]⟩, some (.standard [1] true true true false),
      some (.list ([[.logNormalTrap 0.1 3 (1 / 2)], [.trap 0.1 2 0.1 false], [.instant 0.1 5 false]].map .group)), 0, 2⟩ :=
  ⟨rfl, ⟨rfl, ⟨rfl, rfl, rfl⟩⟩, by norm_num, le_rfl, one_pos, exFull.groups⟩

/-- Two groups clocked with a dwell time `w`. -/
theorem exDwell (w : ℝ) (hw : 0 < w) : FullObjects 1000 1 w [[.trap 0.1 2 0.1 false], [.instant 0.1 5 false]] false
    ⟨[1], [1000], [1], [0], [.num 1000]⟩ 2
    ⟨some ⟨[1], [1000], [1], [0], [.num 1000]⟩, some (.standard [w] true true true false),
      some (.list ([[.trap 0.1 2 0.1 false], [.instant 0.1 5 false]].map .group)), 0, 2⟩ :=
  ⟨rfl, ⟨rfl, ⟨rfl, rfl, rfl⟩⟩, by norm_num, le_rfl, hw, by simp,
    fun l hl => exFull.groups.2 l (List.mem_cons_of_mem _ hl)⟩

/-- Three rows and two columns of 100 electrons. In the detector that made the image the full well is deeper by one per cent for
parallel clocking and the dwell time is longer by one per cent for serial clocking than in the description used for the correction:
after three iterations the corrected image is within 2 of 600 electrons of the true one. -/
example : ∃ img roes out, addCtiPy ⟨3, 2, fun _ _ => 100⟩
      ⟨some ⟨[1], [1010], [1], [0], [.num 1010]⟩, some (.standard [1] true true true false),
        some (.list ([[.logNormalTrap 0.1 3 (1 / 2)], [.trap 0.1 2 0.1 false], [.instant 0.1 5 false]].map .group)), 0, 2⟩ .all
      ⟨some ⟨[1], [1000], [1], [0], [.num 1000]⟩, some (.standard [1.01] true true true false),
        some (.list ([[.trap 0.1 2 0.1 false], [.instant 0.1 5 false]].map .group)), 0, 2⟩ .all none = .ok (img, roes) ∧
    removeCtiPy img 3
      ⟨some ⟨[1], [1000], [1], [0], [.num 1000]⟩, some (.standard [1] true true true false),
        some (.list ([[.logNormalTrap 0.1 3 (1 / 2)], [.trap 0.1 2 0.1 false], [.instant 0.1 5 false]].map .group)), 0, 2⟩ .all
      ⟨some ⟨[1], [1000], [1], [0], [.num 1000]⟩, some (.standard [1] true true true false),
        some (.list ([[.trap 0.1 2 0.1 false], [.instant 0.1 5 false]].map .group)), 0, 2⟩ .all
      none = .ok (out, some (.standard [1] true true true false), some (.standard [1] true true true false)) ∧
    out.dist ⟨3, 2, fun _ _ => 100⟩ ≤ 2 := by
  have hc := exFull_count
  have hc2 : trapCount [[.trap 0.1 2 0.1 false], [.instant 0.1 5 false]] = 0.2 := by
    simp [trapCount, Trap.density]; norm_num
  have one : ∀ t u : Trap, t = u → Trap.SameClass t u := by
    rintro t u rfl
    cases t
    · exact .trap ..
    · exact .instant ..
    · exact .continuum ..
  have self : ∀ t : Trap, ∀ a ∈ [t], ∀ b ∈ [t], Trap.SameClass a b := by
    intro t a ha b hb
    simp only [List.mem_cons, List.not_mem_nil, or_false] at ha hb
    exact one _ _ (by rw [ha, hb])
  have np : NearCcds 0.01 1000 1 1010 1 [[.logNormalTrap 0.1 3 (1 / 2)], [.trap 0.1 2 0.1 false], [.instant 0.1 5 false]]
      [[.logNormalTrap 0.1 3 (1 / 2)], [.trap 0.1 2 0.1 false], [.instant 0.1 5 false]] := by
    refine .cons ⟨.cons (.continuum _ _ _ _ _ _ _ _ ?_ ?_) .nil, self _⟩
      (.cons ⟨.cons (.trap _ _ _ _ _ _ _ _ ?_ ?_ ?_ Iff.rfl) .nil, self _⟩
        (.cons ⟨.cons (.instant _ _ _ _ _ _ ?_ ?_) .nil, self _⟩ .nil))
    · unfold Within; rw [abs_le]; norm_num
    · simp only [sub_self, abs_zero, MeasureTheory.integral_zero]; norm_num
    all_goals unfold Within; rw [abs_le]; norm_num
  have ns : NearCcds 0.01 1000 1 1000 1.01 [[.trap 0.1 2 0.1 false], [.instant 0.1 5 false]]
      [[.trap 0.1 2 0.1 false], [.instant 0.1 5 false]] := by
    refine .cons ⟨.cons (.trap _ _ _ _ _ _ _ _ ?_ ?_ ?_ Iff.rfl) .nil, self _⟩
        (.cons ⟨.cons (.instant _ _ _ _ _ _ ?_ ?_) .nil, self _⟩ .nil)
    all_goals unfold Within; rw [abs_le]; norm_num
  obtain ⟨q, hq⟩ : ∃ q : ℝ, q = (1 / (1 - 0.0012)) ^ (3 + 2) * (1 / (1 - 0.0008)) ^ (2 + 2) - 1 := ⟨_, rfl⟩
  have hq0 : 0 ≤ q := by rw [hq]; norm_num
  have hq1 : q ≤ 0.01 := by rw [hq]; norm_num
  have ht : (⟨3, 2, fun _ _ => 100⟩ : Image ℝ).total = 600 := by
    simp [Image.total]; norm_num
  have hdiv : (20 * 0.01 + 2 * 0.01) * q / (1 - q) ≤ 0.003 := by
    rw [div_le_iff₀ (by linarith)]; linarith
  obtain ⟨img, roes, g1, g2⟩ := C112_remove_cti exFull (exDwell 1 one_pos) exDeeper (exDwell 1.01 (by norm_num)) 0.01 0.01
    (by norm_num) (by norm_num) (by unfold Within; rw [abs_le]; norm_num) (by unfold Within; norm_num) np ns
    (⟨3, 2, fun _ _ => 100⟩ : Image ℝ) (by norm_num) (by norm_num) 0.0012 0.0008 q (by rw [hc]; norm_num) (by rw [hc]; norm_num)
    (by rw [hc2]; norm_num) (by rw [hc2]; norm_num) (by norm_num) (by norm_num) hq (by linarith) (by rw [ht]; norm_num)
    (fun r hr c hc' => by rw [ht]; linarith)
  obtain ⟨out, o1, -, o3⟩ := g2 3
  refine ⟨img, roes, out, g1, o1, o3.trans ?_⟩
  rw [ht]
  have : q ^ (3 + 1) ≤ 0.01 ^ (3 + 1) := pow_le_pow_left₀ hq0 hq1 _
  have : q ^ (3 + 1) ≤ 0.0001 := this.trans (by norm_num)
  linarith

end Arctic
