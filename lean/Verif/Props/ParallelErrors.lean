import Verif.Props.AllErrors

/-!
# C120 — errors of the description of traps and CCD, parallel clocking only

C119 for images with CTI from parallel clocking only.
-/

set_option linter.unusedSectionVars false
set_option linter.unusedVariables false

namespace Arctic

section main
variable {wp wp' fp fp' pp pp' dp : ℝ} {gp gp' : List (List Trap)} {ip ip' : Bool} {cp cp' : CCD} {op : ℕ}
  {par par' : PyDirection} {bp lp left kp ηp ε δ q : ℝ}

/-- Two readouts of all columns. -/
theorem both_parallel (hp : NotchObjects wp fp pp dp gp ip cp op par) (hp' : NotchObjects wp' fp' pp' dp gp' ip' cp' op par')
    (h0 : 0 ≤ ε) (h1 : ε ≤ 1) (tp : Kindred dp ε gp gp') {nr nc : ℕ}
    (hbp : OverNotch wp fp pp gp (nr + op) bp lp left kp) (hbpm : OverNotch wp' fp' pp' gp (nr + op) bp lp left kp)
    (hbp' : OverNotch wp' fp' pp' gp' (nr + op) bp lp left kp) (hkp : 4 * kp < 1)
    (vp : VolumesNear bp ηp (notchFill wp fp pp) (notchFill wp' fp' pp'))
    (hq : q = (1 / (1 - 4 * kp)) ^ (nr + op) - 1) (x : ℕ → ℕ → ℝ) (hx : ∀ r < nr, ∀ c < nc, lp ≤ x r c) :
    ∑ r ∈ Finset.range nr, ∑ c ∈ Finset.range nc,
        |Ref.stepReadout (Ref.fullStep (notchFill wp fp pp) dp) (gp.map Ref.fullOf) (Ref.allPasses nr op) (fun r => x r c) r -
          Ref.stepReadout (Ref.fullStep (notchFill wp' fp' pp') dp) (gp'.map Ref.fullOf) (Ref.allPasses nr op)
            (fun r => x r c) r| ≤
      (1 + q) * (4 * (nr * nc) * ((nr + op : ℕ) * (trapCount gp * ηp))) +
        20 * ε * q * ∑ r ∈ Finset.range nr, ∑ c ∈ Finset.range nc, x r c := by
  have hpm : NotchObjects wp' fp' pp' dp gp ip' cp' op
      ⟨some cp', some (.standard [dp] true true true ip'), some (.list (gp.map .group)), 0, op⟩ :=
    ⟨rfl, hp'.phase, hp'.notch, hp'.power, hp.dwell, hp.groups⟩
  have qe : lossSlope (4 * kp) (nr + op) = q := by rw [hq]; rfl
  have cl := notched_close hpm hp' hbpm hbp' hkp h0 h1 tp
  rw [qe] at cl
  rw [Finset.sum_comm]
  have key : ∀ c ∈ Finset.range nc, ∑ r ∈ Finset.range nr,
      |Ref.stepReadout (Ref.fullStep (notchFill wp fp pp) dp) (gp.map Ref.fullOf) (Ref.allPasses nr op) (fun r => x r c) r -
        Ref.stepReadout (Ref.fullStep (notchFill wp' fp' pp') dp) (gp'.map Ref.fullOf) (Ref.allPasses nr op)
          (fun r => x r c) r| ≤
      (1 + q) * (4 * nr * ((nr + op : ℕ) * (trapCount gp * ηp))) + 20 * ε * q * ∑ r ∈ Finset.range nr, x r c := by
    intro c hc
    have hc' := Finset.mem_range.1 hc
    have hxc : ∀ r < nr, lp ≤ x r c := fun r hr => hx r hr c hc'
    have z : colDist nr (fun r => x r c) (fun r => x r c) = 0 := by simp [colDist]
    have k1 := law_columns hp hpm hbp hbpm hkp vp (fun r => x r c) (fun r => x r c) hxc hxc
    have k2 := cl.near (fun r => x r c) (fun r => x r c) hxc hxc
    rw [z, zero_add, qe] at k1
    rw [z, mul_zero, zero_add] at k2
    have e : (1 + q) * (((nr + op : ℕ) : ℝ) * (4 * (trapCount gp * ηp) * nr)) =
        (1 + q) * (4 * nr * ((nr + op : ℕ) * (trapCount gp * ηp))) := by ring
    rw [e] at k1
    refine le_trans ?_ (add_le_add k1 k2)
    unfold colDist
    rw [← Finset.sum_add_distrib]
    exact Finset.sum_le_sum fun r _ => abs_sub_le _ _ _
  refine (Finset.sum_le_sum key).trans (le_of_eq ?_)
  rw [Finset.sum_add_distrib, Finset.sum_const, Finset.card_range, nsmul_eq_mul, ← Finset.mul_sum, Finset.sum_comm]
  ring

theorem both_add_parallel (hp : NotchObjects wp fp pp dp gp ip cp op par)
    (hp' : NotchObjects wp' fp' pp' dp gp' ip' cp' op par') (h0 : 0 ≤ ε) (h1 : ε ≤ 1) (tp : Kindred dp ε gp gp')
    (img : Image ℝ) (hnr : 0 < img.nr)
    (hbp : OverNotch wp fp pp gp (img.nr + op) bp lp left kp) (hbpm : OverNotch wp' fp' pp' gp (img.nr + op) bp lp left kp)
    (hbp' : OverNotch wp' fp' pp' gp' (img.nr + op) bp lp left kp) (hkp : 4 * kp < 1)
    (vp : VolumesNear bp ηp (notchFill wp fp pp) (notchFill wp' fp' pp'))
    (hq : q = (1 / (1 - 4 * kp)) ^ (img.nr + op) - 1) (himg : img.AtLeast lp) :
    ∃ a a' roes roes', addCtiPy img par .all .absent .all none = .ok (a, roes) ∧
      addCtiPy img par' .all .absent .all none = .ok (a', roes') ∧ a.SameShape img ∧ a'.SameShape img ∧
      a.dist a' ≤ (1 + q) * (4 * (img.nr * img.nc) * ((img.nr + op : ℕ) * (trapCount gp * ηp))) + 20 * ε * q * img.total := by
  obtain ⟨a, a1, a2, a3, -, a4⟩ := C116_parallel hp img hnr hbp himg
  obtain ⟨a', b1, b2, b3, -, b4⟩ := C116_parallel hp' img hnr hbp' himg
  refine ⟨a, a', _, _, a1, b1, ⟨a2, a3⟩, ⟨b2, b3⟩, ?_⟩
  refine le_trans (le_of_eq ?_) (both_parallel hp hp' h0 h1 tp hbp hbpm hbp' hkp vp hq img.px himg)
  unfold Image.dist
  rw [a2, a3]
  refine Finset.sum_congr rfl fun r hr => Finset.sum_congr rfl fun c hc => ?_
  rw [a4 r (Finset.mem_range.1 hr) c (Finset.mem_range.1 hc), b4 r (Finset.mem_range.1 hr) c (Finset.mem_range.1 hc)]

theorem both_remove_parallel (hp : NotchObjects wp fp pp dp gp ip cp op par)
    (hp' : NotchObjects wp' fp' pp' dp gp' ip' cp' op par') (h0 : 0 ≤ ε) (h1 : ε ≤ 1) (tp : Kindred dp ε gp gp')
    (truth : Image ℝ) (hnr : 0 < truth.nr)
    (hbp : OverNotch wp fp pp gp (truth.nr + op) bp lp left kp)
    (hbpm : OverNotch wp' fp' pp' gp (truth.nr + op) bp lp left kp)
    (hbp' : OverNotch wp' fp' pp' gp' (truth.nr + op) bp lp left kp) (hkp : 4 * kp < 1)
    (vp : VolumesNear bp ηp (notchFill wp fp pp) (notchFill wp' fp' pp'))
    (hq : q = (1 / (1 - 4 * kp)) ^ (truth.nr + op) - 1) (hq1 : q < 1) (hpos : 0 ≤ truth.total) {E : ℝ}
    (hE : E = (1 + q) * (4 * (truth.nr * truth.nc) * ((truth.nr + op : ℕ) * (trapCount gp * ηp))) + 20 * ε * q * truth.total)
    (htruth : ∀ r < truth.nr, ∀ c < truth.nc, lp + (q * truth.total + E / (1 - q)) ≤ truth.px r c) :
    ∃ img roes, addCtiPy truth par .all .absent .all none = .ok (img, roes) ∧
      ∀ n, ∃ out, removeCtiPy img n par' .all .absent .all none = .ok (out, par'.roe, none) ∧ out.SameShape truth ∧
        out.dist truth ≤ q ^ (n + 1) * truth.total + E / (1 - q) := by
  obtain ⟨hq0, mP0⟩ := hp.mild hbp hkp
  obtain ⟨-, mP⟩ := hp'.mild hbp' hkp
  have qe : lossSlope (4 * kp) (truth.nr + op) = q := by rw [hq]; rfl
  rw [qe] at hq0 mP0 mP
  have hE0 : 0 ≤ E := by
    have hηp := mul_nonneg hp.count_nonneg vp.nonneg
    rw [hE]; positivity
  have hd : 0 ≤ E / (1 - q) := div_nonneg hE0 (by linarith)
  have ht0 : truth.AtLeast lp := fun r hr c hc => by
    have := mul_nonneg hq0 hpos
    linarith [htruth r hr c hc]
  have near := both_parallel hp hp' h0 h1 tp hbp hbpm hbp' hkp vp hq truth.px ht0
  change _ ≤ _ + 20 * ε * q * truth.total at near
  rw [← hE] at near
  obtain ⟨img, b1, b2, b3, -, b4⟩ := C116_parallel hp truth hnr hbp ht0
  have hdist : img.dist truth ≤ q * truth.total := by
    unfold Image.dist Image.total
    rw [b2, b3, Finset.sum_comm, Finset.mul_sum]
    simp only [Finset.mul_sum]
    rw [Finset.sum_comm (s := Finset.range truth.nr)]
    refine Finset.sum_le_sum fun c hc => ?_
    have hc' := Finset.mem_range.1 hc
    rw [← Finset.mul_sum]
    refine le_trans (le_of_eq ?_) (mP0.small (fun r => truth.px r c) fun r hr => ht0 r hr c hc')
    refine Finset.sum_congr rfl fun r hr => ?_
    rw [b4 r (Finset.mem_range.1 hr) c hc']
  have hroe : par'.roe = some (.standard [dp] true true true ip') := by rw [hp'.eq]
  refine ⟨img, _, b1, fun n => ?_⟩
  have main := removeIter_near (fun x (roes : Option (Roe ℝ) × Option (Roe ℝ)) => do
      let (y, rp, rs) ← addCtiPy x { par' with roe := roes.1 } .all { PyDirection.absent with roe := roes.2 } .all none
      .ok (y, roes.1.map fun _ => rp, roes.2.map fun _ => rs)) (par'.roe, none) truth img lp q
    E (q * truth.total) hq0 hq1 hE0 ⟨b2, b3⟩ hdist htruth (fun x hx hlow => ?_) n
  · obtain ⟨out, o1, o2, o3⟩ := main
    refine ⟨out, o1, o2, o3.trans (le_of_eq ?_)⟩
    ring
  · obtain ⟨y, g1, g2, g3, -, g4⟩ := C116_parallel hp' x (by rw [hx.1]; exact hnr) (by rw [hx.1]; exact hbp')
      (fun r hr c hc => hlow r (by rw [← hx.1]; exact hr) c (by rw [← hx.2]; exact hc))
    rw [hx.1, hx.2] at g4
    refine ⟨y, ?_, ⟨g2.trans hx.1, g3.trans hx.2⟩, ?_⟩
    · simp only [bind, Except.bind]
      have : ({ PyDirection.absent with roe := none } : PyDirection) = .absent := rfl
      rw [this, g1]
      simp only [hroe, Option.map_some, Option.map_none]
    · have lip : ∑ r ∈ Finset.range truth.nr, ∑ c ∈ Finset.range truth.nc,
          |(Ref.stepReadout (Ref.fullStep (notchFill wp' fp' pp') dp) (gp'.map Ref.fullOf) (Ref.allPasses truth.nr op)
              (fun r => x.px r c) r - x.px r c) -
            (Ref.stepReadout (Ref.fullStep (notchFill wp' fp' pp') dp) (gp'.map Ref.fullOf) (Ref.allPasses truth.nr op)
              (fun r => truth.px r c) r - truth.px r c)| ≤ q * x.dist truth := by
        unfold Image.dist
        rw [hx.1, hx.2, Finset.sum_comm, Finset.sum_comm (f := fun r c => |x.px r c - truth.px r c|), Finset.mul_sum]
        refine Finset.sum_le_sum fun c hc => ?_
        have hc' := Finset.mem_range.1 hc
        exact mP.lip (fun r => x.px r c) (fun r => truth.px r c) (fun r hr => hlow r hr c hc') fun r hr => ht0 r hr c hc'
      have both := add_le_add lip near
      rw [← Finset.sum_add_distrib] at both
      refine le_trans ?_ both
      refine Finset.sum_le_sum fun r hr => ?_
      rw [← Finset.sum_add_distrib]
      refine Finset.sum_le_sum fun c hc => ?_
      rw [g4 r (Finset.mem_range.1 hr) c (Finset.mem_range.1 hc), b4 r (Finset.mem_range.1 hr) c (Finset.mem_range.1 hc)]
      rw [abs_sub_comm (Ref.stepReadout (Ref.fullStep (notchFill wp fp pp) dp) (gp.map Ref.fullOf) _ _ _)]
      refine le_trans (le_of_eq ?_) (abs_add_le _ _)
      congr 1
      ring

/-- **C120**: `add_cti` with two descriptions of the CCD and of the traps, parallel clocking only, of an image with `lp` electrons in every
pixel. With `q = (1-4k)^-(rows+offset) - 1` the images differ by at most `4 (1+q) rows columns (rows+offset) traps η` electrons and
`20 ε q` times the charge. -/
theorem C120_add_cti (hp : NotchObjects wp fp pp dp gp ip cp op par)
    (hp' : NotchObjects wp' fp' pp' dp gp' ip' cp' op par') (h0 : 0 ≤ ε) (h1 : ε ≤ 1) (tp : NearAll ε gp gp')
    (img : Image ℝ) (hnr : 0 < img.nr)
    (hbp : OverNotch wp fp pp gp (img.nr + op) bp lp left kp) (hbpm : OverNotch wp' fp' pp' gp (img.nr + op) bp lp left kp)
    (hbp' : OverNotch wp' fp' pp' gp' (img.nr + op) bp lp left kp) (hkp : 4 * kp < 1)
    (vp : VolumesNear bp ηp (notchFill wp fp pp) (notchFill wp' fp' pp'))
    (hq : q = (1 / (1 - 4 * kp)) ^ (img.nr + op) - 1) (himg : img.AtLeast lp) :
    ∃ a a' roes roes', addCtiPy img par .all .absent .all none = .ok (a, roes) ∧
      addCtiPy img par' .all .absent .all none = .ok (a', roes') ∧ a.SameShape img ∧ a'.SameShape img ∧
      a.dist a' ≤ (1 + q) * (4 * (img.nr * img.nc) * ((img.nr + op : ℕ) * (trapCount gp * ηp))) +
        20 * ε * q * img.total := by
  have hpm : NotchObjects wp' fp' pp' dp gp ip' cp' op
      ⟨some cp', some (.standard [dp] true true true ip'), some (.list (gp.map .group)), 0, op⟩ :=
    ⟨rfl, hp'.phase, hp'.notch, hp'.power, hp.dwell, hp.groups⟩
  exact both_add_parallel hp hp' h0 h1 (notched_near hpm hp' h0 h1 tp) img hnr hbp hbpm hbp' hkp vp hq himg

/-- **C120**: `remove_cti`, parallel clocking only, with another CCD and other traps than the image was made with. -/
theorem C120_remove_cti (hp : NotchObjects wp fp pp dp gp ip cp op par)
    (hp' : NotchObjects wp' fp' pp' dp gp' ip' cp' op par') (h0 : 0 ≤ ε) (h1 : ε ≤ 1) (tp : NearAll ε gp gp')
    (truth : Image ℝ) (hnr : 0 < truth.nr)
    (hbp : OverNotch wp fp pp gp (truth.nr + op) bp lp left kp)
    (hbpm : OverNotch wp' fp' pp' gp (truth.nr + op) bp lp left kp)
    (hbp' : OverNotch wp' fp' pp' gp' (truth.nr + op) bp lp left kp) (hkp : 4 * kp < 1)
    (vp : VolumesNear bp ηp (notchFill wp fp pp) (notchFill wp' fp' pp'))
    (hq : q = (1 / (1 - 4 * kp)) ^ (truth.nr + op) - 1) (hq1 : q < 1) (hpos : 0 ≤ truth.total) {E : ℝ}
    (hE : E = (1 + q) * (4 * (truth.nr * truth.nc) * ((truth.nr + op : ℕ) * (trapCount gp * ηp))) + 20 * ε * q * truth.total)
    (htruth : ∀ r < truth.nr, ∀ c < truth.nc, lp + (q * truth.total + E / (1 - q)) ≤ truth.px r c) :
    ∃ img roes, addCtiPy truth par .all .absent .all none = .ok (img, roes) ∧
      ∀ n, ∃ out, removeCtiPy img n par' .all .absent .all none = .ok (out, par'.roe, none) ∧ out.SameShape truth ∧
        out.dist truth ≤ q ^ (n + 1) * truth.total + E / (1 - q) := by
  have hpm : NotchObjects wp' fp' pp' dp gp ip' cp' op
      ⟨some cp', some (.standard [dp] true true true ip'), some (.list (gp.map .group)), 0, op⟩ :=
    ⟨rfl, hp'.phase, hp'.notch, hp'.power, hp.dwell, hp.groups⟩
  exact both_remove_parallel hp hp' h0 h1 (notched_near hpm hp' h0 h1 tp) truth hnr hbp hbpm hbp' hkp vp hq hq1 hpos hE htruth

/-- **C120**, bins: an image made with distributions of lifetimes, corrected with a few lifetimes in their place and another CCD. -/
theorem C120_remove_cti_bins (hp : NotchObjects wp fp pp dp gp ip cp op par)
    (hp' : NotchObjects wp' fp' pp' dp gp' ip' cp' op par') (h0 : 0 ≤ ε) (hδ : 0 ≤ δ) (h1 : 2 * (ε + δ) ≤ 1)
    (tp : List.Forall₂ (Binned ε δ) gp gp') (truth : Image ℝ) (hnr : 0 < truth.nr)
    (hbp : OverNotch wp fp pp gp (truth.nr + op) bp lp left kp)
    (hbpm : OverNotch wp' fp' pp' gp (truth.nr + op) bp lp left kp)
    (hbp' : OverNotch wp' fp' pp' gp' (truth.nr + op) bp lp left kp) (hkp : 4 * kp < 1)
    (vp : VolumesNear bp ηp (notchFill wp fp pp) (notchFill wp' fp' pp'))
    (hq : q = (1 / (1 - 4 * kp)) ^ (truth.nr + op) - 1) (hq1 : q < 1) (hpos : 0 ≤ truth.total) {E : ℝ}
    (hE : E = (1 + q) * (4 * (truth.nr * truth.nc) * ((truth.nr + op : ℕ) * (trapCount gp * ηp))) +
      40 * (ε + δ) * q * truth.total)
    (htruth : ∀ r < truth.nr, ∀ c < truth.nc, lp + (q * truth.total + E / (1 - q)) ≤ truth.px r c) :
    ∃ img roes, addCtiPy truth par .all .absent .all none = .ok (img, roes) ∧
      ∀ n, ∃ out, removeCtiPy img n par' .all .absent .all none = .ok (out, par'.roe, none) ∧ out.SameShape truth ∧
        out.dist truth ≤ q ^ (n + 1) * truth.total + E / (1 - q) := by
  have hpm : NotchObjects wp' fp' pp' dp gp ip' cp' op
      ⟨some cp', some (.standard [dp] true true true ip'), some (.list (gp.map .group)), 0, op⟩ :=
    ⟨rfl, hp'.phase, hp'.notch, hp'.power, hp.dwell, hp.groups⟩
  rw [show 40 * (ε + δ) = 20 * (2 * (ε + δ)) by ring] at hE
  exact both_remove_parallel hp hp' (by linarith : 0 ≤ 2 * (ε + δ)) h1 (notched_bins hpm hp' h0 hδ tp) truth hnr hbp hbpm hbp'
    hkp vp hq hq1 hpos hE htruth

end main

/-! ### a case -/

/-- Three rows and two columns of 200 electrons, a notch of 50 electrons, `well_fill_power = 1/2`, traps of all classes, parallel
clocking only. The image is corrected with a full well of 1070.1 in the place of 1050 electrons, with 1% more slow traps of a capture timescale 1% longer, with a
release timescale 1% longer and with another distribution of lifetimes: after three iterations it is within 13 of 1200 electrons of the
true one. -/
example (d d' : PyDirection) (hd : d = ⟨some ⟨[1], [1050], [1 / 2], [50], [.num 1050]⟩,
      some (.standard [1] true true true false),
      some (.list ([[.logNormalTrap 0.1 3 (1 / 2)], [.trap 0.1 2 0.1 false], [.instant 0.1 5 false]].map .group)), 0, 2⟩)
    (hd' : d' = ⟨some ⟨[1], [1070.1], [1 / 2], [50], [.num 1070.1]⟩, some (.standard [1] true true true false),
      some (.list ([[.continuum 0.1 exMix 3 (1 / 2)], [.trap 0.101 2 0.101 false], [.instant 0.1 5.05 false]].map .group)),
      0, 2⟩) :
    ∃ img roes out, addCtiPy ⟨3, 2, fun _ _ => 200⟩ d .all .absent .all none = .ok (img, roes) ∧
      removeCtiPy img 3 d' .all .absent .all none = .ok (out, d'.roe, none) ∧ out.dist ⟨3, 2, fun _ _ => 200⟩ ≤ 13 := by
  have h := exNotch
  rw [← hd] at h
  have h' : NotchObjects 50 1070.1 (1 / 2) 1 [[.continuum 0.1 exMix 3 (1 / 2)], [.trap 0.101 2 0.101 false], [.instant 0.1 5.05 false]]
      false ⟨[1], [1070.1], [1 / 2], [50], [.num 1070.1]⟩ 2 d' := by
    refine ⟨hd', ⟨rfl, ⟨rfl, rfl, rfl⟩⟩, ⟨by norm_num, by norm_num⟩, exNotch.power, exNotch.dwell, by simp, fun l hl => ?_⟩
    simp only [List.mem_cons, List.not_mem_nil, or_false] at hl
    rcases hl with rfl | rfl | rfl
    · refine ⟨by simp, fun t ht => ?_⟩
      simp only [List.mem_cons, List.not_mem_nil, or_false] at ht
      subst ht
      exact ⟨⟨by norm_num, by norm_num, exMix_lifetimes⟩, le_rfl⟩
    · refine ⟨by simp, fun t ht => ?_⟩
      simp only [List.mem_cons, List.not_mem_nil, or_false] at ht
      subst ht
      exact ⟨⟨by norm_num, by norm_num⟩, by simp only [Trap.captureTimescale]; norm_num⟩
    · refine ⟨by simp, fun t ht => ?_⟩
      simp only [List.mem_cons, List.not_mem_nil, or_false] at ht
      subst ht
      exact ⟨⟨by norm_num, by norm_num⟩, le_rfl⟩
  have hc' : trapCount [[.continuum 0.1 exMix 3 (1 / 2)], [.trap 0.101 2 0.101 false], [.instant 0.1 5.05 false]] = 0.301 := by
    simp [trapCount, Trap.density]; norm_num
  have hn : NearAll 0.02 [[.logNormalTrap 0.1 3 (1 / 2)], [.trap 0.1 2 0.1 false], [.instant 0.1 5 false]]
      [[.continuum 0.1 exMix 3 (1 / 2)], [.trap 0.101 2 0.101 false], [.instant 0.1 5.05 false]] := by
    refine .cons ⟨.cons (.continuum _ _ _ _ _ _ _ _ ?_ exMix_near) .nil, ?_⟩
      (.cons ⟨.cons (.trap _ _ _ _ _ _ _ _ ?_ ?_ ?_ ?_) .nil, ?_⟩ (.cons ⟨.cons (.instant _ _ _ _ _ _ ?_ ?_) .nil, ?_⟩ .nil))
    · unfold Within; norm_num
    · intro t ht u hu
      simp only [List.mem_cons, List.not_mem_nil, or_false] at ht hu
      subst ht hu
      exact .continuum ..
    · unfold Within; rw [abs_le]; norm_num
    · unfold Within; norm_num
    · unfold Within; rw [abs_le]; norm_num
    · norm_num
    · intro t ht u hu
      simp only [List.mem_cons, List.not_mem_nil, or_false] at ht hu
      subst ht hu
      exact .trap ..
    · unfold Within; norm_num
    · unfold Within; rw [abs_le]; norm_num
    · intro t ht u hu
      simp only [List.mem_cons, List.not_mem_nil, or_false] at ht hu
      subst ht hu
      exact .instant ..
  obtain ⟨q, hq⟩ : ∃ q : ℝ, q = (1 / (1 - 4 * 0.001204)) ^ (3 + 2) - 1 := ⟨_, rfl⟩
  have hq0 : 0 ≤ q := by rw [hq]; norm_num
  have hq1 : q ≤ 0.0245 := by rw [hq]; norm_num
  have htot : Image.total (⟨3, 2, fun _ _ => 200⟩ : Image ℝ) = 1200 := by
    simp [Image.total]; norm_num
  have hs' : notchSlope 50 1070.1 (1 / 2) 112.5 ≤ 1 / 250 := by
    have e : min 1 (max 0 (((112.5 : ℝ) - 50) / (1070.1 - 50))) = (25 / 101) ^ 2 := by norm_num
    unfold notchSlope notchFill
    rw [if_pos (by norm_num), e, ← Real.sqrt_eq_rpow, Real.sqrt_sq (by norm_num)]
    norm_num
  have hη : 1 - (((1050 : ℝ) - 50) / (1070.1 - 50)) ^ (1 / 2 : ℝ) = 1 / 101 := by
    have e : ((1050 : ℝ) - 50) / (1070.1 - 50) = (100 / 101) ^ 2 := by norm_num
    rw [e, ← Real.sqrt_eq_rpow, Real.sqrt_sq (by norm_num)]
    norm_num
  have hv : VolumesNear 112.5 (1 / 101) (notchFill 50 1050 (1 / 2)) (notchFill 50 1070.1 (1 / 2)) := by
    rw [← hη]
    exact volumes_full (by norm_num) (by norm_num) (by norm_num)
  have hfrac : ((1 + q) * (4 * (((3 : ℕ) : ℝ) * ((2 : ℕ) : ℝ)) * (((3 + 2 : ℕ) : ℝ) * (0.3 * (1 / 101)))) + 20 * 0.02 * q * 1200) / (1 - q) ≤ 12.5 := by
    rw [div_le_iff₀ (by linarith)]
    norm_num
    linarith
  have hk : (0.3 : ℝ) * notchSlope 50 1070.1 (1 / 2) 112.5 ≤ 0.001204 := by linarith
  have hk' : (0.301 : ℝ) * notchSlope 50 1070.1 (1 / 2) 112.5 ≤ 0.001204 := by linarith
  obtain ⟨img, roes, g1, G⟩ := C120_remove_cti (bp := 112.5) (lp := 120) (left := 115)
    (kp := 0.001204) h h' (ε := 0.02) (by norm_num) (by norm_num) hn
    (⟨3, 2, fun _ _ => 200⟩ : Image ℝ) (by norm_num)
    ⟨by norm_num, by norm_num, by rw [exFull_count, exNotch_slope]; norm_num, by norm_num, by norm_num, by norm_num⟩
    ⟨by norm_num, by norm_num, by rw [exFull_count]; exact hk, by norm_num, by norm_num, by norm_num⟩
    ⟨by norm_num, by norm_num, by rw [hc']; exact hk', by norm_num, by norm_num, by norm_num⟩
    (by norm_num) hv hq (by linarith) (by rw [htot]; norm_num)
    (E := (1 + q) * (4 * (((3 : ℕ) : ℝ) * ((2 : ℕ) : ℝ)) * (((3 + 2 : ℕ) : ℝ) * (0.3 * (1 / 101)))) + 20 * 0.02 * q * 1200) (by rw [exFull_count, htot])
    (fun r hr c hc' => by
      rw [htot]
      simp only
      linarith)
  obtain ⟨out, g2, -, g3⟩ := G 3
  refine ⟨img, roes, out, g1, g2, g3.trans ?_⟩
  rw [htot]
  have e : q ^ (3 + 1) ≤ 0.0245 ^ (3 + 1) := pow_le_pow_left₀ hq0 hq1 _
  norm_num at e ⊢
  norm_num at hfrac
  linarith

end Arctic
