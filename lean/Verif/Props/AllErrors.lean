import Verif.Props.LawErrors

/-!
# C119 — errors of the description of traps and of the CCD together

C117 and C118 at the same time: another CCD (`well_notch_depth`, `full_well_depth`, `well_fill_power`) and other traps.
-/

set_option linter.unusedSectionVars false
set_option linter.unusedVariables false

namespace Arctic

section main
variable {wp wp' ws ws' fp fp' fs fs' pp pp' ps ps' dp ds : ℝ} {gp gp' gs gs' : List (List Trap)} {ip is ip' is' : Bool}
  {cp cs cp' cs' : CCD} {op os : ℕ} {par ser par' ser' : PyDirection} {bp bs lp ls left kp ks ηp ηs ε δ q : ℝ}

/-- Two readouts of an image. -/
theorem both_image (hp : NotchObjects wp fp pp dp gp ip cp op par) (hs : NotchObjects ws fs ps ds gs is cs os ser)
    (hp' : NotchObjects wp' fp' pp' dp gp' ip' cp' op par') (hs' : NotchObjects ws' fs' ps' ds gs' is' cs' os ser')
    (h0 : 0 ≤ ε) (h1 : ε ≤ 1) (tp : Kindred dp ε gp gp') (ts : Kindred ds ε gs gs')
    {nr nc : ℕ} (hbp : OverNotch wp fp pp gp (nr + op) bp lp ls kp) (hbs : OverNotch ws fs ps gs (nc + os) bs ls left ks)
    (hbpm : OverNotch wp' fp' pp' gp (nr + op) bp lp ls kp) (hbsm : OverNotch ws' fs' ps' gs (nc + os) bs ls left ks)
    (hbp' : OverNotch wp' fp' pp' gp' (nr + op) bp lp ls kp) (hbs' : OverNotch ws' fs' ps' gs' (nc + os) bs ls left ks)
    (hkp : 4 * kp < 1) (hks : 4 * ks < 1) (vp : VolumesNear bp ηp (notchFill wp fp pp) (notchFill wp' fp' pp'))
    (vs : VolumesNear bs ηs (notchFill ws fs ps) (notchFill ws' fs' ps'))
    (hq : q = (1 / (1 - 4 * kp)) ^ (nr + op) * (1 / (1 - 4 * ks)) ^ (nc + os) - 1) (x : ℕ → ℕ → ℝ)
    (hx : ∀ r < nr, ∀ c < nc, lp ≤ x r c) :
    ∑ r ∈ Finset.range nr, ∑ c ∈ Finset.range nc,
        |Ref.stepReadout (Ref.fullStep (notchFill ws fs ps) ds) (gs.map Ref.fullOf) (Ref.allPasses nc os)
            (fun c => Ref.stepReadout (Ref.fullStep (notchFill wp fp pp) dp) (gp.map Ref.fullOf) (Ref.allPasses nr op)
              (fun r => x r c) r) c -
          Ref.stepReadout (Ref.fullStep (notchFill ws' fs' ps') ds) (gs'.map Ref.fullOf) (Ref.allPasses nc os)
            (fun c => Ref.stepReadout (Ref.fullStep (notchFill wp' fp' pp') dp) (gp'.map Ref.fullOf) (Ref.allPasses nr op)
              (fun r => x r c) r) c| ≤
      (1 + q) * volumeError nr nc op os (trapCount gp) (trapCount gs) ηp ηs +
        20 * ε * q * ∑ r ∈ Finset.range nr, ∑ c ∈ Finset.range nc, x r c := by
  have hpm : NotchObjects wp' fp' pp' dp gp ip' cp' op
      ⟨some cp', some (.standard [dp] true true true ip'), some (.list (gp.map .group)), 0, op⟩ :=
    ⟨rfl, hp'.phase, hp'.notch, hp'.power, hp.dwell, hp.groups⟩
  have hsm : NotchObjects ws' fs' ps' ds gs is' cs' os
      ⟨some cs', some (.standard [ds] true true true is'), some (.list (gs.map .group)), 0, os⟩ :=
    ⟨rfl, hs'.phase, hs'.notch, hs'.power, hs.dwell, hs.groups⟩
  have k1 := law_image hp hs hpm hsm hbp hbs hbpm hbsm hkp hks vp vs hq x hx
  have k2 := close_image (notched_close hpm hp' hbpm hbp' hkp h0 h1 tp) (notched_close hsm hs' hbsm hbs' hks h0 h1 ts)
    (hpm.mild hbpm hkp).2 (hp'.mild hbp' hkp).2 h0 (hs.mild hbs hks).1 x hx
  have qe : (1 + lossSlope (4 * kp) (nr + op)) * (1 + lossSlope (4 * ks) (nc + os)) - 1 = q := by
    rw [hq]; unfold lossSlope; ring
  rw [qe] at k2
  refine le_trans ?_ (add_le_add k1 k2)
  rw [← Finset.sum_add_distrib]
  refine Finset.sum_le_sum fun r _ => ?_
  rw [← Finset.sum_add_distrib]
  exact Finset.sum_le_sum fun c _ => abs_sub_le _ _ _

theorem both_add (hp : NotchObjects wp fp pp dp gp ip cp op par) (hs : NotchObjects ws fs ps ds gs is cs os ser)
    (hp' : NotchObjects wp' fp' pp' dp gp' ip' cp' op par') (hs' : NotchObjects ws' fs' ps' ds gs' is' cs' os ser')
    (h0 : 0 ≤ ε) (h1 : ε ≤ 1) (tp : Kindred dp ε gp gp') (ts : Kindred ds ε gs gs') (img : Image ℝ) (hnr : 0 < img.nr)
    (hnc : 0 < img.nc)
    (hbp : OverNotch wp fp pp gp (img.nr + op) bp lp ls kp) (hbs : OverNotch ws fs ps gs (img.nc + os) bs ls left ks)
    (hbpm : OverNotch wp' fp' pp' gp (img.nr + op) bp lp ls kp) (hbsm : OverNotch ws' fs' ps' gs (img.nc + os) bs ls left ks)
    (hbp' : OverNotch wp' fp' pp' gp' (img.nr + op) bp lp ls kp) (hbs' : OverNotch ws' fs' ps' gs' (img.nc + os) bs ls left ks)
    (hkp : 4 * kp < 1) (hks : 4 * ks < 1) (vp : VolumesNear bp ηp (notchFill wp fp pp) (notchFill wp' fp' pp'))
    (vs : VolumesNear bs ηs (notchFill ws fs ps) (notchFill ws' fs' ps'))
    (hq : q = (1 / (1 - 4 * kp)) ^ (img.nr + op) * (1 / (1 - 4 * ks)) ^ (img.nc + os) - 1)
    (himg : img.AtLeast lp) :
    ∃ a a' roes roes', addCtiPy img par .all ser .all none = .ok (a, roes) ∧
      addCtiPy img par' .all ser' .all none = .ok (a', roes') ∧ a.SameShape img ∧ a'.SameShape img ∧
      a.dist a' ≤ (1 + q) * volumeError img.nr img.nc op os (trapCount gp) (trapCount gs) ηp ηs + 20 * ε * q * img.total := by
  obtain ⟨a, a1, a2, a3, -, a4⟩ := C116_add_cti hp hs img hnr hnc hbp hbs himg
  obtain ⟨a', b1, b2, b3, -, b4⟩ := C116_add_cti hp' hs' img hnr hnc hbp' hbs' himg
  refine ⟨a, a', _, _, a1, b1, ⟨a2, a3⟩, ⟨b2, b3⟩, ?_⟩
  refine le_trans (le_of_eq ?_)
    (both_image hp hs hp' hs' h0 h1 tp ts hbp hbs hbpm hbsm hbp' hbs' hkp hks vp vs hq img.px himg)
  unfold Image.dist
  rw [a2, a3]
  refine Finset.sum_congr rfl fun r hr => Finset.sum_congr rfl fun c hc => ?_
  rw [a4 r (Finset.mem_range.1 hr) c (Finset.mem_range.1 hc), b4 r (Finset.mem_range.1 hr) c (Finset.mem_range.1 hc)]

theorem both_remove (hp : NotchObjects wp fp pp dp gp ip cp op par) (hs : NotchObjects ws fs ps ds gs is cs os ser)
    (hp' : NotchObjects wp' fp' pp' dp gp' ip' cp' op par') (hs' : NotchObjects ws' fs' ps' ds gs' is' cs' os ser')
    (h0 : 0 ≤ ε) (h1 : ε ≤ 1) (tp : Kindred dp ε gp gp') (ts : Kindred ds ε gs gs') (truth : Image ℝ) (hnr : 0 < truth.nr)
    (hnc : 0 < truth.nc)
    (hbp : OverNotch wp fp pp gp (truth.nr + op) bp lp ls kp) (hbs : OverNotch ws fs ps gs (truth.nc + os) bs ls left ks)
    (hbpm : OverNotch wp' fp' pp' gp (truth.nr + op) bp lp ls kp) (hbsm : OverNotch ws' fs' ps' gs (truth.nc + os) bs ls left ks)
    (hbp' : OverNotch wp' fp' pp' gp' (truth.nr + op) bp lp ls kp) (hbs' : OverNotch ws' fs' ps' gs' (truth.nc + os) bs ls left ks)
    (hkp : 4 * kp < 1) (hks : 4 * ks < 1) (vp : VolumesNear bp ηp (notchFill wp fp pp) (notchFill wp' fp' pp'))
    (vs : VolumesNear bs ηs (notchFill ws fs ps) (notchFill ws' fs' ps'))
    (hq : q = (1 / (1 - 4 * kp)) ^ (truth.nr + op) * (1 / (1 - 4 * ks)) ^ (truth.nc + os) - 1)
    (hq1 : q < 1) (hpos : 0 ≤ truth.total) {E : ℝ}
    (hE : E = (1 + q) * volumeError truth.nr truth.nc op os (trapCount gp) (trapCount gs) ηp ηs + 20 * ε * q * truth.total)
    (htruth : ∀ r < truth.nr, ∀ c < truth.nc, lp + (q * truth.total + E / (1 - q)) ≤ truth.px r c) :
    ∃ img roes, addCtiPy truth par .all ser .all none = .ok (img, roes) ∧
      ∀ n, ∃ out, removeCtiPy img n par' .all ser' .all none = .ok (out, par'.roe, ser'.roe) ∧ out.SameShape truth ∧
        out.dist truth ≤ q ^ (n + 1) * truth.total + E / (1 - q) := by
  obtain ⟨q0p, mP0⟩ := hp.mild hbp hkp
  obtain ⟨q0s, mS0⟩ := hs.mild hbs hks
  obtain ⟨-, mP⟩ := hp'.mild hbp' hkp
  obtain ⟨-, mS⟩ := hs'.mild hbs' hks
  have qe : (1 + lossSlope (4 * kp) (truth.nr + op)) * (1 + lossSlope (4 * ks) (truth.nc + os)) - 1 = q := by
    rw [hq]; unfold lossSlope; ring
  have hq0 : 0 ≤ q := by rw [← qe]; nlinarith
  have hE0 : 0 ≤ E := by
    have hηp := mul_nonneg hp.count_nonneg vp.nonneg
    have hηs := mul_nonneg hs.count_nonneg vs.nonneg
    rw [hE]; unfold volumeError; positivity
  have hd : 0 ≤ E / (1 - q) := div_nonneg hE0 (by linarith)
  have ht0 : truth.AtLeast lp := fun r hr c hc => by
    have := mul_nonneg hq0 hpos
    linarith [htruth r hr c hc]
  have near := both_image hp hs hp' hs' h0 h1 tp ts hbp hbs hbpm hbsm hbp' hbs' hkp hks vp vs hq truth.px ht0
  change _ ≤ _ + 20 * ε * q * truth.total at near
  rw [← hE] at near
  simp only [abs_sub_comm (Ref.stepReadout (Ref.fullStep (notchFill ws fs ps) ds) (gs.map Ref.fullOf) _ _ _)] at near
  obtain ⟨img, b1, b2, b3, -, b4⟩ := C116_add_cti hp hs truth hnr hnc hbp hbs ht0
  have small := mild_image_small mP0 mS0 q0s truth.px ht0
  rw [qe] at small
  change _ ≤ q * truth.total at small
  have hdist : img.dist truth ≤ q * truth.total := by
    refine le_trans (le_of_eq ?_) small
    unfold Image.dist
    rw [b2, b3]
    refine Finset.sum_congr rfl fun r hr => Finset.sum_congr rfl fun c hc => ?_
    rw [b4 r (Finset.mem_range.1 hr) c (Finset.mem_range.1 hc)]
  have hroe : par'.roe = some (.standard [dp] true true true ip') ∧ ser'.roe = some (.standard [ds] true true true is') := by
    rw [hp'.eq, hs'.eq]; exact ⟨rfl, rfl⟩
  refine ⟨img, _, b1, fun n => ?_⟩
  have main := removeIter_near (fun x (roes : Option (Roe ℝ) × Option (Roe ℝ)) => do
      let (y, rp, rs) ← addCtiPy x { par' with roe := roes.1 } .all { ser' with roe := roes.2 } .all none
      .ok (y, roes.1.map fun _ => rp, roes.2.map fun _ => rs)) (par'.roe, ser'.roe) truth img lp q
    E (q * truth.total) hq0 hq1 hE0 ⟨b2, b3⟩ hdist htruth (fun x hx hlow => ?_) n
  · obtain ⟨out, o1, o2, o3⟩ := main
    refine ⟨out, o1, o2, o3.trans (le_of_eq ?_)⟩
    ring
  · obtain ⟨y, g1, g2, g3, -, g4⟩ := C116_add_cti hp' hs' x (by rw [hx.1]; exact hnr) (by rw [hx.2]; exact hnc)
      (by rw [hx.1]; exact hbp') (by rw [hx.2]; exact hbs')
      (fun r hr c hc => hlow r (by rw [← hx.1]; exact hr) c (by rw [← hx.2]; exact hc))
    rw [hx.1, hx.2] at g4
    refine ⟨y, ?_, ⟨g2.trans hx.1, g3.trans hx.2⟩, ?_⟩
    · simp only [bind, Except.bind]
      rw [g1]
      simp only [hroe.1, hroe.2, Option.map_some]
    · have lip := mild_image mP mS q0s x.px truth.px hlow ht0
      rw [qe] at lip
      have e : x.dist truth = ∑ r ∈ Finset.range truth.nr, ∑ c ∈ Finset.range truth.nc, |x.px r c - truth.px r c| := by
        unfold Image.dist
        rw [hx.1, hx.2]
      rw [← e] at lip
      have both := add_le_add lip near
      rw [← Finset.sum_add_distrib] at both
      refine le_trans ?_ both
      refine Finset.sum_le_sum fun r hr => ?_
      rw [← Finset.sum_add_distrib]
      refine Finset.sum_le_sum fun c hc => ?_
      rw [g4 r (Finset.mem_range.1 hr) c (Finset.mem_range.1 hc), b4 r (Finset.mem_range.1 hr) c (Finset.mem_range.1 hc)]
      refine le_trans (le_of_eq ?_) (abs_add_le _ _)
      congr 1
      ring

/-- **C119**: `add_cti` with two descriptions of the CCD and of the traps, of an image with `lp` electrons in every pixel. The volumes of
clouds of `b` electrons or more differ by `η_p`, `η_s` at most and the descriptions of the traps by `ε` at most, and the background is
kept with either CCD. The images differ by at most the sum of the bounds of C117 and C118. -/
theorem C119_add_cti (hp : NotchObjects wp fp pp dp gp ip cp op par) (hs : NotchObjects ws fs ps ds gs is cs os ser)
    (hp' : NotchObjects wp' fp' pp' dp gp' ip' cp' op par') (hs' : NotchObjects ws' fs' ps' ds gs' is' cs' os ser')
    (h0 : 0 ≤ ε) (h1 : ε ≤ 1) (tp : NearAll ε gp gp') (ts : NearAll ε gs gs')
    (img : Image ℝ) (hnr : 0 < img.nr) (hnc : 0 < img.nc)
    (hbp : OverNotch wp fp pp gp (img.nr + op) bp lp ls kp) (hbs : OverNotch ws fs ps gs (img.nc + os) bs ls left ks)
    (hbpm : OverNotch wp' fp' pp' gp (img.nr + op) bp lp ls kp) (hbsm : OverNotch ws' fs' ps' gs (img.nc + os) bs ls left ks)
    (hbp' : OverNotch wp' fp' pp' gp' (img.nr + op) bp lp ls kp) (hbs' : OverNotch ws' fs' ps' gs' (img.nc + os) bs ls left ks)
    (hkp : 4 * kp < 1) (hks : 4 * ks < 1) (vp : VolumesNear bp ηp (notchFill wp fp pp) (notchFill wp' fp' pp'))
    (vs : VolumesNear bs ηs (notchFill ws fs ps) (notchFill ws' fs' ps'))
    (hq : q = (1 / (1 - 4 * kp)) ^ (img.nr + op) * (1 / (1 - 4 * ks)) ^ (img.nc + os) - 1)
    (himg : img.AtLeast lp) :
    ∃ a a' roes roes', addCtiPy img par .all ser .all none = .ok (a, roes) ∧
      addCtiPy img par' .all ser' .all none = .ok (a', roes') ∧ a.SameShape img ∧ a'.SameShape img ∧
      a.dist a' ≤ (1 + q) * volumeError img.nr img.nc op os (trapCount gp) (trapCount gs) ηp ηs +
        20 * ε * q * img.total := by
  have hpm : NotchObjects wp' fp' pp' dp gp ip' cp' op
      ⟨some cp', some (.standard [dp] true true true ip'), some (.list (gp.map .group)), 0, op⟩ :=
    ⟨rfl, hp'.phase, hp'.notch, hp'.power, hp.dwell, hp.groups⟩
  have hsm : NotchObjects ws' fs' ps' ds gs is' cs' os
      ⟨some cs', some (.standard [ds] true true true is'), some (.list (gs.map .group)), 0, os⟩ :=
    ⟨rfl, hs'.phase, hs'.notch, hs'.power, hs.dwell, hs.groups⟩
  exact both_add hp hs hp' hs' h0 h1 (notched_near hpm hp' h0 h1 tp) (notched_near hsm hs' h0 h1 ts) img hnr hnc
    hbp hbs hbpm hbsm hbp' hbs' hkp hks vp vs hq himg

/-- **C119**, bins: a few lifetimes in the place of distributions of lifetimes, and another CCD. -/
theorem C119_add_cti_bins (hp : NotchObjects wp fp pp dp gp ip cp op par) (hs : NotchObjects ws fs ps ds gs is cs os ser)
    (hp' : NotchObjects wp' fp' pp' dp gp' ip' cp' op par') (hs' : NotchObjects ws' fs' ps' ds gs' is' cs' os ser')
    (h0 : 0 ≤ ε) (hδ : 0 ≤ δ) (h1 : 2 * (ε + δ) ≤ 1) (tp : List.Forall₂ (Binned ε δ) gp gp')
    (ts : List.Forall₂ (Binned ε δ) gs gs')
    (img : Image ℝ) (hnr : 0 < img.nr) (hnc : 0 < img.nc)
    (hbp : OverNotch wp fp pp gp (img.nr + op) bp lp ls kp) (hbs : OverNotch ws fs ps gs (img.nc + os) bs ls left ks)
    (hbpm : OverNotch wp' fp' pp' gp (img.nr + op) bp lp ls kp) (hbsm : OverNotch ws' fs' ps' gs (img.nc + os) bs ls left ks)
    (hbp' : OverNotch wp' fp' pp' gp' (img.nr + op) bp lp ls kp) (hbs' : OverNotch ws' fs' ps' gs' (img.nc + os) bs ls left ks)
    (hkp : 4 * kp < 1) (hks : 4 * ks < 1) (vp : VolumesNear bp ηp (notchFill wp fp pp) (notchFill wp' fp' pp'))
    (vs : VolumesNear bs ηs (notchFill ws fs ps) (notchFill ws' fs' ps'))
    (hq : q = (1 / (1 - 4 * kp)) ^ (img.nr + op) * (1 / (1 - 4 * ks)) ^ (img.nc + os) - 1)
    (himg : img.AtLeast lp) :
    ∃ a a' roes roes', addCtiPy img par .all ser .all none = .ok (a, roes) ∧
      addCtiPy img par' .all ser' .all none = .ok (a', roes') ∧ a.SameShape img ∧ a'.SameShape img ∧
      a.dist a' ≤ (1 + q) * volumeError img.nr img.nc op os (trapCount gp) (trapCount gs) ηp ηs +
        (40 * (ε + δ)) * q * img.total := by
  have hpm : NotchObjects wp' fp' pp' dp gp ip' cp' op
      ⟨some cp', some (.standard [dp] true true true ip'), some (.list (gp.map .group)), 0, op⟩ :=
    ⟨rfl, hp'.phase, hp'.notch, hp'.power, hp.dwell, hp.groups⟩
  have hsm : NotchObjects ws' fs' ps' ds gs is' cs' os
      ⟨some cs', some (.standard [ds] true true true is'), some (.list (gs.map .group)), 0, os⟩ :=
    ⟨rfl, hs'.phase, hs'.notch, hs'.power, hs.dwell, hs.groups⟩
  have := both_add hp hs hp' hs' (by linarith : 0 ≤ 2 * (ε + δ)) h1 (notched_bins hpm hp' h0 hδ tp) (notched_bins hsm hs' h0 hδ ts)
    img hnr hnc hbp hbs hbpm hbsm hbp' hbs' hkp hks vp vs hq himg
  rwa [show 20 * (2 * (ε + δ)) = 40 * (ε + δ) by ring] at this

/-- **C119**: `remove_cti` with another CCD and other traps than the image was made with. Let `E` be the bound of `C119_add_cti`. If
`q < 1` and every pixel of the true image has `lp` electrons, another `q` times the total charge and another `E / (1-q)` electrons,
the image returned after `n` iterations differs from the true image by at most `q^(n+1)` times its total charge and `E / (1-q)`
electrons. -/
theorem C119_remove_cti (hp : NotchObjects wp fp pp dp gp ip cp op par) (hs : NotchObjects ws fs ps ds gs is cs os ser)
    (hp' : NotchObjects wp' fp' pp' dp gp' ip' cp' op par') (hs' : NotchObjects ws' fs' ps' ds gs' is' cs' os ser')
    (h0 : 0 ≤ ε) (h1 : ε ≤ 1) (tp : NearAll ε gp gp') (ts : NearAll ε gs gs')
    (truth : Image ℝ) (hnr : 0 < truth.nr) (hnc : 0 < truth.nc)
    (hbp : OverNotch wp fp pp gp (truth.nr + op) bp lp ls kp) (hbs : OverNotch ws fs ps gs (truth.nc + os) bs ls left ks)
    (hbpm : OverNotch wp' fp' pp' gp (truth.nr + op) bp lp ls kp) (hbsm : OverNotch ws' fs' ps' gs (truth.nc + os) bs ls left ks)
    (hbp' : OverNotch wp' fp' pp' gp' (truth.nr + op) bp lp ls kp) (hbs' : OverNotch ws' fs' ps' gs' (truth.nc + os) bs ls left ks)
    (hkp : 4 * kp < 1) (hks : 4 * ks < 1) (vp : VolumesNear bp ηp (notchFill wp fp pp) (notchFill wp' fp' pp'))
    (vs : VolumesNear bs ηs (notchFill ws fs ps) (notchFill ws' fs' ps'))
    (hq : q = (1 / (1 - 4 * kp)) ^ (truth.nr + op) * (1 / (1 - 4 * ks)) ^ (truth.nc + os) - 1)
    (hq1 : q < 1) (hpos : 0 ≤ truth.total) {E : ℝ}
    (hE : E = (1 + q) * volumeError truth.nr truth.nc op os (trapCount gp) (trapCount gs) ηp ηs + 20 * ε * q * truth.total)
    (htruth : ∀ r < truth.nr, ∀ c < truth.nc, lp + (q * truth.total + E / (1 - q)) ≤ truth.px r c) :
    ∃ img roes, addCtiPy truth par .all ser .all none = .ok (img, roes) ∧
      ∀ n, ∃ out, removeCtiPy img n par' .all ser' .all none = .ok (out, par'.roe, ser'.roe) ∧ out.SameShape truth ∧
        out.dist truth ≤ q ^ (n + 1) * truth.total + E / (1 - q) := by
  have hpm : NotchObjects wp' fp' pp' dp gp ip' cp' op
      ⟨some cp', some (.standard [dp] true true true ip'), some (.list (gp.map .group)), 0, op⟩ :=
    ⟨rfl, hp'.phase, hp'.notch, hp'.power, hp.dwell, hp.groups⟩
  have hsm : NotchObjects ws' fs' ps' ds gs is' cs' os
      ⟨some cs', some (.standard [ds] true true true is'), some (.list (gs.map .group)), 0, os⟩ :=
    ⟨rfl, hs'.phase, hs'.notch, hs'.power, hs.dwell, hs.groups⟩
  exact both_remove hp hs hp' hs' h0 h1 (notched_near hpm hp' h0 h1 tp) (notched_near hsm hs' h0 h1 ts) truth hnr hnc
    hbp hbs hbpm hbsm hbp' hbs' hkp hks vp vs hq hq1 hpos hE htruth

/-- **C119**, bins: an image made with distributions of lifetimes, corrected with a few lifetimes in their place and another CCD. -/
theorem C119_remove_cti_bins (hp : NotchObjects wp fp pp dp gp ip cp op par) (hs : NotchObjects ws fs ps ds gs is cs os ser)
    (hp' : NotchObjects wp' fp' pp' dp gp' ip' cp' op par') (hs' : NotchObjects ws' fs' ps' ds gs' is' cs' os ser')
    (h0 : 0 ≤ ε) (hδ : 0 ≤ δ) (h1 : 2 * (ε + δ) ≤ 1) (tp : List.Forall₂ (Binned ε δ) gp gp')
    (ts : List.Forall₂ (Binned ε δ) gs gs')
    (truth : Image ℝ) (hnr : 0 < truth.nr) (hnc : 0 < truth.nc)
    (hbp : OverNotch wp fp pp gp (truth.nr + op) bp lp ls kp) (hbs : OverNotch ws fs ps gs (truth.nc + os) bs ls left ks)
    (hbpm : OverNotch wp' fp' pp' gp (truth.nr + op) bp lp ls kp) (hbsm : OverNotch ws' fs' ps' gs (truth.nc + os) bs ls left ks)
    (hbp' : OverNotch wp' fp' pp' gp' (truth.nr + op) bp lp ls kp) (hbs' : OverNotch ws' fs' ps' gs' (truth.nc + os) bs ls left ks)
    (hkp : 4 * kp < 1) (hks : 4 * ks < 1) (vp : VolumesNear bp ηp (notchFill wp fp pp) (notchFill wp' fp' pp'))
    (vs : VolumesNear bs ηs (notchFill ws fs ps) (notchFill ws' fs' ps'))
    (hq : q = (1 / (1 - 4 * kp)) ^ (truth.nr + op) * (1 / (1 - 4 * ks)) ^ (truth.nc + os) - 1)
    (hq1 : q < 1) (hpos : 0 ≤ truth.total) {E : ℝ}
    (hE : E = (1 + q) * volumeError truth.nr truth.nc op os (trapCount gp) (trapCount gs) ηp ηs + (40 * (ε + δ)) * q * truth.total)
    (htruth : ∀ r < truth.nr, ∀ c < truth.nc, lp + (q * truth.total + E / (1 - q)) ≤ truth.px r c) :
    ∃ img roes, addCtiPy truth par .all ser .all none = .ok (img, roes) ∧
      ∀ n, ∃ out, removeCtiPy img n par' .all ser' .all none = .ok (out, par'.roe, ser'.roe) ∧ out.SameShape truth ∧
        out.dist truth ≤ q ^ (n + 1) * truth.total + E / (1 - q) := by
  have hpm : NotchObjects wp' fp' pp' dp gp ip' cp' op
      ⟨some cp', some (.standard [dp] true true true ip'), some (.list (gp.map .group)), 0, op⟩ :=
    ⟨rfl, hp'.phase, hp'.notch, hp'.power, hp.dwell, hp.groups⟩
  have hsm : NotchObjects ws' fs' ps' ds gs is' cs' os
      ⟨some cs', some (.standard [ds] true true true is'), some (.list (gs.map .group)), 0, os⟩ :=
    ⟨rfl, hs'.phase, hs'.notch, hs'.power, hs.dwell, hs.groups⟩
  rw [show 40 * (ε + δ) = 20 * (2 * (ε + δ)) by ring] at hE
  exact both_remove hp hs hp' hs' (by linarith : 0 ≤ 2 * (ε + δ)) h1 (notched_bins hpm hp' h0 hδ tp)
    (notched_bins hsm hs' h0 hδ ts) truth hnr hnc hbp hbs hbpm hbsm hbp' hbs' hkp hks vp vs hq hq1 hpos hE htruth

end main

/-! ### a case -/

/-- Three rows and two columns of 200 electrons, a notch of 50 electrons, `well_fill_power = 1/2`, traps of all classes. The image is
corrected with a full well of 1070.1 in the place of 1050 electrons, with 1% more slow traps of a capture timescale 1% longer, with a
release timescale 1% longer and with another distribution of lifetimes: after three iterations it is within 24 of 1200 electrons of the
true one. -/
example (d d' : PyDirection) (hd : d = ⟨some ⟨[1], [1050], [1 / 2], [50], [.num 1050]⟩,
      some (.standard [1] true true true false),
      some (.list ([[.logNormalTrap 0.1 3 (1 / 2)], [.trap 0.1 2 0.1 false], [.instant 0.1 5 false]].map .group)), 0, 2⟩)
    (hd' : d' = ⟨some ⟨[1], [1070.1], [1 / 2], [50], [.num 1070.1]⟩, some (.standard [1] true true true false),
      some (.list ([[.continuum 0.1 exMix 3 (1 / 2)], [.trap 0.101 2 0.101 false], [.instant 0.1 5.05 false]].map .group)),
      0, 2⟩) :
    ∃ img roes out, addCtiPy ⟨3, 2, fun _ _ => 200⟩ d .all d .all none = .ok (img, roes) ∧
      removeCtiPy img 3 d' .all d' .all none = .ok (out, d'.roe, d'.roe) ∧ out.dist ⟨3, 2, fun _ _ => 200⟩ ≤ 24 := by
  have h := exNotch
  rw [← hd] at h
  have h' : NotchObjects 50 1070.1 (1 / 2) 1 [[.continuum 0.1 exMix 3 (1 / 2)], [.trap 0.101 2 0.101 false], [.instant 0.1 5.05 false]]
      false ⟨[1], [1070.1], [1 / 2], [50], [.num 1070.1]⟩ 2 d' := by
    refine ⟨hd', ⟨rfl, ⟨rfl, rfl, rfl⟩⟩, ⟨by norm_num, by norm_num⟩, exNotch.power, exNotch.dwell, by simp, fun l hl => ?_⟩
    simp only [List.mem_cons, List.not_mem_nil, or_false] at hl
    rcases hl with rfl | rfl | rfl
    · refine ⟨by simp, fun t ht => ?_⟩
      simp only [List.mem_cons, List.not_mem_nil, or_false] at ht
      subst ht
      exact ⟨⟨by norm_num, by norm_num, exMix_lifetimes⟩, le_rfl⟩
    · refine ⟨by simp, fun t ht => ?_⟩
      simp only [List.mem_cons, List.not_mem_nil, or_false] at ht
      subst ht
      exact ⟨⟨by norm_num, by norm_num⟩, by simp only [Trap.captureTimescale]; norm_num⟩
    · refine ⟨by simp, fun t ht => ?_⟩
      simp only [List.mem_cons, List.not_mem_nil, or_false] at ht
      subst ht
      exact ⟨⟨by norm_num, by norm_num⟩, le_rfl⟩
  have hc' : trapCount [[.continuum 0.1 exMix 3 (1 / 2)], [.trap 0.101 2 0.101 false], [.instant 0.1 5.05 false]] = 0.301 := by
    simp [trapCount, Trap.density]; norm_num
  have hn : NearAll 0.02 [[.logNormalTrap 0.1 3 (1 / 2)], [.trap 0.1 2 0.1 false], [.instant 0.1 5 false]]
      [[.continuum 0.1 exMix 3 (1 / 2)], [.trap 0.101 2 0.101 false], [.instant 0.1 5.05 false]] := by
    refine .cons ⟨.cons (.continuum _ _ _ _ _ _ _ _ ?_ exMix_near) .nil, ?_⟩
      (.cons ⟨.cons (.trap _ _ _ _ _ _ _ _ ?_ ?_ ?_ ?_) .nil, ?_⟩ (.cons ⟨.cons (.instant _ _ _ _ _ _ ?_ ?_) .nil, ?_⟩ .nil))
    · unfold Within; norm_num
    · intro t ht u hu
      simp only [List.mem_cons, List.not_mem_nil, or_false] at ht hu
      subst ht hu
      exact .continuum ..
    · unfold Within; rw [abs_le]; norm_num
    · unfold Within; norm_num
    · unfold Within; rw [abs_le]; norm_num
    · norm_num
    · intro t ht u hu
      simp only [List.mem_cons, List.not_mem_nil, or_false] at ht hu
      subst ht hu
      exact .trap ..
    · unfold Within; norm_num
    · unfold Within; rw [abs_le]; norm_num
    · intro t ht u hu
      simp only [List.mem_cons, List.not_mem_nil, or_false] at ht hu
      subst ht hu
      exact .instant ..
  obtain ⟨q, hq⟩ : ∃ q : ℝ, q = (1 / (1 - 4 * 0.001204)) ^ (3 + 2) * (1 / (1 - 4 * 0.001204)) ^ (2 + 2) - 1 := ⟨_, rfl⟩
  have hq0 : 0 ≤ q := by rw [hq]; norm_num
  have hq1 : q ≤ 0.045 := by rw [hq]; norm_num
  have htot : Image.total (⟨3, 2, fun _ _ => 200⟩ : Image ℝ) = 1200 := by
    simp [Image.total]; norm_num
  have hs' : notchSlope 50 1070.1 (1 / 2) 112.5 ≤ 1 / 250 := by
    have e : min 1 (max 0 (((112.5 : ℝ) - 50) / (1070.1 - 50))) = (25 / 101) ^ 2 := by norm_num
    unfold notchSlope notchFill
    rw [if_pos (by norm_num), e, ← Real.sqrt_eq_rpow, Real.sqrt_sq (by norm_num)]
    norm_num
  have hη : 1 - (((1050 : ℝ) - 50) / (1070.1 - 50)) ^ (1 / 2 : ℝ) = 1 / 101 := by
    have e : ((1050 : ℝ) - 50) / (1070.1 - 50) = (100 / 101) ^ 2 := by norm_num
    rw [e, ← Real.sqrt_eq_rpow, Real.sqrt_sq (by norm_num)]
    norm_num
  have hv : VolumesNear 112.5 (1 / 101) (notchFill 50 1050 (1 / 2)) (notchFill 50 1070.1 (1 / 2)) := by
    rw [← hη]
    exact volumes_full (by norm_num) (by norm_num) (by norm_num)
  have hfrac : ((1 + q) * volumeError 3 2 2 2 0.3 0.3 (1 / 101) (1 / 101) + 20 * 0.02 * q * 1200) / (1 - q) ≤ 23.9 := by
    rw [div_le_iff₀ (by linarith)]
    unfold volumeError
    norm_num
    linarith
  have hk : (0.3 : ℝ) * notchSlope 50 1070.1 (1 / 2) 112.5 ≤ 0.001204 := by linarith
  have hk' : (0.301 : ℝ) * notchSlope 50 1070.1 (1 / 2) 112.5 ≤ 0.001204 := by linarith
  obtain ⟨img, roes, g1, G⟩ := C119_remove_cti (bp := 112.5) (bs := 112.5) (lp := 120) (ls := 115) (left := 112.5)
    (kp := 0.001204) (ks := 0.001204) h h h' h' (ε := 0.02) (by norm_num) (by norm_num) hn hn
    (⟨3, 2, fun _ _ => 200⟩ : Image ℝ) (by norm_num) (by norm_num)
    ⟨by norm_num, by norm_num, by rw [exFull_count, exNotch_slope]; norm_num, by norm_num, by norm_num, by norm_num⟩
    ⟨by norm_num, by norm_num, by rw [exFull_count, exNotch_slope]; norm_num, by norm_num, by norm_num, by norm_num⟩
    ⟨by norm_num, by norm_num, by rw [exFull_count]; exact hk, by norm_num, by norm_num, by norm_num⟩
    ⟨by norm_num, by norm_num, by rw [exFull_count]; exact hk, by norm_num, by norm_num, by norm_num⟩
    ⟨by norm_num, by norm_num, by rw [hc']; exact hk', by norm_num, by norm_num, by norm_num⟩
    ⟨by norm_num, by norm_num, by rw [hc']; exact hk', by norm_num, by norm_num, by norm_num⟩
    (by norm_num) (by norm_num) hv hv hq (by linarith) (by rw [htot]; norm_num)
    (E := (1 + q) * volumeError 3 2 2 2 0.3 0.3 (1 / 101) (1 / 101) + 20 * 0.02 * q * 1200) (by rw [exFull_count, htot])
    (fun r hr c hc' => by
      rw [htot]
      simp only
      linarith)
  obtain ⟨out, g2, -, g3⟩ := G 3
  refine ⟨img, roes, out, g1, g2, g3.trans ?_⟩
  rw [htot]
  have e : q ^ (3 + 1) ≤ 0.045 ^ (3 + 1) := pow_le_pow_left₀ hq0 hq1 _
  norm_num at e ⊢
  norm_num at hfrac
  linarith

end Arctic
