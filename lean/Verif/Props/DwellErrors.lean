import Verif.Props.ParallelErrors
import Verif.Props.CcdErrorsFull

/-!
# C121 — errors of the dwell time, of the traps and of the CCD over a background

C119 and C120 with two dwell times. Timescales are compared in units of the dwell time of their own description.
-/

set_option linter.unusedSectionVars false
set_option linter.unusedVariables false

namespace Arctic

theorem Trap.stretched_rescale {mu : ℝ} (hmu : 0 < mu) (t : Trap) : Trap.Stretched mu t (t.rescale 1 mu) := by
  cases t with
  | instant d τ b => simp only [Trap.rescale, one_mul]; exact .instant ..
  | trap d τ c b => simp only [Trap.rescale, one_mul]; exact .trap ..
  | continuum d p m s =>
    simp only [Trap.rescale, one_mul]
    refine .continuum _ _ _ _ _ _ fun τ hτ => ?_
    simp only [mul_div_cancel_left₀ _ hmu.ne']

theorem stretched_rescaleAll {mu : ℝ} (hmu : 0 < mu) (gs : List (List Trap)) : StretchedAll mu gs (rescaleAll 1 mu gs) := by
  unfold StretchedAll rescaleAll
  rw [List.forall₂_map_right_iff]
  refine List.forall₂_same.2 fun l _ => ?_
  rw [List.forall₂_map_right_iff]
  exact List.forall₂_same.2 fun t _ => Trap.stretched_rescale hmu t

/-- Objects with another dwell time, the timescales in the same ratio to it. -/
theorem NotchObjects.retime {notch full power dw mu : ℝ} {gs : List (List Trap)} {i : Bool} {c : CCD} {o : ℕ} {d : PyDirection}
    (h : NotchObjects notch full power dw gs i c o d) (hmu : 0 < mu) :
    NotchObjects notch full power (mu * dw) (rescaleAll 1 mu gs) i c o
      ⟨some c, some (.standard [mu * dw] true true true i), some (.list ((rescaleAll 1 mu gs).map .group)), 0, o⟩ := by
  refine ⟨rfl, h.phase, h.notch, h.power, mul_pos hmu h.dwell, ?_, fun l hl => ?_⟩
  · unfold rescaleAll
    simpa using h.groups.1
  · obtain ⟨l0, m, rfl⟩ := List.mem_map.1 hl
    refine ⟨by simpa using (h.groups.2 l0 m).ne_nil, fun t hm => ?_⟩
    obtain ⟨t0, m0, rfl⟩ := List.mem_map.1 hm
    exact Trap.Sensible.rescale one_pos hmu ((h.groups.2 l0 m).all t0 m0)

theorem OverNotch.retime {notch full power mu b low left k : ℝ} {gs : List (List Trap)} {n : ℕ}
    (h : OverNotch notch full power gs n b low left k) : OverNotch notch full power (rescaleAll 1 mu gs) n b low left k :=
  ⟨h.pos, h.depth, by rw [trapCount_rescaleAll, one_mul]; exact h.slope, h.slope_le, h.keeps, h.leaves⟩

/-- The second description in the unit of time of the first. -/
theorem NotchObjects.sameDwell {notch full power dw dw' ε : ℝ} {gs gs' : List (List Trap)} {i : Bool} {c : CCD} {o : ℕ} {d : PyDirection}
    (h' : NotchObjects notch full power dw' gs' i c o d) (hdw : 0 < dw) (hgs : gs ≠ [] ∧ ∀ l ∈ gs, EveryGroup l) (h0 : 0 ≤ ε)
    (h1 : ε ≤ 1) (hn : NearCcds ε 1 dw 1 dw' gs gs') :
    NotchObjects notch full power dw (rescaleAll 1 (dw / dw') gs') i c o
        ⟨some c, some (.standard [dw] true true true i), some (.list ((rescaleAll 1 (dw / dw') gs').map .group)), 0, o⟩ ∧
      Kindred dw ε gs (rescaleAll 1 (dw / dw') gs') ∧
      ∀ passes y, Ref.stepReadout (Ref.fullStep (notchFill notch full power) dw)
          ((rescaleAll 1 (dw / dw') gs').map Ref.fullOf) passes y =
        Ref.stepReadout (Ref.fullStep (notchFill notch full power) dw') (gs'.map Ref.fullOf) passes y := by
  have hdw' := h'.dwell
  have hmu : 0 < dw / dw' := div_pos hdw hdw'
  have e : dw / dw' * dw' = dw := by field_simp
  have hr := h'.retime hmu
  have ht := fun passes y => readout_time (notchFill notch full power) dw' (stretched_rescaleAll hmu gs') hmu passes y
  rw [e] at hr ht
  have hm : NotchObjects notch full power dw gs i c o
      ⟨some c, some (.standard [dw] true true true i), some (.list (gs.map .group)), 0, o⟩ :=
    ⟨rfl, h'.phase, h'.notch, h'.power, hdw, hgs⟩
  have hn' := hn.unit one_pos hdw hdw'
  rw [div_one] at hn'
  exact ⟨hr, notched_near hm hr h0 h1 hn', ht⟩

section both
variable {wp wp' ws ws' fp fp' fs fs' pp pp' ps ps' dp ds dp' ds' : ℝ} {gp gp' gs gs' : List (List Trap)} {ip is ip' is' : Bool}
  {cp cs cp' cs' : CCD} {op os : ℕ} {par ser par' ser' : PyDirection} {bp bs lp ls left kp ks ηp ηs ε δ q : ℝ}

/-- Two readouts of an image. -/
theorem dwell_image (hp : NotchObjects wp fp pp dp gp ip cp op par) (hs : NotchObjects ws fs ps ds gs is cs os ser)
    (hp' : NotchObjects wp' fp' pp' dp' gp' ip' cp' op par') (hs' : NotchObjects ws' fs' ps' ds' gs' is' cs' os ser')
    (h0 : 0 ≤ ε) (h1 : ε ≤ 1) (tp : NearCcds ε 1 dp 1 dp' gp gp') (ts : NearCcds ε 1 ds 1 ds' gs gs')
    {nr nc : ℕ} (hbp : OverNotch wp fp pp gp (nr + op) bp lp ls kp) (hbs : OverNotch ws fs ps gs (nc + os) bs ls left ks)
    (hbpm : OverNotch wp' fp' pp' gp (nr + op) bp lp ls kp) (hbsm : OverNotch ws' fs' ps' gs (nc + os) bs ls left ks)
    (hbp' : OverNotch wp' fp' pp' gp' (nr + op) bp lp ls kp) (hbs' : OverNotch ws' fs' ps' gs' (nc + os) bs ls left ks)
    (hkp : 4 * kp < 1) (hks : 4 * ks < 1) (vp : VolumesNear bp ηp (notchFill wp fp pp) (notchFill wp' fp' pp'))
    (vs : VolumesNear bs ηs (notchFill ws fs ps) (notchFill ws' fs' ps'))
    (hq : q = (1 / (1 - 4 * kp)) ^ (nr + op) * (1 / (1 - 4 * ks)) ^ (nc + os) - 1) (x : ℕ → ℕ → ℝ)
    (hx : ∀ r < nr, ∀ c < nc, lp ≤ x r c) :
    ∑ r ∈ Finset.range nr, ∑ c ∈ Finset.range nc,
        |Ref.stepReadout (Ref.fullStep (notchFill ws fs ps) ds) (gs.map Ref.fullOf) (Ref.allPasses nc os)
            (fun c => Ref.stepReadout (Ref.fullStep (notchFill wp fp pp) dp) (gp.map Ref.fullOf) (Ref.allPasses nr op)
              (fun r => x r c) r) c -
          Ref.stepReadout (Ref.fullStep (notchFill ws' fs' ps') ds') (gs'.map Ref.fullOf) (Ref.allPasses nc os)
            (fun c => Ref.stepReadout (Ref.fullStep (notchFill wp' fp' pp') dp') (gp'.map Ref.fullOf) (Ref.allPasses nr op)
              (fun r => x r c) r) c| ≤
      (1 + q) * volumeError nr nc op os (trapCount gp) (trapCount gs) ηp ηs +
        20 * ε * q * ∑ r ∈ Finset.range nr, ∑ c ∈ Finset.range nc, x r c := by
  obtain ⟨rp, np, tp'⟩ := hp'.sameDwell hp.dwell hp.groups h0 h1 tp
  obtain ⟨rs, ns, ts'⟩ := hs'.sameDwell hs.dwell hs.groups h0 h1 ts
  have key := both_image hp hs rp rs h0 h1 np ns hbp hbs hbpm hbsm hbp'.retime hbs'.retime hkp hks vp vs hq x hx
  simp only [tp', ts'] at key
  exact key

/-- **C121**: `add_cti` with two descriptions of the dwell time, of the CCD and of the traps. As C119, the timescales and lifetimes in units
of the dwell time of their description. -/
theorem C121_add_cti (hp : NotchObjects wp fp pp dp gp ip cp op par) (hs : NotchObjects ws fs ps ds gs is cs os ser)
    (hp' : NotchObjects wp' fp' pp' dp' gp' ip' cp' op par') (hs' : NotchObjects ws' fs' ps' ds' gs' is' cs' os ser')
    (h0 : 0 ≤ ε) (h1 : ε ≤ 1) (tp : NearCcds ε 1 dp 1 dp' gp gp') (ts : NearCcds ε 1 ds 1 ds' gs gs') (img : Image ℝ) (hnr : 0 < img.nr)
    (hnc : 0 < img.nc)
    (hbp : OverNotch wp fp pp gp (img.nr + op) bp lp ls kp) (hbs : OverNotch ws fs ps gs (img.nc + os) bs ls left ks)
    (hbpm : OverNotch wp' fp' pp' gp (img.nr + op) bp lp ls kp) (hbsm : OverNotch ws' fs' ps' gs (img.nc + os) bs ls left ks)
    (hbp' : OverNotch wp' fp' pp' gp' (img.nr + op) bp lp ls kp) (hbs' : OverNotch ws' fs' ps' gs' (img.nc + os) bs ls left ks)
    (hkp : 4 * kp < 1) (hks : 4 * ks < 1) (vp : VolumesNear bp ηp (notchFill wp fp pp) (notchFill wp' fp' pp'))
    (vs : VolumesNear bs ηs (notchFill ws fs ps) (notchFill ws' fs' ps'))
    (hq : q = (1 / (1 - 4 * kp)) ^ (img.nr + op) * (1 / (1 - 4 * ks)) ^ (img.nc + os) - 1)
    (himg : img.AtLeast lp) :
    ∃ a a' roes roes', addCtiPy img par .all ser .all none = .ok (a, roes) ∧
      addCtiPy img par' .all ser' .all none = .ok (a', roes') ∧ a.SameShape img ∧ a'.SameShape img ∧
      a.dist a' ≤ (1 + q) * volumeError img.nr img.nc op os (trapCount gp) (trapCount gs) ηp ηs + 20 * ε * q * img.total := by
  obtain ⟨a, a1, a2, a3, -, a4⟩ := C116_add_cti hp hs img hnr hnc hbp hbs himg
  obtain ⟨a', b1, b2, b3, -, b4⟩ := C116_add_cti hp' hs' img hnr hnc hbp' hbs' himg
  refine ⟨a, a', _, _, a1, b1, ⟨a2, a3⟩, ⟨b2, b3⟩, ?_⟩
  refine le_trans (le_of_eq ?_)
    (dwell_image hp hs hp' hs' h0 h1 tp ts hbp hbs hbpm hbsm hbp' hbs' hkp hks vp vs hq img.px himg)
  unfold Image.dist
  rw [a2, a3]
  refine Finset.sum_congr rfl fun r hr => Finset.sum_congr rfl fun c hc => ?_
  rw [a4 r (Finset.mem_range.1 hr) c (Finset.mem_range.1 hc), b4 r (Finset.mem_range.1 hr) c (Finset.mem_range.1 hc)]

/-- **C121**: `remove_cti` with another dwell time, another CCD and other traps than the image was made with. -/
theorem C121_remove_cti (hp : NotchObjects wp fp pp dp gp ip cp op par) (hs : NotchObjects ws fs ps ds gs is cs os ser)
    (hp' : NotchObjects wp' fp' pp' dp' gp' ip' cp' op par') (hs' : NotchObjects ws' fs' ps' ds' gs' is' cs' os ser')
    (h0 : 0 ≤ ε) (h1 : ε ≤ 1) (tp : NearCcds ε 1 dp 1 dp' gp gp') (ts : NearCcds ε 1 ds 1 ds' gs gs') (truth : Image ℝ) (hnr : 0 < truth.nr)
    (hnc : 0 < truth.nc)
    (hbp : OverNotch wp fp pp gp (truth.nr + op) bp lp ls kp) (hbs : OverNotch ws fs ps gs (truth.nc + os) bs ls left ks)
    (hbpm : OverNotch wp' fp' pp' gp (truth.nr + op) bp lp ls kp) (hbsm : OverNotch ws' fs' ps' gs (truth.nc + os) bs ls left ks)
    (hbp' : OverNotch wp' fp' pp' gp' (truth.nr + op) bp lp ls kp) (hbs' : OverNotch ws' fs' ps' gs' (truth.nc + os) bs ls left ks)
    (hkp : 4 * kp < 1) (hks : 4 * ks < 1) (vp : VolumesNear bp ηp (notchFill wp fp pp) (notchFill wp' fp' pp'))
    (vs : VolumesNear bs ηs (notchFill ws fs ps) (notchFill ws' fs' ps'))
    (hq : q = (1 / (1 - 4 * kp)) ^ (truth.nr + op) * (1 / (1 - 4 * ks)) ^ (truth.nc + os) - 1)
    (hq1 : q < 1) (hpos : 0 ≤ truth.total) {E : ℝ}
    (hE : E = (1 + q) * volumeError truth.nr truth.nc op os (trapCount gp) (trapCount gs) ηp ηs + 20 * ε * q * truth.total)
    (htruth : ∀ r < truth.nr, ∀ c < truth.nc, lp + (q * truth.total + E / (1 - q)) ≤ truth.px r c) :
    ∃ img roes, addCtiPy truth par .all ser .all none = .ok (img, roes) ∧
      ∀ n, ∃ out, removeCtiPy img n par' .all ser' .all none = .ok (out, par'.roe, ser'.roe) ∧ out.SameShape truth ∧
        out.dist truth ≤ q ^ (n + 1) * truth.total + E / (1 - q) := by
  obtain ⟨q0p, mP0⟩ := hp.mild hbp hkp
  obtain ⟨q0s, mS0⟩ := hs.mild hbs hks
  obtain ⟨-, mP⟩ := hp'.mild hbp' hkp
  obtain ⟨-, mS⟩ := hs'.mild hbs' hks
  have qe : (1 + lossSlope (4 * kp) (truth.nr + op)) * (1 + lossSlope (4 * ks) (truth.nc + os)) - 1 = q := by
    rw [hq]; unfold lossSlope; ring
  have hq0 : 0 ≤ q := by rw [← qe]; nlinarith
  have hE0 : 0 ≤ E := by
    have hηp := mul_nonneg hp.count_nonneg vp.nonneg
    have hηs := mul_nonneg hs.count_nonneg vs.nonneg
    rw [hE]; unfold volumeError; positivity
  have hd : 0 ≤ E / (1 - q) := div_nonneg hE0 (by linarith)
  have ht0 : truth.AtLeast lp := fun r hr c hc => by
    have := mul_nonneg hq0 hpos
    linarith [htruth r hr c hc]
  have near := dwell_image hp hs hp' hs' h0 h1 tp ts hbp hbs hbpm hbsm hbp' hbs' hkp hks vp vs hq truth.px ht0
  change _ ≤ _ + 20 * ε * q * truth.total at near
  rw [← hE] at near
  simp only [abs_sub_comm (Ref.stepReadout (Ref.fullStep (notchFill ws fs ps) ds) (gs.map Ref.fullOf) _ _ _)] at near
  obtain ⟨img, b1, b2, b3, -, b4⟩ := C116_add_cti hp hs truth hnr hnc hbp hbs ht0
  have small := mild_image_small mP0 mS0 q0s truth.px ht0
  rw [qe] at small
  change _ ≤ q * truth.total at small
  have hdist : img.dist truth ≤ q * truth.total := by
    refine le_trans (le_of_eq ?_) small
    unfold Image.dist
    rw [b2, b3]
    refine Finset.sum_congr rfl fun r hr => Finset.sum_congr rfl fun c hc => ?_
    rw [b4 r (Finset.mem_range.1 hr) c (Finset.mem_range.1 hc)]
  have hroe : par'.roe = some (.standard [dp'] true true true ip') ∧ ser'.roe = some (.standard [ds'] true true true is') := by
    rw [hp'.eq, hs'.eq]; exact ⟨rfl, rfl⟩
  refine ⟨img, _, b1, fun n => ?_⟩
  have main := removeIter_near (fun x (roes : Option (Roe ℝ) × Option (Roe ℝ)) => do
      let (y, rp, rs) ← addCtiPy x { par' with roe := roes.1 } .all { ser' with roe := roes.2 } .all none
      .ok (y, roes.1.map fun _ => rp, roes.2.map fun _ => rs)) (par'.roe, ser'.roe) truth img lp q
    E (q * truth.total) hq0 hq1 hE0 ⟨b2, b3⟩ hdist htruth (fun x hx hlow => ?_) n
  · obtain ⟨out, o1, o2, o3⟩ := main
    refine ⟨out, o1, o2, o3.trans (le_of_eq ?_)⟩
    ring
  · obtain ⟨y, g1, g2, g3, -, g4⟩ := C116_add_cti hp' hs' x (by rw [hx.1]; exact hnr) (by rw [hx.2]; exact hnc)
      (by rw [hx.1]; exact hbp') (by rw [hx.2]; exact hbs')
      (fun r hr c hc => hlow r (by rw [← hx.1]; exact hr) c (by rw [← hx.2]; exact hc))
    rw [hx.1, hx.2] at g4
    refine ⟨y, ?_, ⟨g2.trans hx.1, g3.trans hx.2⟩, ?_⟩
    · simp only [bind, Except.bind]
      rw [g1]
      simp only [hroe.1, hroe.2, Option.map_some]
    · have lip := mild_image mP mS q0s x.px truth.px hlow ht0
      rw [qe] at lip
      have e : x.dist truth = ∑ r ∈ Finset.range truth.nr, ∑ c ∈ Finset.range truth.nc, |x.px r c - truth.px r c| := by
        unfold Image.dist
        rw [hx.1, hx.2]
      rw [← e] at lip
      have both := add_le_add lip near
      rw [← Finset.sum_add_distrib] at both
      refine le_trans ?_ both
      refine Finset.sum_le_sum fun r hr => ?_
      rw [← Finset.sum_add_distrib]
      refine Finset.sum_le_sum fun c hc => ?_
      rw [g4 r (Finset.mem_range.1 hr) c (Finset.mem_range.1 hc), b4 r (Finset.mem_range.1 hr) c (Finset.mem_range.1 hc)]
      refine le_trans (le_of_eq ?_) (abs_add_le _ _)
      congr 1
      ring

end both

section parallel
variable {wp wp' fp fp' pp pp' dp dp' : ℝ} {gp gp' : List (List Trap)} {ip ip' : Bool} {cp cp' : CCD} {op : ℕ}
  {par par' : PyDirection} {bp lp left kp ηp ε δ q : ℝ}

/-- Two readouts of all columns. -/
theorem dwell_parallel (hp : NotchObjects wp fp pp dp gp ip cp op par) (hp' : NotchObjects wp' fp' pp' dp' gp' ip' cp' op par')
    (h0 : 0 ≤ ε) (h1 : ε ≤ 1) (tp : NearCcds ε 1 dp 1 dp' gp gp') {nr nc : ℕ}
    (hbp : OverNotch wp fp pp gp (nr + op) bp lp left kp) (hbpm : OverNotch wp' fp' pp' gp (nr + op) bp lp left kp)
    (hbp' : OverNotch wp' fp' pp' gp' (nr + op) bp lp left kp) (hkp : 4 * kp < 1)
    (vp : VolumesNear bp ηp (notchFill wp fp pp) (notchFill wp' fp' pp'))
    (hq : q = (1 / (1 - 4 * kp)) ^ (nr + op) - 1) (x : ℕ → ℕ → ℝ) (hx : ∀ r < nr, ∀ c < nc, lp ≤ x r c) :
    ∑ r ∈ Finset.range nr, ∑ c ∈ Finset.range nc,
        |Ref.stepReadout (Ref.fullStep (notchFill wp fp pp) dp) (gp.map Ref.fullOf) (Ref.allPasses nr op) (fun r => x r c) r -
          Ref.stepReadout (Ref.fullStep (notchFill wp' fp' pp') dp') (gp'.map Ref.fullOf) (Ref.allPasses nr op)
            (fun r => x r c) r| ≤
      (1 + q) * (4 * (nr * nc) * ((nr + op : ℕ) * (trapCount gp * ηp))) +
        20 * ε * q * ∑ r ∈ Finset.range nr, ∑ c ∈ Finset.range nc, x r c := by
  obtain ⟨rp, np, tp'⟩ := hp'.sameDwell hp.dwell hp.groups h0 h1 tp
  have key := both_parallel hp rp h0 h1 np hbp hbpm hbp'.retime hkp vp hq x hx
  simp only [tp'] at key
  exact key

/-- **C121**, parallel clocking only. -/
theorem C121_add_parallel (hp : NotchObjects wp fp pp dp gp ip cp op par)
    (hp' : NotchObjects wp' fp' pp' dp' gp' ip' cp' op par') (h0 : 0 ≤ ε) (h1 : ε ≤ 1) (tp : NearCcds ε 1 dp 1 dp' gp gp')
    (img : Image ℝ) (hnr : 0 < img.nr)
    (hbp : OverNotch wp fp pp gp (img.nr + op) bp lp left kp) (hbpm : OverNotch wp' fp' pp' gp (img.nr + op) bp lp left kp)
    (hbp' : OverNotch wp' fp' pp' gp' (img.nr + op) bp lp left kp) (hkp : 4 * kp < 1)
    (vp : VolumesNear bp ηp (notchFill wp fp pp) (notchFill wp' fp' pp'))
    (hq : q = (1 / (1 - 4 * kp)) ^ (img.nr + op) - 1) (himg : img.AtLeast lp) :
    ∃ a a' roes roes', addCtiPy img par .all .absent .all none = .ok (a, roes) ∧
      addCtiPy img par' .all .absent .all none = .ok (a', roes') ∧ a.SameShape img ∧ a'.SameShape img ∧
      a.dist a' ≤ (1 + q) * (4 * (img.nr * img.nc) * ((img.nr + op : ℕ) * (trapCount gp * ηp))) + 20 * ε * q * img.total := by
  obtain ⟨a, a1, a2, a3, -, a4⟩ := C116_parallel hp img hnr hbp himg
  obtain ⟨a', b1, b2, b3, -, b4⟩ := C116_parallel hp' img hnr hbp' himg
  refine ⟨a, a', _, _, a1, b1, ⟨a2, a3⟩, ⟨b2, b3⟩, ?_⟩
  refine le_trans (le_of_eq ?_) (dwell_parallel hp hp' h0 h1 tp hbp hbpm hbp' hkp vp hq img.px himg)
  unfold Image.dist
  rw [a2, a3]
  refine Finset.sum_congr rfl fun r hr => Finset.sum_congr rfl fun c hc => ?_
  rw [a4 r (Finset.mem_range.1 hr) c (Finset.mem_range.1 hc), b4 r (Finset.mem_range.1 hr) c (Finset.mem_range.1 hc)]

/-- **C121**: `remove_cti`, parallel clocking only. -/
theorem C121_remove_parallel (hp : NotchObjects wp fp pp dp gp ip cp op par)
    (hp' : NotchObjects wp' fp' pp' dp' gp' ip' cp' op par') (h0 : 0 ≤ ε) (h1 : ε ≤ 1) (tp : NearCcds ε 1 dp 1 dp' gp gp')
    (truth : Image ℝ) (hnr : 0 < truth.nr)
    (hbp : OverNotch wp fp pp gp (truth.nr + op) bp lp left kp)
    (hbpm : OverNotch wp' fp' pp' gp (truth.nr + op) bp lp left kp)
    (hbp' : OverNotch wp' fp' pp' gp' (truth.nr + op) bp lp left kp) (hkp : 4 * kp < 1)
    (vp : VolumesNear bp ηp (notchFill wp fp pp) (notchFill wp' fp' pp'))
    (hq : q = (1 / (1 - 4 * kp)) ^ (truth.nr + op) - 1) (hq1 : q < 1) (hpos : 0 ≤ truth.total) {E : ℝ}
    (hE : E = (1 + q) * (4 * (truth.nr * truth.nc) * ((truth.nr + op : ℕ) * (trapCount gp * ηp))) + 20 * ε * q * truth.total)
    (htruth : ∀ r < truth.nr, ∀ c < truth.nc, lp + (q * truth.total + E / (1 - q)) ≤ truth.px r c) :
    ∃ img roes, addCtiPy truth par .all .absent .all none = .ok (img, roes) ∧
      ∀ n, ∃ out, removeCtiPy img n par' .all .absent .all none = .ok (out, par'.roe, none) ∧ out.SameShape truth ∧
        out.dist truth ≤ q ^ (n + 1) * truth.total + E / (1 - q) := by
  obtain ⟨hq0, mP0⟩ := hp.mild hbp hkp
  obtain ⟨-, mP⟩ := hp'.mild hbp' hkp
  have qe : lossSlope (4 * kp) (truth.nr + op) = q := by rw [hq]; rfl
  rw [qe] at hq0 mP0 mP
  have hE0 : 0 ≤ E := by
    have hηp := mul_nonneg hp.count_nonneg vp.nonneg
    rw [hE]; positivity
  have hd : 0 ≤ E / (1 - q) := div_nonneg hE0 (by linarith)
  have ht0 : truth.AtLeast lp := fun r hr c hc => by
    have := mul_nonneg hq0 hpos
    linarith [htruth r hr c hc]
  have near := dwell_parallel hp hp' h0 h1 tp hbp hbpm hbp' hkp vp hq truth.px ht0
  change _ ≤ _ + 20 * ε * q * truth.total at near
  rw [← hE] at near
  obtain ⟨img, b1, b2, b3, -, b4⟩ := C116_parallel hp truth hnr hbp ht0
  have hdist : img.dist truth ≤ q * truth.total := by
    unfold Image.dist Image.total
    rw [b2, b3, Finset.sum_comm, Finset.mul_sum]
    simp only [Finset.mul_sum]
    rw [Finset.sum_comm (s := Finset.range truth.nr)]
    refine Finset.sum_le_sum fun c hc => ?_
    have hc' := Finset.mem_range.1 hc
    rw [← Finset.mul_sum]
    refine le_trans (le_of_eq ?_) (mP0.small (fun r => truth.px r c) fun r hr => ht0 r hr c hc')
    refine Finset.sum_congr rfl fun r hr => ?_
    rw [b4 r (Finset.mem_range.1 hr) c hc']
  have hroe : par'.roe = some (.standard [dp'] true true true ip') := by rw [hp'.eq]
  refine ⟨img, _, b1, fun n => ?_⟩
  have main := removeIter_near (fun x (roes : Option (Roe ℝ) × Option (Roe ℝ)) => do
      let (y, rp, rs) ← addCtiPy x { par' with roe := roes.1 } .all { PyDirection.absent with roe := roes.2 } .all none
      .ok (y, roes.1.map fun _ => rp, roes.2.map fun _ => rs)) (par'.roe, none) truth img lp q
    E (q * truth.total) hq0 hq1 hE0 ⟨b2, b3⟩ hdist htruth (fun x hx hlow => ?_) n
  · obtain ⟨out, o1, o2, o3⟩ := main
    refine ⟨out, o1, o2, o3.trans (le_of_eq ?_)⟩
    ring
  · obtain ⟨y, g1, g2, g3, -, g4⟩ := C116_parallel hp' x (by rw [hx.1]; exact hnr) (by rw [hx.1]; exact hbp')
      (fun r hr c hc => hlow r (by rw [← hx.1]; exact hr) c (by rw [← hx.2]; exact hc))
    rw [hx.1, hx.2] at g4
    refine ⟨y, ?_, ⟨g2.trans hx.1, g3.trans hx.2⟩, ?_⟩
    · simp only [bind, Except.bind]
      have : ({ PyDirection.absent with roe := none } : PyDirection) = .absent := rfl
      rw [this, g1]
      simp only [hroe, Option.map_some, Option.map_none]
    · have lip : ∑ r ∈ Finset.range truth.nr, ∑ c ∈ Finset.range truth.nc,
          |(Ref.stepReadout (Ref.fullStep (notchFill wp' fp' pp') dp') (gp'.map Ref.fullOf) (Ref.allPasses truth.nr op)
              (fun r => x.px r c) r - x.px r c) -
            (Ref.stepReadout (Ref.fullStep (notchFill wp' fp' pp') dp') (gp'.map Ref.fullOf) (Ref.allPasses truth.nr op)
              (fun r => truth.px r c) r - truth.px r c)| ≤ q * x.dist truth := by
        unfold Image.dist
        rw [hx.1, hx.2, Finset.sum_comm, Finset.sum_comm (f := fun r c => |x.px r c - truth.px r c|), Finset.mul_sum]
        refine Finset.sum_le_sum fun c hc => ?_
        have hc' := Finset.mem_range.1 hc
        exact mP.lip (fun r => x.px r c) (fun r => truth.px r c) (fun r hr => hlow r hr c hc') fun r hr => ht0 r hr c hc'
      have both := add_le_add lip near
      rw [← Finset.sum_add_distrib] at both
      refine le_trans ?_ both
      refine Finset.sum_le_sum fun r hr => ?_
      rw [← Finset.sum_add_distrib]
      refine Finset.sum_le_sum fun c hc => ?_
      rw [g4 r (Finset.mem_range.1 hr) c (Finset.mem_range.1 hc), b4 r (Finset.mem_range.1 hr) c (Finset.mem_range.1 hc)]
      rw [abs_sub_comm (Ref.stepReadout (Ref.fullStep (notchFill wp fp pp) dp) (gp.map Ref.fullOf) _ _ _)]
      refine le_trans (le_of_eq ?_) (abs_add_le _ _)
      congr 1
      ring

end parallel

/-! ### a case -/

/-- Three rows and two columns of 200 electrons, a notch of 50 electrons, `well_fill_power = 1/2`, traps with slow and with instant
capture. The image is corrected with a dwell time 1% longer and with a full well of 1070.1 in the place of 1050 electrons: after three
iterations it is within 24 of 1200 electrons of the true one. -/
example (d d' : PyDirection) (hd : d = ⟨some ⟨[1], [1050], [1 / 2], [50], [.num 1050]⟩,
      some (.standard [1] true true true false),
      some (.list ([[.trap 0.1 2 0.1 false], [.instant 0.1 5 false]].map .group)), 0, 2⟩)
    (hd' : d' = ⟨some ⟨[1], [1070.1], [1 / 2], [50], [.num 1070.1]⟩, some (.standard [1.01] true true true false),
      some (.list ([[.trap 0.1 2 0.1 false], [.instant 0.1 5 false]].map .group)),
      0, 2⟩) :
    ∃ img roes out, addCtiPy ⟨3, 2, fun _ _ => 200⟩ d .all d .all none = .ok (img, roes) ∧
      removeCtiPy img 3 d' .all d' .all none = .ok (out, d'.roe, d'.roe) ∧ out.dist ⟨3, 2, fun _ _ => 200⟩ ≤ 24 := by
  have hg : ([[.trap 0.1 2 0.1 false], [.instant 0.1 5 false]] : List (List Trap)) ≠ [] ∧ ∀ l ∈ ([[.trap 0.1 2 0.1 false], [.instant 0.1 5 false]] : List (List Trap)), EveryGroup l := by
    refine ⟨by simp, fun l hl => ?_⟩
    simp only [List.mem_cons, List.not_mem_nil, or_false] at hl
    rcases hl with rfl | rfl
    · refine ⟨by simp, fun t ht => ?_⟩
      simp only [List.mem_cons, List.not_mem_nil, or_false] at ht
      subst ht
      exact ⟨⟨by norm_num, by norm_num⟩, by simp only [Trap.captureTimescale]; norm_num⟩
    · refine ⟨by simp, fun t ht => ?_⟩
      simp only [List.mem_cons, List.not_mem_nil, or_false] at ht
      subst ht
      exact ⟨⟨by norm_num, by norm_num⟩, le_rfl⟩
  have h : NotchObjects 50 1050 (1 / 2) 1 [[.trap 0.1 2 0.1 false], [.instant 0.1 5 false]] false ⟨[1], [1050], [1 / 2], [50], [.num 1050]⟩ 2 d :=
    ⟨hd, ⟨rfl, ⟨rfl, rfl, rfl⟩⟩, ⟨by norm_num, by norm_num⟩, exNotch.power, by norm_num, hg⟩
  have h' : NotchObjects 50 1070.1 (1 / 2) 1.01 [[.trap 0.1 2 0.1 false], [.instant 0.1 5 false]] false ⟨[1], [1070.1], [1 / 2], [50], [.num 1070.1]⟩ 2 d' :=
    ⟨hd', ⟨rfl, ⟨rfl, rfl, rfl⟩⟩, ⟨by norm_num, by norm_num⟩, exNotch.power, by norm_num, hg⟩
  have hc : trapCount [[.trap 0.1 2 0.1 false], [.instant 0.1 5 false]] = 0.2 := by
    simp [trapCount, Trap.density]; norm_num
  have hn : NearCcds 0.02 1 1 1 1.01 [[.trap 0.1 2 0.1 false], [.instant 0.1 5 false]]
      [[.trap 0.1 2 0.1 false], [.instant 0.1 5 false]] := by
    refine .cons ⟨.cons (.trap _ _ _ _ _ _ _ _ ?_ ?_ ?_ ?_) .nil, ?_⟩ (.cons ⟨.cons (.instant _ _ _ _ _ _ ?_ ?_) .nil, ?_⟩ .nil)
    · unfold Within; norm_num
    · unfold Within; rw [abs_le]; norm_num
    · unfold Within; rw [abs_le]; norm_num
    · norm_num
    · intro t ht u hu
      simp only [List.mem_cons, List.not_mem_nil, or_false] at ht hu
      subst ht hu
      exact .trap ..
    · unfold Within; norm_num
    · unfold Within; rw [abs_le]; norm_num
    · intro t ht u hu
      simp only [List.mem_cons, List.not_mem_nil, or_false] at ht hu
      subst ht hu
      exact .instant ..
  obtain ⟨q, hq⟩ : ∃ q : ℝ, q = (1 / (1 - 4 * 0.001204)) ^ (3 + 2) * (1 / (1 - 4 * 0.001204)) ^ (2 + 2) - 1 := ⟨_, rfl⟩
  have hq0 : 0 ≤ q := by rw [hq]; norm_num
  have hq1 : q ≤ 0.045 := by rw [hq]; norm_num
  have htot : Image.total (⟨3, 2, fun _ _ => 200⟩ : Image ℝ) = 1200 := by
    simp [Image.total]; norm_num
  have hs' : notchSlope 50 1070.1 (1 / 2) 112.5 ≤ 1 / 250 := by
    have e : min 1 (max 0 (((112.5 : ℝ) - 50) / (1070.1 - 50))) = (25 / 101) ^ 2 := by norm_num
    unfold notchSlope notchFill
    rw [if_pos (by norm_num), e, ← Real.sqrt_eq_rpow, Real.sqrt_sq (by norm_num)]
    norm_num
  have hη : 1 - (((1050 : ℝ) - 50) / (1070.1 - 50)) ^ (1 / 2 : ℝ) = 1 / 101 := by
    have e : ((1050 : ℝ) - 50) / (1070.1 - 50) = (100 / 101) ^ 2 := by norm_num
    rw [e, ← Real.sqrt_eq_rpow, Real.sqrt_sq (by norm_num)]
    norm_num
  have hv : VolumesNear 112.5 (1 / 101) (notchFill 50 1050 (1 / 2)) (notchFill 50 1070.1 (1 / 2)) := by
    rw [← hη]
    exact volumes_full (by norm_num) (by norm_num) (by norm_num)
  have hfrac : ((1 + q) * volumeError 3 2 2 2 0.2 0.2 (1 / 101) (1 / 101) + 20 * 0.02 * q * 1200) / (1 - q) ≤ 23.9 := by
    rw [div_le_iff₀ (by linarith)]
    unfold volumeError
    norm_num
    linarith
  have hk : (0.2 : ℝ) * notchSlope 50 1070.1 (1 / 2) 112.5 ≤ 0.001204 := by linarith
  obtain ⟨img, roes, g1, G⟩ := C121_remove_cti (bp := 112.5) (bs := 112.5) (lp := 120) (ls := 115) (left := 112.5)
    (kp := 0.001204) (ks := 0.001204) h h h' h' (ε := 0.02) (by norm_num) (by norm_num) hn hn
    (⟨3, 2, fun _ _ => 200⟩ : Image ℝ) (by norm_num) (by norm_num)
    ⟨by norm_num, by norm_num, by rw [hc, exNotch_slope]; norm_num, by norm_num, by norm_num, by norm_num⟩
    ⟨by norm_num, by norm_num, by rw [hc, exNotch_slope]; norm_num, by norm_num, by norm_num, by norm_num⟩
    ⟨by norm_num, by norm_num, by rw [hc]; exact hk, by norm_num, by norm_num, by norm_num⟩
    ⟨by norm_num, by norm_num, by rw [hc]; exact hk, by norm_num, by norm_num, by norm_num⟩
    ⟨by norm_num, by norm_num, by rw [hc]; exact hk, by norm_num, by norm_num, by norm_num⟩
    ⟨by norm_num, by norm_num, by rw [hc]; exact hk, by norm_num, by norm_num, by norm_num⟩
    (by norm_num) (by norm_num) hv hv hq (by linarith) (by rw [htot]; norm_num)
    (E := (1 + q) * volumeError 3 2 2 2 0.2 0.2 (1 / 101) (1 / 101) + 20 * 0.02 * q * 1200) (by rw [hc, htot])
    (fun r hr c hc' => by
      rw [htot]
      simp only
      linarith)
  obtain ⟨out, g2, -, g3⟩ := G 3
  refine ⟨img, roes, out, g1, g2, g3.trans ?_⟩
  rw [htot]
  have e : q ^ (3 + 1) ≤ 0.045 ^ (3 + 1) := pow_le_pow_left₀ hq0 hq1 _
  norm_num at e ⊢
  norm_num at hfrac
  linarith

end Arctic
