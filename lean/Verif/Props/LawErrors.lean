import Verif.Props.NotchErrors
import Verif.Lemmas.LawLip

/-!
# C118 — errors of the description of the CCD

`add_cti` and `remove_cti` with two descriptions of the CCD (`well_notch_depth`, `full_well_depth`, `well_fill_power`) and the same
traps, over a background.
-/

set_option linter.unusedSectionVars false
set_option linter.unusedVariables false

namespace Arctic

/-! ## Specification -/

/-- Clouds of `b` electrons or more fill volumes that differ by `η` at most. -/
def VolumesNear (b η : ℝ) (v v' : ℝ → ℝ) : Prop := ∀ n, b ≤ n → |v n - v' n| ≤ η

/-- Sum over all pixels and transfers of what `t` traps per pixel capture more if clouds meet a fraction `η` more of them. -/
noncomputable def volumeError (nr nc op os : ℕ) (tp ts ηp ηs : ℝ) : ℝ :=
  4 * (nr * nc) * ((nr + op : ℕ) * (tp * ηp) + (nc + os : ℕ) * (ts * ηs))

/-- Another `full_well_depth`. -/
theorem volumes_full {notch full full' power b : ℝ} (hn : notch < full) (hf : full ≤ full') (hp : 0 < power) :
    VolumesNear b (1 - ((full - notch) / (full' - notch)) ^ power) (notchFill notch full power) (notchFill notch full' power) := by
  intro n _
  have hw : 0 < full - notch := by linarith
  have hw' : 0 < full' - notch := by linarith
  set c := (full - notch) / (full' - notch) with hc
  have hc0 : 0 < c := div_pos hw hw'
  have hc1 : c ≤ 1 := (div_le_one hw').2 (by linarith)
  have et : (n - notch) / (full' - notch) = c * ((n - notch) / (full - notch)) := by
    rw [hc]; field_simp
  unfold notchFill
  rw [et]
  set t := (n - notch) / (full - notch)
  have hm : max 0 (c * t) = c * max 0 t := by
    rw [mul_max_of_nonneg _ _ hc0.le, mul_zero]
  rw [hm]
  have ht : 0 ≤ max 0 t := le_max_left _ _
  set z := max 0 t
  have a0 : 0 ≤ min 1 z := le_min zero_le_one ht
  have b0 : 0 ≤ min 1 (c * z) := le_min zero_le_one (mul_nonneg hc0.le ht)
  have h1 : min 1 (c * z) ≤ min 1 z := min_le_min le_rfl (mul_le_of_le_one_left ht hc1)
  have h2 : c * min 1 z ≤ min 1 (c * z) := by
    refine le_min ?_ (mul_le_mul_of_nonneg_left (min_le_right _ _) hc0.le)
    exact (mul_le_mul_of_nonneg_left (min_le_left _ _) hc0.le).trans (by linarith)
  have p1 := Real.rpow_le_rpow b0 h1 hp.le
  have p2 := Real.rpow_le_rpow (mul_nonneg hc0.le a0) h2 hp.le
  rw [Real.mul_rpow hc0.le a0] at p2
  have p3 : min 1 z ^ power ≤ 1 := Real.rpow_le_one a0 (min_le_left _ _) hp.le
  have p4 : c ^ power ≤ 1 := Real.rpow_le_one hc0.le hc1 hp.le
  have p5 := mul_le_mul_of_nonneg_right p3 (sub_nonneg.2 p4)
  rw [abs_of_nonneg (by linarith)]
  linarith

theorem VolumesNear.nonneg {b η : ℝ} {v v' : ℝ → ℝ} (h : VolumesNear b η v v') : 0 ≤ η := (abs_nonneg _).trans (h b le_rfl)

theorem VolumesNear.symm {b η : ℝ} {v v' : ℝ → ℝ} (h : VolumesNear b η v v') : VolumesNear b η v' v :=
  fun n hn => by rw [abs_sub_comm]; exact h n hn

section one
variable {notch notch' full full' power power' dw : ℝ} {gs : List (List Trap)} {i i' : Bool} {c c' : CCD} {o n : ℕ}
  {d d' : PyDirection} {b low left k η : ℝ}

/-- Two readouts of a column. -/
theorem law_columns (h : NotchObjects notch full power dw gs i c o d) (h' : NotchObjects notch' full' power' dw gs i' c' o d')
    (hb : OverNotch notch full power gs (n + o) b low left k) (hb' : OverNotch notch' full' power' gs (n + o) b low left k)
    (hk : 4 * k < 1) (hv : VolumesNear b η (notchFill notch full power) (notchFill notch' full' power')) (x y : ℕ → ℝ)
    (hx : ∀ r < n, low ≤ x r) (hy : ∀ r < n, low ≤ y r) :
    colDist n (Ref.stepReadout (Ref.fullStep (notchFill notch full power) dw) (gs.map Ref.fullOf) (Ref.allPasses n o) x)
        (Ref.stepReadout (Ref.fullStep (notchFill notch' full' power') dw) (gs.map Ref.fullOf) (Ref.allPasses n o) y) ≤
      (1 + lossSlope (4 * k) (n + o)) * (colDist n x y + (n + o : ℕ) * (4 * (trapCount gs * η) * n)) := by
  have hlaw := h.law hb.pos
  have hlaw' := h'.law hb'.pos
  have hs := hb.slope
  have hs' := hb'.slope
  have hk0 : 0 ≤ trapCount gs * notchSlope notch full power b := mul_nonneg h.count_nonneg hlaw.lip.nonneg_slope
  have hk0' : 0 ≤ trapCount gs * notchSlope notch' full' power' b := mul_nonneg h'.count_nonneg hlaw'.lip.nonneg_slope
  have read := (hlaw.readout (dw := dw) h.count_nonneg (by linarith) h.few.1 n o x (hb.above hx).2 (hb.above hx).1).2.1
  have read' := (hlaw'.readout (dw := dw) h'.count_nonneg (by linarith) h'.few.1 n o y (hb'.above hy).2 (hb'.above hy).1).2.1
  have D := full_sway (dw := dw) (T := trapCount gs) (l := 4 * k) hlaw.lip hlaw'.lip (lift_near hlaw hlaw' hv) (by linarith)
    (by linarith) hk.le
  have key := D.readout (full_gentle (dw := dw) hlaw.lip h.count_nonneg (by linarith))
    (full_gentle hlaw'.lip h'.count_nonneg (by linarith)) (by linarith) hk
    (mul_nonneg (by norm_num) (mul_nonneg h.count_nonneg hv.nonneg)) (by linarith) (by linarith) (by linarith) (by linarith) n
    h.few.1 (Ref.allPasses n o) (allPasses_good n o).nodup (allPasses_one n o) x y (hb.above hx).1 (hb.above hy).1
  rw [allPasses_length] at key
  rw [read, read']
  refine key.trans (le_of_eq ?_)
  unfold lossSlope
  ring

end one

section main
variable {wp wp' ws ws' fp fp' fs fs' pp pp' ps ps' dp ds : ℝ} {gp gs : List (List Trap)} {ip is ip' is' : Bool}
  {cp cs cp' cs' : CCD} {op os : ℕ} {par ser par' ser' : PyDirection} {bp bs lp ls left kp ks ηp ηs q : ℝ}

/-- Two readouts of an image. -/
theorem law_image (hp : NotchObjects wp fp pp dp gp ip cp op par) (hs : NotchObjects ws fs ps ds gs is cs os ser)
    (hp' : NotchObjects wp' fp' pp' dp gp ip' cp' op par') (hs' : NotchObjects ws' fs' ps' ds gs is' cs' os ser')
    {nr nc : ℕ} (hbp : OverNotch wp fp pp gp (nr + op) bp lp ls kp) (hbs : OverNotch ws fs ps gs (nc + os) bs ls left ks)
    (hbp' : OverNotch wp' fp' pp' gp (nr + op) bp lp ls kp) (hbs' : OverNotch ws' fs' ps' gs (nc + os) bs ls left ks)
    (hkp : 4 * kp < 1) (hks : 4 * ks < 1) (vp : VolumesNear bp ηp (notchFill wp fp pp) (notchFill wp' fp' pp'))
    (vs : VolumesNear bs ηs (notchFill ws fs ps) (notchFill ws' fs' ps'))
    (hq : q = (1 / (1 - 4 * kp)) ^ (nr + op) * (1 / (1 - 4 * ks)) ^ (nc + os) - 1) (x : ℕ → ℕ → ℝ)
    (hx : ∀ r < nr, ∀ c < nc, lp ≤ x r c) :
    ∑ r ∈ Finset.range nr, ∑ c ∈ Finset.range nc,
        |Ref.stepReadout (Ref.fullStep (notchFill ws fs ps) ds) (gs.map Ref.fullOf) (Ref.allPasses nc os)
            (fun c => Ref.stepReadout (Ref.fullStep (notchFill wp fp pp) dp) (gp.map Ref.fullOf) (Ref.allPasses nr op)
              (fun r => x r c) r) c -
          Ref.stepReadout (Ref.fullStep (notchFill ws' fs' ps') ds) (gs.map Ref.fullOf) (Ref.allPasses nc os)
            (fun c => Ref.stepReadout (Ref.fullStep (notchFill wp' fp' pp') dp) (gp.map Ref.fullOf) (Ref.allPasses nr op)
              (fun r => x r c) r) c| ≤
      (1 + q) * volumeError nr nc op os (trapCount gp) (trapCount gs) ηp ηs := by
  obtain ⟨q0p, mP⟩ := hp.mild hbp hkp
  obtain ⟨q0s, -⟩ := hs.mild hbs hks
  have mP' := (hp'.mild hbp' hkp).2
  have qe : (1 + lossSlope (4 * kp) (nr + op)) * (1 + lossSlope (4 * ks) (nc + os)) = 1 + q := by
    rw [hq]; unfold lossSlope; ring
  set A := Ref.stepReadout (Ref.fullStep (notchFill wp fp pp) dp) (gp.map Ref.fullOf) (Ref.allPasses nr op)
  set A' := Ref.stepReadout (Ref.fullStep (notchFill wp' fp' pp') dp) (gp.map Ref.fullOf) (Ref.allPasses nr op)
  set u : ℕ → ℕ → ℝ := fun r c => A (fun r => x r c) r with hu
  set v : ℕ → ℕ → ℝ := fun r c => A' (fun r => x r c) r with hv
  have e1 : ∑ r ∈ Finset.range nr, ∑ c ∈ Finset.range nc, |u r c - v r c| ≤
      (1 + lossSlope (4 * kp) (nr + op)) * (nc * ((nr + op : ℕ) * (4 * (trapCount gp * ηp) * nr))) := by
    rw [Finset.sum_comm]
    have : ∀ c ∈ Finset.range nc, ∑ r ∈ Finset.range nr, |u r c - v r c| ≤
        (1 + lossSlope (4 * kp) (nr + op)) * ((nr + op : ℕ) * (4 * (trapCount gp * ηp) * nr)) := by
      intro c hc
      have hc' := Finset.mem_range.1 hc
      have := law_columns hp hp' hbp hbp' hkp vp (fun r => x r c) (fun r => x r c) (fun r hr => hx r hr c hc')
        (fun r hr => hx r hr c hc')
      have z : colDist nr (fun r => x r c) (fun r => x r c) = 0 := by simp [colDist]
      rw [z, zero_add] at this
      exact this
    refine (Finset.sum_le_card_nsmul _ _ _ this).trans (le_of_eq ?_)
    rw [Finset.card_range, nsmul_eq_mul]
    ring
  have e2 : ∀ r ∈ Finset.range nr, ∑ c ∈ Finset.range nc,
      |Ref.stepReadout (Ref.fullStep (notchFill ws fs ps) ds) (gs.map Ref.fullOf) (Ref.allPasses nc os) (u r) c -
        Ref.stepReadout (Ref.fullStep (notchFill ws' fs' ps') ds) (gs.map Ref.fullOf) (Ref.allPasses nc os) (v r) c| ≤
      (1 + lossSlope (4 * ks) (nc + os)) * (∑ c ∈ Finset.range nc, |u r c - v r c| +
        (nc + os : ℕ) * (4 * (trapCount gs * ηs) * nc)) := by
    intro r hr
    have hr' := Finset.mem_range.1 hr
    exact law_columns hs hs' hbs hbs' hks vs (u r) (v r)
      (fun c hc => mP.floor (fun r => x r c) (fun r hr => hx r hr c hc) r hr')
      fun c hc => mP'.floor (fun r => x r c) (fun r hr => hx r hr c hc) r hr'
  refine (Finset.sum_le_sum e2).trans ?_
  rw [← Finset.mul_sum, Finset.sum_add_distrib, Finset.sum_const, Finset.card_range, nsmul_eq_mul]
  have hηp := mul_nonneg hp.count_nonneg vp.nonneg
  have hηs := mul_nonneg hs.count_nonneg vs.nonneg
  have hE : 0 ≤ (nr : ℝ) * (((nc + os : ℕ) : ℝ) * (4 * (trapCount gs * ηs) * nc)) := by positivity
  have s1 := mul_le_mul_of_nonneg_left e1 (by linarith : 0 ≤ 1 + lossSlope (4 * ks) (nc + os))
  have s2 := mul_le_mul_of_nonneg_right (by nlinarith : 1 + lossSlope (4 * ks) (nc + os) ≤
    (1 + lossSlope (4 * kp) (nr + op)) * (1 + lossSlope (4 * ks) (nc + os))) hE
  rw [mul_add, ← qe]
  unfold volumeError
  linarith

/-- **C118**: `add_cti` with two descriptions of the CCD and the same traps, of an image with `lp` electrons in every pixel. Pixels
of `lp` electrons keep `ls` electrons in parallel clocking and `left` electrons in serial clocking, with both descriptions. The volumes
of clouds of `b` electrons or more differ by `η_p` at most for parallel and by `η_s` at most for serial clocking. With
`q = (1-4k_p)^-(rows+offset_p) (1-4k_s)^-(columns+offset_s) - 1`, the images differ by at most
`4 (1+q) rows columns ((rows+offset_p) traps_p η_p + (columns+offset_s) traps_s η_s)` electrons, summed over all pixels. -/
theorem C118_add_cti (hp : NotchObjects wp fp pp dp gp ip cp op par) (hs : NotchObjects ws fs ps ds gs is cs os ser)
    (hp' : NotchObjects wp' fp' pp' dp gp ip' cp' op par') (hs' : NotchObjects ws' fs' ps' ds gs is' cs' os ser')
    (img : Image ℝ) (hnr : 0 < img.nr) (hnc : 0 < img.nc)
    (hbp : OverNotch wp fp pp gp (img.nr + op) bp lp ls kp) (hbs : OverNotch ws fs ps gs (img.nc + os) bs ls left ks)
    (hbp' : OverNotch wp' fp' pp' gp (img.nr + op) bp lp ls kp) (hbs' : OverNotch ws' fs' ps' gs (img.nc + os) bs ls left ks)
    (hkp : 4 * kp < 1) (hks : 4 * ks < 1) (vp : VolumesNear bp ηp (notchFill wp fp pp) (notchFill wp' fp' pp'))
    (vs : VolumesNear bs ηs (notchFill ws fs ps) (notchFill ws' fs' ps'))
    (hq : q = (1 / (1 - 4 * kp)) ^ (img.nr + op) * (1 / (1 - 4 * ks)) ^ (img.nc + os) - 1) (himg : img.AtLeast lp) :
    ∃ a a' roes roes', addCtiPy img par .all ser .all none = .ok (a, roes) ∧
      addCtiPy img par' .all ser' .all none = .ok (a', roes') ∧ a.SameShape img ∧ a'.SameShape img ∧
      a.dist a' ≤ (1 + q) * volumeError img.nr img.nc op os (trapCount gp) (trapCount gs) ηp ηs := by
  obtain ⟨a, a1, a2, a3, -, a4⟩ := C116_add_cti hp hs img hnr hnc hbp hbs himg
  obtain ⟨a', b1, b2, b3, -, b4⟩ := C116_add_cti hp' hs' img hnr hnc hbp' hbs' himg
  refine ⟨a, a', _, _, a1, b1, ⟨a2, a3⟩, ⟨b2, b3⟩, ?_⟩
  refine le_trans (le_of_eq ?_) (law_image hp hs hp' hs' hbp hbs hbp' hbs' hkp hks vp vs hq img.px himg)
  unfold Image.dist
  rw [a2, a3]
  refine Finset.sum_congr rfl fun r hr => Finset.sum_congr rfl fun c hc => ?_
  rw [a4 r (Finset.mem_range.1 hr) c (Finset.mem_range.1 hc), b4 r (Finset.mem_range.1 hr) c (Finset.mem_range.1 hc)]

/-- **C118**: `remove_cti` with another description of the CCD than the image was made with. Let `E` be the bound of
`C118_add_cti`. If `q < 1` and every pixel of the true image has `lp` electrons, another `q` times the total charge and another
`E / (1-q)` electrons, the image returned after `n` iterations differs from the true image by at most `q^(n+1)` times its total charge
and `E / (1-q)` electrons. -/
theorem C118_remove_cti (hp : NotchObjects wp fp pp dp gp ip cp op par) (hs : NotchObjects ws fs ps ds gs is cs os ser)
    (hp' : NotchObjects wp' fp' pp' dp gp ip' cp' op par') (hs' : NotchObjects ws' fs' ps' ds gs is' cs' os ser')
    (truth : Image ℝ) (hnr : 0 < truth.nr) (hnc : 0 < truth.nc)
    (hbp : OverNotch wp fp pp gp (truth.nr + op) bp lp ls kp) (hbs : OverNotch ws fs ps gs (truth.nc + os) bs ls left ks)
    (hbp' : OverNotch wp' fp' pp' gp (truth.nr + op) bp lp ls kp)
    (hbs' : OverNotch ws' fs' ps' gs (truth.nc + os) bs ls left ks)
    (hkp : 4 * kp < 1) (hks : 4 * ks < 1) (vp : VolumesNear bp ηp (notchFill wp fp pp) (notchFill wp' fp' pp'))
    (vs : VolumesNear bs ηs (notchFill ws fs ps) (notchFill ws' fs' ps'))
    (hq : q = (1 / (1 - 4 * kp)) ^ (truth.nr + op) * (1 / (1 - 4 * ks)) ^ (truth.nc + os) - 1) (hq1 : q < 1)
    (hpos : 0 ≤ truth.total) {E : ℝ}
    (hE : E = (1 + q) * volumeError truth.nr truth.nc op os (trapCount gp) (trapCount gs) ηp ηs)
    (htruth : ∀ r < truth.nr, ∀ c < truth.nc, lp + (q * truth.total + E / (1 - q)) ≤ truth.px r c) :
    ∃ img roes, addCtiPy truth par .all ser .all none = .ok (img, roes) ∧
      ∀ n, ∃ out, removeCtiPy img n par' .all ser' .all none = .ok (out, par'.roe, ser'.roe) ∧ out.SameShape truth ∧
        out.dist truth ≤ q ^ (n + 1) * truth.total + E / (1 - q) := by
  obtain ⟨q0p, mP0⟩ := hp.mild hbp hkp
  obtain ⟨q0s, mS0⟩ := hs.mild hbs hks
  obtain ⟨-, mP⟩ := hp'.mild hbp' hkp
  obtain ⟨-, mS⟩ := hs'.mild hbs' hks
  have qe : (1 + lossSlope (4 * kp) (truth.nr + op)) * (1 + lossSlope (4 * ks) (truth.nc + os)) - 1 = q := by
    rw [hq]; unfold lossSlope; ring
  have hq0 : 0 ≤ q := by rw [← qe]; nlinarith
  have hE0 : 0 ≤ E := by
    have hηp := mul_nonneg hp.count_nonneg vp.nonneg
    have hηs := mul_nonneg hs.count_nonneg vs.nonneg
    rw [hE]; unfold volumeError; positivity
  have hd : 0 ≤ E / (1 - q) := div_nonneg hE0 (by linarith)
  have ht0 : truth.AtLeast lp := fun r hr c hc => by
    have := mul_nonneg hq0 hpos
    linarith [htruth r hr c hc]
  have near := law_image hp' hs' hp hs hbp' hbs' hbp hbs hkp hks vp.symm vs.symm hq truth.px ht0
  rw [← hE] at near
  obtain ⟨img, b1, b2, b3, -, b4⟩ := C116_add_cti hp hs truth hnr hnc hbp hbs ht0
  have small := mild_image_small mP0 mS0 q0s truth.px ht0
  rw [qe] at small
  change _ ≤ q * truth.total at small
  have hdist : img.dist truth ≤ q * truth.total := by
    refine le_trans (le_of_eq ?_) small
    unfold Image.dist
    rw [b2, b3]
    refine Finset.sum_congr rfl fun r hr => Finset.sum_congr rfl fun c hc => ?_
    rw [b4 r (Finset.mem_range.1 hr) c (Finset.mem_range.1 hc)]
  have hroe : par'.roe = some (.standard [dp] true true true ip') ∧ ser'.roe = some (.standard [ds] true true true is') := by
    rw [hp'.eq, hs'.eq]; exact ⟨rfl, rfl⟩
  refine ⟨img, _, b1, fun n => ?_⟩
  have main := removeIter_near (fun x (roes : Option (Roe ℝ) × Option (Roe ℝ)) => do
      let (y, rp, rs) ← addCtiPy x { par' with roe := roes.1 } .all { ser' with roe := roes.2 } .all none
      .ok (y, roes.1.map fun _ => rp, roes.2.map fun _ => rs)) (par'.roe, ser'.roe) truth img lp q
    E (q * truth.total) hq0 hq1 hE0 ⟨b2, b3⟩ hdist htruth (fun x hx hlow => ?_) n
  · obtain ⟨out, o1, o2, o3⟩ := main
    refine ⟨out, o1, o2, o3.trans (le_of_eq ?_)⟩
    ring
  · obtain ⟨y, g1, g2, g3, -, g4⟩ := C116_add_cti hp' hs' x (by rw [hx.1]; exact hnr) (by rw [hx.2]; exact hnc)
      (by rw [hx.1]; exact hbp') (by rw [hx.2]; exact hbs')
      (fun r hr c hc => hlow r (by rw [← hx.1]; exact hr) c (by rw [← hx.2]; exact hc))
    rw [hx.1, hx.2] at g4
    refine ⟨y, ?_, ⟨g2.trans hx.1, g3.trans hx.2⟩, ?_⟩
    · simp only [bind, Except.bind]
      rw [g1]
      simp only [hroe.1, hroe.2, Option.map_some]
    · have lip := mild_image mP mS q0s x.px truth.px hlow ht0
      rw [qe] at lip
      have e : x.dist truth = ∑ r ∈ Finset.range truth.nr, ∑ c ∈ Finset.range truth.nc, |x.px r c - truth.px r c| := by
        unfold Image.dist
        rw [hx.1, hx.2]
      rw [← e] at lip
      have both := add_le_add lip near
      rw [← Finset.sum_add_distrib] at both
      refine le_trans ?_ both
      refine Finset.sum_le_sum fun r hr => ?_
      rw [← Finset.sum_add_distrib]
      refine Finset.sum_le_sum fun c hc => ?_
      rw [g4 r (Finset.mem_range.1 hr) c (Finset.mem_range.1 hc), b4 r (Finset.mem_range.1 hr) c (Finset.mem_range.1 hc)]
      refine le_trans (le_of_eq ?_) (abs_add_le _ _)
      congr 1
      ring

/-- **C118**, `full_well_depth`: images made with `full_well_depth` and corrected with a larger one, in both directions. The volumes
differ by `1 - ((full-notch)/(full'-notch))^power` at most. -/
theorem C118_full_well (hp : NotchObjects wp fp pp dp gp ip cp op par) (hs : NotchObjects ws fs ps ds gs is cs os ser)
    (hp' : NotchObjects wp fp' pp dp gp ip' cp' op par') (hs' : NotchObjects ws fs' ps ds gs is' cs' os ser')
    (hfp : fp ≤ fp') (hfs : fs ≤ fs') (truth : Image ℝ) (hnr : 0 < truth.nr) (hnc : 0 < truth.nc)
    (hbp : OverNotch wp fp pp gp (truth.nr + op) bp lp ls kp) (hbs : OverNotch ws fs ps gs (truth.nc + os) bs ls left ks)
    (hbp' : OverNotch wp fp' pp gp (truth.nr + op) bp lp ls kp) (hbs' : OverNotch ws fs' ps gs (truth.nc + os) bs ls left ks)
    (hkp : 4 * kp < 1) (hks : 4 * ks < 1)
    (hq : q = (1 / (1 - 4 * kp)) ^ (truth.nr + op) * (1 / (1 - 4 * ks)) ^ (truth.nc + os) - 1) (hq1 : q < 1)
    (hpos : 0 ≤ truth.total) {E : ℝ}
    (hE : E = (1 + q) * volumeError truth.nr truth.nc op os (trapCount gp) (trapCount gs)
      (1 - ((fp - wp) / (fp' - wp)) ^ pp) (1 - ((fs - ws) / (fs' - ws)) ^ ps))
    (htruth : ∀ r < truth.nr, ∀ c < truth.nc, lp + (q * truth.total + E / (1 - q)) ≤ truth.px r c) :
    ∃ img roes, addCtiPy truth par .all ser .all none = .ok (img, roes) ∧
      ∀ n, ∃ out, removeCtiPy img n par' .all ser' .all none = .ok (out, par'.roe, ser'.roe) ∧ out.SameShape truth ∧
        out.dist truth ≤ q ^ (n + 1) * truth.total + E / (1 - q) :=
  C118_remove_cti hp hs hp' hs' truth hnr hnc hbp hbs hbp' hbs' hkp hks (volumes_full hp.notch.2 hfp hp.power)
    (volumes_full hs.notch.2 hfs hs.power) hq hq1 hpos hE htruth

end main

/-! ### a case -/

/-- Three rows and two columns of 200 electrons, a notch of 50 electrons, `well_fill_power = 1/2`, traps of all classes. The image is
made with a full well of 1050 electrons and corrected with 1070.1 electrons: after three iterations it is within one of 1200
electrons of the true one. -/
example (d d' : PyDirection) (hd : d = ⟨some ⟨[1], [1050], [1 / 2], [50], [.num 1050]⟩,
      some (.standard [1] true true true false),
      some (.list ([[.logNormalTrap 0.1 3 (1 / 2)], [.trap 0.1 2 0.1 false], [.instant 0.1 5 false]].map .group)), 0, 2⟩)
    (hd' : d' = ⟨some ⟨[1], [1070.1], [1 / 2], [50], [.num 1070.1]⟩, some (.standard [1] true true true false),
      some (.list ([[.logNormalTrap 0.1 3 (1 / 2)], [.trap 0.1 2 0.1 false], [.instant 0.1 5 false]].map .group)), 0, 2⟩) :
    ∃ img roes out, addCtiPy ⟨3, 2, fun _ _ => 200⟩ d .all d .all none = .ok (img, roes) ∧
      removeCtiPy img 3 d' .all d' .all none = .ok (out, d'.roe, d'.roe) ∧ out.dist ⟨3, 2, fun _ _ => 200⟩ ≤ 1 := by
  have h := exNotch
  rw [← hd] at h
  have h' : NotchObjects 50 1070.1 (1 / 2) 1
      [[.logNormalTrap 0.1 3 (1 / 2)], [.trap 0.1 2 0.1 false], [.instant 0.1 5 false]] false
      ⟨[1], [1070.1], [1 / 2], [50], [.num 1070.1]⟩ 2 d' :=
    ⟨hd', ⟨rfl, ⟨rfl, rfl, rfl⟩⟩, ⟨by norm_num, by norm_num⟩, by norm_num, one_pos, exFull.groups⟩
  have hc := exFull_count
  have hs' : notchSlope 50 1070.1 (1 / 2) 112.5 ≤ 1 / 250 := by
    have e : min 1 (max 0 (((112.5 : ℝ) - 50) / (1070.1 - 50))) = (25 / 101) ^ 2 := by norm_num
    unfold notchSlope notchFill
    rw [if_pos (by norm_num), e, ← Real.sqrt_eq_rpow, Real.sqrt_sq (by norm_num)]
    norm_num
  have hη : 1 - (((1050 : ℝ) - 50) / (1070.1 - 50)) ^ (1 / 2 : ℝ) = 1 / 101 := by
    have e : ((1050 : ℝ) - 50) / (1070.1 - 50) = (100 / 101) ^ 2 := by norm_num
    rw [e, ← Real.sqrt_eq_rpow, Real.sqrt_sq (by norm_num)]
    norm_num
  obtain ⟨q, hq⟩ : ∃ q : ℝ, q = (1 / (1 - 4 * 0.0012)) ^ (3 + 2) * (1 / (1 - 4 * 0.0012)) ^ (2 + 2) - 1 := ⟨_, rfl⟩
  have hq0 : 0 ≤ q := by rw [hq]; norm_num
  have hq1 : q ≤ 0.045 := by rw [hq]; norm_num
  have htot : Image.total (⟨3, 2, fun _ _ => 200⟩ : Image ℝ) = 1200 := by
    simp [Image.total]; norm_num
  have hfrac : (1 + q) * volumeError 3 2 2 2 0.3 0.3 (1 / 101) (1 / 101) / (1 - q) ≤ 0.71 := by
    rw [div_le_iff₀ (by linarith)]
    unfold volumeError
    norm_num
    linarith
  have hk : (0.3 : ℝ) * notchSlope 50 1070.1 (1 / 2) 112.5 ≤ 0.0012 := by linarith
  obtain ⟨img, roes, g1, G⟩ := C118_full_well (bp := 112.5) (bs := 112.5) (lp := 120) (ls := 115) (left := 112.5)
    (kp := 0.0012) (ks := 0.0012) h h h' h' (by norm_num) (by norm_num) (⟨3, 2, fun _ _ => 200⟩ : Image ℝ) (by norm_num)
    (by norm_num)
    ⟨by norm_num, by norm_num, by rw [hc, exNotch_slope]; norm_num, by norm_num, by norm_num, by norm_num⟩
    ⟨by norm_num, by norm_num, by rw [hc, exNotch_slope]; norm_num, by norm_num, by norm_num, by norm_num⟩
    ⟨by norm_num, by norm_num, by rw [hc]; exact hk, by norm_num, by norm_num, by norm_num⟩
    ⟨by norm_num, by norm_num, by rw [hc]; exact hk, by norm_num, by norm_num, by norm_num⟩
    (by norm_num) (by norm_num) hq (by linarith) (by rw [htot]; norm_num)
    (E := (1 + q) * volumeError 3 2 2 2 0.3 0.3 (1 / 101) (1 / 101)) (by rw [hη, hc]) (fun r hr c hc' => by
      rw [htot]
      simp only
      linarith)
  obtain ⟨out, g2, -, g3⟩ := G 3
  refine ⟨img, roes, out, g1, g2, g3.trans ?_⟩
  rw [htot]
  have e : q ^ (3 + 1) ≤ 0.045 ^ (3 + 1) := pow_le_pow_left₀ hq0 hq1 _
  norm_num at e ⊢
  norm_num at hfrac
  linarith

end Arctic
