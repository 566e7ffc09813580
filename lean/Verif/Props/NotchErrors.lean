import Verif.Props.NotchBackground
import Verif.Props.BackgroundErrors

/-!
# C117 — errors of the description of traps over a background, with a notch and any well_fill_power
-/

set_option linter.unusedSectionVars false
set_option linter.unusedVariables false

namespace Arctic
open MeasureTheory Set

section kindred
variable {notch full power dw : ℝ} {gs gs' : List (List Trap)} {i i' : Bool} {c c' : CCD} {o n : ℕ} {d d' : PyDirection}
  {b low left k ε δ : ℝ}

theorem notched_near (h : NotchObjects notch full power dw gs i c o d) (h' : NotchObjects notch full power dw gs' i' c' o d') (h0 : 0 ≤ ε)
    (h1 : ε ≤ 1) (hn : NearAll ε gs gs') : Kindred dw ε gs gs' :=
  ⟨gs'.map Ref.fullOf, h'.few.1, h'.few.2, Ref.fullOf_kins h.dwell h0 h1 hn h.groups.2 h'.groups.2,
    List.forall₂_same.2 fun t _ => .same t⟩

theorem notched_bins (h : NotchObjects notch full power dw gs i c o d) (h' : NotchObjects notch full power dw gs' i' c' o d') (h0 : 0 ≤ ε)
    (hδ : 0 ≤ δ) (hn : List.Forall₂ (Binned ε δ) gs gs') : Kindred dw (2 * (ε + δ)) gs gs' := by
  obtain ⟨ts, t1, t2, t3, t4⟩ := Binned.middles h.dwell h0 hδ hn h.groups.2 h'.groups.2
  rw [← Binned.count hn h.groups.2] at t1
  exact ⟨ts, t1, t2, t3, t4⟩

/-- Two readouts over a background. -/
theorem notched_close (h : NotchObjects notch full power dw gs i c o d) (h' : NotchObjects notch full power dw gs' i' c' o d')
    (hb : OverNotch notch full power gs (n + o) b low left k) (hb' : OverNotch notch full power gs' (n + o) b low left k)
    (hk : 4 * k < 1) (h0 : 0 ≤ ε) (h1 : ε ≤ 1) (hn : Kindred dw ε gs gs') :
    Close n low ε (lossSlope (4 * k) (n + o))
      (Ref.stepReadout (Ref.fullStep (notchFill notch full power) dw) (gs.map Ref.fullOf) (Ref.allPasses n o))
      (Ref.stepReadout (Ref.fullStep (notchFill notch full power) dw) (gs'.map Ref.fullOf) (Ref.allPasses n o)) := by
  obtain ⟨ts, t1, t2, t3, t4⟩ := hn
  have hlaw := h.law hb.pos
  have hs := hb.slope
  have hs' := hb'.slope
  have hk0 : 0 ≤ trapCount gs * (notchSlope notch full power b) := mul_nonneg h.count_nonneg hlaw.lip.nonneg_slope
  have hk0' : 0 ≤ trapCount gs' * (notchSlope notch full power b) := mul_nonneg h'.count_nonneg hlaw.lip.nonneg_slope
  have read := fun (x : ℕ → ℝ) (hx : ∀ r < n, low ≤ x r) => (hlaw.readout (dw := dw) h.count_nonneg
    (by linarith [hb.slope_le]) h.few.1 n o x (hb.above hx).2 (hb.above hx).1).2.1
  have read' := fun (x : ℕ → ℝ) (hx : ∀ r < n, low ≤ x r) => (hlaw.readout (dw := dw) h'.count_nonneg
    (by linarith [hb.slope_le]) h'.few.1 n o x (hb'.above hx).2 (hb'.above hx).1).2.1
  have hL : trapCount gs' * (notchSlope notch full power b) ≤ 1 := by linarith [hb.slope_le]
  have tw : ∀ y, Ref.stepReadout (Ref.fullStep (liftFill (notchFill notch full power) b) dw) ts (Ref.allPasses n o) y =
      Ref.stepReadout (Ref.fullStep (liftFill (notchFill notch full power) b) dw) (gs'.map Ref.fullOf) (Ref.allPasses n o) y := by
    intro y
    refine stepReadout_twin (fun s t => List.Forall₂ Ref.BinTwin s t ∧ Ref.FullFew dw (trapCount gs') s ∧
      Ref.FullFew dw (trapCount gs') t) (fun s t n hst => ?_) ⟨t4, t1, h'.few.1⟩ _ _
    obtain ⟨s1, s2⟩ := Ref.binTwins_step hlaw.lip hst.1 hst.2.1.reg hst.2.2.reg (by rw [hst.2.2.total]; exact hL) n
    exact ⟨s1, s2, (full_step hlaw.lip hst.2.1 hL n).1, (full_step hlaw.lip hst.2.2 hL n).1⟩
  have D := full_drift (dw := dw) (T := trapCount gs) (T' := trapCount gs') (l := 4 * k) hlaw.lip h0 h1 (by linarith)
    (by linarith) hk.le
  have key := D.readout (full_gentle (dw := dw) hlaw.lip h.count_nonneg (by linarith))
    (full_gentle hlaw.lip h'.count_nonneg (by linarith)) (by linarith) hk (by linarith) n h.few.1 t1 t3 t2
    (Ref.allPasses n o) (allPasses_good n o).nodup (allPasses_one n o)
  rw [allPasses_length] at key
  refine ⟨fun y hy => ?_, fun x y hx hy => ?_⟩
  · rw [read' y hy, ← tw]
    exact (key y y (hb.above hy).1 (hb.above hy).1).1
  · rw [read x hx, read' y hy, ← tw]
    exact (key x y (hb.above hx).1 (hb.above hy).1).2

end kindred

section main
variable {wp ws fp fs pp ps dp ds : ℝ} {gp gp' gs gs' : List (List Trap)} {ip is ip' is' : Bool} {cp cs cp' cs' : CCD} {op os : ℕ}
  {par ser par' ser' : PyDirection} {bp bs lp ls left kp ks ε δ q : ℝ}

theorem notched_add (hp : NotchObjects wp fp pp dp gp ip cp op par) (hs : NotchObjects ws fs ps ds gs is cs os ser)
    (hp' : NotchObjects wp fp pp dp gp' ip' cp' op par') (hs' : NotchObjects ws fs ps ds gs' is' cs' os ser')
    (h0 : 0 ≤ ε) (h1 : ε ≤ 1) (tp : Kindred dp ε gp gp') (ts : Kindred ds ε gs gs')
    (img : Image ℝ) (hnr : 0 < img.nr) (hnc : 0 < img.nc)
    (hbp : OverNotch wp fp pp gp (img.nr + op) bp lp ls kp) (hbs : OverNotch ws fs ps gs (img.nc + os) bs ls left ks)
    (hbp' : OverNotch wp fp pp gp' (img.nr + op) bp lp ls kp) (hbs' : OverNotch ws fs ps gs' (img.nc + os) bs ls left ks)
    (hkp : 4 * kp < 1) (hks : 4 * ks < 1)
    (hq : q = (1 / (1 - 4 * kp)) ^ (img.nr + op) * (1 / (1 - 4 * ks)) ^ (img.nc + os) - 1) (himg : img.AtLeast lp) :
    ∃ a a' roes roes', addCtiPy img par .all ser .all none = .ok (a, roes) ∧
      addCtiPy img par' .all ser' .all none = .ok (a', roes') ∧ a.SameShape img ∧ a'.SameShape img ∧
      a.dist a' ≤ 20 * ε * q * img.total := by
  have cP := notched_close hp hp' hbp hbp' hkp h0 h1 tp
  have cS := notched_close hs hs' hbs hbs' hks h0 h1 ts
  have mP := (hp.mild hbp hkp).2
  have mP' := (hp'.mild hbp' hkp).2
  obtain ⟨a, a1, a2, a3, -, a4⟩ := C116_add_cti hp hs img hnr hnc hbp hbs himg
  obtain ⟨a', b1, b2, b3, -, b4⟩ := C116_add_cti hp' hs' img hnr hnc hbp' hbs' himg
  refine ⟨a, a', _, _, a1, b1, ⟨a2, a3⟩, ⟨b2, b3⟩, ?_⟩
  have key := close_image cP cS mP mP' h0 (hs.mild hbs hks).1 img.px himg
  have e : (1 + lossSlope (4 * kp) (img.nr + op)) * (1 + lossSlope (4 * ks) (img.nc + os)) - 1 = q := by
    rw [hq]; unfold lossSlope; ring
  rw [e] at key
  refine le_trans (le_of_eq ?_) key
  unfold Image.dist
  rw [a2, a3]
  refine Finset.sum_congr rfl fun r hr => Finset.sum_congr rfl fun c hc => ?_
  rw [a4 r (Finset.mem_range.1 hr) c (Finset.mem_range.1 hc), b4 r (Finset.mem_range.1 hr) c (Finset.mem_range.1 hc)]

theorem notched_remove (hp : NotchObjects wp fp pp dp gp ip cp op par) (hs : NotchObjects ws fs ps ds gs is cs os ser)
    (hp' : NotchObjects wp fp pp dp gp' ip' cp' op par') (hs' : NotchObjects ws fs ps ds gs' is' cs' os ser')
    (h0 : 0 ≤ ε) (h1 : ε ≤ 1) (truth : Image ℝ) (hnr : 0 < truth.nr) (hnc : 0 < truth.nc)
    (near : Close truth.nr lp ε (lossSlope (4 * kp) (truth.nr + op))
        (Ref.stepReadout (Ref.fullStep (notchFill wp fp pp) dp) (gp.map Ref.fullOf) (Ref.allPasses truth.nr op))
        (Ref.stepReadout (Ref.fullStep (notchFill wp fp pp) dp) (gp'.map Ref.fullOf) (Ref.allPasses truth.nr op)) ∧
      Close truth.nc ls ε (lossSlope (4 * ks) (truth.nc + os))
        (Ref.stepReadout (Ref.fullStep (notchFill ws fs ps) ds) (gs.map Ref.fullOf) (Ref.allPasses truth.nc os))
        (Ref.stepReadout (Ref.fullStep (notchFill ws fs ps) ds) (gs'.map Ref.fullOf) (Ref.allPasses truth.nc os)) ∨
      Close truth.nr lp ε (lossSlope (4 * kp) (truth.nr + op))
        (Ref.stepReadout (Ref.fullStep (notchFill wp fp pp) dp) (gp'.map Ref.fullOf) (Ref.allPasses truth.nr op))
        (Ref.stepReadout (Ref.fullStep (notchFill wp fp pp) dp) (gp.map Ref.fullOf) (Ref.allPasses truth.nr op)) ∧
      Close truth.nc ls ε (lossSlope (4 * ks) (truth.nc + os))
        (Ref.stepReadout (Ref.fullStep (notchFill ws fs ps) ds) (gs'.map Ref.fullOf) (Ref.allPasses truth.nc os))
        (Ref.stepReadout (Ref.fullStep (notchFill ws fs ps) ds) (gs.map Ref.fullOf) (Ref.allPasses truth.nc os)))
    (hbp : OverNotch wp fp pp gp (truth.nr + op) bp lp ls kp) (hbs : OverNotch ws fs ps gs (truth.nc + os) bs ls left ks)
    (hbp' : OverNotch wp fp pp gp' (truth.nr + op) bp lp ls kp) (hbs' : OverNotch ws fs ps gs' (truth.nc + os) bs ls left ks)
    (hkp : 4 * kp < 1) (hks : 4 * ks < 1)
    (hq : q = (1 / (1 - 4 * kp)) ^ (truth.nr + op) * (1 / (1 - 4 * ks)) ^ (truth.nc + os) - 1) (hq1 : q < 1)
    (hpos : 0 ≤ truth.total)
    (htruth : ∀ r < truth.nr, ∀ c < truth.nc, lp + (q + 20 * ε * q / (1 - q)) * truth.total ≤ truth.px r c) :
    ∃ img roes, addCtiPy truth par .all ser .all none = .ok (img, roes) ∧
      ∀ n, ∃ out, removeCtiPy img n par' .all ser' .all none = .ok (out, par'.roe, ser'.roe) ∧ out.SameShape truth ∧
        out.dist truth ≤ (q ^ (n + 1) + 20 * ε * q / (1 - q)) * truth.total := by
  obtain ⟨q0p, mP0⟩ := hp.mild hbp hkp
  obtain ⟨q0s, mS0⟩ := hs.mild hbs hks
  obtain ⟨-, mP⟩ := hp'.mild hbp' hkp
  obtain ⟨-, mS⟩ := hs'.mild hbs' hks
  have qe : (1 + lossSlope (4 * kp) (truth.nr + op)) * (1 + lossSlope (4 * ks) (truth.nc + os)) - 1 = q := by
    rw [hq]; unfold lossSlope; ring
  have hq0 : 0 ≤ q := by rw [← qe]; nlinarith
  have hE : 0 ≤ 20 * ε * q := mul_nonneg (by linarith) hq0
  have hd : 0 ≤ 20 * ε * q / (1 - q) := div_nonneg hE (by linarith)
  have ht0 : truth.AtLeast lp := fun r hr c hc => by
    have := mul_nonneg (by linarith : 0 ≤ q + 20 * ε * q / (1 - q)) hpos
    linarith [htruth r hr c hc]
  have near : ∑ r ∈ Finset.range truth.nr, ∑ c ∈ Finset.range truth.nc,
        |Ref.stepReadout (Ref.fullStep (notchFill ws fs ps) ds) (gs'.map Ref.fullOf) (Ref.allPasses truth.nc os)
            (fun c => Ref.stepReadout (Ref.fullStep (notchFill wp fp pp) dp) (gp'.map Ref.fullOf) (Ref.allPasses truth.nr op)
              (fun r => truth.px r c) r) c -
          Ref.stepReadout (Ref.fullStep (notchFill ws fs ps) ds) (gs.map Ref.fullOf) (Ref.allPasses truth.nc os)
            (fun c => Ref.stepReadout (Ref.fullStep (notchFill wp fp pp) dp) (gp.map Ref.fullOf) (Ref.allPasses truth.nr op)
              (fun r => truth.px r c) r) c| ≤ 20 * ε * q * truth.total := by
    rcases near with ⟨cP, cS⟩ | ⟨cP, cS⟩
    · have key := close_image cP cS mP0 mP h0 q0s truth.px ht0
      rw [qe] at key
      refine le_trans (le_of_eq ?_) key
      exact Finset.sum_congr rfl fun r _ => Finset.sum_congr rfl fun c _ => abs_sub_comm _ _
    · have key := close_image cP cS mP mP0 h0 q0s truth.px ht0
      rw [qe] at key
      exact key
  obtain ⟨img, b1, b2, b3, -, b4⟩ := C116_add_cti hp hs truth hnr hnc hbp hbs ht0
  have small := mild_image_small mP0 mS0 q0s truth.px ht0
  rw [qe] at small
  change _ ≤ q * truth.total at small
  have hdist : img.dist truth ≤ q * truth.total := by
    refine le_trans (le_of_eq ?_) small
    unfold Image.dist
    rw [b2, b3]
    refine Finset.sum_congr rfl fun r hr => Finset.sum_congr rfl fun c hc => ?_
    rw [b4 r (Finset.mem_range.1 hr) c (Finset.mem_range.1 hc)]
  have hroe : par'.roe = some (.standard [dp] true true true ip') ∧ ser'.roe = some (.standard [ds] true true true is') := by
    rw [hp'.eq, hs'.eq]; exact ⟨rfl, rfl⟩
  refine ⟨img, _, b1, fun n => ?_⟩
  have sp : (q + 20 * ε * q / (1 - q)) * truth.total = q * truth.total + 20 * ε * q * truth.total / (1 - q) := by ring
  have main := removeIter_near (fun x (roes : Option (Roe ℝ) × Option (Roe ℝ)) => do
      let (y, rp, rs) ← addCtiPy x { par' with roe := roes.1 } .all { ser' with roe := roes.2 } .all none
      .ok (y, roes.1.map fun _ => rp, roes.2.map fun _ => rs)) (par'.roe, ser'.roe) truth img lp q
    (20 * ε * q * truth.total) (q * truth.total) hq0 hq1 (mul_nonneg hE hpos) ⟨b2, b3⟩ hdist
    (fun r hr c hc => by rw [← sp]; exact htruth r hr c hc) (fun x hx hlow => ?_) n
  · obtain ⟨out, o1, o2, o3⟩ := main
    refine ⟨out, o1, o2, o3.trans (le_of_eq ?_)⟩
    ring
  · obtain ⟨y, g1, g2, g3, -, g4⟩ := C116_add_cti hp' hs' x (by rw [hx.1]; exact hnr) (by rw [hx.2]; exact hnc)
      (by rw [hx.1]; exact hbp') (by rw [hx.2]; exact hbs')
      (fun r hr c hc => hlow r (by rw [← hx.1]; exact hr) c (by rw [← hx.2]; exact hc))
    rw [hx.1, hx.2] at g4
    refine ⟨y, ?_, ⟨g2.trans hx.1, g3.trans hx.2⟩, ?_⟩
    · simp only [bind, Except.bind]
      rw [g1]
      simp only [hroe.1, hroe.2, Option.map_some]
    · have lip := mild_image mP mS q0s x.px truth.px hlow ht0
      rw [qe] at lip
      have e : x.dist truth = ∑ r ∈ Finset.range truth.nr, ∑ c ∈ Finset.range truth.nc, |x.px r c - truth.px r c| := by
        unfold Image.dist
        rw [hx.1, hx.2]
      rw [← e] at lip
      have both := add_le_add lip near
      rw [← Finset.sum_add_distrib] at both
      refine le_trans ?_ both
      refine Finset.sum_le_sum fun r hr => ?_
      rw [← Finset.sum_add_distrib]
      refine Finset.sum_le_sum fun c hc => ?_
      rw [g4 r (Finset.mem_range.1 hr) c (Finset.mem_range.1 hc), b4 r (Finset.mem_range.1 hr) c (Finset.mem_range.1 hc)]
      refine le_trans (le_of_eq ?_) (abs_add_le _ _)
      congr 1
      ring

/-- **C117**: `add_cti` with two descriptions of traps of all classes that differ by `ε` at most, with a notch and any
`well_fill_power`, of an image with `lp` electrons in every pixel. Pixels of `lp` electrons keep `ls` electrons in parallel clocking and `left` electrons in serial
clocking, with both descriptions. With `q = (1-4k_p)^-(rows+offset_p) (1-4k_s)^-(columns+offset_s) - 1`, the images differ by at
most `20 ε q` times the charge of the image, summed over all pixels. -/
theorem C117_add_cti (hp : NotchObjects wp fp pp dp gp ip cp op par) (hs : NotchObjects ws fs ps ds gs is cs os ser)
    (hp' : NotchObjects wp fp pp dp gp' ip' cp' op par') (hs' : NotchObjects ws fs ps ds gs' is' cs' os ser')
    (h0 : 0 ≤ ε) (h1 : ε ≤ 1) (tp : NearAll ε gp gp') (ts : NearAll ε gs gs')
    (img : Image ℝ) (hnr : 0 < img.nr) (hnc : 0 < img.nc)
    (hbp : OverNotch wp fp pp gp (img.nr + op) bp lp ls kp) (hbs : OverNotch ws fs ps gs (img.nc + os) bs ls left ks)
    (hbp' : OverNotch wp fp pp gp' (img.nr + op) bp lp ls kp) (hbs' : OverNotch ws fs ps gs' (img.nc + os) bs ls left ks)
    (hkp : 4 * kp < 1) (hks : 4 * ks < 1)
    (hq : q = (1 / (1 - 4 * kp)) ^ (img.nr + op) * (1 / (1 - 4 * ks)) ^ (img.nc + os) - 1) (himg : img.AtLeast lp) :
    ∃ a a' roes roes', addCtiPy img par .all ser .all none = .ok (a, roes) ∧
      addCtiPy img par' .all ser' .all none = .ok (a', roes') ∧ a.SameShape img ∧ a'.SameShape img ∧
      a.dist a' ≤ 20 * ε * q * img.total :=
  notched_add hp hs hp' hs' h0 h1 (notched_near hp hp' h0 h1 tp) (notched_near hs hs' h0 h1 ts) img hnr hnc hbp hbs hbp' hbs'
    hkp hks hq himg

/-- **C117**, bins: a few lifetimes in the place of distributions of lifetimes. -/
theorem C117_add_cti_bins (hp : NotchObjects wp fp pp dp gp ip cp op par) (hs : NotchObjects ws fs ps ds gs is cs os ser)
    (hp' : NotchObjects wp fp pp dp gp' ip' cp' op par') (hs' : NotchObjects ws fs ps ds gs' is' cs' os ser')
    (h0 : 0 ≤ ε) (hδ : 0 ≤ δ) (h1 : 2 * (ε + δ) ≤ 1) (tp : List.Forall₂ (Binned ε δ) gp gp')
    (ts : List.Forall₂ (Binned ε δ) gs gs') (img : Image ℝ) (hnr : 0 < img.nr) (hnc : 0 < img.nc)
    (hbp : OverNotch wp fp pp gp (img.nr + op) bp lp ls kp) (hbs : OverNotch ws fs ps gs (img.nc + os) bs ls left ks)
    (hkp : 4 * kp < 1) (hks : 4 * ks < 1)
    (hq : q = (1 / (1 - 4 * kp)) ^ (img.nr + op) * (1 / (1 - 4 * ks)) ^ (img.nc + os) - 1) (himg : img.AtLeast lp) :
    ∃ a a' roes roes', addCtiPy img par .all ser .all none = .ok (a, roes) ∧
      addCtiPy img par' .all ser' .all none = .ok (a', roes') ∧ a.SameShape img ∧ a'.SameShape img ∧
      a.dist a' ≤ 40 * (ε + δ) * q * img.total := by
  have ep := Binned.count tp hp.groups.2
  have es := Binned.count ts hs.groups.2
  have := notched_add hp hs hp' hs' (by linarith : 0 ≤ 2 * (ε + δ)) h1 (notched_bins hp hp' h0 hδ tp) (notched_bins hs hs' h0 hδ ts)
    img hnr hnc hbp hbs
    ⟨hbp.pos, hbp.depth, by rw [ep]; exact hbp.slope, hbp.slope_le, hbp.keeps, hbp.leaves⟩
    ⟨hbs.pos, hbs.depth, by rw [es]; exact hbs.slope, hbs.slope_le, hbs.keeps, hbs.leaves⟩ hkp hks hq himg
  rwa [show 20 * (2 * (ε + δ)) = 40 * (ε + δ) by ring] at this

/-- **C117**: `remove_cti` with a description that differs by `ε` at most from the one that the image was made with. If `q < 1` and
every pixel of the true image has `lp` electrons and another `q + 20 ε q / (1-q)` times the total charge of the image, the image
returned after `n` iterations differs from the true image by at most `q^(n+1) + 20 ε q / (1-q)` times its total charge. -/
theorem C117_remove_cti (hp : NotchObjects wp fp pp dp gp ip cp op par) (hs : NotchObjects ws fs ps ds gs is cs os ser)
    (hp' : NotchObjects wp fp pp dp gp' ip' cp' op par') (hs' : NotchObjects ws fs ps ds gs' is' cs' os ser')
    (h0 : 0 ≤ ε) (h1 : ε ≤ 1) (tp : NearAll ε gp gp') (ts : NearAll ε gs gs')
    (truth : Image ℝ) (hnr : 0 < truth.nr) (hnc : 0 < truth.nc)
    (hbp : OverNotch wp fp pp gp (truth.nr + op) bp lp ls kp) (hbs : OverNotch ws fs ps gs (truth.nc + os) bs ls left ks)
    (hbp' : OverNotch wp fp pp gp' (truth.nr + op) bp lp ls kp) (hbs' : OverNotch ws fs ps gs' (truth.nc + os) bs ls left ks)
    (hkp : 4 * kp < 1) (hks : 4 * ks < 1)
    (hq : q = (1 / (1 - 4 * kp)) ^ (truth.nr + op) * (1 / (1 - 4 * ks)) ^ (truth.nc + os) - 1) (hq1 : q < 1)
    (hpos : 0 ≤ truth.total)
    (htruth : ∀ r < truth.nr, ∀ c < truth.nc, lp + (q + 20 * ε * q / (1 - q)) * truth.total ≤ truth.px r c) :
    ∃ img roes, addCtiPy truth par' .all ser' .all none = .ok (img, roes) ∧
      ∀ n, ∃ out, removeCtiPy img n par .all ser .all none = .ok (out, par.roe, ser.roe) ∧ out.SameShape truth ∧
        out.dist truth ≤ (q ^ (n + 1) + 20 * ε * q / (1 - q)) * truth.total :=
  notched_remove hp' hs' hp hs h0 h1 truth hnr hnc
    (Or.inr ⟨notched_close hp hp' hbp hbp' hkp h0 h1 (notched_near hp hp' h0 h1 tp),
      notched_close hs hs' hbs hbs' hks h0 h1 (notched_near hs hs' h0 h1 ts)⟩) hbp' hbs' hbp hbs hkp hks hq hq1 hpos htruth

/-- **C117**, bins: an image made with distributions of lifetimes and corrected with a few lifetimes in their place. -/
theorem C117_remove_cti_bins (hp : NotchObjects wp fp pp dp gp ip cp op par) (hs : NotchObjects ws fs ps ds gs is cs os ser)
    (hp' : NotchObjects wp fp pp dp gp' ip' cp' op par') (hs' : NotchObjects ws fs ps ds gs' is' cs' os ser')
    (h0 : 0 ≤ ε) (hδ : 0 ≤ δ) (h1 : 2 * (ε + δ) ≤ 1) (tp : List.Forall₂ (Binned ε δ) gp gp')
    (ts : List.Forall₂ (Binned ε δ) gs gs') (truth : Image ℝ) (hnr : 0 < truth.nr) (hnc : 0 < truth.nc)
    (hbp : OverNotch wp fp pp gp (truth.nr + op) bp lp ls kp) (hbs : OverNotch ws fs ps gs (truth.nc + os) bs ls left ks)
    (hkp : 4 * kp < 1) (hks : 4 * ks < 1)
    (hq : q = (1 / (1 - 4 * kp)) ^ (truth.nr + op) * (1 / (1 - 4 * ks)) ^ (truth.nc + os) - 1) (hq1 : q < 1)
    (hpos : 0 ≤ truth.total)
    (htruth : ∀ r < truth.nr, ∀ c < truth.nc, lp + (q + 40 * (ε + δ) * q / (1 - q)) * truth.total ≤ truth.px r c) :
    ∃ img roes, addCtiPy truth par .all ser .all none = .ok (img, roes) ∧
      ∀ n, ∃ out, removeCtiPy img n par' .all ser' .all none = .ok (out, par'.roe, ser'.roe) ∧ out.SameShape truth ∧
        out.dist truth ≤ (q ^ (n + 1) + 40 * (ε + δ) * q / (1 - q)) * truth.total := by
  have ep := Binned.count tp hp.groups.2
  have es := Binned.count ts hs.groups.2
  have hbp' : OverNotch wp fp pp gp' (truth.nr + op) bp lp ls kp :=
    ⟨hbp.pos, hbp.depth, by rw [ep]; exact hbp.slope, hbp.slope_le, hbp.keeps, hbp.leaves⟩
  have hbs' : OverNotch ws fs ps gs' (truth.nc + os) bs ls left ks :=
    ⟨hbs.pos, hbs.depth, by rw [es]; exact hbs.slope, hbs.slope_le, hbs.keeps, hbs.leaves⟩
  have e : 40 * (ε + δ) = 20 * (2 * (ε + δ)) := by ring
  rw [e] at htruth ⊢
  exact notched_remove hp hs hp' hs' (by linarith : 0 ≤ 2 * (ε + δ)) h1 truth hnr hnc
    (Or.inl ⟨notched_close hp hp' hbp hbp' hkp (by linarith) h1 (notched_bins hp hp' h0 hδ tp),
      notched_close hs hs' hbs hbs' hks (by linarith) h1 (notched_bins hs hs' h0 hδ ts)⟩) hbp hbs hbp' hbs' hkp hks hq hq1 hpos htruth

end main

/-! ### a case -/

/-- Three rows and two columns of 200 electrons, 50 of which are in the notch, `well_fill_power = 1/2`, traps with a distribution of lifetimes and traps with a capture
timescale. The image is corrected with two lifetimes in the place of the distribution: after three iterations it is within 12 of 1200
electrons of the true one. -/
example : ∃ img roes out, addCtiPy ⟨3, 2, fun _ _ => 200⟩
      ⟨some ⟨[1], [1050], [1 / 2], [50], [.num 1050]⟩, some (.standard [1] true true true false),
        some (.list ([[.continuum 0.2 exFlat 2.02 0.02], [.trap 0.1 2 0.1 false]].map .group)), 0, 2⟩ .all
      ⟨some ⟨[1], [1050], [1 / 2], [50], [.num 1050]⟩, some (.standard [1] true true true false),
        some (.list ([[.continuum 0.2 exFlat 2.02 0.02], [.trap 0.1 2 0.1 false]].map .group)), 0, 2⟩ .all
      none = .ok (img, roes) ∧
    removeCtiPy img 3
      ⟨some ⟨[1], [1050], [1 / 2], [50], [.num 1050]⟩, some (.standard [1] true true true false),
        some (.list ([[.instant 0.1 2.01 false, .instant 0.1 2.03 false], [.trap 0.1 2 0.1 false]].map .group)), 0, 2⟩ .all
      ⟨some ⟨[1], [1050], [1 / 2], [50], [.num 1050]⟩, some (.standard [1] true true true false),
        some (.list ([[.instant 0.1 2.01 false, .instant 0.1 2.03 false], [.trap 0.1 2 0.1 false]].map .group)), 0, 2⟩ .all
      none = .ok (out, some (.standard [1] true true true false), some (.standard [1] true true true false)) ∧
    out.dist ⟨3, 2, fun _ _ => 200⟩ ≤ 12 := by
  have g2 : EveryGroup [.trap 0.1 2 0.1 false] := by
    refine ⟨by simp, fun t ht => ?_⟩
    simp only [List.mem_cons, List.not_mem_nil, or_false] at ht
    subst ht
    exact ⟨⟨by norm_num, by norm_num⟩, by simp only [Trap.captureTimescale]; norm_num⟩
  have h : NotchObjects 50 1050 (1 / 2) 1 [[.continuum 0.2 exFlat 2.02 0.02], [.trap 0.1 2 0.1 false]] false
      ⟨[1], [1050], [1 / 2], [50], [.num 1050]⟩ 2
      ⟨some ⟨[1], [1050], [1 / 2], [50], [.num 1050]⟩, some (.standard [1] true true true false),
        some (.list ([[.continuum 0.2 exFlat 2.02 0.02], [.trap 0.1 2 0.1 false]].map .group)), 0, 2⟩ := by
    refine ⟨rfl, exNotch.phase, exNotch.notch, exNotch.power, exNotch.dwell, by simp, fun l hl => ?_⟩
    simp only [List.mem_cons, List.not_mem_nil, or_false] at hl
    rcases hl with rfl | rfl
    · refine ⟨by simp, fun t ht => ?_⟩
      simp only [List.mem_cons, List.not_mem_nil, or_false] at ht
      subst ht
      exact ⟨⟨by norm_num, by norm_num, exFlat_lifetimes⟩, le_rfl⟩
    · exact g2
  have h' : NotchObjects 50 1050 (1 / 2) 1 [[.instant 0.1 2.01 false, .instant 0.1 2.03 false], [.trap 0.1 2 0.1 false]] false
      ⟨[1], [1050], [1 / 2], [50], [.num 1050]⟩ 2
      ⟨some ⟨[1], [1050], [1 / 2], [50], [.num 1050]⟩, some (.standard [1] true true true false),
        some (.list ([[.instant 0.1 2.01 false, .instant 0.1 2.03 false], [.trap 0.1 2 0.1 false]].map .group)), 0, 2⟩ := by
    refine ⟨rfl, exNotch.phase, exNotch.notch, exNotch.power, exNotch.dwell, by simp, fun l hl => ?_⟩
    simp only [List.mem_cons, List.not_mem_nil, or_false] at hl
    rcases hl with rfl | rfl
    · refine ⟨by simp, fun t ht => ?_⟩
      simp only [List.mem_cons, List.not_mem_nil, or_false] at ht
      rcases ht with rfl | rfl
      · exact ⟨⟨by norm_num, by norm_num⟩, le_rfl⟩
      · exact ⟨⟨by norm_num, by norm_num⟩, le_rfl⟩
    · exact g2
  have hc : trapCount [[.continuum 0.2 exFlat 2.02 0.02], [.trap 0.1 2 0.1 false]] = 0.3 := by
    simp [trapCount, Trap.density]; norm_num
  have hn : List.Forall₂ (Binned 0.005 0) [[.continuum 0.2 exFlat 2.02 0.02], [.trap 0.1 2 0.1 false]]
      [[.instant 0.1 2.01 false, .instant 0.1 2.03 false], [.trap 0.1 2 0.1 false]] := by
    have b := Binned.bins 0.2 2.02 0.02 exFlat _ _ _ exFlat_bins
    have e : (List.ofFn fun j : Fin 2 => Trap.instant (0.2 * ![(1 : ℝ) / 2, 1 / 2] j) (![2.01, 2.03] j) false) =
        [.instant 0.1 2.01 false, .instant 0.1 2.03 false] := by
      simp [List.ofFn_succ]
      norm_num
    rw [e] at b
    exact .cons b (.cons (.same _) .nil)
  obtain ⟨q, hq⟩ : ∃ q : ℝ, q = (1 / (1 - 4 * 0.0012)) ^ (3 + 2) * (1 / (1 - 4 * 0.0012)) ^ (2 + 2) - 1 := ⟨_, rfl⟩
  have hq0 : 0 ≤ q := by rw [hq]; norm_num
  have hq1 : q ≤ 0.045 := by rw [hq]; norm_num
  have htot : Image.total (⟨3, 2, fun _ _ => 200⟩ : Image ℝ) = 1200 := by
    simp [Image.total]; norm_num
  have hfrac : 40 * (0.005 + 0) * q / (1 - q) ≤ 0.00965 := by
    rw [div_le_iff₀ (by linarith)]
    linarith
  obtain ⟨img, roes, g1, G⟩ := C117_remove_cti_bins (bp := 112.5) (bs := 112.5) (lp := 120) (ls := 115) (left := 112.5)
    (kp := 0.0012) (ks := 0.0012) h h h' h' (ε := 0.005) (δ := 0) (by norm_num) le_rfl (by norm_num) hn hn
    (⟨3, 2, fun _ _ => 200⟩ : Image ℝ) (by norm_num) (by norm_num)
    ⟨by norm_num, by norm_num, by rw [hc, exNotch_slope]; norm_num, by norm_num, by norm_num, by norm_num⟩
    ⟨by norm_num, by norm_num, by rw [hc, exNotch_slope]; norm_num, by norm_num, by norm_num, by norm_num⟩
    (by norm_num) (by norm_num) hq (by linarith) (by rw [htot]; norm_num) (fun r hr c hc' => by
      rw [htot]
      simp only
      linarith)
  obtain ⟨out, g2, -, g3⟩ := G 3
  refine ⟨img, roes, out, g1, g2, g3.trans ?_⟩
  rw [htot]
  have e : q ^ (3 + 1) ≤ 0.045 ^ (3 + 1) := pow_le_pow_left₀ hq0 hq1 _
  norm_num at e ⊢
  norm_num at hfrac
  linarith

/-- The same image made with `exNotch` and another 1% of traps and of their capture timescale, corrected with `exNotch`. -/
example (d d' : PyDirection) (hd : d = ⟨some ⟨[1], [1050], [1 / 2], [50], [.num 1050]⟩,
      some (.standard [1] true true true false),
      some (.list ([[.logNormalTrap 0.1 3 (1 / 2)], [.trap 0.1 2 0.1 false], [.instant 0.1 5 false]].map .group)), 0, 2⟩)
    (hd' : d' = ⟨some ⟨[1], [1050], [1 / 2], [50], [.num 1050]⟩, some (.standard [1] true true true false),
      some (.list ([[.continuum 0.1 exMix 3 (1 / 2)], [.trap 0.101 2 0.101 false], [.instant 0.1 5.05 false]].map .group)),
      0, 2⟩) :
    ∃ img roes out, addCtiPy ⟨3, 2, fun _ _ => 200⟩ d' .all d' .all none = .ok (img, roes) ∧
      removeCtiPy img 3 d .all d .all none = .ok (out, d.roe, d.roe) ∧ out.dist ⟨3, 2, fun _ _ => 200⟩ ≤ 24 := by
  have h := exNotch
  rw [← hd] at h
  have h' : NotchObjects 50 1050 (1 / 2) 1 [[.continuum 0.1 exMix 3 (1 / 2)], [.trap 0.101 2 0.101 false], [.instant 0.1 5.05 false]]
      false ⟨[1], [1050], [1 / 2], [50], [.num 1050]⟩ 2 d' := by
    refine ⟨hd', exNotch.phase, exNotch.notch, exNotch.power, exNotch.dwell, by simp, fun l hl => ?_⟩
    simp only [List.mem_cons, List.not_mem_nil, or_false] at hl
    rcases hl with rfl | rfl | rfl
    · refine ⟨by simp, fun t ht => ?_⟩
      simp only [List.mem_cons, List.not_mem_nil, or_false] at ht
      subst ht
      exact ⟨⟨by norm_num, by norm_num, exMix_lifetimes⟩, le_rfl⟩
    · refine ⟨by simp, fun t ht => ?_⟩
      simp only [List.mem_cons, List.not_mem_nil, or_false] at ht
      subst ht
      exact ⟨⟨by norm_num, by norm_num⟩, by simp only [Trap.captureTimescale]; norm_num⟩
    · refine ⟨by simp, fun t ht => ?_⟩
      simp only [List.mem_cons, List.not_mem_nil, or_false] at ht
      subst ht
      exact ⟨⟨by norm_num, by norm_num⟩, le_rfl⟩
  have hc' : trapCount [[.continuum 0.1 exMix 3 (1 / 2)], [.trap 0.101 2 0.101 false], [.instant 0.1 5.05 false]] = 0.301 := by
    simp [trapCount, Trap.density]; norm_num
  have hn : NearAll 0.02 [[.logNormalTrap 0.1 3 (1 / 2)], [.trap 0.1 2 0.1 false], [.instant 0.1 5 false]]
      [[.continuum 0.1 exMix 3 (1 / 2)], [.trap 0.101 2 0.101 false], [.instant 0.1 5.05 false]] := by
    refine .cons ⟨.cons (.continuum _ _ _ _ _ _ _ _ ?_ exMix_near) .nil, ?_⟩
      (.cons ⟨.cons (.trap _ _ _ _ _ _ _ _ ?_ ?_ ?_ ?_) .nil, ?_⟩ (.cons ⟨.cons (.instant _ _ _ _ _ _ ?_ ?_) .nil, ?_⟩ .nil))
    · unfold Within; norm_num
    · intro t ht u hu
      simp only [List.mem_cons, List.not_mem_nil, or_false] at ht hu
      subst ht hu
      exact .continuum ..
    · unfold Within; rw [abs_le]; norm_num
    · unfold Within; norm_num
    · unfold Within; rw [abs_le]; norm_num
    · norm_num
    · intro t ht u hu
      simp only [List.mem_cons, List.not_mem_nil, or_false] at ht hu
      subst ht hu
      exact .trap ..
    · unfold Within; norm_num
    · unfold Within; rw [abs_le]; norm_num
    · intro t ht u hu
      simp only [List.mem_cons, List.not_mem_nil, or_false] at ht hu
      subst ht hu
      exact .instant ..
  obtain ⟨q, hq⟩ : ∃ q : ℝ, q = (1 / (1 - 4 * 0.001204)) ^ (3 + 2) * (1 / (1 - 4 * 0.001204)) ^ (2 + 2) - 1 := ⟨_, rfl⟩
  have hq0 : 0 ≤ q := by rw [hq]; norm_num
  have hq1 : q ≤ 0.045 := by rw [hq]; norm_num
  have htot : Image.total (⟨3, 2, fun _ _ => 200⟩ : Image ℝ) = 1200 := by
    simp [Image.total]; norm_num
  have hfrac : 20 * 0.02 * q / (1 - q) ≤ 0.0193 := by
    rw [div_le_iff₀ (by linarith)]
    linarith
  obtain ⟨img, roes, g1, G⟩ := C117_remove_cti (bp := 112.5) (bs := 112.5) (lp := 120) (ls := 115) (left := 112.5)
    (kp := 0.001204) (ks := 0.001204) h h h' h' (ε := 0.02) (by norm_num) (by norm_num) hn hn
    (⟨3, 2, fun _ _ => 200⟩ : Image ℝ) (by norm_num) (by norm_num)
    ⟨by norm_num, by norm_num, by rw [exFull_count, exNotch_slope]; norm_num, by norm_num, by norm_num, by norm_num⟩
    ⟨by norm_num, by norm_num, by rw [exFull_count, exNotch_slope]; norm_num, by norm_num, by norm_num, by norm_num⟩
    ⟨by norm_num, by norm_num, by rw [hc', exNotch_slope]; norm_num, by norm_num, by norm_num, by norm_num⟩
    ⟨by norm_num, by norm_num, by rw [hc', exNotch_slope]; norm_num, by norm_num, by norm_num, by norm_num⟩
    (by norm_num) (by norm_num) hq (by linarith) (by rw [htot]; norm_num) (fun r hr c hc' => by
      rw [htot]
      simp only
      linarith)
  obtain ⟨out, g2, -, g3⟩ := G 3
  refine ⟨img, roes, out, g1, g2, g3.trans ?_⟩
  rw [htot]
  have e : q ^ (3 + 1) ≤ 0.045 ^ (3 + 1) := pow_le_pow_left₀ hq0 hq1 _
  norm_num at e ⊢
  norm_num at hfrac
  linarith

end Arctic
