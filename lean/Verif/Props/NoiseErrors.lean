import Verif.Props.DwellErrors

/-!
# C122 — noise of the readout electronics in remove_cti

The image that is corrected has, after the CTI, noise added to its pixels. The correction should return the true image with the same
noise, not with amplified noise.
-/

set_option linter.unusedSectionVars false
set_option linter.unusedVariables false

namespace Arctic

/-- An image with noise added to its pixels. -/
def Image.plus (i : Image ℝ) (noise : ℕ → ℕ → ℝ) : Image ℝ := ⟨i.nr, i.nc, fun r c => i.px r c + noise r c⟩

theorem Image.plus_dist (i j : Image ℝ) (noise : ℕ → ℕ → ℝ) : (i.plus noise).dist (j.plus noise) = i.dist j := by
  unfold Image.dist Image.plus
  refine Finset.sum_congr rfl fun r _ => Finset.sum_congr rfl fun c _ => ?_
  congr 1
  ring

section both
variable {wp wp' ws ws' fp fp' fs fs' pp pp' ps ps' dp ds dp' ds' : ℝ} {gp gp' gs gs' : List (List Trap)} {ip is ip' is' : Bool}
  {cp cs cp' cs' : CCD} {op os : ℕ} {par ser par' ser' : PyDirection} {bp bs lp ls left kp ks ηp ηs ε δ q : ℝ}

/-- **C122**: `remove_cti` of an image with noise, of at most `ν` electrons summed over all pixels, added after the CTI. The description of
dwell time, CCD and traps may be in error as in C121. With `n` iterations the returned image differs from the true image *with the same
noise* by at most `q^(n+1)` times the charge and `(E + q ν) / (1-q)` electrons: noise is passed on as it is but for a fraction
`q / (1-q)`. -/
theorem C122_remove_cti (hp : NotchObjects wp fp pp dp gp ip cp op par) (hs : NotchObjects ws fs ps ds gs is cs os ser)
    (hp' : NotchObjects wp' fp' pp' dp' gp' ip' cp' op par') (hs' : NotchObjects ws' fs' ps' ds' gs' is' cs' os ser')
    (h0 : 0 ≤ ε) (h1 : ε ≤ 1) (tp : NearCcds ε 1 dp 1 dp' gp gp') (ts : NearCcds ε 1 ds 1 ds' gs gs') (truth : Image ℝ) (hnr : 0 < truth.nr)
    (hnc : 0 < truth.nc)
    (hbp : OverNotch wp fp pp gp (truth.nr + op) bp lp ls kp) (hbs : OverNotch ws fs ps gs (truth.nc + os) bs ls left ks)
    (hbpm : OverNotch wp' fp' pp' gp (truth.nr + op) bp lp ls kp) (hbsm : OverNotch ws' fs' ps' gs (truth.nc + os) bs ls left ks)
    (hbp' : OverNotch wp' fp' pp' gp' (truth.nr + op) bp lp ls kp) (hbs' : OverNotch ws' fs' ps' gs' (truth.nc + os) bs ls left ks)
    (hkp : 4 * kp < 1) (hks : 4 * ks < 1) (vp : VolumesNear bp ηp (notchFill wp fp pp) (notchFill wp' fp' pp'))
    (vs : VolumesNear bs ηs (notchFill ws fs ps) (notchFill ws' fs' ps'))
    (hq : q = (1 / (1 - 4 * kp)) ^ (truth.nr + op) * (1 / (1 - 4 * ks)) ^ (truth.nc + os) - 1)
    (hq1 : q < 1) (hpos : 0 ≤ truth.total) {E : ℝ}
    (hE : E = (1 + q) * volumeError truth.nr truth.nc op os (trapCount gp) (trapCount gs) ηp ηs + 20 * ε * q * truth.total)
    (noise : ℕ → ℕ → ℝ) {ν : ℝ} (hν : ∑ r ∈ Finset.range truth.nr, ∑ c ∈ Finset.range truth.nc, |noise r c| ≤ ν)
    (ht0 : truth.AtLeast lp)
    (htruth : ∀ r < truth.nr, ∀ c < truth.nc,
      lp + (q * truth.total + (E + q * ν) / (1 - q)) ≤ truth.px r c + noise r c) :
    ∃ img roes, addCtiPy truth par .all ser .all none = .ok (img, roes) ∧
      ∀ n, ∃ out, removeCtiPy (img.plus noise) n par' .all ser' .all none = .ok (out, par'.roe, ser'.roe) ∧ out.SameShape truth ∧
        out.dist (truth.plus noise) ≤ q ^ (n + 1) * truth.total + (E + q * ν) / (1 - q) := by
  obtain ⟨q0p, mP0⟩ := hp.mild hbp hkp
  obtain ⟨q0s, mS0⟩ := hs.mild hbs hks
  obtain ⟨-, mP⟩ := hp'.mild hbp' hkp
  obtain ⟨-, mS⟩ := hs'.mild hbs' hks
  have qe : (1 + lossSlope (4 * kp) (truth.nr + op)) * (1 + lossSlope (4 * ks) (truth.nc + os)) - 1 = q := by
    rw [hq]; unfold lossSlope; ring
  have hq0 : 0 ≤ q := by rw [← qe]; nlinarith
  have hE0 : 0 ≤ E := by
    have hηp := mul_nonneg hp.count_nonneg vp.nonneg
    have hηs := mul_nonneg hs.count_nonneg vs.nonneg
    rw [hE]; unfold volumeError; positivity
  have hν0 : 0 ≤ ν := le_trans (Finset.sum_nonneg fun _ _ => Finset.sum_nonneg fun _ _ => abs_nonneg _) hν
  have near := dwell_image hp hs hp' hs' h0 h1 tp ts hbp hbs hbpm hbsm hbp' hbs' hkp hks vp vs hq truth.px ht0
  change _ ≤ _ + 20 * ε * q * truth.total at near
  rw [← hE] at near
  simp only [abs_sub_comm (Ref.stepReadout (Ref.fullStep (notchFill ws fs ps) ds) (gs.map Ref.fullOf) _ _ _)] at near
  obtain ⟨img, b1, b2, b3, -, b4⟩ := C116_add_cti hp hs truth hnr hnc hbp hbs ht0
  have small := mild_image_small mP0 mS0 q0s truth.px ht0
  rw [qe] at small
  change _ ≤ q * truth.total at small
  have hdist : img.dist truth ≤ q * truth.total := by
    refine le_trans (le_of_eq ?_) small
    unfold Image.dist
    rw [b2, b3]
    refine Finset.sum_congr rfl fun r hr => Finset.sum_congr rfl fun c hc => ?_
    rw [b4 r (Finset.mem_range.1 hr) c (Finset.mem_range.1 hc)]
  have hroe : par'.roe = some (.standard [dp'] true true true ip') ∧ ser'.roe = some (.standard [ds'] true true true is') := by
    rw [hp'.eq, hs'.eq]; exact ⟨rfl, rfl⟩
  have hnoise : ∀ x : Image ℝ, x.SameShape truth → x.dist truth ≤ x.dist (truth.plus noise) + ν := by
    intro x hx
    refine le_trans ?_ (add_le_add_right hν _)
    unfold Image.dist Image.plus
    rw [hx.1, hx.2, ← Finset.sum_add_distrib]
    refine Finset.sum_le_sum fun r _ => ?_
    rw [← Finset.sum_add_distrib]
    refine Finset.sum_le_sum fun c _ => ?_
    refine le_trans (le_of_eq ?_) (abs_add_le _ _)
    congr 1
    ring
  refine ⟨img, _, b1, fun n => ?_⟩
  have main := removeIter_near (fun x (roes : Option (Roe ℝ) × Option (Roe ℝ)) => do
      let (y, rp, rs) ← addCtiPy x { par' with roe := roes.1 } .all { ser' with roe := roes.2 } .all none
      .ok (y, roes.1.map fun _ => rp, roes.2.map fun _ => rs)) (par'.roe, ser'.roe) (truth.plus noise)
    (img.plus noise) lp q (E + q * ν) (q * truth.total) hq0 hq1 (by positivity) ⟨b2, b3⟩
    (by rw [Image.plus_dist]; exact hdist) htruth (fun x hx' hlow' => ?_) n
  · obtain ⟨out, o1, o2, o3⟩ := main
    refine ⟨out, o1, o2, o3.trans (le_of_eq ?_)⟩
    ring
  · have hx : x.SameShape truth := hx'
    have hlow : ∀ r < truth.nr, ∀ c < truth.nc, lp ≤ x.px r c := hlow'
    obtain ⟨y, g1, g2, g3, -, g4⟩ := C116_add_cti hp' hs' x (by rw [hx.1]; exact hnr) (by rw [hx.2]; exact hnc)
      (by rw [hx.1]; exact hbp') (by rw [hx.2]; exact hbs')
      (fun r hr c hc => hlow r (by rw [← hx.1]; exact hr) c (by rw [← hx.2]; exact hc))
    rw [hx.1, hx.2] at g4
    refine ⟨y, ?_, ⟨g2.trans hx.1, g3.trans hx.2⟩, ?_⟩
    · simp only [bind, Except.bind]
      rw [g1]
      simp only [hroe.1, hroe.2, Option.map_some]
    · have lip := mild_image mP mS q0s x.px truth.px hlow ht0
      rw [qe] at lip
      have e : x.dist truth = ∑ r ∈ Finset.range truth.nr, ∑ c ∈ Finset.range truth.nc, |x.px r c - truth.px r c| := by
        unfold Image.dist
        rw [hx.1, hx.2]
      rw [← e] at lip
      have both := add_le_add lip near
      rw [← Finset.sum_add_distrib] at both
      change ∑ r ∈ Finset.range truth.nr, ∑ c ∈ Finset.range truth.nc, |(y.px r c - x.px r c) -
        (img.px r c + noise r c - (truth.px r c + noise r c))| ≤ q * x.dist (truth.plus noise) + (E + q * ν)
      have far := mul_le_mul_of_nonneg_left (hnoise x hx) hq0
      refine le_trans ?_ (both.trans (by linarith : _ ≤ q * x.dist (truth.plus noise) + (E + q * ν)))
      refine Finset.sum_le_sum fun r hr => ?_
      rw [← Finset.sum_add_distrib]
      refine Finset.sum_le_sum fun c hc => ?_
      rw [g4 r (Finset.mem_range.1 hr) c (Finset.mem_range.1 hc), b4 r (Finset.mem_range.1 hr) c (Finset.mem_range.1 hc)]
      refine le_trans (le_of_eq ?_) (abs_add_le _ _)
      congr 1
      ring

end both

section parallel
variable {wp wp' fp fp' pp pp' dp dp' : ℝ} {gp gp' : List (List Trap)} {ip ip' : Bool} {cp cp' : CCD} {op : ℕ}
  {par par' : PyDirection} {bp lp left kp ηp ε δ q : ℝ}

/-- **C122**, parallel clocking only. -/
theorem C122_remove_parallel (hp : NotchObjects wp fp pp dp gp ip cp op par)
    (hp' : NotchObjects wp' fp' pp' dp' gp' ip' cp' op par') (h0 : 0 ≤ ε) (h1 : ε ≤ 1) (tp : NearCcds ε 1 dp 1 dp' gp gp')
    (truth : Image ℝ) (hnr : 0 < truth.nr)
    (hbp : OverNotch wp fp pp gp (truth.nr + op) bp lp left kp)
    (hbpm : OverNotch wp' fp' pp' gp (truth.nr + op) bp lp left kp)
    (hbp' : OverNotch wp' fp' pp' gp' (truth.nr + op) bp lp left kp) (hkp : 4 * kp < 1)
    (vp : VolumesNear bp ηp (notchFill wp fp pp) (notchFill wp' fp' pp'))
    (hq : q = (1 / (1 - 4 * kp)) ^ (truth.nr + op) - 1) (hq1 : q < 1) (hpos : 0 ≤ truth.total) {E : ℝ}
    (hE : E = (1 + q) * (4 * (truth.nr * truth.nc) * ((truth.nr + op : ℕ) * (trapCount gp * ηp))) + 20 * ε * q * truth.total)
    (noise : ℕ → ℕ → ℝ) {ν : ℝ} (hν : ∑ r ∈ Finset.range truth.nr, ∑ c ∈ Finset.range truth.nc, |noise r c| ≤ ν)
    (ht0 : truth.AtLeast lp)
    (htruth : ∀ r < truth.nr, ∀ c < truth.nc,
      lp + (q * truth.total + (E + q * ν) / (1 - q)) ≤ truth.px r c + noise r c) :
    ∃ img roes, addCtiPy truth par .all .absent .all none = .ok (img, roes) ∧
      ∀ n, ∃ out, removeCtiPy (img.plus noise) n par' .all .absent .all none = .ok (out, par'.roe, none) ∧ out.SameShape truth ∧
        out.dist (truth.plus noise) ≤ q ^ (n + 1) * truth.total + (E + q * ν) / (1 - q) := by
  obtain ⟨hq0, mP0⟩ := hp.mild hbp hkp
  obtain ⟨-, mP⟩ := hp'.mild hbp' hkp
  have qe : lossSlope (4 * kp) (truth.nr + op) = q := by rw [hq]; rfl
  rw [qe] at hq0 mP0 mP
  have hE0 : 0 ≤ E := by
    have hηp := mul_nonneg hp.count_nonneg vp.nonneg
    rw [hE]; positivity
  have hν0 : 0 ≤ ν := le_trans (Finset.sum_nonneg fun _ _ => Finset.sum_nonneg fun _ _ => abs_nonneg _) hν
  have near := dwell_parallel hp hp' h0 h1 tp hbp hbpm hbp' hkp vp hq truth.px ht0
  change _ ≤ _ + 20 * ε * q * truth.total at near
  rw [← hE] at near
  obtain ⟨img, b1, b2, b3, -, b4⟩ := C116_parallel hp truth hnr hbp ht0
  have hdist : img.dist truth ≤ q * truth.total := by
    unfold Image.dist Image.total
    rw [b2, b3, Finset.sum_comm, Finset.mul_sum]
    simp only [Finset.mul_sum]
    rw [Finset.sum_comm (s := Finset.range truth.nr)]
    refine Finset.sum_le_sum fun c hc => ?_
    have hc' := Finset.mem_range.1 hc
    rw [← Finset.mul_sum]
    refine le_trans (le_of_eq ?_) (mP0.small (fun r => truth.px r c) fun r hr => ht0 r hr c hc')
    refine Finset.sum_congr rfl fun r hr => ?_
    rw [b4 r (Finset.mem_range.1 hr) c hc']
  have hroe : par'.roe = some (.standard [dp'] true true true ip') := by rw [hp'.eq]
  have hnoise : ∀ x : Image ℝ, x.SameShape truth → x.dist truth ≤ x.dist (truth.plus noise) + ν := by
    intro x hx
    refine le_trans ?_ (add_le_add_right hν _)
    unfold Image.dist Image.plus
    rw [hx.1, hx.2, ← Finset.sum_add_distrib]
    refine Finset.sum_le_sum fun r _ => ?_
    rw [← Finset.sum_add_distrib]
    refine Finset.sum_le_sum fun c _ => ?_
    refine le_trans (le_of_eq ?_) (abs_add_le _ _)
    congr 1
    ring
  refine ⟨img, _, b1, fun n => ?_⟩
  have main := removeIter_near (fun x (roes : Option (Roe ℝ) × Option (Roe ℝ)) => do
      let (y, rp, rs) ← addCtiPy x { par' with roe := roes.1 } .all { PyDirection.absent with roe := roes.2 } .all none
      .ok (y, roes.1.map fun _ => rp, roes.2.map fun _ => rs)) (par'.roe, none) (truth.plus noise)
    (img.plus noise) lp q (E + q * ν) (q * truth.total) hq0 hq1 (by positivity) ⟨b2, b3⟩
    (by rw [Image.plus_dist]; exact hdist) htruth (fun x hx' hlow' => ?_) n
  · obtain ⟨out, o1, o2, o3⟩ := main
    refine ⟨out, o1, o2, o3.trans (le_of_eq ?_)⟩
    ring
  · have hx : x.SameShape truth := hx'
    have hlow : ∀ r < truth.nr, ∀ c < truth.nc, lp ≤ x.px r c := hlow'
    obtain ⟨y, g1, g2, g3, -, g4⟩ := C116_parallel hp' x (by rw [hx.1]; exact hnr) (by rw [hx.1]; exact hbp')
      (fun r hr c hc => hlow r (by rw [← hx.1]; exact hr) c (by rw [← hx.2]; exact hc))
    rw [hx.1, hx.2] at g4
    refine ⟨y, ?_, ⟨g2.trans hx.1, g3.trans hx.2⟩, ?_⟩
    · simp only [bind, Except.bind]
      have : ({ PyDirection.absent with roe := none } : PyDirection) = .absent := rfl
      rw [this, g1]
      simp only [hroe, Option.map_some, Option.map_none]
    · have lip : ∑ r ∈ Finset.range truth.nr, ∑ c ∈ Finset.range truth.nc,
          |(Ref.stepReadout (Ref.fullStep (notchFill wp' fp' pp') dp') (gp'.map Ref.fullOf) (Ref.allPasses truth.nr op)
              (fun r => x.px r c) r - x.px r c) -
            (Ref.stepReadout (Ref.fullStep (notchFill wp' fp' pp') dp') (gp'.map Ref.fullOf) (Ref.allPasses truth.nr op)
              (fun r => truth.px r c) r - truth.px r c)| ≤ q * x.dist truth := by
        unfold Image.dist
        rw [hx.1, hx.2, Finset.sum_comm, Finset.sum_comm (f := fun r c => |x.px r c - truth.px r c|), Finset.mul_sum]
        refine Finset.sum_le_sum fun c hc => ?_
        have hc' := Finset.mem_range.1 hc
        exact mP.lip (fun r => x.px r c) (fun r => truth.px r c) (fun r hr => hlow r hr c hc') fun r hr => ht0 r hr c hc'
      have both := add_le_add lip near
      rw [← Finset.sum_add_distrib] at both
      change ∑ r ∈ Finset.range truth.nr, ∑ c ∈ Finset.range truth.nc, |(y.px r c - x.px r c) -
        (img.px r c + noise r c - (truth.px r c + noise r c))| ≤ q * x.dist (truth.plus noise) + (E + q * ν)
      have far := mul_le_mul_of_nonneg_left (hnoise x hx) hq0
      refine le_trans ?_ (both.trans (by linarith : _ ≤ q * x.dist (truth.plus noise) + (E + q * ν)))
      refine Finset.sum_le_sum fun r hr => ?_
      rw [← Finset.sum_add_distrib]
      refine Finset.sum_le_sum fun c hc => ?_
      rw [g4 r (Finset.mem_range.1 hr) c (Finset.mem_range.1 hc), b4 r (Finset.mem_range.1 hr) c (Finset.mem_range.1 hc)]
      rw [abs_sub_comm (Ref.stepReadout (Ref.fullStep (notchFill wp fp pp) dp) (gp.map Ref.fullOf) _ _ _)]
      refine le_trans (le_of_eq ?_) (abs_add_le _ _)
      congr 1
      ring

end parallel

/-! ### a case -/

/-- The case of C121 with one electron more or less in every pixel after the CTI: after three iterations the returned image is within 24
electrons of the true image with the same noise. -/
example (d d' : PyDirection) (hd : d = ⟨some ⟨[1], [1050], [1 / 2], [50], [.num 1050]⟩,
      some (.standard [1] true true true false),
      some (.list ([[.trap 0.1 2 0.1 false], [.instant 0.1 5 false]].map .group)), 0, 2⟩)
    (hd' : d' = ⟨some ⟨[1], [1070.1], [1 / 2], [50], [.num 1070.1]⟩, some (.standard [1.01] true true true false),
      some (.list ([[.trap 0.1 2 0.1 false], [.instant 0.1 5 false]].map .group)),
      0, 2⟩) :
    ∃ img roes out, addCtiPy ⟨3, 2, fun _ _ => 200⟩ d .all d .all none = .ok (img, roes) ∧
      removeCtiPy (img.plus (fun r c => if (r + c) % 2 = 0 then 1 else -1)) 3 d' .all d' .all none = .ok (out, d'.roe, d'.roe) ∧ 
        out.dist (Image.plus ⟨3, 2, fun _ _ => 200⟩ (fun r c => if (r + c) % 2 = 0 then 1 else -1)) ≤ 24 := by
  have hg : ([[.trap 0.1 2 0.1 false], [.instant 0.1 5 false]] : List (List Trap)) ≠ [] ∧ ∀ l ∈ ([[.trap 0.1 2 0.1 false], [.instant 0.1 5 false]] : List (List Trap)), EveryGroup l := by
    refine ⟨by simp, fun l hl => ?_⟩
    simp only [List.mem_cons, List.not_mem_nil, or_false] at hl
    rcases hl with rfl | rfl
    · refine ⟨by simp, fun t ht => ?_⟩
      simp only [List.mem_cons, List.not_mem_nil, or_false] at ht
      subst ht
      exact ⟨⟨by norm_num, by norm_num⟩, by simp only [Trap.captureTimescale]; norm_num⟩
    · refine ⟨by simp, fun t ht => ?_⟩
      simp only [List.mem_cons, List.not_mem_nil, or_false] at ht
      subst ht
      exact ⟨⟨by norm_num, by norm_num⟩, le_rfl⟩
  have h : NotchObjects 50 1050 (1 / 2) 1 [[.trap 0.1 2 0.1 false], [.instant 0.1 5 false]] false ⟨[1], [1050], [1 / 2], [50], [.num 1050]⟩ 2 d :=
    ⟨hd, ⟨rfl, ⟨rfl, rfl, rfl⟩⟩, ⟨by norm_num, by norm_num⟩, exNotch.power, by norm_num, hg⟩
  have h' : NotchObjects 50 1070.1 (1 / 2) 1.01 [[.trap 0.1 2 0.1 false], [.instant 0.1 5 false]] false ⟨[1], [1070.1], [1 / 2], [50], [.num 1070.1]⟩ 2 d' :=
    ⟨hd', ⟨rfl, ⟨rfl, rfl, rfl⟩⟩, ⟨by norm_num, by norm_num⟩, exNotch.power, by norm_num, hg⟩
  have hc : trapCount [[.trap 0.1 2 0.1 false], [.instant 0.1 5 false]] = 0.2 := by
    simp [trapCount, Trap.density]; norm_num
  have hn : NearCcds 0.02 1 1 1 1.01 [[.trap 0.1 2 0.1 false], [.instant 0.1 5 false]]
      [[.trap 0.1 2 0.1 false], [.instant 0.1 5 false]] := by
    refine .cons ⟨.cons (.trap _ _ _ _ _ _ _ _ ?_ ?_ ?_ ?_) .nil, ?_⟩ (.cons ⟨.cons (.instant _ _ _ _ _ _ ?_ ?_) .nil, ?_⟩ .nil)
    · unfold Within; norm_num
    · unfold Within; rw [abs_le]; norm_num
    · unfold Within; rw [abs_le]; norm_num
    · norm_num
    · intro t ht u hu
      simp only [List.mem_cons, List.not_mem_nil, or_false] at ht hu
      subst ht hu
      exact .trap ..
    · unfold Within; norm_num
    · unfold Within; rw [abs_le]; norm_num
    · intro t ht u hu
      simp only [List.mem_cons, List.not_mem_nil, or_false] at ht hu
      subst ht hu
      exact .instant ..
  obtain ⟨q, hq⟩ : ∃ q : ℝ, q = (1 / (1 - 4 * 0.001204)) ^ (3 + 2) * (1 / (1 - 4 * 0.001204)) ^ (2 + 2) - 1 := ⟨_, rfl⟩
  have hq0 : 0 ≤ q := by rw [hq]; norm_num
  have hq1 : q ≤ 0.045 := by rw [hq]; norm_num
  have htot : Image.total (⟨3, 2, fun _ _ => 200⟩ : Image ℝ) = 1200 := by
    simp [Image.total]; norm_num
  have hs' : notchSlope 50 1070.1 (1 / 2) 112.5 ≤ 1 / 250 := by
    have e : min 1 (max 0 (((112.5 : ℝ) - 50) / (1070.1 - 50))) = (25 / 101) ^ 2 := by norm_num
    unfold notchSlope notchFill
    rw [if_pos (by norm_num), e, ← Real.sqrt_eq_rpow, Real.sqrt_sq (by norm_num)]
    norm_num
  have hη : 1 - (((1050 : ℝ) - 50) / (1070.1 - 50)) ^ (1 / 2 : ℝ) = 1 / 101 := by
    have e : ((1050 : ℝ) - 50) / (1070.1 - 50) = (100 / 101) ^ 2 := by norm_num
    rw [e, ← Real.sqrt_eq_rpow, Real.sqrt_sq (by norm_num)]
    norm_num
  have hv : VolumesNear 112.5 (1 / 101) (notchFill 50 1050 (1 / 2)) (notchFill 50 1070.1 (1 / 2)) := by
    rw [← hη]
    exact volumes_full (by norm_num) (by norm_num) (by norm_num)
  have hfrac : ((1 + q) * volumeError 3 2 2 2 0.2 0.2 (1 / 101) (1 / 101) + 20 * 0.02 * q * 1200 + q * 6) / (1 - q) ≤ 23.9 := by
    rw [div_le_iff₀ (by linarith)]
    unfold volumeError
    norm_num
    linarith
  have hk : (0.2 : ℝ) * notchSlope 50 1070.1 (1 / 2) 112.5 ≤ 0.001204 := by linarith
  obtain ⟨img, roes, g1, G⟩ := C122_remove_cti (bp := 112.5) (bs := 112.5) (lp := 120) (ls := 115) (left := 112.5)
    (kp := 0.001204) (ks := 0.001204) h h h' h' (ε := 0.02) (by norm_num) (by norm_num) hn hn
    (⟨3, 2, fun _ _ => 200⟩ : Image ℝ) (by norm_num) (by norm_num)
    ⟨by norm_num, by norm_num, by rw [hc, exNotch_slope]; norm_num, by norm_num, by norm_num, by norm_num⟩
    ⟨by norm_num, by norm_num, by rw [hc, exNotch_slope]; norm_num, by norm_num, by norm_num, by norm_num⟩
    ⟨by norm_num, by norm_num, by rw [hc]; exact hk, by norm_num, by norm_num, by norm_num⟩
    ⟨by norm_num, by norm_num, by rw [hc]; exact hk, by norm_num, by norm_num, by norm_num⟩
    ⟨by norm_num, by norm_num, by rw [hc]; exact hk, by norm_num, by norm_num, by norm_num⟩
    ⟨by norm_num, by norm_num, by rw [hc]; exact hk, by norm_num, by norm_num, by norm_num⟩
    (by norm_num) (by norm_num) hv hv hq (by linarith) (by rw [htot]; norm_num)
    (E := (1 + q) * volumeError 3 2 2 2 0.2 0.2 (1 / 101) (1 / 101) + 20 * 0.02 * q * 1200) (by rw [hc, htot])
    (fun r c => if (r + c) % 2 = 0 then 1 else -1) (ν := 6)
    (by simp [Finset.sum_range_succ]; norm_num) (fun r hr c hc' => by norm_num)
    (fun r hr c hc' => by
      rw [htot]
      have : (-1 : ℝ) ≤ if (r + c) % 2 = 0 then 1 else -1 := by split <;> norm_num
      simp only
      linarith)
  obtain ⟨out, g2, -, g3⟩ := G 3
  refine ⟨img, roes, out, g1, g2, g3.trans ?_⟩
  rw [htot]
  have e : q ^ (3 + 1) ≤ 0.045 ^ (3 + 1) := pow_le_pow_left₀ hq0 hq1 _
  norm_num at e ⊢
  norm_num at hfrac
  linarith

end Arctic
