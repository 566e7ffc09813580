import Verif.Props.SuperposeFull
import Verif.Props.ExpressFull

/-!
# C109 — traps that are missing from the description

The image was made with more groups of traps than the description used for the correction contains, or with fewer.
-/

set_option linter.unusedSectionVars false
set_option linter.unusedVariables false

namespace Arctic

/-- What `N` passes through traps that change an electron's place with the fraction `b` in one transfer add to those that change it
with the fraction `a`. -/
noncomputable def extraSlope (a b : ℝ) (N : ℕ) : ℝ := (1 + a + b) ^ N - (1 + a) ^ N

theorem extraSlope_nonneg {a b : ℝ} (ha : 0 ≤ a) (hb : 0 ≤ b) (N : ℕ) : 0 ≤ extraSlope a b N := by
  unfold extraSlope
  have := pow_le_pow_left₀ (by linarith : 0 ≤ 1 + a) (by linarith : 1 + a ≤ 1 + a + b) N
  linarith

section column
variable {full power dw : ℝ} {g m : List (List Trap)} {i : Bool} {c : CCD} {o : ℕ} {d d' : PyDirection}

theorem FullObjects.rest (h : FullObjects full power dw (g ++ m) i c o d) (hm : m ≠ []) :
    FullObjects full power dw m i c o ⟨some c, some (.standard [dw] true true true i), some (.list (m.map .group)), 0, o⟩ :=
  ⟨rfl, h.phase, h.full, h.power, h.dwell, hm, fun l hl => h.groups.2 l (List.mem_append_right _ hl)⟩

theorem FullObjects.rest_nonneg (h : FullObjects full power dw (g ++ m) i c o d) : 0 ≤ trapCount m := by
  by_cases hm : m = []
  · subst hm; simp [trapCount]
  · exact (h.rest hm).count_nonneg

/-- A column with and without the groups `m`. -/
theorem FullObjects.extra (h : FullObjects full power dw (g ++ m) i c o d) (h₁ : FullObjects full power dw g i c o d') {a b : ℝ}
    (ha : a = 4 * (trapCount g * (power / full))) (hb : b = 4 * (trapCount m * (power / full))) (hab : a + b < 1) (n : ℕ)
    (x : ℕ → ℝ) (hx : ∀ r < n, 0 ≤ x r) :
    colDist n (Ref.stepReadout (Ref.fullStep (wellFill full power) dw) ((g ++ m).map Ref.fullOf) (Ref.allPasses n o) x)
      (Ref.stepReadout (Ref.fullStep (wellFill full power) dw) (g.map Ref.fullOf) (Ref.allPasses n o) x) ≤
      extraSlope (a / (1 - a)) (b / (1 - b)) (n + o) * ∑ r ∈ Finset.range n, x r := by
  have hsl := div_nonneg (by linarith [h.power] : 0 ≤ power) h.full.le
  have k1 : 0 ≤ a := by rw [ha]; exact mul_nonneg (by norm_num) (mul_nonneg h₁.count_nonneg hsl)
  have k2 : 0 ≤ b := by rw [hb]; exact mul_nonneg (by norm_num) (mul_nonneg h.rest_nonneg hsl)
  have hS : 0 ≤ ∑ r ∈ Finset.range n, x r := Finset.sum_nonneg fun r hr => hx r (Finset.mem_range.1 hr)
  by_cases hm : m = []
  · subst hm
    rw [List.append_nil]
    have := mul_nonneg (extraSlope_nonneg (div_nonneg k1 (by linarith : (0 : ℝ) ≤ 1 - a))
      (div_nonneg k2 (by linarith : (0 : ℝ) ≤ 1 - b)) (n + o)) hS
    refine le_trans (le_of_eq ?_) this
    unfold colDist
    simp
  · have h₂ := h.rest hm
    have key := h.superpose h₁ h₂ ha hb hab n x hx
    have small := (h₂.mild (by linarith) n).small x hx
    rw [← hb] at small
    have e : crossSlope (a / (1 - a)) (b / (1 - b)) (n + o) + lossSlope b (n + o) =
        extraSlope (a / (1 - a)) (b / (1 - b)) (n + o) := by
      have : 1 / (1 - b) = 1 + b / (1 - b) := by
        have : (1 - b) ≠ 0 := by linarith
        field_simp
        ring
      unfold crossSlope lossSlope extraSlope
      rw [this]
      ring
    rw [← e, add_mul]
    refine le_trans ?_ (add_le_add key small)
    unfold colDist
    rw [← Finset.sum_add_distrib]
    refine Finset.sum_le_sum fun r _ => ?_
    refine le_trans (le_of_eq ?_) (abs_add_le _ _)
    congr 1
    ring

theorem FullObjects.total_le (h : FullObjects full power dw g i c o d) (hfew : 4 * (trapCount g * (power / full)) < 1) (n : ℕ)
    (x : ℕ → ℝ) (hx : ∀ r < n, 0 ≤ x r) :
    ∑ r ∈ Finset.range n, Ref.stepReadout (Ref.fullStep (wellFill full power) dw) (g.map Ref.fullOf) (Ref.allPasses n o) x r ≤
      ∑ r ∈ Finset.range n, x r :=
  (full_gentle (wellFill_lip h.full h.power) h.count_nonneg hfew.le).readout_total n h.few.1 h.few.2 _ (allPasses_one n o) x hx

/-- Both readouts as maps that are close to each other. -/
theorem FullObjects.extra_near (h : FullObjects full power dw (g ++ m) i c o d) (h₁ : FullObjects full power dw g i c o d')
    {a b : ℝ} (ha : a = 4 * (trapCount g * (power / full))) (hb : b = 4 * (trapCount m * (power / full))) (hab : a + b < 1)
    (n : ℕ) (hq : lossSlope a (n + o) ≤ 1) :
    Expressed n 0 0 (extraSlope (a / (1 - a)) (b / (1 - b)) (n + o))
      (Ref.stepReadout (Ref.fullStep (wellFill full power) dw) ((g ++ m).map Ref.fullOf) (Ref.allPasses n o))
      (Ref.stepReadout (Ref.fullStep (wellFill full power) dw) (g.map Ref.fullOf) (Ref.allPasses n o)) := by
  have hsl := div_nonneg (by linarith [h.power] : 0 ≤ power) h.full.le
  have k2 : 0 ≤ b := by rw [hb]; exact mul_nonneg (by norm_num) (mul_nonneg h.rest_nonneg hsl)
  have hsum : 4 * (trapCount (g ++ m) * (power / full)) = a + b := by rw [trapCount_append, ha, hb]; ring
  have M := h.mild (by linarith) n
  have M₁ := h₁.mild (by linarith) n
  rw [← ha] at M₁
  refine ⟨M.floor, M₁.floor, fun x hx => h.extra h₁ ha hb hab n x hx, fun x y hx hy => ?_, fun x hx =>
    h₁.total_le (by linarith) n x hx⟩
  have := M₁.lip x y hx hy
  have hD : 0 ≤ colDist n x y := Finset.sum_nonneg fun _ _ => abs_nonneg _
  have h2 : lossSlope a (n + o) * colDist n x y ≤ 1 * colDist n x y := mul_le_mul_of_nonneg_right hq hD
  have h3 : colDist n (Ref.stepReadout (Ref.fullStep (wellFill full power) dw) (g.map Ref.fullOf) (Ref.allPasses n o) x)
      (Ref.stepReadout (Ref.fullStep (wellFill full power) dw) (g.map Ref.fullOf) (Ref.allPasses n o) y) ≤
      lossSlope a (n + o) * colDist n x y + colDist n x y := by
    refine le_trans ?_ (add_le_add_left this _)
    unfold colDist
    rw [← Finset.sum_add_distrib]
    refine Finset.sum_le_sum fun r _ => ?_
    refine le_trans (le_of_eq ?_) (abs_add_le _ _)
    congr 1
    ring
  linarith

end column

section main
variable {fp fs pp ps dp ds : ℝ} {gp gs mp ms : List (List Trap)} {ip is : Bool} {cp cs : CCD} {op os : ℕ}
  {par ser par' ser' : PyDirection}

/-- Numbers for both directions: `ap`, `as` for the groups that are in both descriptions, `bp`, `bs` for those that are in one
only. `q` is the charge that all traps displace, `E` what those in one description add. -/
structure LeftOut (fp pp fs ps : ℝ) (gp mp gs ms : List (List Trap)) (Np Ns : ℕ) (q E : ℝ) : Prop where
  q_eq : q = (1 / (1 - 4 * (trapCount (gp ++ mp) * (pp / fp)))) ^ Np * (1 / (1 - 4 * (trapCount (gs ++ ms) * (ps / fs)))) ^ Ns - 1
  E_eq : E =
    2 * extraSlope (4 * (trapCount gp * (pp / fp)) / (1 - 4 * (trapCount gp * (pp / fp))))
      (4 * (trapCount mp * (pp / fp)) / (1 - 4 * (trapCount mp * (pp / fp)))) Np +
    3 * extraSlope (4 * (trapCount gs * (ps / fs)) / (1 - 4 * (trapCount gs * (ps / fs))))
      (4 * (trapCount ms * (ps / fs)) / (1 - 4 * (trapCount ms * (ps / fs)))) Ns
  few : 4 * (trapCount (gp ++ mp) * (pp / fp)) < 1 ∧ 4 * (trapCount (gs ++ ms) * (ps / fs)) < 1
  lt_one : q < 1

/-- Everything that follows for images, in terms of the reference. -/
theorem leftOut_image (hp : FullObjects fp pp dp (gp ++ mp) ip cp op par) (hs : FullObjects fs ps ds (gs ++ ms) is cs os ser)
    (hp' : FullObjects fp pp dp gp ip cp op par') (hs' : FullObjects fs ps ds gs is cs os ser') {nr nc : ℕ} {q E : ℝ}
    (hL : LeftOut fp pp fs ps gp mp gs ms (nr + op) (nc + os) q E) :
    0 ≤ q ∧ 0 ≤ E ∧
    (Mild nr 0 0 (lossSlope (4 * (trapCount (gp ++ mp) * (pp / fp))) (nr + op))
      (Ref.stepReadout (Ref.fullStep (wellFill fp pp) dp) (gp.map Ref.fullOf) (Ref.allPasses nr op)) ∧
     Mild nc 0 0 (lossSlope (4 * (trapCount (gs ++ ms) * (ps / fs))) (nc + os))
      (Ref.stepReadout (Ref.fullStep (wellFill fs ps) ds) (gs.map Ref.fullOf) (Ref.allPasses nc os))) ∧
    (0 ≤ lossSlope (4 * (trapCount (gs ++ ms) * (ps / fs))) (nc + os) ∧
      (1 + lossSlope (4 * (trapCount (gp ++ mp) * (pp / fp))) (nr + op)) *
        (1 + lossSlope (4 * (trapCount (gs ++ ms) * (ps / fs))) (nc + os)) - 1 = q) ∧
    ∀ x : ℕ → ℕ → ℝ, (∀ r < nr, ∀ c < nc, 0 ≤ x r c) →
      ∑ r ∈ Finset.range nr, ∑ c ∈ Finset.range nc,
        |Ref.stepReadout (Ref.fullStep (wellFill fs ps) ds) ((gs ++ ms).map Ref.fullOf) (Ref.allPasses nc os)
            (fun c => Ref.stepReadout (Ref.fullStep (wellFill fp pp) dp) ((gp ++ mp).map Ref.fullOf) (Ref.allPasses nr op)
              (fun r => x r c) r) c -
          Ref.stepReadout (Ref.fullStep (wellFill fs ps) ds) (gs.map Ref.fullOf) (Ref.allPasses nc os)
            (fun c => Ref.stepReadout (Ref.fullStep (wellFill fp pp) dp) (gp.map Ref.fullOf) (Ref.allPasses nr op)
              (fun r => x r c) r) c| ≤
        E * ∑ r ∈ Finset.range nr, ∑ c ∈ Finset.range nc, x r c := by
  obtain ⟨hq, hE, ⟨fewp, fews⟩, hq1⟩ := hL
  have slp := div_nonneg (by linarith [hp.power] : 0 ≤ pp) hp.full.le
  have sls := div_nonneg (by linarith [hs.power] : 0 ≤ ps) hs.full.le
  obtain ⟨ap, hap⟩ : ∃ a, a = 4 * (trapCount gp * (pp / fp)) := ⟨_, rfl⟩
  obtain ⟨bp, hbp⟩ : ∃ a, a = 4 * (trapCount mp * (pp / fp)) := ⟨_, rfl⟩
  obtain ⟨as, has⟩ : ∃ a, a = 4 * (trapCount gs * (ps / fs)) := ⟨_, rfl⟩
  obtain ⟨bs, hbs⟩ : ∃ a, a = 4 * (trapCount ms * (ps / fs)) := ⟨_, rfl⟩
  have sump : 4 * (trapCount (gp ++ mp) * (pp / fp)) = ap + bp := by rw [trapCount_append, hap, hbp]; ring
  have sums : 4 * (trapCount (gs ++ ms) * (ps / fs)) = as + bs := by rw [trapCount_append, has, hbs]; ring
  have zap : 0 ≤ ap := by rw [hap]; exact mul_nonneg (by norm_num) (mul_nonneg hp'.count_nonneg slp)
  have zbp : 0 ≤ bp := by rw [hbp]; exact mul_nonneg (by norm_num) (mul_nonneg hp.rest_nonneg slp)
  have zas : 0 ≤ as := by rw [has]; exact mul_nonneg (by norm_num) (mul_nonneg hs'.count_nonneg sls)
  have zbs : 0 ≤ bs := by rw [hbs]; exact mul_nonneg (by norm_num) (mul_nonneg hs.rest_nonneg sls)
  rw [← hap, ← hbp, ← has, ← hbs] at hE
  rw [sump] at fewp
  rw [sums] at fews
  rw [sump, sums] at hq ⊢
  have q0p := lossSlope_nonneg (by linarith : 0 ≤ ap + bp) fewp (nr + op)
  have q0s := lossSlope_nonneg (by linarith : 0 ≤ as + bs) fews (nc + os)
  have qe : (1 + lossSlope (ap + bp) (nr + op)) * (1 + lossSlope (as + bs) (nc + os)) - 1 = q := by
    rw [hq]; unfold lossSlope; ring
  have hq0 : 0 ≤ q := by rw [← qe]; nlinarith
  have qp1 : lossSlope (ap + bp) (nr + op) ≤ 1 := by nlinarith
  have qs1 : lossSlope (as + bs) (nc + os) ≤ 1 := by nlinarith
  have mp1 := lossSlope_mono (by linarith : ap ≤ ap + bp) fewp (nr + op)
  have ms1 := lossSlope_mono (by linarith : as ≤ as + bs) fews (nc + os)
  have EP := extraSlope_nonneg (div_nonneg zap (by linarith : 0 ≤ 1 - ap)) (div_nonneg zbp (by linarith : 0 ≤ 1 - bp)) (nr + op)
  have ES := extraSlope_nonneg (div_nonneg zas (by linarith : 0 ≤ 1 - as)) (div_nonneg zbs (by linarith : 0 ≤ 1 - bs)) (nc + os)
  have EP2 : extraSlope (ap / (1 - ap)) (bp / (1 - bp)) (nr + op) ≤ 2 := by
    have e1 : 1 + ap / (1 - ap) + bp / (1 - bp) ≤ 1 / (1 - (ap + bp)) := by
      have i1 : ap / (1 - ap) ≤ ap / (1 - (ap + bp)) := div_le_div_of_nonneg_left zap (by linarith) (by linarith)
      have i2 : bp / (1 - bp) ≤ bp / (1 - (ap + bp)) := div_le_div_of_nonneg_left zbp (by linarith) (by linarith)
      have i3 : 1 + ap / (1 - (ap + bp)) + bp / (1 - (ap + bp)) = 1 / (1 - (ap + bp)) := by
        have : (1 - (ap + bp)) ≠ 0 := by linarith
        field_simp
        ring
      linarith
    have z1 : 0 ≤ ap / (1 - ap) := div_nonneg zap (by linarith)
    have z2 : 0 ≤ bp / (1 - bp) := div_nonneg zbp (by linarith)
    have e2 := pow_le_pow_left₀ (by linarith) e1 (nr + op)
    have e3 : 1 ≤ (1 + ap / (1 - ap)) ^ (nr + op) := one_le_pow₀ (by linarith)
    unfold lossSlope at qp1
    unfold extraSlope
    linarith
  have mP := hp'.mild (by rw [← hap]; linarith) nr
  have mS := hs'.mild (by rw [← has]; linarith) nc
  rw [← hap] at mP
  rw [← has] at mS
  refine ⟨hq0, by rw [hE]; linarith, ⟨mP.mono le_rfl mp1, mS.mono le_rfl ms1⟩, ⟨q0s, qe⟩, fun x hx => ?_⟩
  rw [hE]
  exact expressed_image (hp.extra_near hp' hap hbp fewp nr (mp1.trans qp1)) (hs.extra_near hs' has hbs fews nc (ms1.trans qs1))
    le_rfl ⟨EP, EP2⟩ ES x hx

/-- **C109**: `add_cti` with the groups `gp ++ mp` and `gs ++ ms` and with `gp` and `gs` only. -/
theorem C109_add_cti (hp : FullObjects fp pp dp (gp ++ mp) ip cp op par) (hs : FullObjects fs ps ds (gs ++ ms) is cs os ser)
    (hp' : FullObjects fp pp dp gp ip cp op par') (hs' : FullObjects fs ps ds gs is cs os ser') (img : Image ℝ)
    (himg : img.NonNeg) (hnr : 0 < img.nr) (hnc : 0 < img.nc) (q E : ℝ)
    (hL : LeftOut fp pp fs ps gp mp gs ms (img.nr + op) (img.nc + os) q E) :
    ∃ out out' roes, addCtiPy img par .all ser .all none = .ok (out, roes) ∧
      addCtiPy img par' .all ser' .all none = .ok (out', roes) ∧ out.SameShape img ∧ out'.SameShape img ∧
      out.dist out' ≤ E * img.total := by
  obtain ⟨fewp, fews⟩ := hL.few
  have k1 := mul_nonneg hp.rest_nonneg (div_nonneg (by linarith [hp.power] : 0 ≤ pp) hp.full.le)
  have k2 := mul_nonneg hs.rest_nonneg (div_nonneg (by linarith [hs.power] : 0 ≤ ps) hs.full.le)
  have k3 := hp.slope_nonneg
  have k4 := hs.slope_nonneg
  have sump : trapCount (gp ++ mp) * (pp / fp) = trapCount gp * (pp / fp) + trapCount mp * (pp / fp) := by
    rw [trapCount_append]; ring
  have sums : trapCount (gs ++ ms) * (ps / fs) = trapCount gs * (ps / fs) + trapCount ms * (ps / fs) := by
    rw [trapCount_append]; ring
  obtain ⟨-, -, -, -, key⟩ := leftOut_image hp hs hp' hs' hL
  obtain ⟨out, b1, b2, b3, b4⟩ := C103_add_cti hp hs (by linarith) (by linarith) img himg hnr hnc
  obtain ⟨out', a1, a2, a3, a4⟩ := C103_add_cti hp' hs' (by linarith) (by linarith) img himg hnr hnc
  refine ⟨out, out', _, b1, a1, ⟨b2, b3⟩, ⟨a2, a3⟩, le_trans (le_of_eq ?_) (key img.px himg)⟩
  unfold Image.dist
  rw [b2, b3]
  refine Finset.sum_congr rfl fun r hr => Finset.sum_congr rfl fun c hc => ?_
  rw [b4 r (Finset.mem_range.1 hr) c (Finset.mem_range.1 hc), a4 r (Finset.mem_range.1 hr) c (Finset.mem_range.1 hc)]

/-- An image made with one description and corrected with another whose readout differs by at most `E`. -/
theorem remove_other {fp' pp' dp' fs' ps' ds' : ℝ} {gp' gs' : List (List Trap)} {ip' is' : Bool} {cp' cs' : CCD}
    (hp : FullObjects fp pp dp gp ip cp op par)
    (hs : FullObjects fs ps ds gs is cs os ser) (hfp : trapCount gp * (pp / fp) ≤ 1) (hfs : trapCount gs * (ps / fs) ≤ 1)
    (hp' : FullObjects fp' pp' dp' gp' ip' cp' op par') (hs' : FullObjects fs' ps' ds' gs' is' cs' os ser')
    (hfp' : trapCount gp' * (pp' / fp') ≤ 1) (hfs' : trapCount gs' * (ps' / fs') ≤ 1) (truth : Image ℝ)
    (hnr : 0 < truth.nr) (hnc : 0 < truth.nc) (qp qs q E : ℝ) (hqs : 0 ≤ qs) (hqe : (1 + qp) * (1 + qs) - 1 = q)
    (hq0 : 0 ≤ q) (hq1 : q < 1) (hE : 0 ≤ E)
    (mP : Mild truth.nr 0 0 qp (Ref.stepReadout (Ref.fullStep (wellFill fp' pp') dp') (gp'.map Ref.fullOf) (Ref.allPasses truth.nr op)))
    (mS : Mild truth.nc 0 0 qs (Ref.stepReadout (Ref.fullStep (wellFill fs' ps') ds') (gs'.map Ref.fullOf) (Ref.allPasses truth.nc os)))
    (mP0 : Mild truth.nr 0 0 qp (Ref.stepReadout (Ref.fullStep (wellFill fp pp) dp) (gp.map Ref.fullOf) (Ref.allPasses truth.nr op)))
    (mS0 : Mild truth.nc 0 0 qs (Ref.stepReadout (Ref.fullStep (wellFill fs ps) ds) (gs.map Ref.fullOf) (Ref.allPasses truth.nc os)))
    (hpos : 0 ≤ truth.total)
    (htruth : ∀ r < truth.nr, ∀ c < truth.nc, (q + E / (1 - q)) * truth.total ≤ truth.px r c)
    (near : ∑ r ∈ Finset.range truth.nr, ∑ c ∈ Finset.range truth.nc,
        |Ref.stepReadout (Ref.fullStep (wellFill fs' ps') ds') (gs'.map Ref.fullOf) (Ref.allPasses truth.nc os)
            (fun c => Ref.stepReadout (Ref.fullStep (wellFill fp' pp') dp') (gp'.map Ref.fullOf) (Ref.allPasses truth.nr op)
              (fun r => truth.px r c) r) c -
          Ref.stepReadout (Ref.fullStep (wellFill fs ps) ds) (gs.map Ref.fullOf) (Ref.allPasses truth.nc os)
            (fun c => Ref.stepReadout (Ref.fullStep (wellFill fp pp) dp) (gp.map Ref.fullOf) (Ref.allPasses truth.nr op)
              (fun r => truth.px r c) r) c| ≤ E * truth.total) :
    ∃ img roes, addCtiPy truth par .all ser .all none = .ok (img, roes) ∧
      ∀ n, ∃ out, removeCtiPy img n par' .all ser' .all none = .ok (out, par'.roe, ser'.roe) ∧ out.SameShape truth ∧
        out.dist truth ≤ (q ^ (n + 1) + E / (1 - q)) * truth.total := by
  have hd : 0 ≤ E / (1 - q) := div_nonneg hE (by linarith)
  have ht0 : ∀ r < truth.nr, ∀ c < truth.nc, 0 ≤ truth.px r c := fun r hr c hc =>
    (mul_nonneg (by linarith) hpos).trans (htruth r hr c hc)
  obtain ⟨img, b1, b2, b3, b4⟩ := C103_add_cti hp hs hfp hfs truth ht0 hnr hnc
  have small := mild_image_small mP0 mS0 hqs truth.px ht0
  rw [hqe] at small
  change _ ≤ q * truth.total at small
  have hdist : img.dist truth ≤ q * truth.total := by
    refine le_trans (le_of_eq ?_) small
    unfold Image.dist
    rw [b2, b3]
    refine Finset.sum_congr rfl fun r hr => Finset.sum_congr rfl fun c hc => ?_
    rw [b4 r (Finset.mem_range.1 hr) c (Finset.mem_range.1 hc)]
  have hroe : par'.roe = some (.standard [dp'] true true true ip') ∧ ser'.roe = some (.standard [ds'] true true true is') := by
    rw [hp'.eq, hs'.eq]; exact ⟨rfl, rfl⟩
  refine ⟨img, _, b1, fun n => ?_⟩
  have sp : (q + E / (1 - q)) * truth.total = q * truth.total + E * truth.total / (1 - q) := by ring
  have main := removeIter_near (fun x (roes : Option (Roe ℝ) × Option (Roe ℝ)) => do
      let (y, rp, rs) ← addCtiPy x { par' with roe := roes.1 } .all { ser' with roe := roes.2 } .all none
      .ok (y, roes.1.map fun _ => rp, roes.2.map fun _ => rs)) (par'.roe, ser'.roe) truth img 0 q
    (E * truth.total) (q * truth.total) hq0 hq1 (mul_nonneg hE hpos) ⟨b2, b3⟩ hdist
    (fun r hr c hc => by rw [zero_add, ← sp]; exact htruth r hr c hc) (fun x hx hlow => ?_) n
  · obtain ⟨out, o1, o2, o3⟩ := main
    refine ⟨out, o1, o2, o3.trans (le_of_eq ?_)⟩
    ring
  · obtain ⟨y, g1, g2, g3, g4⟩ := C103_add_cti hp' hs' hfp' hfs' x
      (fun r hr c hc => hlow r (by rw [← hx.1]; exact hr) c (by rw [← hx.2]; exact hc)) (by rw [hx.1]; exact hnr)
      (by rw [hx.2]; exact hnc)
    rw [hx.1, hx.2] at g4
    refine ⟨y, ?_, ⟨g2.trans hx.1, g3.trans hx.2⟩, ?_⟩
    · simp only [bind, Except.bind]
      rw [g1]
      simp only [hroe.1, hroe.2, Option.map_some]
    · have lip := mild_image mP mS hqs x.px truth.px hlow ht0
      rw [hqe] at lip
      have e : x.dist truth = ∑ r ∈ Finset.range truth.nr, ∑ c ∈ Finset.range truth.nc, |x.px r c - truth.px r c| := by
        unfold Image.dist
        rw [hx.1, hx.2]
      rw [← e] at lip
      have both := add_le_add lip near
      rw [← Finset.sum_add_distrib] at both
      refine le_trans ?_ both
      refine Finset.sum_le_sum fun r hr => ?_
      rw [← Finset.sum_add_distrib]
      refine Finset.sum_le_sum fun c hc => ?_
      rw [g4 r (Finset.mem_range.1 hr) c (Finset.mem_range.1 hc), b4 r (Finset.mem_range.1 hr) c (Finset.mem_range.1 hc)]
      refine le_trans (le_of_eq ?_) (abs_add_le _ _)
      congr 1
      ring

theorem LeftOut.few_all (hp : FullObjects fp pp dp (gp ++ mp) ip cp op par) (hs : FullObjects fs ps ds (gs ++ ms) is cs os ser)
    {Np Ns : ℕ} {q E : ℝ} (hL : LeftOut fp pp fs ps gp mp gs ms Np Ns q E) :
    trapCount (gp ++ mp) * (pp / fp) ≤ 1 ∧ trapCount (gs ++ ms) * (ps / fs) ≤ 1 ∧
      trapCount gp * (pp / fp) ≤ 1 ∧ trapCount gs * (ps / fs) ≤ 1 := by
  obtain ⟨fewp, fews⟩ := hL.few
  have k1 := mul_nonneg hp.rest_nonneg (div_nonneg (by linarith [hp.power] : 0 ≤ pp) hp.full.le)
  have k2 := mul_nonneg hs.rest_nonneg (div_nonneg (by linarith [hs.power] : 0 ≤ ps) hs.full.le)
  have k3 := hp.slope_nonneg
  have k4 := hs.slope_nonneg
  have sump : trapCount (gp ++ mp) * (pp / fp) = trapCount gp * (pp / fp) + trapCount mp * (pp / fp) := by
    rw [trapCount_append]; ring
  have sums : trapCount (gs ++ ms) * (ps / fs) = trapCount gs * (ps / fs) + trapCount ms * (ps / fs) := by
    rw [trapCount_append]; ring
  exact ⟨by linarith, by linarith, by linarith, by linarith⟩

/-- **C109**, traps left out: the image was made with the groups `gp ++ mp` and `gs ++ ms` and is corrected with `gp` and `gs`. -/
theorem C109_missing (hp : FullObjects fp pp dp (gp ++ mp) ip cp op par) (hs : FullObjects fs ps ds (gs ++ ms) is cs os ser)
    (hp' : FullObjects fp pp dp gp ip cp op par') (hs' : FullObjects fs ps ds gs is cs os ser') (truth : Image ℝ)
    (hnr : 0 < truth.nr) (hnc : 0 < truth.nc) (q E : ℝ)
    (hL : LeftOut fp pp fs ps gp mp gs ms (truth.nr + op) (truth.nc + os) q E) (hpos : 0 ≤ truth.total)
    (htruth : ∀ r < truth.nr, ∀ c < truth.nc, (q + E / (1 - q)) * truth.total ≤ truth.px r c) :
    ∃ img roes, addCtiPy truth par .all ser .all none = .ok (img, roes) ∧
      ∀ n, ∃ out, removeCtiPy img n par' .all ser' .all none = .ok (out, par'.roe, ser'.roe) ∧ out.SameShape truth ∧
        out.dist truth ≤ (q ^ (n + 1) + E / (1 - q)) * truth.total := by
  obtain ⟨f1, f2, f3, f4⟩ := hL.few_all hp hs
  obtain ⟨hq0, hE0, ⟨mP, mS⟩, ⟨hqs, hqe⟩, key⟩ := leftOut_image hp hs hp' hs' hL
  have hd : 0 ≤ E / (1 - q) := div_nonneg hE0 (by linarith [hL.lt_one])
  have ht0 : ∀ r < truth.nr, ∀ c < truth.nc, 0 ≤ truth.px r c := fun r hr c hc =>
    (mul_nonneg (by linarith) hpos).trans (htruth r hr c hc)
  refine remove_other hp hs f1 f2 hp' hs' f3 f4 truth hnr hnc _ _ q E hqs hqe hq0 hL.lt_one hE0 mP mS
    (hp.mild hL.few.1 truth.nr) (hs.mild hL.few.2 truth.nc) hpos htruth ?_
  refine le_trans (le_of_eq ?_) (key truth.px ht0)
  exact Finset.sum_congr rfl fun r _ => Finset.sum_congr rfl fun c _ => abs_sub_comm _ _

/-- **C109**, superfluous traps: the image was made with the groups `gp` and `gs` and is corrected with `gp ++ mp` and
`gs ++ ms`. -/
theorem C109_superfluous (hp : FullObjects fp pp dp (gp ++ mp) ip cp op par)
    (hs : FullObjects fs ps ds (gs ++ ms) is cs os ser)
    (hp' : FullObjects fp pp dp gp ip cp op par') (hs' : FullObjects fs ps ds gs is cs os ser') (truth : Image ℝ)
    (hnr : 0 < truth.nr) (hnc : 0 < truth.nc) (q E : ℝ)
    (hL : LeftOut fp pp fs ps gp mp gs ms (truth.nr + op) (truth.nc + os) q E) (hpos : 0 ≤ truth.total)
    (htruth : ∀ r < truth.nr, ∀ c < truth.nc, (q + E / (1 - q)) * truth.total ≤ truth.px r c) :
    ∃ img roes, addCtiPy truth par' .all ser' .all none = .ok (img, roes) ∧
      ∀ n, ∃ out, removeCtiPy img n par .all ser .all none = .ok (out, par.roe, ser.roe) ∧ out.SameShape truth ∧
        out.dist truth ≤ (q ^ (n + 1) + E / (1 - q)) * truth.total := by
  obtain ⟨f1, f2, f3, f4⟩ := hL.few_all hp hs
  obtain ⟨hq0, hE0, ⟨mP, mS⟩, ⟨hqs, hqe⟩, key⟩ := leftOut_image hp hs hp' hs' hL
  have hd : 0 ≤ E / (1 - q) := div_nonneg hE0 (by linarith [hL.lt_one])
  have ht0 : ∀ r < truth.nr, ∀ c < truth.nc, 0 ≤ truth.px r c := fun r hr c hc =>
    (mul_nonneg (by linarith) hpos).trans (htruth r hr c hc)
  exact remove_other hp' hs' f3 f4 hp hs f1 f2 truth hnr hnc _ _ q E hqs hqe hq0 hL.lt_one hE0
    (hp.mild hL.few.1 truth.nr) (hs.mild hL.few.2 truth.nc) mP mS hpos htruth (key truth.px ht0)

end main

/-! ### a case -/

/-- Three rows and two columns of 100 electrons, made with three groups of traps in both registers and corrected without the
third group in the parallel register: after three iterations the corrected image is within 3 of 600 electrons of the true one. -/
example : ∃ img roes out, addCtiPy ⟨3, 2, fun _ _ => 100⟩
      ⟨some ⟨[1], [1000], [1], [0], [.num 1000]⟩, some (.standard [1] true true true false),
        some (.list ([[.logNormalTrap 0.1 3 (1 / 2)], [.trap 0.1 2 0.1 false], [.instant 0.1 5 false]].map .group)), 0, 2⟩ .all
      ⟨some ⟨[1], [1000], [1], [0], [.num 1000]⟩, some (.standard [1] true true true false),
        some (.list ([[.logNormalTrap 0.1 3 (1 / 2)], [.trap 0.1 2 0.1 false], [.instant 0.1 5 false]].map .group)), 0, 2⟩ .all
      none = .ok (img, roes) ∧
    removeCtiPy img 3
      ⟨some ⟨[1], [1000], [1], [0], [.num 1000]⟩, some (.standard [1] true true true false),
        some (.list ([[.logNormalTrap 0.1 3 (1 / 2)], [.trap 0.1 2 0.1 false]].map .group)), 0, 2⟩ .all
      ⟨some ⟨[1], [1000], [1], [0], [.num 1000]⟩, some (.standard [1] true true true false),
        some (.list ([[.logNormalTrap 0.1 3 (1 / 2)], [.trap 0.1 2 0.1 false], [.instant 0.1 5 false]].map .group)), 0, 2⟩ .all
      none = .ok (out, some (.standard [1] true true true false), some (.standard [1] true true true false)) ∧
    out.dist ⟨3, 2, fun _ _ => 100⟩ ≤ 3 := by
  have h := exFull
  have h' : FullObjects 1000 1 1 [[.logNormalTrap 0.1 3 (1 / 2)], [.trap 0.1 2 0.1 false]] false
      ⟨[1], [1000], [1], [0], [.num 1000]⟩ 2
      ⟨some ⟨[1], [1000], [1], [0], [.num 1000]⟩, some (.standard [1] true true true false),
        some (.list ([[.logNormalTrap 0.1 3 (1 / 2)], [.trap 0.1 2 0.1 false]].map .group)), 0, 2⟩ :=
    ⟨rfl, h.phase, h.full, h.power, h.dwell, by simp, fun l hl => h.groups.2 l (by
      simp only [List.mem_cons, List.not_mem_nil, or_false] at hl ⊢
      tauto)⟩
  have hc : trapCount ([[.logNormalTrap 0.1 3 (1 / 2)], [.trap 0.1 2 0.1 false]] ++ [[.instant 0.1 5 false]]) = 0.3 :=
    exFull_count
  have hc0 : trapCount ([[.logNormalTrap 0.1 3 (1 / 2)], [.trap 0.1 2 0.1 false], [.instant 0.1 5 false]] ++ []) = 0.3 := by
    rw [List.append_nil]; exact exFull_count
  have hc1 : trapCount [[.logNormalTrap 0.1 3 (1 / 2)], [.trap 0.1 2 0.1 false]] = 0.2 := by
    simp [trapCount, Trap.density, Trap.logNormalTrap]; norm_num
  have hc2 : trapCount [[.instant 0.1 5 false]] = 0.1 := by
    simp [trapCount, Trap.density]
  have hc3 : trapCount [] = 0 := by simp [trapCount]
  obtain ⟨q, hq⟩ : ∃ q : ℝ, q = (1 / (1 - 0.0012)) ^ (3 + 2) * (1 / (1 - 0.0012)) ^ (2 + 2) - 1 := ⟨_, rfl⟩
  have hq0 : 0 ≤ q := by rw [hq]; norm_num
  have hq1 : q ≤ 0.011 := by rw [hq]; norm_num
  obtain ⟨E, hE⟩ : ∃ E : ℝ, E = 2 * extraSlope (0.0008 / (1 - 0.0008)) (0.0004 / (1 - 0.0004)) (3 + 2) +
      3 * extraSlope (0.0012 / (1 - 0.0012)) 0 (2 + 2) := ⟨_, rfl⟩
  have hE0 : 0 ≤ E := by rw [hE]; unfold extraSlope; norm_num
  have hE1 : E ≤ 0.0041 := by rw [hE]; unfold extraSlope; norm_num
  have hL : LeftOut 1000 1 1000 1 [[.logNormalTrap 0.1 3 (1 / 2)], [.trap 0.1 2 0.1 false]] [[.instant 0.1 5 false]]
      [[.logNormalTrap 0.1 3 (1 / 2)], [.trap 0.1 2 0.1 false], [.instant 0.1 5 false]] [] (3 + 2) (2 + 2) q E := by
    refine ⟨?_, ?_, ⟨?_, ?_⟩, by linarith⟩
    · rw [hq, hc, hc0]; norm_num
    · rw [hE, hc1, hc2, exFull_count, hc3]
      norm_num
    · rw [hc]; norm_num
    · rw [hc0]; norm_num
  have htot : Image.total (⟨3, 2, fun _ _ => 100⟩ : Image ℝ) = 600 := by
    simp [Image.total]; norm_num
  have hfrac : E / (1 - q) ≤ 0.0042 := by
    rw [div_le_iff₀ (by linarith)]
    nlinarith
  obtain ⟨img, roes, g1, G⟩ := C109_missing (gp := [[.logNormalTrap 0.1 3 (1 / 2)], [.trap 0.1 2 0.1 false]])
    (mp := [[.instant 0.1 5 false]])
    (gs := [[.logNormalTrap 0.1 3 (1 / 2)], [.trap 0.1 2 0.1 false], [.instant 0.1 5 false]]) (ms := []) h h h' h
    (⟨3, 2, fun _ _ => 100⟩ : Image ℝ) (by norm_num) (by norm_num) q E hL (by rw [htot]; norm_num) (fun r hr c hc' => by
      rw [htot]
      simp only
      linarith)
  obtain ⟨out, g2, -, g3⟩ := G 3
  refine ⟨img, roes, out, g1, g2, g3.trans ?_⟩
  rw [htot]
  have e : q ^ (3 + 1) ≤ 0.011 ^ (3 + 1) := pow_le_pow_left₀ hq0 hq1 _
  norm_num at e ⊢
  linarith

end Arctic
