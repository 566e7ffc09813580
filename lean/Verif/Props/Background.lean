import Verif.Props.Invert

/-!
# C57, C91 and C92 for well_fill_power ≤ 1 over a background, in both directions
-/

set_option linter.unusedSectionVars false
set_option linter.unusedVariables false

namespace Arctic

/-! ## Specification -/

/-- `n` transfers over a background with `well_fill_power ≤ 1`: clouds of at least `b` electrons, `k` at least the number of
traps per pixel times the volume per electron of a cloud of `b` electrons; pixels of `low` electrons keep `b` and `left`
electrons in `n` transfers, in each of which they lose the fraction `k` at most. -/
structure OverBackground (full power : ℝ) (gs : List (List Trap)) (n : ℕ) (b low left k : ℝ) : Prop where
  pos : 0 < b
  concave : power ≤ 1
  slope : trapCount gs * (wellFill full power b / b) ≤ k
  slope_le : k ≤ 1
  keeps : b ≤ (1 - k) ^ n * low
  leaves : left ≤ (1 - k) ^ n * low

/-! ## Columns -/

section columns
variable {full power dw : ℝ} {gs : List (List Trap)} {i : Bool} {c : CCD} {o : ℕ} {d : PyDirection} {n : ℕ} {b low left k : ℝ}

theorem OverBackground.low_nonneg (hb : OverBackground full power gs n b low left k) : 0 ≤ low := by
  by_contra hneg
  have := mul_nonpos_of_nonneg_of_nonpos (pow_nonneg (by linarith [hb.slope_le] : 0 ≤ 1 - k) n) (not_le.1 hneg).le
  linarith [hb.keeps, hb.pos]

theorem OverBackground.le_pow (hb : OverBackground full power gs n b low left k) :
    (1 - k) ^ n ≤ (1 - trapCount gs * (wellFill full power b / b)) ^ n :=
  pow_le_pow_left₀ (by linarith [hb.slope_le]) (by linarith [hb.slope]) _

/-- Readout over a background: charge stays, brighter columns stay brighter, and no columns move apart. -/
theorem ExactObjects.background (h : ExactObjects full power dw gs i c o d)
    (hb : OverBackground full power gs (n + o) b low left k) (x y : ℕ → ℝ)
    (hx : ∀ r < n, low ≤ x r) (hy : ∀ r < n, low ≤ y r) :
    (∀ r < n, left ≤ Ref.readout (wellFill full power) dw (gs.map Ref.ofTraps) (Ref.allPasses n o) x r) ∧
    colDist n (Ref.readout (wellFill full power) dw (gs.map Ref.ofTraps) (Ref.allPasses n o) x)
      (Ref.readout (wellFill full power) dw (gs.map Ref.ofTraps) (Ref.allPasses n o) y) ≤ colDist n x y ∧
    ((∀ r < n, x r ≤ y r) →
      (∀ r < n, Ref.readout (wellFill full power) dw (gs.map Ref.ofTraps) (Ref.allPasses n o) x r ≤
        Ref.readout (wellFill full power) dw (gs.map Ref.ofTraps) (Ref.allPasses n o) y r) ∧
      ∑ r ∈ Finset.range n, Ref.readout (wellFill full power) dw (gs.map Ref.ofTraps) (Ref.allPasses n o) y r -
          ∑ r ∈ Finset.range n, Ref.readout (wellFill full power) dw (gs.map Ref.ofTraps) (Ref.allPasses n o) x r ≤
        ∑ r ∈ Finset.range n, y r - ∑ r ∈ Finset.range n, x r) := by
  have hcv := wellFill_concave h.full h.power hb.concave
  have hf := hcv.lift hb.pos
  have hF := h.few hf.nonneg_slope (hb.slope.trans hb.slope_le)
  have htot := Ref.ofTraps_totals gs
  have same := readout_congr_fill hb.pos.le hf (fun z hz => (liftFill_eq hz).symm) n zero_le_one _ hF
    (by rw [one_mul]; exact hF.few) _ (allPasses_good n o)
  rw [htot, allPasses_length, one_mul] at same
  have hlow0 := hb.low_nonneg
  have hle := hb.le_pow
  have hlow := hb.keeps
  have hleft := hb.leaves
  have hκ : 0 ≤ 1 - trapCount gs * (wellFill full power b / b) := by linarith [hb.slope, hb.slope_le]
  set κ := trapCount gs * (wellFill full power b / b)
  have hc : 0 ≤ (1 - κ) ^ (n + o) := pow_nonneg hκ _
  have low' := mul_le_mul_of_nonneg_right hle hlow0
  have up : ∀ x : ℕ → ℝ, (∀ r < n, low ≤ x r) → (∀ r < n, 0 ≤ x r) ∧ ∀ r < n, b ≤ (1 - κ) ^ (n + o) * x r :=
    fun x hx => ⟨fun r hr => hlow0.trans (hx r hr),
      fun r hr => (hlow.trans low').trans (mul_le_mul_of_nonneg_left (hx r hr) hc)⟩
  obtain ⟨sx, fx⟩ := same x (up x hx).1 (up x hx).2
  rw [sx, (same y (up y hy).1 (up y hy).2).1]
  refine ⟨fun r hr => ?_, readout_contract hf n _ hF _ (allPasses_one n o) x y,
    readout_surplus hf n _ hF _ (allPasses_one n o) x y⟩
  exact ((hleft.trans low').trans (mul_le_mul_of_nonneg_left (hx r hr) hc)).trans (fx r hr)

/-- Readout over a background changes columns little. -/
theorem ExactObjects.mild_over (h : ExactObjects full power dw gs i c o d)
    (hb : OverBackground full power gs (n + o) b low left k) (hk : 2 * k < 1) :
    0 ≤ lossSlope (2 * k) (n + o) ∧ Mild n low left (lossSlope (2 * k) (n + o))
      (Ref.readout (wellFill full power) dw (gs.map Ref.ofTraps) (Ref.allPasses n o)) := by
  have hk0 : 0 ≤ trapCount gs * (wellFill full power b / b) :=
    mul_nonneg h.count_nonneg (div_nonneg ((wellFill_exact h.full h.power).1.nonneg b) hb.pos.le)
  have hs := hb.slope
  have hlow0 := hb.low_nonneg
  have low' := mul_le_mul_of_nonneg_right hb.le_pow hlow0
  have hP := h.mild_background hb.concave hb.pos (by linarith) n (hb.keeps.trans low')
  have hqq : lossSlope (2 * (trapCount gs * (wellFill full power b / b))) (n + o) ≤ lossSlope (2 * k) (n + o) := by
    unfold lossSlope
    have : 1 / (1 - 2 * (trapCount gs * (wellFill full power b / b))) ≤ 1 / (1 - 2 * k) :=
      one_div_le_one_div_of_le (by linarith) (by linarith)
    have := pow_le_pow_left₀ (one_div_nonneg.2 (by linarith)) this (n + o)
    linarith
  refine ⟨(lossSlope_nonneg (by linarith) (by linarith) _).trans hqq, fun x hx r hr => ?_, fun x hx => ?_, fun x y hx hy => ?_⟩
  · exact (hb.leaves.trans low').trans (hP.floor x hx r hr)
  · exact (hP.small x hx).trans (mul_le_mul_of_nonneg_right hqq
      (Finset.sum_nonneg fun r hr => hlow0.trans (hx r (Finset.mem_range.1 hr))))
  · exact (hP.lip x y hx hy).trans (mul_le_mul_of_nonneg_right hqq (Finset.sum_nonneg fun _ _ => abs_nonneg _))

theorem ExactObjects.rise_over (h : ExactObjects full power dw gs i c o d)
    (hb : OverBackground full power gs (n + o) b low left k) (x : ℕ → ℝ) (hx : ∀ r < n, low ≤ x r) :
    ∀ r < n, Ref.readout (wellFill full power) dw (gs.map Ref.ofTraps) (Ref.allPasses n o) x r ≤
      x r + trapCount gs * ((r + o + 1 : ℕ) : ℝ) :=
  h.rise_background hb.concave hb.pos (hb.slope.trans hb.slope_le) n
    (hb.keeps.trans (mul_le_mul_of_nonneg_right hb.le_pow hb.low_nonneg)) x hx

end columns

/-! ## Images -/

section main
variable {fp fs pp ps dp ds : ℝ} {gp gs : List (List Trap)} {ip is : Bool} {cp cs : CCD} {op os : ℕ}
  {par ser : PyDirection} {bp bs lp ls left kp ks : ℝ}

/-- **C57** and **C91**, both directions with `well_fill_power ≤ 1` over a background: pixels of `lp` electrons keep `ls`
electrons in parallel clocking and `left` electrons in serial clocking. Of two images with `lp` electrons in every pixel,
the one that is brighter in every pixel stays so; no two images are driven apart. -/
theorem C91_background_both (hp : ExactObjects fp pp dp gp ip cp op par) (hs : ExactObjects fs ps ds gs is cs os ser)
    (img img' : Image ℝ) (hnr : 0 < img.nr) (hnc : 0 < img.nc) (hsh : img'.SameShape img)
    (hbp : OverBackground fp pp gp (img.nr + op) bp lp ls kp) (hbs : OverBackground fs ps gs (img.nc + os) bs ls left ks)
    (hi : img.AtLeast lp) (hi' : img'.AtLeast lp) :
    ∃ out out', addCtiPy img par .all ser .all none =
        .ok (out, .standard [dp] true true true ip, .standard [ds] true true true is) ∧
      addCtiPy img' par .all ser .all none =
        .ok (out', .standard [dp] true true true ip, .standard [ds] true true true is) ∧
      out.SameShape img ∧ out'.SameShape img ∧ out.AtLeast left ∧ out'.dist out ≤ img'.dist img ∧
      (img.Dimmer img' → out.Dimmer out' ∧ out'.total - out.total ≤ img'.total - img.total) := by
  obtain ⟨out, g1, g2, g3, g4⟩ := C55_add_cti img hnr hnc fp fs pp ps dp ds gp gs ip is cp cs op os par ser hp hs
  obtain ⟨out', q1, q2, q3, q4⟩ := C55_add_cti img' (by rw [hsh.1]; exact hnr) (by rw [hsh.2]; exact hnc)
    fp fs pp ps dp ds gp gs ip is cp cs op os par ser hp hs
  rw [hsh.1, hsh.2] at q4
  rw [hsh.1] at q2
  rw [hsh.2] at q3
  unfold Image.AtLeast at hi hi'
  rw [hsh.1, hsh.2] at hi'
  set u : ℕ → ℕ → ℝ := fun r c =>
    Ref.readout (wellFill fp pp) dp (gp.map Ref.ofTraps) (Ref.allPasses img.nr op) (fun r => img.px r c) r with hu
  set u' : ℕ → ℕ → ℝ := fun r c =>
    Ref.readout (wellFill fp pp) dp (gp.map Ref.ofTraps) (Ref.allPasses img.nr op) (fun r => img'.px r c) r with hu'
  have P := fun c (hc : c < img.nc) => hp.background hbp (fun r => img.px r c) (fun r => img'.px r c)
    (fun r hr => hi r hr c hc) (fun r hr => hi' r hr c hc)
  have P' := fun c (hc : c < img.nc) => hp.background hbp (fun r => img'.px r c) (fun r => img.px r c)
    (fun r hr => hi' r hr c hc) (fun r hr => hi r hr c hc)
  have S := fun r (hr : r < img.nr) => hs.background hbs (u r) (u' r) (fun c hc => (P c hc).1 r hr)
    (fun c hc => (P' c hc).1 r hr)
  have S' := fun r (hr : r < img.nr) => hs.background hbs (u' r) (u r) (fun c hc => (P' c hc).1 r hr)
    (fun c hc => (P c hc).1 r hr)
  refine ⟨out, out', g1, q1, ⟨g2, g3⟩, ⟨q2, q3⟩, fun r hr c hc => ?_, ?_,
    fun hle => ⟨⟨by rw [g2, q2], by rw [g3, q3], fun r hr c hc => ?_⟩, ?_⟩⟩
  · rw [g2] at hr
    rw [g3] at hc
    rw [g4 r hr c hc]
    exact (S r hr).1 c hc
  · have e1 : out'.dist out = ∑ r ∈ Finset.range img.nr, colDist img.nc (fun c => out'.px r c) (fun c => out.px r c) := by
      unfold Image.dist colDist
      rw [q2, q3]
    rw [e1]
    have h1 : ∑ r ∈ Finset.range img.nr, colDist img.nc (fun c => out'.px r c) (fun c => out.px r c) ≤
        ∑ r ∈ Finset.range img.nr, colDist img.nc (u' r) (u r) := by
      refine Finset.sum_le_sum fun r hr => ?_
      have hr' := Finset.mem_range.1 hr
      refine le_trans (le_of_eq ?_) (S' r hr').2.1
      unfold colDist
      refine Finset.sum_congr rfl fun c hc => ?_
      simp only
      rw [q4 r hr' c (Finset.mem_range.1 hc), g4 r hr' c (Finset.mem_range.1 hc)]
    refine h1.trans ?_
    rw [Image.dist_columns, hsh.1, hsh.2]
    unfold colDist
    rw [Finset.sum_comm]
    exact Finset.sum_le_sum fun c hc => (P' c (Finset.mem_range.1 hc)).2.1
  · rw [g2] at hr
    rw [g3] at hc
    rw [g4 r hr c hc, q4 r hr c hc]
    exact ((S r hr).2.2 fun c hc => ((P c hc).2.2 fun r hr => hle.px r hr c hc).1 r hr).1 c hc
  · have h1 : out'.total - out.total ≤ ∑ r ∈ Finset.range img.nr,
        (∑ c ∈ Finset.range img.nc, u' r c - ∑ c ∈ Finset.range img.nc, u r c) := by
      unfold Image.total
      rw [q2, q3, g2, g3, ← Finset.sum_sub_distrib]
      refine Finset.sum_le_sum fun r hr => ?_
      have hr' := Finset.mem_range.1 hr
      refine le_trans (le_of_eq ?_)
        ((S r hr').2.2 fun c hc => ((P c hc).2.2 fun r hr => hle.px r hr c hc).1 r hr').2
      congr 1
      · exact Finset.sum_congr rfl fun c hc => q4 r hr' c (Finset.mem_range.1 hc)
      · exact Finset.sum_congr rfl fun c hc => g4 r hr' c (Finset.mem_range.1 hc)
    refine h1.trans ?_
    unfold Image.total
    rw [hsh.1, hsh.2, Finset.sum_sub_distrib, Finset.sum_comm, Finset.sum_comm (s := Finset.range img.nr) (f := u),
      Finset.sum_comm (f := img'.px), Finset.sum_comm (s := Finset.range img.nr) (f := img.px), ← Finset.sum_sub_distrib,
      ← Finset.sum_sub_distrib]
    exact Finset.sum_le_sum fun c hc =>
      ((P c (Finset.mem_range.1 hc)).2.2 fun r hr => hle.px r hr c (Finset.mem_range.1 hc)).2

/-- **C57** for parallel clocking with `well_fill_power ≤ 1` over a background: brighter images stay brighter, by no more
electrons in all than before. -/
theorem C57_background (hp : ExactObjects fp pp dp gp ip cp op par) (img img' : Image ℝ) (hnr : 0 < img.nr)
    (hle : img.Dimmer img') (hbp : OverBackground fp pp gp (img.nr + op) bp lp left kp) (hi : img.AtLeast lp) :
    ∃ out out', addCtiPy img par .all .absent .all none = .ok (out, .standard [dp] true true true ip, Roe.default) ∧
      addCtiPy img' par .all .absent .all none = .ok (out', .standard [dp] true true true ip, Roe.default) ∧
      out.SameShape img ∧ out.AtLeast left ∧ out.Dimmer out' ∧ out'.total - out.total ≤ img'.total - img.total := by
  obtain ⟨out, g1, g2, g3, g4⟩ := C55_parallel img hnr fp pp dp gp ip cp op par hp
  obtain ⟨out', q1, q2, q3, q4⟩ := C55_parallel img' (by rw [hle.nr]; exact hnr) fp pp dp gp ip cp op par hp
  have e1 := hle.nr
  have e2 := hle.nc
  rw [e1, e2] at q4
  rw [e1] at q2
  rw [e2] at q3
  have P := fun c (hc : c < img.nc) => hp.background hbp (fun r => img.px r c) (fun r => img'.px r c)
    (fun r hr => hi r hr c hc) (fun r hr => (hi r hr c hc).trans (hle.px r hr c hc))
  refine ⟨out, out', g1, q1, ⟨g2, g3⟩, fun r hr c hc => ?_, ⟨by rw [g2, q2], by rw [g3, q3], fun r hr c hc => ?_⟩, ?_⟩
  · rw [g2] at hr
    rw [g3] at hc
    rw [g4 r hr c hc]
    exact (P c hc).1 r hr
  · rw [g2] at hr
    rw [g3] at hc
    rw [g4 r hr c hc, q4 r hr c hc]
    exact ((P c hc).2.2 fun r hr => hle.px r hr c hc).1 r hr
  · unfold Image.total
    rw [q2, q3, g2, g3, e1, e2, Finset.sum_comm, Finset.sum_comm (f := out.px), Finset.sum_comm (f := img'.px),
      Finset.sum_comm (f := img.px), ← Finset.sum_sub_distrib, ← Finset.sum_sub_distrib]
    refine Finset.sum_le_sum fun c hc => ?_
    have hc' := Finset.mem_range.1 hc
    refine le_trans (le_of_eq ?_) ((P c hc').2.2 fun r hr => hle.px r hr c hc').2
    congr 1
    · exact Finset.sum_congr rfl fun r hr => q4 r (Finset.mem_range.1 hr) c hc'
    · exact Finset.sum_congr rfl fun r hr => g4 r (Finset.mem_range.1 hr) c hc'

/-- The three statements of C92 for both directions over a background. -/
theorem invert_background (hp : ExactObjects fp pp dp gp ip cp op par) (hs : ExactObjects fs ps ds gs is cs os ser)
    {nr nc : ℕ} (hnr : 0 < nr) (hnc : 0 < nc) {q : ℝ}
    (hbp : OverBackground fp pp gp (nr + op) bp lp ls kp) (hbs : OverBackground fs ps gs (nc + os) bs ls left ks)
    (hkp : 2 * kp < 1) (hks : 2 * ks < 1)
    (hq : q = (1 / (1 - 2 * kp)) ^ (nr + op) * (1 / (1 - 2 * ks)) ^ (nc + os) - 1) (hq1 : q < 1) :
    Inverts (addAgain par ser) (par.roe, ser.roe) nr nc lp q
      fun r c => trapCount gp * ((r + op + 1 : ℕ) : ℝ) + trapCount gs * ((c + os + 1 : ℕ) : ℝ) := by
  obtain ⟨p0, hP⟩ := hp.mild_over hbp hkp
  obtain ⟨s0, hS⟩ := hs.mild_over hbs hks
  have M := mildMap_both hP hS s0 (up := fun r => trapCount gp * ((r + op + 1 : ℕ) : ℝ))
    (us := fun c => trapCount gs * ((c + os + 1 : ℕ) : ℝ)) (hp.rise_over hbp) (hs.rise_over hbs)
  have hqe : (1 + lossSlope (2 * kp) (nr + op)) * (1 + lossSlope (2 * ks) (nc + os)) - 1 = q := by
    rw [hq]; unfold lossSlope; ring
  rw [hqe] at M
  refine invert_general (addAgain par ser) (par.roe, ser.roe) M (by rw [← hqe]; nlinarith) hq1
    (fun r _ c _ => add_nonneg (mul_nonneg hp.count_nonneg (Nat.cast_nonneg _))
      (mul_nonneg hs.count_nonneg (Nat.cast_nonneg _))) (fun x h1 h2 => ?_)
  obtain ⟨y, y1, y2, y3, y4⟩ := both_run hp hs hnr hnc x h1 h2
  exact ⟨y, addAgain_both hp hs x y y1, y2, y3, y4⟩

/-- **C92**, both directions with `well_fill_power ≤ 1` over a background. With
`q = (1-2k_p)^-(rows+offset_p) (1-2k_s)^-(columns+offset_s) - 1 < 1`, an image in which every pixel holds `lp` electrons and
another one per trap and transfer comes from exactly one image with `lp` electrons in every pixel, and `remove_cti`
converges to it. -/
theorem C92_background_both (hp : ExactObjects fp pp dp gp ip cp op par) (hs : ExactObjects fs ps ds gs is cs os ser)
    (img : Image ℝ) (hnr : 0 < img.nr) (hnc : 0 < img.nc) {q : ℝ}
    (hbp : OverBackground fp pp gp (img.nr + op) bp lp ls kp) (hbs : OverBackground fs ps gs (img.nc + os) bs ls left ks)
    (hkp : 2 * kp < 1) (hks : 2 * ks < 1)
    (hq : q = (1 / (1 - 2 * kp)) ^ (img.nr + op) * (1 / (1 - 2 * ks)) ^ (img.nc + os) - 1) (hq1 : q < 1)
    (himg : ∀ r < img.nr, ∀ c < img.nc,
      lp + (trapCount gp * ((r + op + 1 : ℕ) : ℝ) + trapCount gs * ((c + os + 1 : ℕ) : ℝ)) ≤ img.px r c) :
    ∃ truth back, truth.SameShape img ∧ truth.AtLeast lp ∧ addCtiPy truth par .all ser .all none =
        .ok (back, .standard [dp] true true true ip, .standard [ds] true true true is) ∧ back.Same img ∧
      (∀ other out roes, other.SameShape img → other.AtLeast lp → addCtiPy other par .all ser .all none = .ok (out, roes) →
        out.Same img → other.Same truth) ∧
      ∀ n, ∃ out, removeCtiPy img n par .all ser .all none = .ok (out, par.roe, ser.roe) ∧ out.SameShape img ∧
        out.dist truth ≤ q ^ (n + 1) / (1 - q) * img.total := by
  obtain ⟨-, G, -⟩ := invert_background hp hs hnr hnc hbp hbs hkp hks hq hq1
  obtain ⟨truth, back, t1, t2, t3, t4, t5, t6⟩ := G img rfl rfl himg
  obtain ⟨back', b1, b2, b3, -⟩ := both_run hp hs hnr hnc truth t1.1 t1.2
  obtain rfl : back' = back := by
    rw [addAgain_both hp hs truth back' b1] at t3
    injection t3 with t3
    injection t3
  refine ⟨truth, back', t1, t2, b1, t4, fun other out roes o1 o2 o3 o4 => ?_, t6⟩
  obtain ⟨out', c1, -⟩ := both_run hp hs hnr hnc other o1.1 o1.2
  rw [o3] at c1
  injection c1 with c1
  injection c1 with c1 c5
  rw [c5] at o3
  exact t5 other out o1 o2 (addAgain_both hp hs other out o3) o4

/-- **C92**, both directions over a background: noise. -/
theorem C92_background_both_noise (hp : ExactObjects fp pp dp gp ip cp op par)
    (hs : ExactObjects fs ps ds gs is cs os ser) (img img' : Image ℝ) (hsh : img'.SameShape img) (hnr : 0 < img.nr)
    (hnc : 0 < img.nc) {q : ℝ}
    (hbp : OverBackground fp pp gp (img.nr + op) bp lp ls kp) (hbs : OverBackground fs ps gs (img.nc + os) bs ls left ks)
    (hkp : 2 * kp < 1) (hks : 2 * ks < 1)
    (hq : q = (1 / (1 - 2 * kp)) ^ (img.nr + op) * (1 / (1 - 2 * ks)) ^ (img.nc + os) - 1) (hq1 : q < 1) :
    (img.AtLeast lp → img'.AtLeast lp → ∃ out out' roes, addCtiPy img par .all ser .all none = .ok (out, roes) ∧
      addCtiPy img' par .all ser .all none = .ok (out', roes) ∧ (1 - q) * img'.dist img ≤ out'.dist out) ∧
    ((∀ r < img.nr, ∀ c < img.nc, lp + (trapCount gp * ((r + op + 1 : ℕ) : ℝ) +
        trapCount gs * ((c + os + 1 : ℕ) : ℝ)) ≤ min (img.px r c) (img'.px r c)) →
      ∀ n, ∃ out out', removeCtiPy img n par .all ser .all none = .ok (out, par.roe, ser.roe) ∧
        removeCtiPy img' n par .all ser .all none = .ok (out', par.roe, ser.roe) ∧
        out'.dist out ≤ (∑ k ∈ Finset.range (n + 1), q ^ k) * img'.dist img) := by
  obtain ⟨G1, -, G3⟩ := invert_background hp hs hnr hnc hbp hbs hkp hks hq hq1
  refine ⟨fun h h' => ?_, fun h n => ?_⟩
  · obtain ⟨out, b1, -⟩ := both_run hp hs hnr hnc img rfl rfl
    obtain ⟨out', c1, -⟩ := both_run hp hs hnr hnc img' hsh.1 hsh.2
    exact ⟨out, out', _, b1, c1, G1 img' img out' out hsh.1 hsh.2 rfl rfl h' h (addAgain_both hp hs _ _ c1)
      (addAgain_both hp hs _ _ b1)⟩
  · obtain ⟨u, v, h1, h2, h3⟩ := G3 img' img hsh.1 hsh.2 rfl rfl
      (fun r hr c hc => (h r hr c hc).trans (min_le_right _ _))
      (fun r hr c hc => (h r hr c hc).trans (min_le_left _ _)) n
    exact ⟨v, u, h2, h1, h3⟩

end main

/-- **C57** for the HST preset: parallel clocking of two images over a background. -/
theorem C57_hst (date : ℝ) (hd : 2452334.5 ≤ date) (img img' : Image ℝ) (hnr : 0 < img.nr) (hle : img.Dimmer img')
    (o : ℕ) (b low k : ℝ) (hb : 0 < b) (hk : hstTotalDensity date * (wellFill 84700 0.478 b / b) ≤ k) (hk1 : k ≤ 1)
    (hlow : b ≤ (1 - k) ^ (img.nr + o) * low) (hi : img.AtLeast low) :
    ∃ traps ccd roe out out', modelForHstAcs date = .ok (traps, ccd, roe) ∧
      addCtiPy img ⟨some ccd, some roe, some (.list (traps.map .trap)), 0, o⟩ .all .absent .all none =
        .ok (out, roe, Roe.default) ∧
      addCtiPy img' ⟨some ccd, some roe, some (.list (traps.map .trap)), 0, o⟩ .all .absent .all none =
        .ok (out', roe, Roe.default) ∧
      out.AtLeast b ∧ out.Dimmer out' ∧ out'.total - out.total ≤ img'.total - img.total := by
  obtain ⟨traps, ccd, h, hne, hx⟩ := hst_exact date hd o
  have hcount : trapCount [traps] = hstTotalDensity date := hst_count h
  obtain ⟨out, out', g1, q1, -, s1, s2, s3⟩ := C57_background (bp := b) (lp := low) (left := b) (kp := k) hx img img' hnr hle
    ⟨hb, by norm_num, by rw [hcount]; exact hk, hk1, hlow, hlow⟩ hi
  have e := fun x => addCtiPy_trap_list x ⟨some ccd, some (.standard [1] true true true false), none, 0, o⟩ traps hne .all
      .absent .all none
  exact ⟨traps, ccd, _, out, out', h, (e img).trans g1, (e img').trans q1, s1, s2, s3⟩

/-- **C92** for the HST preset: noise. -/
theorem C92_hst_noise (date : ℝ) (hd : 2452334.5 ≤ date) (img img' : Image ℝ) (hsh : img'.SameShape img) (hnr : 0 < img.nr)
    (o : ℕ) (b low k q : ℝ)
    (hb : 0 < b) (hk : hstTotalDensity date * (wellFill 84700 0.478 b / b) ≤ k) (hk1 : 2 * k < 1)
    (hlow : b ≤ (1 - k) ^ (img.nr + o) * low) (hq : q = (1 / (1 - 2 * k)) ^ (img.nr + o) - 1) (hq1 : q < 1) :
    ∃ traps ccd roe, modelForHstAcs date = .ok (traps, ccd, roe) ∧
      (img.AtLeast low → img'.AtLeast low → ∃ out out' roes,
        addCtiPy img ⟨some ccd, some roe, some (.list (traps.map .trap)), 0, o⟩ .all .absent .all none = .ok (out, roes) ∧
        addCtiPy img' ⟨some ccd, some roe, some (.list (traps.map .trap)), 0, o⟩ .all .absent .all none = .ok (out', roes) ∧
        (1 - q) * img'.dist img ≤ out'.dist out) ∧
      ((∀ r < img.nr, ∀ c < img.nc,
          low + hstTotalDensity date * ((r + o + 1 : ℕ) : ℝ) ≤ min (img.px r c) (img'.px r c)) →
        ∀ n, ∃ out out' roes,
          removeCtiPy img n ⟨some ccd, some roe, some (.list (traps.map .trap)), 0, o⟩ .all .absent .all none =
            .ok (out, roes) ∧
          removeCtiPy img' n ⟨some ccd, some roe, some (.list (traps.map .trap)), 0, o⟩ .all .absent .all none =
            .ok (out', roes) ∧
          out'.dist out ≤ (∑ k ∈ Finset.range (n + 1), q ^ k) * img'.dist img) := by
  obtain ⟨traps, ccd, h, hne, hx⟩ := hst_exact date hd o
  have hcount : trapCount [traps] = hstTotalDensity date := hst_count h
  obtain ⟨G1, G2⟩ := C92_background_noise hx (by norm_num) img img' hsh hnr b low k q hb
    (by rw [hcount]; exact hk) hk1 hlow hq hq1
  rw [hcount] at G2
  have e := fun x => addCtiPy_trap_list x ⟨some ccd, some (.standard [1] true true true false), none, 0, o⟩ traps hne .all
      .absent .all none
  have e' := fun x n => removeCtiPy_trap_list x n ⟨some ccd, some (.standard [1] true true true false), none, 0, o⟩ traps
      hne .all .absent .all none
  refine ⟨traps, ccd, _, h, fun h1 h2 => ?_, fun h1 n => ?_⟩
  · obtain ⟨out, out', roes, a1, a2, a3⟩ := G1 h1 h2
    exact ⟨out, out', roes, (e img).trans a1, (e img').trans a2, a3⟩
  · obtain ⟨out, out', a1, a2, a3⟩ := G2 h1 n
    exact ⟨out, out', _, (e' img n).trans a1, (e' img' n).trans a2, a3⟩

/-! ### examples -/

/-- Half a trap per pixel in a well of 1000 electrons with `well_fill_power = 1/2`: clouds of 250 electrons fill half the
well, `k = 1/1000`; pixels of 260 electrons keep 253 electrons in ten transfers and 250 in two more. -/
theorem exOver : OverBackground 1000 (1 / 2) [[.instant (1 / 2) 5 false]] 10 250 260 253 (1 / 1000) ∧
    OverBackground 1000 (1 / 2) [[.instant (1 / 2) 5 false]] 2 250 253 250 (1 / 1000) := by
  have hc : trapCount [[.instant (1 / 2) 5 false]] = 1 / 2 := by simp [trapCount, Trap.density]
  have hw : wellFill 1000 (1 / 2) 250 = 1 / 2 := by
    unfold wellFill
    have : (250 / 1000 : ℝ) ^ (1 / 2 : ℝ) = 1 / 2 := by
      rw [show (250 / 1000 : ℝ) = (1 / 2) ^ (2 : ℝ) by norm_num, ← Real.rpow_mul (by norm_num)]
      norm_num
    norm_num at this ⊢
  constructor <;> constructor <;> first | (rw [hc, hw]; norm_num; done) | norm_num

/-- Both directions, ten rows and two columns: an image with a background of 270 electrons and a star comes from exactly one
image with 260 electrons in every pixel. -/
example (c : CCD) (d : PyDirection) (h : ExactObjects 1000 (1 / 2) 1 [[.instant (1 / 2) 5 false]] false c 0 d) :
    ∃ truth back, truth.AtLeast 260 ∧ addCtiPy truth d .all d .all none =
        .ok (back, .standard [1] true true true false, .standard [1] true true true false) ∧
      back.Same ⟨10, 2, fun r c => if r = 4 ∧ c = 1 then 900 else 270⟩ := by
  have hc : trapCount [[.instant (1 / 2) 5 false]] = 1 / 2 := by simp [trapCount, Trap.density]
  obtain ⟨truth, back, -, h2, h3, h4, -⟩ := C92_background_both h h
    (⟨10, 2, fun r c => if r = 4 ∧ c = 1 then 900 else 270⟩ : Image ℝ) (by norm_num) (by norm_num) exOver.1 exOver.2
    (by norm_num) (by norm_num) rfl (by norm_num) (fun r hr c hc' => by
      rw [hc]
      have e1 : ((r + 0 + 1 : ℕ) : ℝ) ≤ 10 := by
        have : r + 0 + 1 ≤ 10 := by simp only at hr; omega
        exact_mod_cast this
      have e2 : ((c + 0 + 1 : ℕ) : ℝ) ≤ 2 := by
        have : c + 0 + 1 ≤ 2 := by simp only at hc'; omega
        exact_mod_cast this
      simp only
      split <;> linarith)
  exact ⟨truth, back, h2, h3, h4⟩

/-- The same detector: a star makes every pixel brighter or leaves it as it is. -/
example (c : CCD) (d : PyDirection) (h : ExactObjects 1000 (1 / 2) 1 [[.instant (1 / 2) 5 false]] false c 0 d) :
    ∃ out out' roes, addCtiPy ⟨10, 2, fun _ _ => 270⟩ d .all d .all none = .ok (out, roes) ∧
      addCtiPy ⟨10, 2, fun r c => if r = 4 ∧ c = 1 then 900 else 270⟩ d .all d .all none = .ok (out', roes) ∧
      out.AtLeast 250 ∧ out.Dimmer out' := by
  obtain ⟨out, out', h1, h2, -, -, h3, -, h4⟩ := C91_background_both h h (⟨10, 2, fun _ _ => 270⟩ : Image ℝ)
    (⟨10, 2, fun r c => if r = 4 ∧ c = 1 then 900 else 270⟩ : Image ℝ) (by norm_num) (by norm_num) ⟨rfl, rfl⟩ exOver.1
    exOver.2 (fun r _ c _ => by norm_num) (fun r _ c _ => by simp only; split <;> norm_num)
  exact ⟨out, out', _, h1, h2, h3, (h4 ⟨rfl, rfl, fun r _ c _ => by simp only; split <;> norm_num⟩).1⟩

end Arctic
