import Verif.Lemmas.SuperposeStep
import Verif.Props.Superpose
import Verif.Props.InvertFull

/-!
# C106 — Superposition with traps of all classes

As C95, for groups of instant-capture traps, of traps with a capture timescale and of traps with a distribution of
lifetimes: the changes made by two lists of groups add up, up to second order, and so do those of the two registers.
-/

set_option linter.unusedSectionVars false
set_option linter.unusedVariables false

namespace Arctic

theorem full_joined (f : ℝ → ℝ) (dw : ℝ) : Joined (Ref.fullStep f dw) (· ++ ·) :=
  ⟨fun a b n => by simp [Ref.fullStep], fun a b n => by simp [Ref.fullStep]⟩

section columns
variable {full power dw : ℝ} {g₁ g₂ : List (List Trap)} {i : Bool} {c : CCD} {o : ℕ} {d d₁ d₂ : PyDirection}

/-- Columns. -/
theorem FullObjects.superpose (h : FullObjects full power dw (g₁ ++ g₂) i c o d) (h₁ : FullObjects full power dw g₁ i c o d₁)
    (h₂ : FullObjects full power dw g₂ i c o d₂) {l₁ l₂ : ℝ} (hl₁ : l₁ = 4 * (trapCount g₁ * (power / full)))
    (hl₂ : l₂ = 4 * (trapCount g₂ * (power / full))) (hl : l₁ + l₂ < 1) (n : ℕ) (x : ℕ → ℝ) (hx : ∀ r < n, 0 ≤ x r) :
    ∑ r ∈ Finset.range n, |(Ref.stepReadout (Ref.fullStep (wellFill full power) dw) ((g₁ ++ g₂).map Ref.fullOf)
          (Ref.allPasses n o) x r - x r) -
        ((Ref.stepReadout (Ref.fullStep (wellFill full power) dw) (g₁.map Ref.fullOf) (Ref.allPasses n o) x r - x r) +
          (Ref.stepReadout (Ref.fullStep (wellFill full power) dw) (g₂.map Ref.fullOf) (Ref.allPasses n o) x r - x r))| ≤
      crossSlope (l₁ / (1 - l₁)) (l₂ / (1 - l₂)) (n + o) * ∑ r ∈ Finset.range n, x r := by
  have hf := wellFill_lip h.full h.power
  have k₁ := mul_nonneg h₁.count_nonneg hf.nonneg_slope
  have k₂ := mul_nonneg h₂.count_nonneg hf.nonneg_slope
  have hsum : 4 * (trapCount (g₁ ++ g₂) * (power / full)) = l₁ + l₂ := by rw [trapCount_append, hl₁, hl₂]; ring
  have G := full_gentle (dw := dw) hf h.count_nonneg (by linarith)
  have G₁ := full_gentle (dw := dw) hf h₁.count_nonneg (by linarith)
  have G₂ := full_gentle (dw := dw) hf h₂.count_nonneg (by linarith)
  rw [← hl₁] at G₁
  rw [← hl₂] at G₂
  rw [hsum] at G
  have key := (full_joined (wellFill full power) dw).readout G G₁ G₂ (by linarith) (by linarith) (by linarith) (by linarith)
    (by linarith) (by linarith) n (a := g₁.map Ref.fullOf) (b := g₂.map Ref.fullOf)
    (by have := h.few.1; rwa [List.map_append] at this) h₁.few.1 h₂.few.1 h₁.few.2 h₂.few.2 (Ref.allPasses n o) x hx
    (allPasses_good n o).nodup (allPasses_one n o)
  rw [allPasses_length] at key
  rw [List.map_append]
  exact key

/-- Images. -/
theorem superpose_image_full (h : FullObjects full power dw (g₁ ++ g₂) i c o d) (h₁ : FullObjects full power dw g₁ i c o d₁)
    (h₂ : FullObjects full power dw g₂ i c o d₂) (hfew : trapCount (g₁ ++ g₂) * (power / full) ≤ 1)
    (hfew₁ : trapCount g₁ * (power / full) ≤ 1) (hfew₂ : trapCount g₂ * (power / full) ≤ 1) (img : Image ℝ) (himg : img.NonNeg)
    (hnr : 0 < img.nr) (s : ℝ)
    (key : ∀ c < img.nc, ∑ r ∈ Finset.range img.nr,
      |(Ref.stepReadout (Ref.fullStep (wellFill full power) dw) ((g₁ ++ g₂).map Ref.fullOf) (Ref.allPasses img.nr o) (fun r => img.px r c) r -
          img.px r c) -
        ((Ref.stepReadout (Ref.fullStep (wellFill full power) dw) (g₁.map Ref.fullOf) (Ref.allPasses img.nr o) (fun r => img.px r c) r -
          img.px r c) +
          (Ref.stepReadout (Ref.fullStep (wellFill full power) dw) (g₂.map Ref.fullOf) (Ref.allPasses img.nr o) (fun r => img.px r c) r -
            img.px r c))| ≤ s * ∑ r ∈ Finset.range img.nr, img.px r c) :
    ∃ out out₁ out₂, addCtiPy img d .all .absent .all none = .ok (out, .standard [dw] true true true i, Roe.default) ∧
      addCtiPy img d₁ .all .absent .all none = .ok (out₁, .standard [dw] true true true i, Roe.default) ∧
      addCtiPy img d₂ .all .absent .all none = .ok (out₂, .standard [dw] true true true i, Roe.default) ∧
      out.SameShape img ∧ out₁.SameShape img ∧ out₂.SameShape img ∧ out.dist (img.addChanges out₁ out₂) ≤ s * img.total := by
  obtain ⟨out, e1, e2, e3, e4⟩ := C103_parallel h hfew img himg hnr
  obtain ⟨out₁, p1, p2, p3, p4⟩ := C103_parallel h₁ hfew₁ img himg hnr
  obtain ⟨out₂, q1, q2, q3, q4⟩ := C103_parallel h₂ hfew₂ img himg hnr
  refine ⟨out, out₁, out₂, e1, p1, q1, ⟨e2, e3⟩, ⟨p2, p3⟩, ⟨q2, q3⟩, ?_⟩
  rw [Image.dist_columns, e2, e3]
  have htot : img.total = ∑ c ∈ Finset.range img.nc, ∑ r ∈ Finset.range img.nr, img.px r c := by
    unfold Image.total; rw [Finset.sum_comm]
  rw [htot, Finset.mul_sum]
  refine Finset.sum_le_sum fun c hc => ?_
  have hc' := Finset.mem_range.1 hc
  refine le_trans (le_of_eq ?_) (key c hc')
  unfold colDist
  refine Finset.sum_congr rfl fun r hr => ?_
  have hr' := Finset.mem_range.1 hr
  simp only [Image.addChanges]
  rw [e4 r hr' c hc', p4 r hr' c hc', q4 r hr' c hc']
  congr 1
  ring

end columns

section main
variable {full power dw : ℝ} {g₁ g₂ : List (List Trap)} {i : Bool} {c : CCD} {o : ℕ} {d d₁ d₂ : PyDirection}

/-- **C106**: parallel clocking, `κ` being the number of traps per pixel of a list of groups of any classes times
`power / full_well_depth`, and `N` the number of transfers of the last row. If `N (κ₁ + κ₂)` is at most one sixteenth, then
the image read with both lists of traps differs from the image with the changes of both lists added by no more than
`44 (N κ₁) (N κ₂)` times the charge of the image, summed over all pixels. -/
theorem C106_parallel (h : FullObjects full power dw (g₁ ++ g₂) i c o d) (h₁ : FullObjects full power dw g₁ i c o d₁)
    (h₂ : FullObjects full power dw g₂ i c o d₂) (img : Image ℝ) (hnr : 0 < img.nr)
    (himg : img.NonNeg) (N κ₁ κ₂ : ℝ) (hN : N = (img.nr + o : ℕ))
    (hκ₁ : κ₁ = trapCount g₁ * power / full) (hκ₂ : κ₂ = trapCount g₂ * power / full) (hfew : N * (κ₁ + κ₂) ≤ 1 / 16) :
    ∃ out out₁ out₂, addCtiPy img d .all .absent .all none = .ok (out, .standard [dw] true true true i, Roe.default) ∧
      addCtiPy img d₁ .all .absent .all none = .ok (out₁, .standard [dw] true true true i, Roe.default) ∧
      addCtiPy img d₂ .all .absent .all none = .ok (out₂, .standard [dw] true true true i, Roe.default) ∧
      out.SameShape img ∧ out₁.SameShape img ∧ out₂.SameShape img ∧
      out.dist (img.addChanges out₁ out₂) ≤ 44 * (N * κ₁ * (N * κ₂)) * img.total := by
  have hs := div_nonneg (by linarith [h.power] : 0 ≤ power) h.full.le
  rw [mul_div_assoc] at hκ₁ hκ₂
  have k1 : 0 ≤ κ₁ := by rw [hκ₁]; exact mul_nonneg h₁.count_nonneg hs
  have k2 : 0 ≤ κ₂ := by rw [hκ₂]; exact mul_nonneg h₂.count_nonneg hs
  have hN1 : 1 ≤ N := by rw [hN]; exact_mod_cast (by omega : 1 ≤ img.nr + o)
  obtain ⟨s1, s2⟩ := crossSlope_rate (κ₁ := 2 * κ₁) (κ₂ := 2 * κ₂) (img.nr + o) (by rw [← hN]; exact hN1) (by linarith)
    (by linarith) (by rw [← hN]; linarith)
  rw [← hN] at s2
  have hsum : trapCount (g₁ ++ g₂) * (power / full) = κ₁ + κ₂ := by rw [trapCount_append, hκ₁, hκ₂]; ring
  refine superpose_image_full h h₁ h₂ (by linarith) (by linarith) (by linarith) img himg hnr _ fun c hc => ?_
  have hx := fun r hr => himg r hr c hc
  refine (h.superpose h₁ h₂ (l₁ := 2 * (2 * κ₁)) (l₂ := 2 * (2 * κ₂)) (by rw [hκ₁]; ring) (by rw [hκ₂]; ring) (by linarith)
    img.nr _ hx).trans (mul_le_mul_of_nonneg_right (s2.trans (le_of_eq (by ring))) ?_)
  exact Finset.sum_nonneg fun r hr => hx r (Finset.mem_range.1 hr)

end main

section directions
variable {fp fs pp ps dp ds : ℝ} {gp gs : List (List Trap)} {ip is : Bool} {cp cs : CCD} {op os : ℕ} {par ser : PyDirection}

/-- **C103** for serial clocking only. -/
theorem C103_serial (hs : FullObjects fs ps ds gs is cs os ser) (hfew : trapCount gs * (ps / fs) ≤ 1) (img : Image ℝ)
    (himg : img.NonNeg) (hnc : 0 < img.nc) :
    ∃ out, addCtiPy img .absent .all ser .all none = .ok (out, Roe.default, .standard [ds] true true true is) ∧
      out.nr = img.nr ∧ out.nc = img.nc ∧
      ∀ r < img.nr, ∀ c < img.nc, out.px r c =
        Ref.stepReadout (Ref.fullStep (wellFill fs ps) ds) (gs.map Ref.fullOf) (Ref.allPasses img.nc os) (img.px r) c := by
  obtain ⟨out, g1, g2, g3, -, g4⟩ := hs.run hfew img.transpose (fun r hr c hc => himg c hc r hr) hnc none (Or.inl rfl)
  refine ⟨out.transpose, ?_, g3, g2, fun r hr c hc => g4 c hc r hr⟩
  rw [hs.eq]
  unfold addCtiPy PyDirection.absent
  simp only [Window.resolve, bind, Except.bind, Option.getD_none, Option.getD_some]
  change clockChargePy img.transpose (some cs) (.standard [ds] true true true is) (.list (gs.map .group)) 0 os
    (List.range img.nc) (List.range img.nr) none = _ at g1
  rw [g1]

/-- **C106**: the traps of the parallel and of the serial register, `well_fill_power` at least one in both. The image read
through both registers differs from the image with the two changes added by no more than `32 (N_p κ_p) (N_s κ_s)` times the
charge of the image, summed over all pixels. -/
theorem C106_directions (hp : FullObjects fp pp dp gp ip cp op par) (hs : FullObjects fs ps ds gs is cs os ser)
    (img : Image ℝ) (hnr : 0 < img.nr) (hnc : 0 < img.nc)
    (himg : img.NonNeg) (Np Ns κp κs : ℝ) (hNp : Np = (img.nr + op : ℕ))
    (hNs : Ns = (img.nc + os : ℕ)) (hκp : κp = trapCount gp * pp / fp) (hκs : κs = trapCount gs * ps / fs)
    (hfp : Np * κp ≤ 1 / 16) (hfs : Ns * κs ≤ 1 / 16) :
    ∃ out outp outs, addCtiPy img par .all ser .all none =
        .ok (out, .standard [dp] true true true ip, .standard [ds] true true true is) ∧
      addCtiPy img par .all .absent .all none = .ok (outp, .standard [dp] true true true ip, Roe.default) ∧
      addCtiPy img .absent .all ser .all none = .ok (outs, Roe.default, .standard [ds] true true true is) ∧
      out.SameShape img ∧ outp.SameShape img ∧ outs.SameShape img ∧
      out.dist (img.addChanges outp outs) ≤ 32 * (Np * κp * (Ns * κs)) * img.total := by
  have k1 : 0 ≤ κp := by
    rw [hκp, mul_div_assoc]; exact mul_nonneg hp.count_nonneg (div_nonneg (by linarith [hp.power]) hp.full.le)
  have k2 : 0 ≤ κs := by
    rw [hκs, mul_div_assoc]; exact mul_nonneg hs.count_nonneg (div_nonneg (by linarith [hs.power]) hs.full.le)
  obtain ⟨a1, a2, a3⟩ := lossSlope_rate (img.nr + op) (by exact_mod_cast (by omega : 1 ≤ img.nr + op)) (κ := 2 * κp)
    (by linarith) (by rw [← hNp]; linarith)
  obtain ⟨b1, b2, b3⟩ := lossSlope_rate (img.nc + os) (by exact_mod_cast (by omega : 1 ≤ img.nc + os)) (κ := 2 * κs)
    (by linarith) (by rw [← hNs]; linarith)
  have fp4 : 2 * (2 * κp) = 4 * κp := by ring
  have fs4 : 2 * (2 * κs) = 4 * κs := by ring
  rw [← hNp, fp4] at a3
  rw [← hNs, fs4] at b3
  rw [fp4] at a1 a2
  rw [fs4] at b1 b2
  rw [mul_div_assoc] at hκp hκs
  have hP := hp.mild (by rw [← hκp]; exact a1) img.nr
  have hS := hs.mild (by rw [← hκs]; exact b1) img.nc
  rw [← hκp] at hP
  rw [← hκs] at hS
  obtain ⟨out, e1, e2, e3, e4⟩ := C103_add_cti hp hs (by rw [← hκp]; linarith) (by rw [← hκs]; linarith) img himg hnr hnc
  obtain ⟨outp, p1, p2, p3, p4⟩ := C103_parallel hp (by rw [← hκp]; linarith) img himg hnr
  obtain ⟨outs, q1, q2, q3, q4⟩ := C103_serial hs (by rw [← hκs]; linarith) img himg hnc
  refine ⟨out, outp, outs, e1, p1, q1, ⟨e2, e3⟩, ⟨p2, p3⟩, ⟨q2, q3⟩, ?_⟩
  set P := Ref.stepReadout (Ref.fullStep (wellFill fp pp) dp) (gp.map Ref.fullOf) (Ref.allPasses img.nr op)
  set S := Ref.stepReadout (Ref.fullStep (wellFill fs ps) ds) (gs.map Ref.fullOf) (Ref.allPasses img.nc os)
  set qP := lossSlope (4 * κp) (img.nr + op)
  set qS := lossSlope (4 * κs) (img.nc + os)
  have hPx : ∀ r < img.nr, ∀ c < img.nc, 0 ≤ P (fun r => img.px r c) r :=
    fun r hr c hc => hP.floor _ (fun r hr => himg r hr c hc) r hr
  have step1 : out.dist (img.addChanges outp outs) ≤
      qS * ∑ r ∈ Finset.range img.nr, ∑ c ∈ Finset.range img.nc, |P (fun r => img.px r c) r - img.px r c| := by
    unfold Image.dist
    rw [e2, e3, Finset.mul_sum]
    refine Finset.sum_le_sum fun r hr => ?_
    have hr' := Finset.mem_range.1 hr
    refine le_trans (le_of_eq ?_) (hS.lip (fun c => P (fun r => img.px r c) r) (img.px r) (hPx r hr') (himg r hr'))
    refine Finset.sum_congr rfl fun c hc => ?_
    have hc' := Finset.mem_range.1 hc
    simp only [Image.addChanges]
    rw [e4 r hr' c hc', p4 r hr' c hc', q4 r hr' c hc']
    congr 1
    ring
  have step2 : ∑ r ∈ Finset.range img.nr, ∑ c ∈ Finset.range img.nc, |P (fun r => img.px r c) r - img.px r c| ≤
      qP * img.total := by
    unfold Image.total
    rw [Finset.sum_comm, Finset.sum_comm (s := Finset.range img.nr), Finset.mul_sum]
    exact Finset.sum_le_sum fun c hc => hP.small _ fun r hr => himg r hr c (Finset.mem_range.1 hc)
  have ht0 : 0 ≤ img.total := Finset.sum_nonneg fun r hr => Finset.sum_nonneg fun c hc =>
    himg r (Finset.mem_range.1 hr) c (Finset.mem_range.1 hc)
  refine step1.trans ((mul_le_mul_of_nonneg_left step2 b2).trans ?_)
  rw [← mul_assoc]
  refine mul_le_mul_of_nonneg_right ?_ ht0
  have hN1 : 0 ≤ Np := by rw [hNp]; exact Nat.cast_nonneg _
  have hN2 : 0 ≤ Ns := by rw [hNs]; exact Nat.cast_nonneg _
  have := mul_le_mul b3 a3 a2 (by have := mul_nonneg hN2 k2; nlinarith)
  have := mul_nonneg (mul_nonneg hN1 k1) (mul_nonneg hN2 k2)
  nlinarith

end directions

/-! ### examples -/

/-- The two directions of a detector with the traps of `exFull`. -/
example (d : PyDirection) (hd : d = ⟨some ⟨[1], [1000], [1], [0], [.num 1000]⟩, some (.standard [1] true true true false),
      some (.list ([[.logNormalTrap 0.1 3 (1 / 2)], [.trap 0.1 2 0.1 false], [.instant 0.1 5 false]].map .group)), 0, 2⟩) :
    ∃ out outp outs, addCtiPy ⟨20, 3, fun _ _ => 100⟩ d .all d .all none =
        .ok (out, .standard [1] true true true false, .standard [1] true true true false) ∧
      addCtiPy ⟨20, 3, fun _ _ => 100⟩ d .all .absent .all none =
        .ok (outp, .standard [1] true true true false, Roe.default) ∧
      addCtiPy ⟨20, 3, fun _ _ => 100⟩ .absent .all d .all none =
        .ok (outs, Roe.default, .standard [1] true true true false) ∧
      out.dist (Image.addChanges ⟨20, 3, fun _ _ => 100⟩ outp outs) ≤ 2 := by
  have h := exFull
  rw [← hd] at h
  have hc := exFull_count
  obtain ⟨out, outp, outs, e1, e2, e3, -, -, -, e4⟩ := C106_directions h h (⟨20, 3, fun _ _ => 100⟩ : Image ℝ)
    (by norm_num) (by norm_num) (fun _ _ _ _ => by norm_num) 22 5 0.0003 0.0003 (by norm_num) (by norm_num)
    (by rw [hc]; norm_num) (by rw [hc]; norm_num) (by norm_num) (by norm_num)
  refine ⟨out, outp, outs, e1, e2, e3, e4.trans ?_⟩
  simp [Image.total]
  norm_num

/-- Lifetime distributions and capture timescales of one register. -/
example (d d₁ d₂ : PyDirection)
    (h : FullObjects 1000 1 1 [[.logNormalTrap 0.1 3 (1 / 2)], [.trap 0.1 2 0.1 false]] false
      ⟨[1], [1000], [1], [0], [.num 1000]⟩ 0 d)
    (h₁ : FullObjects 1000 1 1 [[.logNormalTrap 0.1 3 (1 / 2)]] false ⟨[1], [1000], [1], [0], [.num 1000]⟩ 0 d₁)
    (h₂ : FullObjects 1000 1 1 [[.trap 0.1 2 0.1 false]] false ⟨[1], [1000], [1], [0], [.num 1000]⟩ 0 d₂) :
    ∃ out out₁ out₂, addCtiPy ⟨20, 3, fun _ _ => 100⟩ d .all .absent .all none =
        .ok (out, .standard [1] true true true false, Roe.default) ∧
      addCtiPy ⟨20, 3, fun _ _ => 100⟩ d₁ .all .absent .all none =
        .ok (out₁, .standard [1] true true true false, Roe.default) ∧
      addCtiPy ⟨20, 3, fun _ _ => 100⟩ d₂ .all .absent .all none =
        .ok (out₂, .standard [1] true true true false, Roe.default) ∧
      out.dist (Image.addChanges ⟨20, 3, fun _ _ => 100⟩ out₁ out₂) ≤ 1.1 := by
  obtain ⟨out, out₁, out₂, e1, e2, e3, -, -, -, e4⟩ := C106_parallel (g₁ := [[.logNormalTrap 0.1 3 (1 / 2)]])
    (g₂ := [[.trap 0.1 2 0.1 false]]) h h₁ h₂ (⟨20, 3, fun _ _ => 100⟩ : Image ℝ) (by norm_num)
    (fun _ _ _ _ => by norm_num) 20 0.0001 0.0001 (by norm_num) (by simp [trapCount, Trap.density, Trap.logNormalTrap]; norm_num)
    (by simp [trapCount, Trap.density]; norm_num) (by norm_num)
  refine ⟨out, out₁, out₂, e1, e2, e3, e4.trans ?_⟩
  simp [Image.total]
  norm_num

end Arctic
