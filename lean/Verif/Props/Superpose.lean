import Verif.Lemmas.Superpose
import Verif.Props.Trail
import Verif.Props.Contract
set_option linter.unusedSectionVars false
set_option linter.unusedVariables false

/-!
# C95 — Superposition: the changes made by several sets of traps add up

An image is read out three times: with two lists of traps, and with each of them alone. The first change is the sum of the
other two up to a rest that is of second order, i.e. a multiple of the product of the two changes. The same holds for the
traps of the parallel and the serial register.
-/

namespace Arctic

/-- What one expects if the changes of `img` in `a` and `b` add up. -/
noncomputable def Image.addChanges (img a b : Image ℝ) : Image ℝ :=
  ⟨img.nr, img.nc, fun r c => img.px r c + (a.px r c - img.px r c) + (b.px r c - img.px r c)⟩

theorem trapCount_append (g h : List (List Trap)) : trapCount (g ++ h) = trapCount g + trapCount h := by
  unfold trapCount
  rw [List.map_append, List.sum_append]

section columns
variable {full power dw : ℝ} {g₁ g₂ : List (List Trap)} {i : Bool} {c : CCD} {o : ℕ} {d d₁ d₂ : PyDirection}

/-- Columns, power at least one. -/
theorem ExactObjects.superpose (h : ExactObjects full power dw (g₁ ++ g₂) i c o d) (hpw : 1 ≤ power) {l₁ l₂ : ℝ}
    (hl₁ : l₁ = 2 * (trapCount g₁ * (power / full))) (hl₂ : l₂ = 2 * (trapCount g₂ * (power / full))) (hl : l₁ + l₂ < 1)
    (n : ℕ) (x : ℕ → ℝ) (hx : ∀ r < n, 0 ≤ x r) :
    ∑ r ∈ Finset.range n, |(Ref.readout (wellFill full power) dw ((g₁ ++ g₂).map Ref.ofTraps) (Ref.allPasses n o) x r - x r) -
        ((Ref.readout (wellFill full power) dw (g₁.map Ref.ofTraps) (Ref.allPasses n o) x r - x r) +
          (Ref.readout (wellFill full power) dw (g₂.map Ref.ofTraps) (Ref.allPasses n o) x r - x r))| ≤
      crossSlope (l₁ / (1 - l₁)) (l₂ / (1 - l₂)) (n + o) * ∑ r ∈ Finset.range n, x r := by
  have hf := wellFill_lip h.full hpw
  have hsum : 2 * (trapCount (g₁ ++ g₂) * (power / full)) = l₁ + l₂ := by rw [trapCount_append, hl₁, hl₂]; ring
  have h0 := mul_nonneg h.count_nonneg hf.nonneg_slope
  have hF := h.few hf.nonneg_slope (by linarith)
  have htot := Ref.ofTraps_totals (g₁ ++ g₂)
  have hv := Ref.ofTraps_vacant (g₁ ++ g₂)
  rw [List.map_append] at hF htot hv ⊢
  have := readout_add hf n zero_le_one _ _ hF (by rw [one_mul]; exact hF.few) (by rw [htot, hsum]; exact hl) hv
    (Ref.allPasses n o) x hx (allPasses_good n o)
  rw [Ref.ofTraps_totals, Ref.ofTraps_totals, ← hl₁, ← hl₂, allPasses_length] at this
  unfold passSlope at this
  rwa [one_mul, one_mul] at this

/-- Columns with a background, power at most one. -/
theorem ExactObjects.superpose_background (h : ExactObjects full power dw (g₁ ++ g₂) i c o d) (hpw : power ≤ 1)
    {b low k₁ k₂ : ℝ} (hb : 0 < b) (hk₁ : k₁ = trapCount g₁ * (wellFill full power b / b))
    (hk₂ : k₂ = trapCount g₂ * (wellFill full power b / b)) (h1 : 0 ≤ k₁) (h2 : 0 ≤ k₂) (hk : 2 * (k₁ + k₂) < 1) (n : ℕ)
    (hlow : b ≤ (1 - (k₁ + k₂)) ^ (n + o) * low) (x : ℕ → ℝ) (hx : ∀ r < n, low ≤ x r) :
    ∑ r ∈ Finset.range n, |(Ref.readout (wellFill full power) dw ((g₁ ++ g₂).map Ref.ofTraps) (Ref.allPasses n o) x r - x r) -
        ((Ref.readout (wellFill full power) dw (g₁.map Ref.ofTraps) (Ref.allPasses n o) x r - x r) +
          (Ref.readout (wellFill full power) dw (g₂.map Ref.ofTraps) (Ref.allPasses n o) x r - x r))| ≤
      crossSlope (2 * k₁ / (1 - 2 * k₁)) (2 * k₂ / (1 - 2 * k₂)) (n + o) * ∑ r ∈ Finset.range n, x r := by
  have hcv := wellFill_concave h.full h.power hpw
  have hf := hcv.lift hb
  have hsum : trapCount (g₁ ++ g₂) * (wellFill full power b / b) = k₁ + k₂ := by rw [trapCount_append, hk₁, hk₂]; ring
  have hF := h.few hf.nonneg_slope (by linarith)
  have htot := Ref.ofTraps_totals (g₁ ++ g₂)
  have hv := Ref.ofTraps_vacant (g₁ ++ g₂)
  rw [List.map_append] at hF htot hv ⊢
  obtain ⟨F1, F2, -, -, -⟩ := hF.parts
  have hc : 0 ≤ (1 - (k₁ + k₂)) ^ (n + o) := pow_nonneg (by linarith) _
  have hlow0 : 0 ≤ low := by
    by_contra hneg
    have := mul_nonpos_of_nonneg_of_nonpos hc (not_le.1 hneg).le
    linarith
  have hx0 : ∀ r < n, 0 ≤ x r := fun r hr => hlow0.trans (hx r hr)
  have same : ∀ (ts : List Ref.Traps) (k : ℝ), Ref.Few dw (wellFill full power b / b) ts →
      Ref.totals ts * (wellFill full power b / b) = k → k ≤ k₁ + k₂ →
      Ref.readout (wellFill full power) dw ts (Ref.allPasses n o) x =
        Ref.readout (liftFill (wellFill full power) b) dw ts (Ref.allPasses n o) x := by
    intro ts k hts ek hkk
    have := readout_congr_fill hb.le hf (fun z hz => (liftFill_eq hz).symm) n zero_le_one ts hts
      (by rw [one_mul]; exact hts.few) _ (allPasses_good n o) x hx0
    rw [ek, allPasses_length, one_mul] at this
    refine (this fun r hr => hlow.trans ?_).1
    exact (mul_le_mul_of_nonneg_left (hx r hr) hc).trans
      (mul_le_mul_of_nonneg_right (pow_le_pow_left₀ (by linarith) (by linarith) _) (hx0 r hr))
  have key := readout_add hf n zero_le_one _ _ hF (by rw [one_mul]; exact hF.few) (by rw [htot, hsum]; exact hk) hv
    (Ref.allPasses n o) x hx0 (allPasses_good n o)
  rw [Ref.ofTraps_totals, Ref.ofTraps_totals, ← hk₁, ← hk₂, allPasses_length] at key
  unfold passSlope at key
  rw [one_mul, one_mul] at key
  rwa [same _ _ hF (by rw [htot, hsum]) le_rfl, same _ k₁ F1 (by rw [Ref.ofTraps_totals, hk₁]) (by linarith),
    same _ k₂ F2 (by rw [Ref.ofTraps_totals, hk₂]) (by linarith)]

/-- Images. -/
theorem superpose_image (h : ExactObjects full power dw (g₁ ++ g₂) i c o d) (h₁ : ExactObjects full power dw g₁ i c o d₁)
    (h₂ : ExactObjects full power dw g₂ i c o d₂) (img : Image ℝ) (hnr : 0 < img.nr) (s : ℝ)
    (key : ∀ c < img.nc, ∑ r ∈ Finset.range img.nr,
      |(Ref.readout (wellFill full power) dw ((g₁ ++ g₂).map Ref.ofTraps) (Ref.allPasses img.nr o) (fun r => img.px r c) r -
          img.px r c) -
        ((Ref.readout (wellFill full power) dw (g₁.map Ref.ofTraps) (Ref.allPasses img.nr o) (fun r => img.px r c) r -
          img.px r c) +
          (Ref.readout (wellFill full power) dw (g₂.map Ref.ofTraps) (Ref.allPasses img.nr o) (fun r => img.px r c) r -
            img.px r c))| ≤ s * ∑ r ∈ Finset.range img.nr, img.px r c) :
    ∃ out out₁ out₂, addCtiPy img d .all .absent .all none = .ok (out, .standard [dw] true true true i, Roe.default) ∧
      addCtiPy img d₁ .all .absent .all none = .ok (out₁, .standard [dw] true true true i, Roe.default) ∧
      addCtiPy img d₂ .all .absent .all none = .ok (out₂, .standard [dw] true true true i, Roe.default) ∧
      out.SameShape img ∧ out₁.SameShape img ∧ out₂.SameShape img ∧ out.dist (img.addChanges out₁ out₂) ≤ s * img.total := by
  obtain ⟨out, e1, e2, e3, e4⟩ := C55_parallel img hnr full power dw _ i c o d h
  obtain ⟨out₁, p1, p2, p3, p4⟩ := C55_parallel img hnr full power dw _ i c o d₁ h₁
  obtain ⟨out₂, q1, q2, q3, q4⟩ := C55_parallel img hnr full power dw _ i c o d₂ h₂
  refine ⟨out, out₁, out₂, e1, p1, q1, ⟨e2, e3⟩, ⟨p2, p3⟩, ⟨q2, q3⟩, ?_⟩
  rw [Image.dist_columns, e2, e3]
  have htot : img.total = ∑ c ∈ Finset.range img.nc, ∑ r ∈ Finset.range img.nr, img.px r c := by
    unfold Image.total; rw [Finset.sum_comm]
  rw [htot, Finset.mul_sum]
  refine Finset.sum_le_sum fun c hc => ?_
  have hc' := Finset.mem_range.1 hc
  refine le_trans (le_of_eq ?_) (key c hc')
  unfold colDist
  refine Finset.sum_congr rfl fun r hr => ?_
  have hr' := Finset.mem_range.1 hr
  simp only [Image.addChanges]
  rw [e4 r hr' c hc', p4 r hr' c hc', q4 r hr' c hc']
  congr 1
  ring

end columns

section main
variable {full power dw : ℝ} {g₁ g₂ : List (List Trap)} {i : Bool} {c : CCD} {o : ℕ} {d d₁ d₂ : PyDirection}

/-- **C95**: parallel clocking with `well_fill_power` at least one, `κ` being the number of traps per pixel of a list times
`power / full_well_depth`, and `N` the number of transfers of the last row. If `N (κ₁ + κ₂)` is at most one eighth, then the
image read with both lists of traps differs from the image with the changes of both lists added by no more than
`11 (N κ₁) (N κ₂)` times the charge of the image, summed over all pixels. -/
theorem C95_parallel (h : ExactObjects full power dw (g₁ ++ g₂) i c o d) (h₁ : ExactObjects full power dw g₁ i c o d₁)
    (h₂ : ExactObjects full power dw g₂ i c o d₂) (hpw : 1 ≤ power) (img : Image ℝ) (hnr : 0 < img.nr)
    (himg : ∀ r < img.nr, ∀ c < img.nc, 0 ≤ img.px r c) (N κ₁ κ₂ : ℝ) (hN : N = (img.nr + o : ℕ))
    (hκ₁ : κ₁ = trapCount g₁ * power / full) (hκ₂ : κ₂ = trapCount g₂ * power / full) (hfew : N * (κ₁ + κ₂) ≤ 1 / 8) :
    ∃ out out₁ out₂, addCtiPy img d .all .absent .all none = .ok (out, .standard [dw] true true true i, Roe.default) ∧
      addCtiPy img d₁ .all .absent .all none = .ok (out₁, .standard [dw] true true true i, Roe.default) ∧
      addCtiPy img d₂ .all .absent .all none = .ok (out₂, .standard [dw] true true true i, Roe.default) ∧
      out.SameShape img ∧ out₁.SameShape img ∧ out₂.SameShape img ∧
      out.dist (img.addChanges out₁ out₂) ≤ 11 * (N * κ₁ * (N * κ₂)) * img.total := by
  have hs := div_nonneg (by linarith : 0 ≤ power) h.full.le
  have k1 : 0 ≤ κ₁ := by rw [hκ₁, mul_div_assoc]; exact mul_nonneg h₁.count_nonneg hs
  have k2 : 0 ≤ κ₂ := by rw [hκ₂, mul_div_assoc]; exact mul_nonneg h₂.count_nonneg hs
  have hN1 : 1 ≤ N := by rw [hN]; exact_mod_cast (by omega : 1 ≤ img.nr + o)
  obtain ⟨s1, s2⟩ := crossSlope_rate (img.nr + o) (by rw [← hN]; exact hN1) k1 k2 (by rw [← hN]; exact hfew)
  rw [← hN] at s2
  refine superpose_image h h₁ h₂ img hnr _ fun c hc => ?_
  have hx := fun r hr => himg r hr c hc
  refine (h.superpose hpw (l₁ := 2 * κ₁) (l₂ := 2 * κ₂) (by rw [hκ₁, mul_div_assoc]) (by rw [hκ₂, mul_div_assoc]) (by linarith)
    img.nr _ hx).trans (mul_le_mul_of_nonneg_right s2 ?_)
  exact Finset.sum_nonneg fun r hr => hx r (Finset.mem_range.1 hr)

/-- **C95** for `well_fill_power ≤ 1` over a background: `b` is a number of electrons that every pixel keeps during the
readout, and `κ` the number of traps of a list times the volume per electron of a cloud of `b` electrons. -/
theorem C95_background (h : ExactObjects full power dw (g₁ ++ g₂) i c o d) (h₁ : ExactObjects full power dw g₁ i c o d₁)
    (h₂ : ExactObjects full power dw g₂ i c o d₂) (hpw : power ≤ 1) (img : Image ℝ) (hnr : 0 < img.nr) (b low N κ₁ κ₂ : ℝ)
    (hb : 0 < b) (himg : ∀ r < img.nr, ∀ c < img.nc, low ≤ img.px r c) (hN : N = (img.nr + o : ℕ))
    (hκ₁ : κ₁ = trapCount g₁ * wellFill full power b / b) (hκ₂ : κ₂ = trapCount g₂ * wellFill full power b / b)
    (hfew : N * (κ₁ + κ₂) ≤ 1 / 8) (hlow : b ≤ (1 - N * (κ₁ + κ₂)) * low) :
    ∃ out out₁ out₂, addCtiPy img d .all .absent .all none = .ok (out, .standard [dw] true true true i, Roe.default) ∧
      addCtiPy img d₁ .all .absent .all none = .ok (out₁, .standard [dw] true true true i, Roe.default) ∧
      addCtiPy img d₂ .all .absent .all none = .ok (out₂, .standard [dw] true true true i, Roe.default) ∧
      out.SameShape img ∧ out₁.SameShape img ∧ out₂.SameShape img ∧
      out.dist (img.addChanges out₁ out₂) ≤ 11 * (N * κ₁ * (N * κ₂)) * img.total := by
  have hs := div_nonneg ((wellFill_exact h.full h.power).1.nonneg b) hb.le
  have k1 : 0 ≤ κ₁ := by rw [hκ₁, mul_div_assoc]; exact mul_nonneg h₁.count_nonneg hs
  have k2 : 0 ≤ κ₂ := by rw [hκ₂, mul_div_assoc]; exact mul_nonneg h₂.count_nonneg hs
  have hN1 : 1 ≤ N := by rw [hN]; exact_mod_cast (by omega : 1 ≤ img.nr + o)
  obtain ⟨s1, s2⟩ := crossSlope_rate (img.nr + o) (by rw [← hN]; exact hN1) k1 k2 (by rw [← hN]; exact hfew)
  rw [← hN] at s2
  have hlow0 : 0 < low := by nlinarith
  have hpow : b ≤ (1 - (κ₁ + κ₂)) ^ (img.nr + o) * low := by
    refine hlow.trans (mul_le_mul_of_nonneg_right ?_ hlow0.le)
    have := one_add_mul_le_pow (a := -(κ₁ + κ₂)) (by linarith) (img.nr + o)
    rw [← hN] at this
    have e : 1 + -(κ₁ + κ₂) = 1 - (κ₁ + κ₂) := by ring
    rw [e] at this
    linarith
  refine superpose_image h h₁ h₂ img hnr _ fun c hc => ?_
  have hx := fun r hr => himg r hr c hc
  refine (h.superpose_background hpw hb (k₁ := κ₁) (k₂ := κ₂) (by rw [hκ₁, mul_div_assoc]) (by rw [hκ₂, mul_div_assoc]) k1 k2
    (by linarith) img.nr hpow _ hx).trans (mul_le_mul_of_nonneg_right s2 ?_)
  exact Finset.sum_nonneg fun r hr => hlow0.le.trans (hx r (Finset.mem_range.1 hr))

end main

/-! ### both registers -/

section directions
variable {fp fs pp ps dp ds : ℝ} {gp gs : List (List Trap)} {ip is : Bool} {cp cs : CCD} {op os : ℕ} {par ser : PyDirection}

/-- **C55** for serial clocking only. -/
theorem C55_serial (img : Image ℝ) (hnc : 0 < img.nc) (hs : ExactObjects fs ps ds gs is cs os ser) :
    ∃ out, addCtiPy img .absent .all ser .all none = .ok (out, Roe.default, .standard [ds] true true true is) ∧
      out.nr = img.nr ∧ out.nc = img.nc ∧
      ∀ r < img.nr, ∀ c < img.nc, out.px r c =
        Ref.readout (wellFill fs ps) ds (gs.map Ref.ofTraps) (Ref.allPasses img.nc os) (img.px r) c := by
  obtain ⟨out, g1, g2, g3, g4⟩ := hs.run img.transpose hnc none (Or.inl rfl)
  refine ⟨out.transpose, ?_, g3, g2, fun r hr c hc => g4 c hc r hr⟩
  rw [hs.eq]
  unfold addCtiPy PyDirection.absent
  simp only [Window.resolve, bind, Except.bind, Option.getD_none, Option.getD_some]
  change clockChargePy img.transpose (some cs) (.standard [ds] true true true is) (.list (gs.map .group)) 0 os
    (List.range img.nc) (List.range img.nr) none = _ at g1
  rw [g1]

theorem lossSlope_rate {κ : ℝ} (N : ℕ) (hN : (1 : ℝ) ≤ N) (h : 0 ≤ κ) (h8 : N * κ ≤ 1 / 8) :
    2 * κ < 1 ∧ 0 ≤ lossSlope (2 * κ) N ∧ lossSlope (2 * κ) N ≤ 8 / 3 * (N * κ) := by
  have hκ : κ ≤ 1 / 8 := by nlinarith
  refine ⟨by linarith, lossSlope_nonneg (by linarith) (by linarith) N, ?_⟩
  unfold lossSlope
  have b1 := one_add_mul_le_pow (a := -(2 * κ)) (by linarith) N
  have e : 1 + -(2 * κ) = 1 - 2 * κ := by ring
  rw [e] at b1
  have hpos : 0 < (1 - 2 * κ) ^ N := pow_pos (by linarith) N
  rw [one_div, inv_pow, sub_le_iff_le_add, inv_le_comm₀ hpos (by nlinarith)]
  refine le_trans ?_ b1
  have hu : 0 ≤ N * κ := mul_nonneg (by linarith) h
  rw [inv_le_iff_one_le_mul₀ (by linarith)]
  have := mul_nonneg hu (by linarith : 0 ≤ 1 / 8 - N * κ)
  have e2 : (1 + (N : ℝ) * -(2 * κ)) * (8 / 3 * (N * κ) + 1) = 1 + 16 / 3 * (N * κ * (1 / 8 - N * κ)) := by ring
  linarith

/-- **C95**: the traps of the parallel and of the serial register, `well_fill_power` at least one in both. The image read
through both registers differs from the image with the two changes added by no more than `8 (N_p κ_p) (N_s κ_s)` times the
charge of the image, summed over all pixels. -/
theorem C95_directions (hp : ExactObjects fp pp dp gp ip cp op par) (hs : ExactObjects fs ps ds gs is cs os ser)
    (hpp : 1 ≤ pp) (hps : 1 ≤ ps) (img : Image ℝ) (hnr : 0 < img.nr) (hnc : 0 < img.nc)
    (himg : ∀ r < img.nr, ∀ c < img.nc, 0 ≤ img.px r c) (Np Ns κp κs : ℝ) (hNp : Np = (img.nr + op : ℕ))
    (hNs : Ns = (img.nc + os : ℕ)) (hκp : κp = trapCount gp * pp / fp) (hκs : κs = trapCount gs * ps / fs)
    (hfp : Np * κp ≤ 1 / 8) (hfs : Ns * κs ≤ 1 / 8) :
    ∃ out outp outs, addCtiPy img par .all ser .all none =
        .ok (out, .standard [dp] true true true ip, .standard [ds] true true true is) ∧
      addCtiPy img par .all .absent .all none = .ok (outp, .standard [dp] true true true ip, Roe.default) ∧
      addCtiPy img .absent .all ser .all none = .ok (outs, Roe.default, .standard [ds] true true true is) ∧
      out.SameShape img ∧ outp.SameShape img ∧ outs.SameShape img ∧
      out.dist (img.addChanges outp outs) ≤ 8 * (Np * κp * (Ns * κs)) * img.total := by
  have k1 : 0 ≤ κp := by
    rw [hκp, mul_div_assoc]; exact mul_nonneg hp.count_nonneg (div_nonneg (by linarith) hp.full.le)
  have k2 : 0 ≤ κs := by
    rw [hκs, mul_div_assoc]; exact mul_nonneg hs.count_nonneg (div_nonneg (by linarith) hs.full.le)
  obtain ⟨a1, a2, a3⟩ := lossSlope_rate (img.nr + op) (by exact_mod_cast (by omega : 1 ≤ img.nr + op)) k1 (by rw [← hNp]; exact hfp)
  obtain ⟨b1, b2, b3⟩ := lossSlope_rate (img.nc + os) (by exact_mod_cast (by omega : 1 ≤ img.nc + os)) k2 (by rw [← hNs]; exact hfs)
  rw [← hNp] at a3
  rw [← hNs] at b3
  rw [mul_div_assoc] at hκp hκs
  have hP := hp.mild hpp (by rw [← hκp]; exact a1) img.nr
  have hS := hs.mild hps (by rw [← hκs]; exact b1) img.nc
  rw [← hκp] at hP
  rw [← hκs] at hS
  obtain ⟨out, e1, e2, e3, e4⟩ := C55_add_cti img hnr hnc fp fs pp ps dp ds gp gs ip is cp cs op os par ser hp hs
  obtain ⟨outp, p1, p2, p3, p4⟩ := C55_parallel img hnr fp pp dp gp ip cp op par hp
  obtain ⟨outs, q1, q2, q3, q4⟩ := C55_serial img hnc hs
  refine ⟨out, outp, outs, e1, p1, q1, ⟨e2, e3⟩, ⟨p2, p3⟩, ⟨q2, q3⟩, ?_⟩
  set P := Ref.readout (wellFill fp pp) dp (gp.map Ref.ofTraps) (Ref.allPasses img.nr op)
  set S := Ref.readout (wellFill fs ps) ds (gs.map Ref.ofTraps) (Ref.allPasses img.nc os)
  set qP := lossSlope (2 * κp) (img.nr + op)
  set qS := lossSlope (2 * κs) (img.nc + os)
  have hPx : ∀ r < img.nr, ∀ c < img.nc, 0 ≤ P (fun r => img.px r c) r :=
    fun r hr c hc => hP.floor _ (fun r hr => himg r hr c hc) r hr
  have step1 : out.dist (img.addChanges outp outs) ≤
      qS * ∑ r ∈ Finset.range img.nr, ∑ c ∈ Finset.range img.nc, |P (fun r => img.px r c) r - img.px r c| := by
    unfold Image.dist
    rw [e2, e3, Finset.mul_sum]
    refine Finset.sum_le_sum fun r hr => ?_
    have hr' := Finset.mem_range.1 hr
    refine le_trans (le_of_eq ?_) (hS.lip (fun c => P (fun r => img.px r c) r) (img.px r) (hPx r hr') (himg r hr'))
    refine Finset.sum_congr rfl fun c hc => ?_
    have hc' := Finset.mem_range.1 hc
    simp only [Image.addChanges]
    rw [e4 r hr' c hc', p4 r hr' c hc', q4 r hr' c hc']
    congr 1
    ring
  have step2 : ∑ r ∈ Finset.range img.nr, ∑ c ∈ Finset.range img.nc, |P (fun r => img.px r c) r - img.px r c| ≤
      qP * img.total := by
    unfold Image.total
    rw [Finset.sum_comm, Finset.sum_comm (s := Finset.range img.nr), Finset.mul_sum]
    exact Finset.sum_le_sum fun c hc => hP.small _ fun r hr => himg r hr c (Finset.mem_range.1 hc)
  have ht0 : 0 ≤ img.total := Finset.sum_nonneg fun r hr => Finset.sum_nonneg fun c hc =>
    himg r (Finset.mem_range.1 hr) c (Finset.mem_range.1 hc)
  refine step1.trans ((mul_le_mul_of_nonneg_left step2 b2).trans ?_)
  rw [← mul_assoc]
  refine mul_le_mul_of_nonneg_right ?_ ht0
  have hN1 : 0 ≤ Np := by rw [hNp]; exact Nat.cast_nonneg _
  have hN2 : 0 ≤ Ns := by rw [hNs]; exact Nat.cast_nonneg _
  have := mul_le_mul b3 a3 a2 (by have := mul_nonneg hN2 k2; linarith)
  have := mul_nonneg (mul_nonneg hN1 k1) (mul_nonneg hN2 k2)
  nlinarith

end directions

/-! ### where it fails -/

/-- `ρ` traps per pixel in a linear well of 100 electrons, once or twice. -/
def exTraps (n : ℕ) (ρ : ℚ) : Direction ℚ :=
  ⟨⟨[1], fun _ n => if n ≤ 0 then 0 else if 100 ≤ n then 1 else n / 100⟩, exRoe,
    List.replicate n ⟨1, fun _ => ρ, .instant fun _ _ => 1 / 2⟩, 0, 0⟩

/-- The changes do not add up exactly: an electron caught in the first of two transfers cannot be caught in the second. Each
group of ten traps alone takes 19 of 100 electrons, both together take 36. -/
theorem C95_exactly_false :
    (addCti (exImg 2 1 [[0], [100]]) (some (exTraps 1 10)) 0 .all none .all none).map (fun x => x.1.px 1 0) = .ok 81 ∧
      (addCti (exImg 2 1 [[0], [100]]) (some (exTraps 2 10)) 0 .all none .all none).map (fun x => x.1.px 1 0) = .ok 64 ∧
      (100 - 64 : ℚ) ≠ (100 - 81) + (100 - 81) := by
  refine ⟨?_, ?_, by norm_num⟩ <;> decide +kernel

/-- With many traps not even the changes of a single transfer add up: 90 traps take 90 of 100 electrons, twice as many take
all 100. -/
theorem C95_many_false :
    (addCti (exImg 1 1 [[100]]) (some (exTraps 1 90)) 0 .all none .all none).map (fun x => x.1.px 0 0) = .ok 10 ∧
      (addCti (exImg 1 1 [[100]]) (some (exTraps 2 90)) 0 .all none .all none).map (fun x => x.1.px 0 0) = .ok 0 ∧
      (100 - 0 : ℚ) < (100 - 10) + (100 - 10) := by
  refine ⟨?_, ?_, by norm_num⟩ <;> decide +kernel

/-! ### examples -/

/-- A linear well of 1000 electrons, half a trap per pixel with a release time of 5 and a quarter with 1, 20 rows and 3
columns of 100 electrons: the rest is at most `11 · 20/2000 · 20/4000 · 6000`,
i.e. 3.3 electrons. -/
example (c : CCD) (d d₁ d₂ : PyDirection)
    (h : ExactObjects 1000 1 1 [[.instant (1 / 2) 5 false], [.instant (1 / 4) 1 false]] false c 0 d)
    (h₁ : ExactObjects 1000 1 1 [[.instant (1 / 2) 5 false]] false c 0 d₁)
    (h₂ : ExactObjects 1000 1 1 [[.instant (1 / 4) 1 false]] false c 0 d₂) :
    ∃ out out₁ out₂, addCtiPy ⟨20, 3, fun _ _ => 100⟩ d .all .absent .all none =
        .ok (out, .standard [1] true true true false, Roe.default) ∧
      addCtiPy ⟨20, 3, fun _ _ => 100⟩ d₁ .all .absent .all none =
        .ok (out₁, .standard [1] true true true false, Roe.default) ∧
      addCtiPy ⟨20, 3, fun _ _ => 100⟩ d₂ .all .absent .all none =
        .ok (out₂, .standard [1] true true true false, Roe.default) ∧
      out.dist (Image.addChanges ⟨20, 3, fun _ _ => 100⟩ out₁ out₂) ≤ 3.3 := by
  obtain ⟨out, out₁, out₂, e1, e2, e3, -, -, -, e4⟩ := C95_parallel (g₁ := [[.instant (1 / 2) 5 false]])
    (g₂ := [[.instant (1 / 4) 1 false]]) h h₁ h₂ le_rfl (⟨20, 3, fun _ _ => 100⟩ : Image ℝ) (by norm_num)
    (fun _ _ _ _ => by norm_num) 20 (1 / 2000) (1 / 4000) (by norm_num) (by simp [trapCount, Trap.density]; norm_num)
    (by simp [trapCount, Trap.density]; norm_num) (by norm_num)
  refine ⟨out, out₁, out₂, e1, e2, e3, e4.trans ?_⟩
  simp [Image.total]
  norm_num

/-- Both registers. -/
example (c : CCD) (d : PyDirection) (h : ExactObjects 1000 1 1 [[.instant (1 / 2) 5 false]] false c 0 d) :
    ∃ out outp outs, addCtiPy ⟨20, 3, fun _ _ => 100⟩ d .all d .all none =
        .ok (out, .standard [1] true true true false, .standard [1] true true true false) ∧
      addCtiPy ⟨20, 3, fun _ _ => 100⟩ d .all .absent .all none =
        .ok (outp, .standard [1] true true true false, Roe.default) ∧
      addCtiPy ⟨20, 3, fun _ _ => 100⟩ .absent .all d .all none =
        .ok (outs, Roe.default, .standard [1] true true true false) ∧
      out.dist (Image.addChanges ⟨20, 3, fun _ _ => 100⟩ outp outs) ≤ 0.72 := by
  obtain ⟨out, outp, outs, e1, e2, e3, -, -, -, e4⟩ := C95_directions h h le_rfl le_rfl (⟨20, 3, fun _ _ => 100⟩ : Image ℝ)
    (by norm_num) (by norm_num) (fun _ _ _ _ => by norm_num) 20 3 (1 / 2000) (1 / 2000) (by norm_num) (by norm_num)
    (by simp [trapCount, Trap.density]; norm_num) (by simp [trapCount, Trap.density]; norm_num) (by norm_num) (by norm_num)
  refine ⟨out, outp, outs, e1, e2, e3, e4.trans ?_⟩
  simp [Image.total]
  norm_num

/-- The well of HST over a background: 10 rows of 1000 electrons. -/
example (c : CCD) (d d₁ d₂ : PyDirection)
    (h : ExactObjects 84700 0.478 1 [[.instant (1 / 2) 5 false], [.instant (1 / 4) 1 false]] false c 0 d)
    (h₁ : ExactObjects 84700 0.478 1 [[.instant (1 / 2) 5 false]] false c 0 d₁)
    (h₂ : ExactObjects 84700 0.478 1 [[.instant (1 / 4) 1 false]] false c 0 d₂) :
    ∃ s : ℝ, s ≤ 1375 / 10000 ∧ ∃ out out₁ out₂, addCtiPy ⟨10, 1, fun _ _ => 1000⟩ d .all .absent .all none =
        .ok (out, .standard [1] true true true false, Roe.default) ∧
      addCtiPy ⟨10, 1, fun _ _ => 1000⟩ d₁ .all .absent .all none =
        .ok (out₁, .standard [1] true true true false, Roe.default) ∧
      addCtiPy ⟨10, 1, fun _ _ => 1000⟩ d₂ .all .absent .all none =
        .ok (out₂, .standard [1] true true true false, Roe.default) ∧
      out.dist (Image.addChanges ⟨10, 1, fun _ _ => 1000⟩ out₁ out₂) ≤ s * 10000 := by
  have hw := (wellFill_exact (full := 84700) (power := 0.478) (by norm_num) (by norm_num)).1
  have w1 := hw.le_one 100
  have w0 := hw.nonneg 100
  set w := wellFill 84700 0.478 100 with hwdef
  obtain ⟨out, out₁, out₂, e1, e2, e3, -, -, -, e4⟩ := C95_background (g₁ := [[.instant (1 / 2) 5 false]])
    (g₂ := [[.instant (1 / 4) 1 false]]) h h₁ h₂ (by norm_num) (⟨10, 1, fun _ _ => 1000⟩ : Image ℝ) (by norm_num)
    100 1000 10 (1 / 2 * w / 100) (1 / 4 * w / 100) (by norm_num) (fun _ _ _ _ => le_rfl) (by norm_num)
    (by simp [trapCount, Trap.density, hwdef]) (by simp [trapCount, Trap.density, hwdef]) (by linarith) (by linarith)
  refine ⟨11 * (10 * (1 / 2 * w / 100) * (10 * (1 / 4 * w / 100))), by nlinarith, out, out₁, out₂, e1, e2, e3, e4.trans ?_⟩
  refine le_of_eq ?_
  simp [Image.total]
  norm_num

end Arctic
