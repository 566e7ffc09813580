import Verif.Lemmas.RefContract
import Verif.Props.Converge
import Verif.Props.Order

/-!
# C91 — CTI does not drive images apart
-/

set_option linter.unusedSectionVars false
set_option linter.unusedVariables false

namespace Arctic

section columns
variable {full power dw : ℝ} {gs : List (List Trap)} {i : Bool} {c : CCD} {o : ℕ} {d : PyDirection}

theorem ExactObjects.surplus (h : ExactObjects full power dw gs i c o d) (hpw : 1 ≤ power)
    (hfew : trapCount gs * power ≤ full) (n : ℕ) (x y : ℕ → ℝ) (hxy : ∀ r < n, x r ≤ y r) :
    (∀ r < n, Ref.readout (wellFill full power) dw (gs.map Ref.ofTraps) (Ref.allPasses n o) x r ≤
      Ref.readout (wellFill full power) dw (gs.map Ref.ofTraps) (Ref.allPasses n o) y r) ∧
    ∑ r ∈ Finset.range n, Ref.readout (wellFill full power) dw (gs.map Ref.ofTraps) (Ref.allPasses n o) y r -
        ∑ r ∈ Finset.range n, Ref.readout (wellFill full power) dw (gs.map Ref.ofTraps) (Ref.allPasses n o) x r ≤
      ∑ r ∈ Finset.range n, y r - ∑ r ∈ Finset.range n, x r := by
  have hf := wellFill_lip h.full hpw
  exact readout_surplus hf n _ (h.few hf.nonneg_slope (by rw [← mul_div_assoc, div_le_one h.full]; exact hfew)) _
    (allPasses_one n o) x y hxy

theorem ExactObjects.contract (h : ExactObjects full power dw gs i c o d) (hpw : 1 ≤ power)
    (hfew : trapCount gs * power ≤ full) (n : ℕ) (x y : ℕ → ℝ) :
    colDist n (Ref.readout (wellFill full power) dw (gs.map Ref.ofTraps) (Ref.allPasses n o) x)
      (Ref.readout (wellFill full power) dw (gs.map Ref.ofTraps) (Ref.allPasses n o) y) ≤ colDist n x y := by
  have hf := wellFill_lip h.full hpw
  exact readout_contract hf n _ (h.few hf.nonneg_slope (by rw [← mul_div_assoc, div_le_one h.full]; exact hfew)) _
    (allPasses_one n o) x y

theorem ExactObjects.contract_background (h : ExactObjects full power dw gs i c o d) (hpw : power ≤ 1) {b low : ℝ}
    (hb : 0 < b) (hfew : trapCount gs * (wellFill full power b / b) ≤ 1) (n : ℕ)
    (hlow : b ≤ (1 - trapCount gs * (wellFill full power b / b)) ^ (n + o) * low) (x y : ℕ → ℝ)
    (hx : ∀ r < n, low ≤ x r) (hy : ∀ r < n, low ≤ y r) :
    colDist n (Ref.readout (wellFill full power) dw (gs.map Ref.ofTraps) (Ref.allPasses n o) x)
      (Ref.readout (wellFill full power) dw (gs.map Ref.ofTraps) (Ref.allPasses n o) y) ≤ colDist n x y := by
  have hcv := wellFill_concave h.full h.power hpw
  have hf := hcv.lift hb
  have hnn : 0 ≤ trapCount gs * (wellFill full power b / b) := by
    rw [← Ref.ofTraps_totals]
    refine mul_nonneg (Ref.totals_nonneg (dw := dw) fun t ht => ?_) hf.nonneg_slope
    obtain ⟨l, hl, rfl⟩ := List.mem_map.1 ht
    exact (Ref.ofTraps_ok (h.groups.2 l hl).2).reg h.dwell
  have hF := h.few hf.nonneg_slope hfew
  have htot := Ref.ofTraps_totals gs
  have same := readout_congr_fill hb.le hf (fun z hz => (liftFill_eq hz).symm) n zero_le_one _ hF
    (by rw [one_mul]; exact hF.few) _ (allPasses_good n o)
  rw [htot, allPasses_length, one_mul] at same
  set κ := trapCount gs * (wellFill full power b / b)
  have hc : 0 ≤ (1 - κ) ^ (n + o) := pow_nonneg (by linarith) _
  have hlow0 : 0 ≤ low := by
    by_contra hneg
    have := mul_nonpos_of_nonneg_of_nonpos hc (not_le.1 hneg).le
    linarith
  have up : ∀ x : ℕ → ℝ, (∀ r < n, low ≤ x r) → (∀ r < n, 0 ≤ x r) ∧ ∀ r < n, b ≤ (1 - κ) ^ (n + o) * x r :=
    fun x hx => ⟨fun r hr => hlow0.trans (hx r hr), fun r hr => hlow.trans (mul_le_mul_of_nonneg_left (hx r hr) hc)⟩
  rw [(same x (up x hx).1 (up x hx).2).1, (same y (up y hy).1 (up y hy).2).1]
  exact readout_contract hf n _ hF _ (allPasses_one n o) x y

end columns

theorem Image.dist_columns (i j : Image ℝ) :
    i.dist j = ∑ c ∈ Finset.range i.nc, colDist i.nr (fun r => i.px r c) (fun r => j.px r c) := by
  unfold Image.dist colDist
  rw [Finset.sum_comm]

section main
variable {fp fs pp ps dp ds : ℝ} {gp gs : List (List Trap)} {ip is : Bool} {cp cs : CCD} {op os : ℕ}
  {par ser : PyDirection}

/-- **C91**: `add_cti` in both directions with `well_fill_power` at least one and no more than
`full_well_depth / well_fill_power` traps per pixel: the images after CTI has been added to two images of one shape, with
any pixels, differ in all by no more than the images did. If one of them was brighter in every pixel, it still is, and
by no more electrons in all. -/
theorem C91_add_cti (img img' : Image ℝ) (hnr : 0 < img.nr) (hnc : 0 < img.nc) (hsh : img'.SameShape img)
    (hp : ExactObjects fp pp dp gp ip cp op par) (hs : ExactObjects fs ps ds gs is cs os ser)
    (hpp : 1 ≤ pp) (hps : 1 ≤ ps) (hgp : trapCount gp * pp ≤ fp) (hgs : trapCount gs * ps ≤ fs) :
    ∃ out out', addCtiPy img par .all ser .all none =
        .ok (out, .standard [dp] true true true ip, .standard [ds] true true true is) ∧
      addCtiPy img' par .all ser .all none =
        .ok (out', .standard [dp] true true true ip, .standard [ds] true true true is) ∧
      out.SameShape img ∧ out'.SameShape img ∧ out'.dist out ≤ img'.dist img ∧
      (img.Dimmer img' → out.Dimmer out' ∧ out'.total - out.total ≤ img'.total - img.total) := by
  obtain ⟨out, g1, g2, g3, g4⟩ := C55_add_cti img hnr hnc fp fs pp ps dp ds gp gs ip is cp cs op os par ser hp hs
  obtain ⟨out', q1, q2, q3, q4⟩ := C55_add_cti img' (by rw [hsh.1]; exact hnr) (by rw [hsh.2]; exact hnc)
    fp fs pp ps dp ds gp gs ip is cp cs op os par ser hp hs
  rw [hsh.1, hsh.2] at q4
  rw [hsh.1] at q2
  rw [hsh.2] at q3
  refine ⟨out, out', g1, q1, ⟨g2, g3⟩, ⟨q2, q3⟩, ?_, fun hle => ⟨⟨by rw [g2, q2], by rw [g3, q3], fun r hr c hc => ?_⟩, ?_⟩⟩
  · have e1 : out'.dist out = ∑ r ∈ Finset.range img.nr, colDist img.nc (fun c => out'.px r c) (fun c => out.px r c) := by
      unfold Image.dist colDist
      rw [q2, q3]
    rw [e1]
    set u : ℕ → ℕ → ℝ := fun r c =>
      Ref.readout (wellFill fp pp) dp (gp.map Ref.ofTraps) (Ref.allPasses img.nr op) (fun r => img.px r c) r with hu
    set u' : ℕ → ℕ → ℝ := fun r c =>
      Ref.readout (wellFill fp pp) dp (gp.map Ref.ofTraps) (Ref.allPasses img.nr op) (fun r => img'.px r c) r with hu'
    have h1 : ∑ r ∈ Finset.range img.nr, colDist img.nc (fun c => out'.px r c) (fun c => out.px r c) ≤
        ∑ r ∈ Finset.range img.nr, colDist img.nc (u' r) (u r) := by
      refine Finset.sum_le_sum fun r hr => ?_
      have hr' := Finset.mem_range.1 hr
      refine le_trans (le_of_eq ?_) (hs.contract hps hgs img.nc (u' r) (u r))
      unfold colDist
      refine Finset.sum_congr rfl fun c hc => ?_
      simp only
      rw [q4 r hr' c (Finset.mem_range.1 hc), g4 r hr' c (Finset.mem_range.1 hc)]
    refine h1.trans ?_
    rw [Image.dist_columns, hsh.1, hsh.2]
    unfold colDist
    rw [Finset.sum_comm]
    refine Finset.sum_le_sum fun c _ => ?_
    exact hp.contract hpp hgp img.nr (fun r => img'.px r c) (fun r => img.px r c)
  · rw [g2] at hr
    rw [g3] at hc
    rw [g4 r hr c hc, q4 r hr c hc]
    exact hs.mono (L := 0) hps hgs img.nc _ _
      (fun c hc => hp.mono (L := 0) hpp hgp img.nr _ _ (fun r hr => hle.px r hr c hc) r hr) c hc
  · set u : ℕ → ℕ → ℝ := fun r c =>
      Ref.readout (wellFill fp pp) dp (gp.map Ref.ofTraps) (Ref.allPasses img.nr op) (fun r => img.px r c) r with hu
    set u' : ℕ → ℕ → ℝ := fun r c =>
      Ref.readout (wellFill fp pp) dp (gp.map Ref.ofTraps) (Ref.allPasses img.nr op) (fun r => img'.px r c) r with hu'
    have P := fun c (hc : c < img.nc) => hp.surplus hpp hgp img.nr (fun r => img.px r c) (fun r => img'.px r c)
      (fun r hr => hle.px r hr c hc)
    have S := fun r (hr : r < img.nr) => hs.surplus hps hgs img.nc (u r) (u' r) (fun c hc => (P c hc).1 r hr)
    have h1 : out'.total - out.total ≤ ∑ r ∈ Finset.range img.nr,
        (∑ c ∈ Finset.range img.nc, u' r c - ∑ c ∈ Finset.range img.nc, u r c) := by
      unfold Image.total
      rw [q2, q3, g2, g3, ← Finset.sum_sub_distrib]
      refine Finset.sum_le_sum fun r hr => ?_
      have hr' := Finset.mem_range.1 hr
      refine le_trans (le_of_eq ?_) (S r hr').2
      congr 1
      · exact Finset.sum_congr rfl fun c hc => q4 r hr' c (Finset.mem_range.1 hc)
      · exact Finset.sum_congr rfl fun c hc => g4 r hr' c (Finset.mem_range.1 hc)
    refine h1.trans ?_
    unfold Image.total
    rw [hsh.1, hsh.2, Finset.sum_sub_distrib, Finset.sum_comm, Finset.sum_comm (s := Finset.range img.nr) (f := u),
      Finset.sum_comm (f := img'.px), Finset.sum_comm (s := Finset.range img.nr) (f := img.px), ← Finset.sum_sub_distrib,
      ← Finset.sum_sub_distrib]
    exact Finset.sum_le_sum fun c hc => (P c (Finset.mem_range.1 hc)).2

/-- **C91** for parallel clocking with `well_fill_power ≤ 1` and a background: `b` is a number of electrons that every
pixel keeps during the readout, `k` is at least the number of traps per pixel times the volume per electron of a cloud of
`b` electrons, `low` electrons per pixel before readout guarantee `b` throughout. -/
theorem C91_background (hp : ExactObjects fp pp dp gp ip cp op par) (hpp : pp ≤ 1) (img img' : Image ℝ)
    (hnr : 0 < img.nr) (hsh : img'.SameShape img) (b low k : ℝ) (hb : 0 < b)
    (hk : trapCount gp * (wellFill fp pp b / b) ≤ k) (hk1 : k ≤ 1) (hlow : b ≤ (1 - k) ^ (img.nr + op) * low)
    (hi : ∀ r < img.nr, ∀ c < img.nc, low ≤ img.px r c ∧ low ≤ img'.px r c) :
    ∃ out out', addCtiPy img par .all .absent .all none = .ok (out, .standard [dp] true true true ip, Roe.default) ∧
      addCtiPy img' par .all .absent .all none = .ok (out', .standard [dp] true true true ip, Roe.default) ∧
      out.SameShape img ∧ out'.SameShape img ∧ out'.dist out ≤ img'.dist img := by
  obtain ⟨out, g1, g2, g3, g4⟩ := C55_parallel img hnr fp pp dp gp ip cp op par hp
  obtain ⟨out', q1, q2, q3, q4⟩ := C55_parallel img' (by rw [hsh.1]; exact hnr) fp pp dp gp ip cp op par hp
  rw [hsh.1, hsh.2] at q4
  rw [hsh.1] at q2
  rw [hsh.2] at q3
  refine ⟨out, out', g1, q1, ⟨g2, g3⟩, ⟨q2, q3⟩, ?_⟩
  have hlow0 : 0 ≤ low := by
    by_contra hneg
    have := mul_nonpos_of_nonneg_of_nonpos (pow_nonneg (by linarith : 0 ≤ 1 - k) (img.nr + op)) (not_le.1 hneg).le
    linarith
  rw [Image.dist_columns, Image.dist_columns, q2, q3, hsh.1, hsh.2]
  refine Finset.sum_le_sum fun c hc => ?_
  have hc' := Finset.mem_range.1 hc
  refine le_trans (le_of_eq ?_) (hp.contract_background hpp hb (hk.trans hk1) img.nr (low := low) ?_
    (fun r => img'.px r c) (fun r => img.px r c) (fun r hr => (hi r hr c hc').2) (fun r hr => (hi r hr c hc').1))
  · unfold colDist
    refine Finset.sum_congr rfl fun r hr => ?_
    simp only
    rw [q4 r (Finset.mem_range.1 hr) c hc', g4 r (Finset.mem_range.1 hr) c hc']
  · exact hlow.trans (mul_le_mul_of_nonneg_right (pow_le_pow_left₀ (by linarith) (by linarith) _) hlow0)

end main

/-- **C91** for the HST preset: parallel clocking of two images with a background. -/
theorem C91_hst (date : ℝ) (hd : 2452334.5 ≤ date) (img img' : Image ℝ) (hnr : 0 < img.nr) (hsh : img'.SameShape img)
    (o : ℕ) (b low k : ℝ) (hb : 0 < b) (hk : hstTotalDensity date * (wellFill 84700 0.478 b / b) ≤ k) (hk1 : k ≤ 1)
    (hlow : b ≤ (1 - k) ^ (img.nr + o) * low) (hi : ∀ r < img.nr, ∀ c < img.nc, low ≤ img.px r c ∧ low ≤ img'.px r c) :
    ∃ traps ccd roe out out', modelForHstAcs date = .ok (traps, ccd, roe) ∧
      addCtiPy img ⟨some ccd, some roe, some (.list (traps.map .trap)), 0, o⟩ .all .absent .all none =
        .ok (out, roe, Roe.default) ∧
      addCtiPy img' ⟨some ccd, some roe, some (.list (traps.map .trap)), 0, o⟩ .all .absent .all none =
        .ok (out', roe, Roe.default) ∧
      out.SameShape img ∧ out'.SameShape img ∧ out'.dist out ≤ img'.dist img := by
  obtain ⟨traps, ccd, h, hne, hx⟩ := hst_exact date hd o
  have hcount : trapCount [traps] = hstTotalDensity date := by
    obtain ⟨d₁, d₂, d₃, τ₁, τ₂, τ₃, ht, -, -, -, -, -, hsum, -⟩ := C42_species date traps ccd _ h
    rw [← hsum, ht]
    simp [trapCount, Trap.density]
    ring
  obtain ⟨out, out', g1, q1, s1, s2, s3⟩ := C91_background hx (by norm_num) img img' hnr hsh b low k hb
    (by rw [hcount]; exact hk) hk1 hlow hi
  refine ⟨traps, ccd, _, out, out', h, ?_, ?_, s1, s2, s3⟩
  · exact (addCtiPy_trap_list img ⟨some ccd, some (.standard [1] true true true false), none, 0, o⟩ traps hne .all
      .absent .all none).trans g1
  · exact (addCtiPy_trap_list img' ⟨some ccd, some (.standard [1] true true true false), none, 0, o⟩ traps hne .all
      .absent .all none).trans q1

/-! ### where it fails -/

/-- Clouds that fill the volume with the cube of their charge, full well of 100 electrons. -/
def fillCube (n : ℚ) : ℚ := if n ≤ 0 then 0 else if 100 ≤ n then 1 else (n / 100) ^ 3

/-- Ninety traps per pixel. -/
def exNinety : Direction ℚ := ⟨⟨[1], fun _ => fillCube⟩, exRoe, [⟨1, fun _ => 90, .instant fun _ _ => 1 / 2⟩], 0, 0⟩

/-- **C91** fails with too many traps: with 90 traps in a well of 100 electrons and `well_fill_power = 3`, pixels of 90
and 100 electrons come out more than 14 electrons apart. -/
theorem C91_many_false :
    (addCti (exImg 1 1 [[90]]) (some exNinety) 0 .all none .all none).map (fun x => x.1.px 0 0) = .ok (2439 / 100) ∧
      (addCti (exImg 1 1 [[100]]) (some exNinety) 0 .all none .all none).map (fun x => x.1.px 0 0) = .ok 10 ∧
      (100 - 90 : ℚ) < 2439 / 100 - 10 := by
  refine ⟨?_, ?_, by norm_num⟩ <;> decide +kernel

/-- Ten traps per pixel, read with `express = 1`. -/
def exQuick : Direction ℚ := ⟨⟨[1], fun _ => fillSquare⟩, exRoe, [⟨1, fun _ => 10, .instant fun _ _ => 1 / 2⟩], 1, 0⟩

/-- **C91** fails with `express = 1`, where one computed transfer stands for several: a pixel of 100 electrons in an
otherwise empty column makes a difference of 100 electrons to the column without it before, and more after. -/
theorem C91_express_false :
    (addCti (exImg 3 1 [[0], [0], [0]]) (some exQuick) 0 .all none .all none).map
        (fun x => (x.1.px 0 0, x.1.px 1 0, x.1.px 2 0)) = .ok (0, 0, 0) ∧
      (addCti (exImg 3 1 [[100], [0], [0]]) (some exQuick) 0 .all none .all none).map
        (fun x => (x.1.px 0 0, x.1.px 1 0, x.1.px 2 0)) = .ok (90, 399 / 40, 384477597 / 51200000) ∧
      (100 : ℚ) < 90 + 399 / 40 + 384477597 / 51200000 := by
  refine ⟨?_, ?_, by norm_num⟩ <;> decide +kernel

/-! ### examples -/

/-- Both directions: a linear well of 1000 electrons with half a trap per pixel; images with a negative pixel, at distance
six. -/
example (c : CCD) (d : PyDirection) (h : ExactObjects 1000 1 1 [[.instant (1 / 2) 5 false]] false c 0 d) :
    ∃ out out', addCtiPy ⟨3, 2, fun _ _ => -1⟩ d .all d .all none =
        .ok (out, .standard [1] true true true false, .standard [1] true true true false) ∧
      addCtiPy ⟨3, 2, fun r _ => if r = 0 then 2 else -1⟩ d .all d .all none =
        .ok (out', .standard [1] true true true false, .standard [1] true true true false) ∧
      out'.dist out ≤ 6 := by
  have hc : trapCount [[.instant (1 / 2) 5 false]] = 1 / 2 := by simp [trapCount, Trap.density]
  obtain ⟨out, out', h1, h2, -, -, h3, -⟩ := C91_add_cti (⟨3, 2, fun _ _ => -1⟩ : Image ℝ)
    (⟨3, 2, fun r _ => if r = 0 then 2 else -1⟩ : Image ℝ) (by norm_num) (by norm_num) ⟨rfl, rfl⟩ h h le_rfl le_rfl
    (by rw [hc]; norm_num) (by rw [hc]; norm_num)
  refine ⟨out, out', h1, h2, h3.trans ?_⟩
  simp [Image.dist, Finset.sum_range_succ]
  norm_num

/-- The preset, ten rows of 1000 electrons and the same image with a star. -/
example : ∃ traps ccd roe out out', modelForHstAcs 2452335.5 = .ok (traps, ccd, roe) ∧
    addCtiPy ⟨10, 1, fun _ _ => 1000⟩ ⟨some ccd, some roe, some (.list (traps.map .trap)), 0, 0⟩ .all .absent .all none =
      .ok (out, roe, Roe.default) ∧
    addCtiPy ⟨10, 1, fun r _ => if r = 4 then 5000 else 1000⟩ ⟨some ccd, some roe, some (.list (traps.map .trap)), 0, 0⟩
      .all .absent .all none = .ok (out', roe, Roe.default) ∧ out'.dist out ≤ 4000 := by
  have hdens : hstTotalDensity 2452335.5 = 0.01819988 := by unfold hstTotalDensity; norm_num
  have hw := (wellFill_exact (full := 84700) (power := 0.478) (by norm_num) (by norm_num)).1.le_one 100
  obtain ⟨traps, ccd, roe, out, out', h1, h2, h3, -, -, h4⟩ := C91_hst 2452335.5 (by norm_num)
    (⟨10, 1, fun _ _ => 1000⟩ : Image ℝ) (⟨10, 1, fun r _ => if r = 4 then 5000 else 1000⟩ : Image ℝ)
    (by norm_num) ⟨rfl, rfl⟩ 0 100 101 0.0002 (by norm_num) (by rw [hdens]; norm_num; linarith) (by norm_num) (by norm_num)
    (fun r _ c _ => ⟨by norm_num, by simp only; split <;> norm_num⟩)
  refine ⟨traps, ccd, roe, out, out', h1, h2, h3, h4.trans ?_⟩
  simp [Image.dist, Finset.sum_range_succ]
  norm_num

end Arctic
