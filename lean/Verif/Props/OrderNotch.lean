import Verif.Props.NotchBackground
import Verif.Props.OrderFull

/-!
# C124 — over a background, CTI does not drive images apart, with a notch and any well_fill_power
-/

set_option linter.unusedSectionVars false
set_option linter.unusedVariables false

namespace Arctic

section columns
variable {notch full power dw : ℝ} {gs : List (List Trap)} {i : Bool} {c : CCD} {o n : ℕ} {d : PyDirection} {b low left k : ℝ}

theorem NotchObjects.calm (h : NotchObjects notch full power dw gs i c o d) :
    Ref.FullCalm dw (trapCount gs) (gs.map Ref.fullOf) :=
  ⟨fun t ht => by
    obtain ⟨l, hl, rfl⟩ := List.mem_map.1 ht
    exact (h.groups.2 l hl).full_calm h.dwell, h.few.1.total⟩

/-- The readout over a background is that of a law that is Lipschitz. -/
theorem NotchObjects.lifted (h : NotchObjects notch full power dw gs i c o d)
    (hb : OverNotch notch full power gs (n + o) b low left k) (x : ℕ → ℝ) (hx : ∀ r < n, low ≤ x r) :
    Ref.stepReadout (Ref.fullStep (notchFill notch full power) dw) (gs.map Ref.fullOf) (Ref.allPasses n o) x =
      Ref.stepReadout (Ref.fullStep (liftFill (notchFill notch full power) b) dw) (gs.map Ref.fullOf) (Ref.allPasses n o) x :=
  ((h.law hb.pos).readout (dw := dw) h.count_nonneg (by linarith [hb.slope, hb.slope_le]) h.few.1 n o x (hb.above hx).2
    (hb.above hx).1).2.1

theorem NotchObjects.floor (h : NotchObjects notch full power dw gs i c o d)
    (hb : OverNotch notch full power gs (n + o) b low left k) (x : ℕ → ℝ) (hx : ∀ r < n, low ≤ x r) :
    ∀ r < n, left ≤ Ref.stepReadout (Ref.fullStep (notchFill notch full power) dw) (gs.map Ref.fullOf) (Ref.allPasses n o) x r := by
  intro r hr
  have hk0 := mul_nonneg h.count_nonneg (h.law hb.pos).lip.nonneg_slope
  exact ((hb.leaves.trans (mul_le_mul_of_nonneg_right hb.le_pow hb.low_nonneg)).trans
    (mul_le_mul_of_nonneg_left (hx r hr) (pow_nonneg (by linarith [hb.slope, hb.slope_le]) _))).trans
    (((h.law hb.pos).readout (dw := dw) h.count_nonneg (by linarith [hb.slope, hb.slope_le]) h.few.1 n o x (hb.above hx).2
      (hb.above hx).1).2.2 r hr)

theorem NotchObjects.orderly (h : NotchObjects notch full power dw gs i c o d)
    (hb : OverNotch notch full power gs (n + o) b low left k) (hk : 2 * k ≤ 1) :
    Orderly (Ref.fullStep (liftFill (notchFill notch full power) b) dw) (Ref.FullCalm dw (trapCount gs))
      (List.Forall₂ (Ref.FullBelow dw)) Ref.fullFilled :=
  full_orderly (h.law hb.pos).lip (by linarith [hb.slope]) h.count_nonneg

theorem NotchObjects.orderly_readout (h : NotchObjects notch full power dw gs i c o d)
    (hb : OverNotch notch full power gs (n + o) b low left k) (hk : 2 * k ≤ 1) (x y : ℕ → ℝ) (hx : ∀ r < n, low ≤ x r)
    (hy : ∀ r < n, low ≤ y r) (hxy : ∀ r < n, x r ≤ y r) :
    (∀ r < n, Ref.stepReadout (Ref.fullStep (notchFill notch full power) dw) (gs.map Ref.fullOf) (Ref.allPasses n o) x r ≤
      Ref.stepReadout (Ref.fullStep (notchFill notch full power) dw) (gs.map Ref.fullOf) (Ref.allPasses n o) y r) ∧
    ∑ r ∈ Finset.range n, Ref.stepReadout (Ref.fullStep (notchFill notch full power) dw) (gs.map Ref.fullOf) (Ref.allPasses n o) y r -
        ∑ r ∈ Finset.range n, Ref.stepReadout (Ref.fullStep (notchFill notch full power) dw) (gs.map Ref.fullOf) (Ref.allPasses n o) x r ≤
      ∑ r ∈ Finset.range n, y r - ∑ r ∈ Finset.range n, x r := by
  rw [h.lifted hb x hx, h.lifted hb y hy]
  exact (h.orderly hb hk).readout n h.calm _ (allPasses_one n o) x y hxy

theorem NotchObjects.orderly_contract (h : NotchObjects notch full power dw gs i c o d)
    (hb : OverNotch notch full power gs (n + o) b low left k) (hk : 2 * k ≤ 1) (x y : ℕ → ℝ) (hx : ∀ r < n, low ≤ x r)
    (hy : ∀ r < n, low ≤ y r) :
    colDist n (Ref.stepReadout (Ref.fullStep (notchFill notch full power) dw) (gs.map Ref.fullOf) (Ref.allPasses n o) x)
      (Ref.stepReadout (Ref.fullStep (notchFill notch full power) dw) (gs.map Ref.fullOf) (Ref.allPasses n o) y) ≤ colDist n x y := by
  rw [h.lifted hb x hx, h.lifted hb y hy]
  exact (h.orderly hb hk).contract n h.calm _ (allPasses_one n o) x y

end columns

section main
variable {wp ws fp fs pp ps dp ds : ℝ} {gp gs : List (List Trap)} {ip is : Bool} {cp cs : CCD} {op os : ℕ}
  {par ser : PyDirection} {bp bs lp ls left kp ks : ℝ}

/-- **C124**: `add_cti` in both directions with groups of traps of all classes, a notch and any `well_fill_power`, of two images over a
background that is kept above `b` electrons. If the traps per pixel times the volume per electron of such clouds are at most one half,
the images after CTI has been added differ in all by no more than the images did. If one of them was brighter in every pixel, it still
is, and by no more electrons in all. -/
theorem C124_add_cti (img img' : Image ℝ) (h0 : img.AtLeast lp) (h0' : img'.AtLeast lp) (hnr : 0 < img.nr) (hnc : 0 < img.nc)
    (hsh : img'.SameShape img)
    (hp : NotchObjects wp fp pp dp gp ip cp op par) (hs : NotchObjects ws fs ps ds gs is cs os ser)
    (hbp : OverNotch wp fp pp gp (img.nr + op) bp lp ls kp) (hbs : OverNotch ws fs ps gs (img.nc + os) bs ls left ks)
    (hkp : 2 * kp ≤ 1) (hks : 2 * ks ≤ 1) :
    ∃ out out', addCtiPy img par .all ser .all none =
        .ok (out, .standard [dp] true true true ip, .standard [ds] true true true is) ∧
      addCtiPy img' par .all ser .all none =
        .ok (out', .standard [dp] true true true ip, .standard [ds] true true true is) ∧
      out.SameShape img ∧ out'.SameShape img ∧ out'.dist out ≤ img'.dist img ∧
      (img.Dimmer img' → out.Dimmer out' ∧ out'.total - out.total ≤ img'.total - img.total) := by
  obtain ⟨out, g1, g2, g3, -, g4⟩ := C116_add_cti hp hs img hnr hnc hbp hbs h0
  obtain ⟨out', q1, q2, q3, -, q4⟩ := C116_add_cti hp hs img' (by rw [hsh.1]; exact hnr) (by rw [hsh.2]; exact hnc)
    (by rw [hsh.1]; exact hbp) (by rw [hsh.2]; exact hbs) h0'
  have h0i : ∀ r < img.nr, ∀ c < img.nc, lp ≤ img'.px r c := fun r hr c hc => h0' r (by rw [hsh.1]; exact hr) c (by rw [hsh.2]; exact hc)
  have fl := fun c (hc : c < img.nc) => hp.floor hbp (fun r => img.px r c) fun r hr => h0 r hr c hc
  have fl' := fun c (hc : c < img.nc) => hp.floor hbp (fun r => img'.px r c) fun r hr => h0i r hr c hc
  rw [hsh.1, hsh.2] at q4
  rw [hsh.1] at q2
  rw [hsh.2] at q3
  refine ⟨out, out', g1, q1, ⟨g2, g3⟩, ⟨q2, q3⟩, ?_, fun hle => ⟨⟨by rw [g2, q2], by rw [g3, q3], fun r hr c hc => ?_⟩, ?_⟩⟩
  · have e1 : out'.dist out = ∑ r ∈ Finset.range img.nr, colDist img.nc (fun c => out'.px r c) (fun c => out.px r c) := by
      unfold Image.dist colDist
      rw [q2, q3]
    rw [e1]
    set u : ℕ → ℕ → ℝ := fun r c =>
      Ref.stepReadout (Ref.fullStep (notchFill wp fp pp) dp) (gp.map Ref.fullOf) (Ref.allPasses img.nr op) (fun r => img.px r c) r with hu
    set u' : ℕ → ℕ → ℝ := fun r c =>
      Ref.stepReadout (Ref.fullStep (notchFill wp fp pp) dp) (gp.map Ref.fullOf) (Ref.allPasses img.nr op) (fun r => img'.px r c) r with hu'
    have h1 : ∑ r ∈ Finset.range img.nr, colDist img.nc (fun c => out'.px r c) (fun c => out.px r c) ≤
        ∑ r ∈ Finset.range img.nr, colDist img.nc (u' r) (u r) := by
      refine Finset.sum_le_sum fun r hr => ?_
      have hr' := Finset.mem_range.1 hr
      refine le_trans (le_of_eq ?_) (hs.orderly_contract hbs hks (u' r) (u r) (fun c hc => fl' c hc r hr') fun c hc => fl c hc r hr')
      unfold colDist
      refine Finset.sum_congr rfl fun c hc => ?_
      simp only
      rw [q4 r hr' c (Finset.mem_range.1 hc), g4 r hr' c (Finset.mem_range.1 hc)]
    refine h1.trans ?_
    rw [Image.dist_columns, hsh.1, hsh.2]
    unfold colDist
    rw [Finset.sum_comm]
    refine Finset.sum_le_sum fun c hc => ?_
    have hc' := Finset.mem_range.1 hc
    exact hp.orderly_contract hbp hkp (fun r => img'.px r c) (fun r => img.px r c) (fun r hr => h0i r hr c hc') fun r hr => h0 r hr c hc'
  · rw [g2] at hr
    rw [g3] at hc
    rw [g4 r hr c hc, q4 r hr c hc]
    exact (hs.orderly_readout hbs hks _ _ (fun c hc => fl c hc r hr) (fun c hc => fl' c hc r hr) (fun c hc =>
      (hp.orderly_readout hbp hkp _ _ (fun r hr => h0 r hr c hc) (fun r hr => h0i r hr c hc) (fun r hr => hle.px r hr c hc)).1 r
        hr)).1 c hc
  · set u : ℕ → ℕ → ℝ := fun r c =>
      Ref.stepReadout (Ref.fullStep (notchFill wp fp pp) dp) (gp.map Ref.fullOf) (Ref.allPasses img.nr op) (fun r => img.px r c) r with hu
    set u' : ℕ → ℕ → ℝ := fun r c =>
      Ref.stepReadout (Ref.fullStep (notchFill wp fp pp) dp) (gp.map Ref.fullOf) (Ref.allPasses img.nr op) (fun r => img'.px r c) r with hu'
    have P := fun c (hc : c < img.nc) => hp.orderly_readout hbp hkp (fun r => img.px r c) (fun r => img'.px r c)
      (fun r hr => h0 r hr c hc) (fun r hr => h0i r hr c hc) (fun r hr => hle.px r hr c hc)
    have S := fun r (hr : r < img.nr) => hs.orderly_readout hbs hks (u r) (u' r) (fun c hc => fl c hc r hr)
      (fun c hc => fl' c hc r hr) (fun c hc => (P c hc).1 r hr)
    have h1 : out'.total - out.total ≤ ∑ r ∈ Finset.range img.nr,
        (∑ c ∈ Finset.range img.nc, u' r c - ∑ c ∈ Finset.range img.nc, u r c) := by
      unfold Image.total
      rw [q2, q3, g2, g3, ← Finset.sum_sub_distrib]
      refine Finset.sum_le_sum fun r hr => ?_
      have hr' := Finset.mem_range.1 hr
      refine le_trans (le_of_eq ?_) (S r hr').2
      congr 1
      · exact Finset.sum_congr rfl fun c hc => q4 r hr' c (Finset.mem_range.1 hc)
      · exact Finset.sum_congr rfl fun c hc => g4 r hr' c (Finset.mem_range.1 hc)
    refine h1.trans ?_
    unfold Image.total
    rw [hsh.1, hsh.2, Finset.sum_sub_distrib, Finset.sum_comm, Finset.sum_comm (s := Finset.range img.nr) (f := u),
      Finset.sum_comm (f := img'.px), Finset.sum_comm (s := Finset.range img.nr) (f := img.px), ← Finset.sum_sub_distrib,
      ← Finset.sum_sub_distrib]
    exact Finset.sum_le_sum fun c hc => (P c (Finset.mem_range.1 hc)).2

/-- **C124** for parallel clocking. -/
theorem C124_parallel (img img' : Image ℝ) (h0 : img.AtLeast lp) (h0' : img'.AtLeast lp) (hnr : 0 < img.nr)
    (hsh : img'.SameShape img) (hp : NotchObjects wp fp pp dp gp ip cp op par)
    (hbp : OverNotch wp fp pp gp (img.nr + op) bp lp left kp) (hkp : 2 * kp ≤ 1) :
    ∃ out out', addCtiPy img par .all .absent .all none = .ok (out, .standard [dp] true true true ip, Roe.default) ∧
      addCtiPy img' par .all .absent .all none = .ok (out', .standard [dp] true true true ip, Roe.default) ∧
      out.SameShape img ∧ out'.SameShape img ∧ out'.dist out ≤ img'.dist img ∧
      (img.Dimmer img' → out.Dimmer out' ∧ out'.total - out.total ≤ img'.total - img.total) := by
  obtain ⟨out, g1, g2, g3, -, g4⟩ := C116_parallel hp img hnr hbp h0
  obtain ⟨out', q1, q2, q3, -, q4⟩ := C116_parallel hp img' (by rw [hsh.1]; exact hnr) (by rw [hsh.1]; exact hbp) h0'
  have h0i : ∀ r < img.nr, ∀ c < img.nc, lp ≤ img'.px r c := fun r hr c hc => h0' r (by rw [hsh.1]; exact hr) c (by rw [hsh.2]; exact hc)
  rw [hsh.1, hsh.2] at q4
  rw [hsh.1] at q2
  rw [hsh.2] at q3
  refine ⟨out, out', g1, q1, ⟨g2, g3⟩, ⟨q2, q3⟩, ?_, fun hle => ⟨⟨by rw [g2, q2], by rw [g3, q3], fun r hr c hc => ?_⟩, ?_⟩⟩
  · rw [Image.dist_columns, Image.dist_columns, q2, q3, hsh.1, hsh.2]
    refine Finset.sum_le_sum fun c hc => ?_
    have hc' := Finset.mem_range.1 hc
    refine le_trans (le_of_eq ?_) (hp.orderly_contract hbp hkp (fun r => img'.px r c) (fun r => img.px r c)
      (fun r hr => h0i r hr c hc') fun r hr => h0 r hr c hc')
    unfold colDist
    refine Finset.sum_congr rfl fun r hr => ?_
    simp only
    rw [q4 r (Finset.mem_range.1 hr) c hc', g4 r (Finset.mem_range.1 hr) c hc']
  · rw [g2] at hr
    rw [g3] at hc
    rw [g4 r hr c hc, q4 r hr c hc]
    exact (hp.orderly_readout hbp hkp _ _ (fun r hr => h0 r hr c hc) (fun r hr => h0i r hr c hc) (fun r hr => hle.px r hr c hc)).1 r hr
  · unfold Image.total
    rw [q2, q3, g2, g3, hsh.1, hsh.2, Finset.sum_comm (f := out'.px), Finset.sum_comm (f := out.px),
      Finset.sum_comm (f := img'.px), Finset.sum_comm (f := img.px), ← Finset.sum_sub_distrib, ← Finset.sum_sub_distrib]
    refine Finset.sum_le_sum fun c hc => ?_
    have hc' := Finset.mem_range.1 hc
    refine le_trans (le_of_eq ?_) (hp.orderly_readout hbp hkp (fun r => img.px r c) (fun r => img'.px r c)
      (fun r hr => h0 r hr c hc') (fun r hr => h0i r hr c hc') (fun r hr => hle.px r hr c hc')).2
    congr 1
    · exact Finset.sum_congr rfl fun r hr => q4 r (Finset.mem_range.1 hr) c hc'
    · exact Finset.sum_congr rfl fun r hr => g4 r (Finset.mem_range.1 hr) c hc'

end main

/-! ### a case -/

/-- Three rows and two columns of 200 electrons, and the same image with 50 electrons more in one row, a notch of 50 electrons and
`well_fill_power = 1/2`: brighter after CTI has been added, by no more than 100 electrons in all. -/
example (d : PyDirection) (hd : d = ⟨some ⟨[1], [1050], [1 / 2], [50], [.num 1050]⟩, some (.standard [1] true true true false),
      some (.list ([[.logNormalTrap 0.1 3 (1 / 2)], [.trap 0.1 2 0.1 false], [.instant 0.1 5 false]].map .group)), 0, 2⟩) :
    ∃ out out', addCtiPy ⟨3, 2, fun _ _ => 200⟩ d .all d .all none =
        .ok (out, .standard [1] true true true false, .standard [1] true true true false) ∧
      addCtiPy ⟨3, 2, fun r _ => if r = 1 then 250 else 200⟩ d .all d .all none =
        .ok (out', .standard [1] true true true false, .standard [1] true true true false) ∧
      out.Dimmer out' ∧ out'.dist out ≤ 100 := by
  have h := exNotch
  rw [← hd] at h
  obtain ⟨out, out', g1, g2, -, -, g3, g4⟩ := C124_add_cti (bp := 112.5) (bs := 112.5) (lp := 120) (ls := 115) (left := 112.5)
    (kp := 0.0012) (ks := 0.0012) (⟨3, 2, fun _ _ => 200⟩ : Image ℝ)
    (⟨3, 2, fun r _ => if r = 1 then 250 else 200⟩ : Image ℝ) (fun r _ c _ => by norm_num)
    (fun r _ c _ => by simp only; split <;> norm_num) (by norm_num) (by norm_num) ⟨rfl, rfl⟩ h h
    ⟨by norm_num, by norm_num, by rw [exFull_count, exNotch_slope]; norm_num, by norm_num, by norm_num, by norm_num⟩
    ⟨by norm_num, by norm_num, by rw [exFull_count, exNotch_slope]; norm_num, by norm_num, by norm_num, by norm_num⟩
    (by norm_num) (by norm_num)
  refine ⟨out, out', g1, g2, (g4 ⟨rfl, rfl, fun r _ c _ => by simp only; split <;> norm_num⟩).1, g3.trans ?_⟩
  simp [Image.dist, Finset.sum_range_succ]
  norm_num

end Arctic
