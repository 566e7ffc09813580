import Verif.Lemmas.MixOrder
import Verif.Props.Contract
import Verif.Props.InvertSlow

/-!
# C102 — CTI from traps with capture timescales does not drive images apart
-/

set_option linter.unusedSectionVars false
set_option linter.unusedVariables false

namespace Arctic

section columns
variable {full power dw : ℝ} {gs : List (List Trap)} {i : Bool} {c : CCD} {o : ℕ} {d : PyDirection}

theorem EveryGroup.mix_calm {l : List Trap} (h : EveryGroup l) {dw : ℝ} (hd : 0 < dw) : (Ref.mixOf l).Calm dw := by
  have hr := h.mix_reg hd
  unfold Ref.mixOf at hr ⊢
  split at hr
  · next d τ τc b l =>
    have hh : (Ref.slowOf (Trap.trap d τ τc b :: l)).Reg dw := hr
    refine ⟨hh, fun x j => ?_⟩
    have e : (Ref.slowOf (Trap.trap d τ τc b :: l)).occ x j = 0 := rfl
    rw [e, mul_zero]
    exact (hh.swap j).1
  · exact hr

theorem MixedObjects.calm (h : MixedObjects full power dw gs i c o d) :
    Ref.MixCalm dw (trapCount gs) (gs.map Ref.mixOf) :=
  ⟨fun t ht => by
    obtain ⟨l, hl, rfl⟩ := List.mem_map.1 ht
    exact (h.groups.2 l hl).1.mix_calm h.dwell, h.few.1.total⟩

theorem MixedObjects.orderly (h : MixedObjects full power dw gs i c o d)
    (hfew : 2 * (trapCount gs * (power / full)) ≤ 1) :
    Orderly (Ref.mixStep (wellFill full power) dw) (Ref.MixCalm dw (trapCount gs)) (List.Forall₂ (Ref.MixBelow dw))
      Ref.mixFilled :=
  mix_orderly (wellFill_lip h.full h.power) hfew h.count_nonneg

theorem MixedObjects.orderly_readout (h : MixedObjects full power dw gs i c o d)
    (hfew : 2 * (trapCount gs * (power / full)) ≤ 1) (n : ℕ) (x y : ℕ → ℝ) (hxy : ∀ r < n, x r ≤ y r) :
    (∀ r < n, Ref.stepReadout (Ref.mixStep (wellFill full power) dw) (gs.map Ref.mixOf) (Ref.allPasses n o) x r ≤
      Ref.stepReadout (Ref.mixStep (wellFill full power) dw) (gs.map Ref.mixOf) (Ref.allPasses n o) y r) ∧
    ∑ r ∈ Finset.range n, Ref.stepReadout (Ref.mixStep (wellFill full power) dw) (gs.map Ref.mixOf) (Ref.allPasses n o) y r -
        ∑ r ∈ Finset.range n,
          Ref.stepReadout (Ref.mixStep (wellFill full power) dw) (gs.map Ref.mixOf) (Ref.allPasses n o) x r ≤
      ∑ r ∈ Finset.range n, y r - ∑ r ∈ Finset.range n, x r :=
  (h.orderly hfew).readout n h.calm _ (allPasses_one n o) x y hxy

theorem MixedObjects.orderly_contract (h : MixedObjects full power dw gs i c o d)
    (hfew : 2 * (trapCount gs * (power / full)) ≤ 1) (n : ℕ) (x y : ℕ → ℝ) :
    colDist n (Ref.stepReadout (Ref.mixStep (wellFill full power) dw) (gs.map Ref.mixOf) (Ref.allPasses n o) x)
      (Ref.stepReadout (Ref.mixStep (wellFill full power) dw) (gs.map Ref.mixOf) (Ref.allPasses n o) y) ≤ colDist n x y :=
  (h.orderly hfew).contract n h.calm _ (allPasses_one n o) x y

theorem MixedObjects.once (h : MixedObjects full power dw gs i c o d)
    (hfew : 2 * (trapCount gs * (power / full)) ≤ 1) : trapCount gs * (power / full) ≤ 1 := by
  have := mul_nonneg h.count_nonneg (div_nonneg (zero_le_one.trans h.power) h.full.le)
  linarith

end columns

section main
variable {fp fs pp ps dp ds : ℝ} {gp gs : List (List Trap)} {ip is : Bool} {cp cs : CCD} {op os : ℕ}
  {par ser : PyDirection}

/-- **C102**: `add_cti` in both directions with groups of instant-capture traps and of traps with capture timescales, at
most half of `full_well_depth / well_fill_power` traps per pixel: the images after CTI has been added to two images of one
shape without negative pixels differ in all by no more than the images did. If one of them was brighter in every pixel, it
still is, and by no more electrons in all. -/
theorem C102_add_cti (img img' : Image ℝ) (h0 : img.NonNeg) (h0' : img'.NonNeg) (hnr : 0 < img.nr) (hnc : 0 < img.nc)
    (hsh : img'.SameShape img)
    (hp : MixedObjects fp pp dp gp ip cp op par) (hs : MixedObjects fs ps ds gs is cs os ser)
    (hgp : 2 * (trapCount gp * (pp / fp)) ≤ 1) (hgs : 2 * (trapCount gs * (ps / fs)) ≤ 1) :
    ∃ out out', addCtiPy img par .all ser .all none =
        .ok (out, .standard [dp] true true true ip, .standard [ds] true true true is) ∧
      addCtiPy img' par .all ser .all none =
        .ok (out', .standard [dp] true true true ip, .standard [ds] true true true is) ∧
      out.SameShape img ∧ out'.SameShape img ∧ out'.dist out ≤ img'.dist img ∧
      (img.Dimmer img' → out.Dimmer out' ∧ out'.total - out.total ≤ img'.total - img.total) := by
  obtain ⟨out, g1, g2, g3, g4⟩ := C101_add_cti hp hs (hp.once hgp) (hs.once hgs) img h0 hnr hnc
  obtain ⟨out', q1, q2, q3, q4⟩ := C101_add_cti hp hs (hp.once hgp) (hs.once hgs) img' h0' (by rw [hsh.1]; exact hnr)
    (by rw [hsh.2]; exact hnc)
  rw [hsh.1, hsh.2] at q4
  rw [hsh.1] at q2
  rw [hsh.2] at q3
  refine ⟨out, out', g1, q1, ⟨g2, g3⟩, ⟨q2, q3⟩, ?_, fun hle => ⟨⟨by rw [g2, q2], by rw [g3, q3], fun r hr c hc => ?_⟩, ?_⟩⟩
  · have e1 : out'.dist out = ∑ r ∈ Finset.range img.nr, colDist img.nc (fun c => out'.px r c) (fun c => out.px r c) := by
      unfold Image.dist colDist
      rw [q2, q3]
    rw [e1]
    set u : ℕ → ℕ → ℝ := fun r c =>
      Ref.stepReadout (Ref.mixStep (wellFill fp pp) dp) (gp.map Ref.mixOf) (Ref.allPasses img.nr op) (fun r => img.px r c) r with hu
    set u' : ℕ → ℕ → ℝ := fun r c =>
      Ref.stepReadout (Ref.mixStep (wellFill fp pp) dp) (gp.map Ref.mixOf) (Ref.allPasses img.nr op) (fun r => img'.px r c) r with hu'
    have h1 : ∑ r ∈ Finset.range img.nr, colDist img.nc (fun c => out'.px r c) (fun c => out.px r c) ≤
        ∑ r ∈ Finset.range img.nr, colDist img.nc (u' r) (u r) := by
      refine Finset.sum_le_sum fun r hr => ?_
      have hr' := Finset.mem_range.1 hr
      refine le_trans (le_of_eq ?_) (hs.orderly_contract hgs img.nc (u' r) (u r))
      unfold colDist
      refine Finset.sum_congr rfl fun c hc => ?_
      simp only
      rw [q4 r hr' c (Finset.mem_range.1 hc), g4 r hr' c (Finset.mem_range.1 hc)]
    refine h1.trans ?_
    rw [Image.dist_columns, hsh.1, hsh.2]
    unfold colDist
    rw [Finset.sum_comm]
    refine Finset.sum_le_sum fun c _ => ?_
    exact hp.orderly_contract hgp img.nr (fun r => img'.px r c) (fun r => img.px r c)
  · rw [g2] at hr
    rw [g3] at hc
    rw [g4 r hr c hc, q4 r hr c hc]
    exact (hs.orderly_readout hgs img.nc _ _
      (fun c hc => (hp.orderly_readout hgp img.nr _ _ (fun r hr => hle.px r hr c hc)).1 r hr)).1 c hc
  · set u : ℕ → ℕ → ℝ := fun r c =>
      Ref.stepReadout (Ref.mixStep (wellFill fp pp) dp) (gp.map Ref.mixOf) (Ref.allPasses img.nr op) (fun r => img.px r c) r with hu
    set u' : ℕ → ℕ → ℝ := fun r c =>
      Ref.stepReadout (Ref.mixStep (wellFill fp pp) dp) (gp.map Ref.mixOf) (Ref.allPasses img.nr op) (fun r => img'.px r c) r with hu'
    have P := fun c (hc : c < img.nc) => hp.orderly_readout hgp img.nr (fun r => img.px r c) (fun r => img'.px r c)
      (fun r hr => hle.px r hr c hc)
    have S := fun r (hr : r < img.nr) => hs.orderly_readout hgs img.nc (u r) (u' r) (fun c hc => (P c hc).1 r hr)
    have h1 : out'.total - out.total ≤ ∑ r ∈ Finset.range img.nr,
        (∑ c ∈ Finset.range img.nc, u' r c - ∑ c ∈ Finset.range img.nc, u r c) := by
      unfold Image.total
      rw [q2, q3, g2, g3, ← Finset.sum_sub_distrib]
      refine Finset.sum_le_sum fun r hr => ?_
      have hr' := Finset.mem_range.1 hr
      refine le_trans (le_of_eq ?_) (S r hr').2
      congr 1
      · exact Finset.sum_congr rfl fun c hc => q4 r hr' c (Finset.mem_range.1 hc)
      · exact Finset.sum_congr rfl fun c hc => g4 r hr' c (Finset.mem_range.1 hc)
    refine h1.trans ?_
    unfold Image.total
    rw [hsh.1, hsh.2, Finset.sum_sub_distrib, Finset.sum_comm, Finset.sum_comm (s := Finset.range img.nr) (f := u),
      Finset.sum_comm (f := img'.px), Finset.sum_comm (s := Finset.range img.nr) (f := img.px), ← Finset.sum_sub_distrib,
      ← Finset.sum_sub_distrib]
    exact Finset.sum_le_sum fun c hc => (P c (Finset.mem_range.1 hc)).2

/-- **C102** for parallel clocking. -/
theorem C102_parallel (img img' : Image ℝ) (h0 : img.NonNeg) (h0' : img'.NonNeg) (hnr : 0 < img.nr)
    (hsh : img'.SameShape img) (hp : MixedObjects fp pp dp gp ip cp op par)
    (hgp : 2 * (trapCount gp * (pp / fp)) ≤ 1) :
    ∃ out out', addCtiPy img par .all .absent .all none = .ok (out, .standard [dp] true true true ip, Roe.default) ∧
      addCtiPy img' par .all .absent .all none = .ok (out', .standard [dp] true true true ip, Roe.default) ∧
      out.SameShape img ∧ out'.SameShape img ∧ out'.dist out ≤ img'.dist img ∧
      (img.Dimmer img' → out.Dimmer out' ∧ out'.total - out.total ≤ img'.total - img.total) := by
  obtain ⟨out, g1, g2, g3, g4⟩ := C101_parallel hp (hp.once hgp) img h0 hnr
  obtain ⟨out', q1, q2, q3, q4⟩ := C101_parallel hp (hp.once hgp) img' h0' (by rw [hsh.1]; exact hnr)
  rw [hsh.1, hsh.2] at q4
  rw [hsh.1] at q2
  rw [hsh.2] at q3
  refine ⟨out, out', g1, q1, ⟨g2, g3⟩, ⟨q2, q3⟩, ?_, fun hle => ⟨⟨by rw [g2, q2], by rw [g3, q3], fun r hr c hc => ?_⟩, ?_⟩⟩
  · rw [Image.dist_columns, Image.dist_columns, q2, q3, hsh.1, hsh.2]
    refine Finset.sum_le_sum fun c hc => ?_
    have hc' := Finset.mem_range.1 hc
    refine le_trans (le_of_eq ?_) (hp.orderly_contract hgp img.nr (fun r => img'.px r c) (fun r => img.px r c))
    unfold colDist
    refine Finset.sum_congr rfl fun r hr => ?_
    simp only
    rw [q4 r (Finset.mem_range.1 hr) c hc', g4 r (Finset.mem_range.1 hr) c hc']
  · rw [g2] at hr
    rw [g3] at hc
    rw [g4 r hr c hc, q4 r hr c hc]
    exact (hp.orderly_readout hgp img.nr _ _ (fun r hr => hle.px r hr c hc)).1 r hr
  · unfold Image.total
    rw [q2, q3, g2, g3, hsh.1, hsh.2, Finset.sum_comm (f := out'.px), Finset.sum_comm (f := out.px),
      Finset.sum_comm (f := img'.px), Finset.sum_comm (f := img.px), ← Finset.sum_sub_distrib, ← Finset.sum_sub_distrib]
    refine Finset.sum_le_sum fun c hc => ?_
    have hc' := Finset.mem_range.1 hc
    refine le_trans (le_of_eq ?_) (hp.orderly_readout hgp img.nr (fun r => img.px r c) (fun r => img'.px r c)
      (fun r hr => hle.px r hr c hc')).2
    congr 1
    · exact Finset.sum_congr rfl fun r hr => q4 r (Finset.mem_range.1 hr) c hc'
    · exact Finset.sum_congr rfl fun r hr => g4 r (Finset.mem_range.1 hr) c hc'

end main

/-! ### where it fails -/

/-- **C102** needs traps that are empty at the first transfers: with `empty_traps_for_first_transfers = False`, and ten
traps of which half release their electron in a dwell time in a linear well of 100 electrons, one more electron in the first
pixel makes a difference of more than one electron after the readout. -/
theorem C102_first_false :
    let f (n : ℚ) (e : Bool) := (addCti (exImg 3 1 [[n], [50], [0]])
      (some ⟨⟨[1], fun _ => fill100⟩, .standard [1] e true true false, [exFast], 0, 0⟩) 0 .all none .all none).map
        fun x => x.1.px 0 0 + x.1.px 1 0 + x.1.px 2 0
    (do let a ← f 50 false
        let b ← f 51 false
        let c ← f 50 true
        let d ← f 51 true
        .ok (decide (b - a ≤ 1), decide (d - c ≤ 1))) = (.ok (false, true) : Except Err (Bool × Bool)) := by
  decide +kernel

/-! ### examples -/

/-- Three rows and two columns of 100 electrons, and the same image with 50 electrons more in one row: brighter after CTI
has been added, by no more than 100 electrons in all. -/
example (d : PyDirection) (hd : d = ⟨some ⟨[1], [1000], [1], [0], [.num 1000]⟩, some (.standard [1] true true true false),
      some (.list ([[.trap 0.05 2 0.1 false, .trap 0.05 3 0 false], [.instant 0.1 5 false]].map .group)), 0, 2⟩) :
    ∃ out out', addCtiPy ⟨3, 2, fun _ _ => 100⟩ d .all d .all none =
        .ok (out, .standard [1] true true true false, .standard [1] true true true false) ∧
      addCtiPy ⟨3, 2, fun r _ => if r = 1 then 150 else 100⟩ d .all d .all none =
        .ok (out', .standard [1] true true true false, .standard [1] true true true false) ∧
      out.Dimmer out' ∧ out'.dist out ≤ 100 := by
  have h := exMixed
  rw [← hd] at h
  have hc : trapCount [[.trap 0.05 2 0.1 false, .trap 0.05 3 0 false], [.instant 0.1 5 false]] = 0.2 := by
    simp [trapCount, Trap.density]; norm_num
  obtain ⟨out, out', g1, g2, -, -, g3, g4⟩ := C102_add_cti (⟨3, 2, fun _ _ => 100⟩ : Image ℝ)
    (⟨3, 2, fun r _ => if r = 1 then 150 else 100⟩ : Image ℝ) (fun r _ c _ => by norm_num)
    (fun r _ c _ => by simp only; split <;> norm_num) (by norm_num) (by norm_num) ⟨rfl, rfl⟩ h h (by rw [hc]; norm_num)
    (by rw [hc]; norm_num)
  refine ⟨out, out', g1, g2, (g4 ⟨rfl, rfl, fun r _ c _ => by simp only; split <;> norm_num⟩).1, g3.trans ?_⟩
  simp [Image.dist, Finset.sum_range_succ]
  norm_num

end Arctic
