import Verif.Lemmas.WellFill
import Verif.Props.ClockExamples

/-!
# C57 — brighter images stay brighter
-/

set_option linter.unusedSectionVars false
set_option linter.unusedVariables false

namespace Arctic

/-! ## Specification -/

/-- Images of one shape, no pixel of the first brighter than that of the second. -/
structure Image.Dimmer (i j : Image ℝ) : Prop where
  nr : j.nr = i.nr
  nc : j.nc = i.nc
  px : ∀ r < i.nr, ∀ c < i.nc, i.px r c ≤ j.px r c

/-! ## C57 -/

/-- The passes of an express matrix. -/
theorem matrixPasses_good {rows : List ℕ} {m : Mat ℝ} {mon : Mat Bool} {R : ℕ} {M : ℝ} (hnd : rows.Nodup)
    (hrows : ∀ w ∈ rows, w < R) (hm : ∀ k < m.nr, ∀ j < rows.length, 0 ≤ m.e k j ∧ m.e k j ≤ M) :
    GoodPasses R M (matrixPasses rows m mon) := by
  constructor
  · intro todo ht
    obtain ⟨k, -, rfl⟩ := List.mem_map.1 ht
    rw [List.map_map]
    have hin : ∀ a ∈ (List.range rows.length).filter fun j => mon.e k j, a < rows.length := fun a ha =>
      List.mem_range.1 (List.mem_filter.1 ha).1
    refine (List.nodup_map_iff_inj_on (List.nodup_range.filter _)).2 ?_
    intro a ha b hb hab
    simp only [Function.comp_apply] at hab
    rw [List.getD_eq_getElem _ _ (hin a ha), List.getD_eq_getElem _ _ (hin b hb)] at hab
    exact (hnd.getElem_inj_iff).1 hab
  · intro todo ht p hp
    obtain ⟨k, hk, rfl⟩ := List.mem_map.1 ht
    obtain ⟨j, hj, rfl⟩ := List.mem_map.1 hp
    have hj' := List.mem_range.1 (List.mem_filter.1 hj).1
    refine ⟨?_, hm k (List.mem_range.1 hk) j hj'⟩
    simp only
    rw [List.getD_eq_getElem _ _ hj']
    exact hrows _ (List.getElem_mem hj')

/-- **C57**, one direction of clocking, any `express` value: with a filling law of slope at most `L` and fewer than
`1 / L` traps per pixel, counted as often as one computed transfer represents (at most `⌈(rows + offset) / express⌉`
times), a brighter image is brighter everywhere afterwards. -/
theorem C57_clock (img img' : Image ℝ) (hle : img.Dimmer img') (fill : ℕ → ℝ → ℝ) (frac dw L : ℝ) (i : Bool)
    (traps : List Ref.Traps) (e o a : ℕ) (rows columns : List ℕ) (tw : Option (List ℕ)) (hcov : Covering o rows tw)
    (m : Mat ℝ) (mon : Mat Bool)
    (hm : roeExpress true i rows e o tw = .ok (m, mon)) (ha : rows.max? = some a) (hdw : 0 < dw) (hfrac : 0 < frac)
    (hf : LipFill (fill 0) L) (hpos : ∀ n, 0 < n → 0 < fill 0 n) (ht : ∀ t ∈ traps, t.Ok)
    (hrows : ∀ w ∈ rows, w < img.nr) (hrnd : rows.Nodup) (hcols : ∀ c ∈ columns, c < img.nc) (hnd : columns.Nodup)
    (hfew : (((a + 1 + o) ⌈/⌉ (if e = 0 then a + 1 + o else min e (a + 1 + o)) : ℕ) : ℝ) *
      (Ref.totals traps * frac * L) ≤ 1) :
    ∃ out out', clockCharge img ⟨[frac], fill⟩ (.standard [dw] true true true i) (traps.map Ref.Traps.group) e o rows
        columns tw = .ok (out, .standard [dw] true true true i) ∧
      clockCharge img' ⟨[frac], fill⟩ (.standard [dw] true true true i) (traps.map Ref.Traps.group) e o rows
        columns tw = .ok (out', .standard [dw] true true true i) ∧ out.Dimmer out' := by
  set M : ℝ := (((a + 1 + o) ⌈/⌉ (if e = 0 then a + 1 + o else min e (a + 1 + o)) : ℕ) : ℝ) with hMdef
  obtain ⟨out, g1, g2, g3, g4⟩ := C53_clock img fill frac dw i traps e o rows columns tw m mon hm hdw hfrac
    hf.toFillModel hpos ht hrows hcols hnd
  obtain ⟨out', q1, q2, q3, q4⟩ := C53_clock img' fill frac dw i traps e o rows columns tw m mon hm hdw hfrac
    hf.toFillModel hpos ht (fun w hw => by rw [hle.nr]; exact hrows w hw) (fun c hc => by rw [hle.nc]; exact hcols c hc)
    hnd
  have hM1 : 1 ≤ M := by
    rw [hMdef]
    have hd : 0 < (if e = 0 then a + 1 + o else min e (a + 1 + o)) := by split <;> omega
    have : 0 < (a + 1 + o) ⌈/⌉ (if e = 0 then a + 1 + o else min e (a + 1 + o)) := by
      rw [Nat.ceilDiv_eq_add_pred_div]
      exact Nat.div_pos (by omega) hd
    exact_mod_cast this
  have hent : ∀ k < m.nr, ∀ j < rows.length, 0 ≤ m.e k j ∧ m.e k j ≤ M := by
    intro k hk j hj
    rcases hcov with rfl | ⟨N, rfl, hN⟩
    · exact C03_bounds true i rows e o a m mon hm ha k j hj
    · obtain ⟨a', ha', hs, -⟩ := roeExpress_ok hm
      have h0 := roeExpress_eq (K := ℝ) true i rows e o none a' ha' hs
      simp only [restrictTimeSpan, Except.bind] at h0
      obtain ⟨m', c1, c2, -, c4⟩ := C06_default_time_window true i rows e o N hN _ _ h0
      rw [hm] at c1
      injection c1 with c1
      injection c1 with c1 _
      subst c1
      rw [c4 k (by rw [← c2]; exact hk) j]
      exact C03_bounds true i rows e o a _ _ h0 ha k j hj
  have htot : Ref.totals (traps.map fun t => t.inPhase frac) = Ref.totals traps * frac := by
    unfold Ref.totals
    rw [List.map_map, ← List.sum_map_mul_right]
    congr 1
    refine List.map_congr_left fun t _ => ?_
    change ∑ j, t.dens j * frac = (∑ j, t.dens j) * frac
    rw [Finset.sum_mul]
  have hreg : ∀ t ∈ traps.map fun t => t.inPhase frac, t.Reg dw := by
    intro t hm
    obtain ⟨u, hu, rfl⟩ := List.mem_map.1 hm
    exact ⟨fun j => mul_nonneg ((ht u hu).dens j) hfrac.le,
      fun j => ⟨((ht u hu).keep dw hdw j).1, ((ht u hu).keep dw hdw j).2.le⟩, fun _ _ => ⟨le_rfl, zero_le_one⟩,
      fun _ => measurable_const⟩
  have hnn : 0 ≤ Ref.totals (traps.map fun t => t.inPhase frac) * L :=
    mul_nonneg (Ref.totals_nonneg hreg) hf.nonneg_slope
  have hfew' : M * (Ref.totals (traps.map fun t => t.inPhase frac) * L) ≤ 1 := by rw [htot]; exact hfew
  have hgood := matrixPasses_good (mon := mon) hrnd hrows hent
  refine ⟨out, out', g1, q1, by rw [g2, q2, hle.nr], by rw [g3, q3, hle.nc], fun r hr c hc => ?_⟩
  rw [g2] at hr
  rw [g3] at hc
  rw [g4 r hr c, q4 r (by rw [hle.nr]; exact hr) c]
  split
  · refine readout_mono hf img.nr _ ⟨hreg, hf.nonneg_slope, by nlinarith⟩ _ ?_ _ _ (fun r hr => hle.px r hr c hc) r hr
    intro todo htd p hp
    obtain ⟨p1, p2, p3⟩ := hgood.mult todo htd p hp
    exact ⟨p1, p2, (mul_le_mul_of_nonneg_right p3 hnn).trans hfew'⟩
  · exact hle.px r hr c hc

theorem ExactObjects.mono {full power dw L : ℝ} {gs : List (List Trap)} {i : Bool} {c : CCD} {o : ℕ} {d : PyDirection}
    (h : ExactObjects full power dw gs i c o d) (hpw : 1 ≤ power) (hfew : trapCount gs * power ≤ full) (n : ℕ)
    (x y : ℕ → ℝ) (hxy : ∀ r < n, x r ≤ y r) :
    ∀ r < n, Ref.readout (wellFill full power) dw (gs.map Ref.ofTraps) (Ref.allPasses n o) x r ≤
      Ref.readout (wellFill full power) dw (gs.map Ref.ofTraps) (Ref.allPasses n o) y r := by
  have hf := wellFill_lip h.full hpw
  have hfew' : trapCount gs * (power / full) ≤ 1 := by
    rw [← mul_div_assoc, div_le_one h.full]; exact hfew
  have hF := h.few hf.nonneg_slope hfew'
  refine readout_mono hf n _ hF _ ?_ x y hxy
  intro todo ht p hp
  obtain ⟨p1, p2, p3⟩ := (allPasses_good n o).mult todo ht p hp
  refine ⟨p1, p2, ?_⟩
  have h0 : 0 ≤ Ref.totals (gs.map Ref.ofTraps) * (power / full) :=
    mul_nonneg (Ref.totals_nonneg hF.reg) hf.nonneg_slope
  exact (mul_le_mul_of_nonneg_right p3 h0).trans (by rw [one_mul]; exact hF.few)

/-- **C57**: `add_cti` in both directions with `well_fill_power` at least one and no more than
`full_well_depth / well_fill_power` traps per pixel: if no pixel of an image is brighter than that of another image,
the same holds after CTI has been added to both. -/
theorem C57_add_cti (img img' : Image ℝ) (hle : img.Dimmer img') (hnr : 0 < img.nr) (hnc : 0 < img.nc)
    (fp fs pp ps dp ds : ℝ) (gp gs : List (List Trap)) (ip is : Bool) (cp cs : CCD) (op os : ℕ) (par ser : PyDirection)
    (hp : ExactObjects fp pp dp gp ip cp op par) (hs : ExactObjects fs ps ds gs is cs os ser)
    (hpp : 1 ≤ pp) (hps : 1 ≤ ps) (hgp : trapCount gp * pp ≤ fp) (hgs : trapCount gs * ps ≤ fs) :
    ∃ out out', addCtiPy img par .all ser .all none =
        .ok (out, .standard [dp] true true true ip, .standard [ds] true true true is) ∧
      addCtiPy img' par .all ser .all none =
        .ok (out', .standard [dp] true true true ip, .standard [ds] true true true is) ∧ out.Dimmer out' := by
  obtain ⟨out, g1, g2, g3, g4⟩ := C55_add_cti img hnr hnc fp fs pp ps dp ds gp gs ip is cp cs op os par ser hp hs
  obtain ⟨out', q1, q2, q3, q4⟩ := C55_add_cti img' (by rw [hle.nr]; exact hnr) (by rw [hle.nc]; exact hnc)
    fp fs pp ps dp ds gp gs ip is cp cs op os par ser hp hs
  rw [hle.nr, hle.nc] at q4
  refine ⟨out, out', g1, q1, by rw [g2, q2, hle.nr], by rw [g3, q3, hle.nc], fun r hr c hc => ?_⟩
  rw [g2] at hr
  rw [g3] at hc
  rw [g4 r hr c hc, q4 r hr c hc]
  exact hs.mono (L := 0) hps hgs img.nc _ _
    (fun c hc => hp.mono (L := 0) hpp hgp img.nr _ _ (fun r hr => hle.px r hr c hc) r hr) c hc

/-! ### too many traps -/

/-- Clouds that fill the volume with the square of their charge, full well of 100 electrons. -/
def fillSquare (n : ℚ) : ℚ := if n ≤ 0 then 0 else if 100 ≤ n then 1 else (n / 100) ^ 2

/-- Sixty traps per pixel. -/
def exMany : Direction ℚ := ⟨⟨[1], fun _ => fillSquare⟩, exRoe, [⟨1, fun _ => 60, .instant fun _ _ => 1 / 2⟩], 0, 0⟩

/-- **C57** fails without the condition on the number of traps: with 60 traps in a well of 100 electrons and
`well_fill_power = 2`, the pixel of 100 electrons comes out fainter than the one of 90 electrons. -/
theorem C57_false :
    (addCti (exImg 1 1 [[90]]) (some exMany) 0 .all none .all none).map (fun x => x.1.px 0 0) = .ok (207 / 5) ∧
      (addCti (exImg 1 1 [[100]]) (some exMany) 0 .all none .all none).map (fun x => x.1.px 0 0) = .ok 40 ∧
      (40 : ℚ) < 207 / 5 := by
  refine ⟨?_, ?_, by norm_num⟩ <;> decide +kernel

/-! ### examples -/

/-- Three rows read with `express = 1`: the one computed transfer stands for three, thirty of a hundred. -/
example : ∃ out out', clockCharge (⟨3, 2, fun _ _ => 40⟩ : Image ℝ) ⟨[1], fun _ => wellFill 100 1⟩ (.standard [1] true true true false)
        ([refTraps].map Ref.Traps.group) 1 0 [0, 1, 2] [0, 1] none = .ok (out, .standard [1] true true true false) ∧
      clockCharge (⟨3, 2, fun r c => 40 + r + c⟩ : Image ℝ) ⟨[1], fun _ => wellFill 100 1⟩ (.standard [1] true true true false)
        ([refTraps].map Ref.Traps.group) 1 0 [0, 1, 2] [0, 1] none = .ok (out', .standard [1] true true true false) ∧
      out.Dimmer out' := by
  have hs : ¬ ShortMatrix true [0, 1, 2] 1 := by
    rintro ⟨-, -, h⟩
    exact absurd h (by decide)
  have hm := roeExpress_eq (K := ℝ) true false [0, 1, 2] 1 0 none 2 rfl hs
  simp only [restrictTimeSpan, Except.bind] at hm
  refine C57_clock (⟨3, 2, fun _ _ => 40⟩ : Image ℝ) (⟨3, 2, fun r c => 40 + r + c⟩ : Image ℝ) ⟨rfl, rfl, fun r _ c _ => ?_⟩
    (fun _ => wellFill 100 1) 1 1 (1 / 100) false [refTraps] 1 0 2 [0, 1, 2] [0, 1] none (Or.inl rfl) _ _ hm rfl one_pos
    one_pos (wellFill_lip (by norm_num) le_rfl) (wellFill_exact (by norm_num) one_pos).2 refExact.traps (by simp)
    (by decide) (by simp) (by decide) ?_
  · have h1 : (0 : ℝ) ≤ (r : ℝ) := Nat.cast_nonneg r
    have h2 : (0 : ℝ) ≤ (c : ℝ) := Nat.cast_nonneg c
    simp only
    linarith
  · have : Ref.totals [refTraps] = 10 := by simp [Ref.totals, Ref.Traps.total, refTraps]
    rw [this]
    have h3 : ((2 + 1 + 0) ⌈/⌉ (if (1 : ℕ) = 0 then 2 + 1 + 0 else min 1 (2 + 1 + 0)) : ℕ) = 3 := by decide
    rw [h3]
    norm_num

/-- Fourteen traps in a well of a thousand electrons. -/
example : trapCount [[.instant 10 2 false], [.instant 1 5 false, .instant 3 7 false]] * 1 ≤ 1000 := by
  norm_num [trapCount, Trap.density]

end Arctic
