import Verif.Lemmas.RefLift
import Verif.Props.EndToEnd
import Mathlib.Analysis.Convex.SpecificFunctions.Basic

/-!
# Slope of the well filling law and the trap totals of trap lists
-/

set_option linter.unusedSectionVars false
set_option linter.unusedVariables false

namespace Arctic

section level

/-- The filled fraction before the power is taken. -/
noncomputable def wellLevel (full n : ℝ) : ℝ := min 1 (max 0 (n / full))

theorem wellFill_level (full power n : ℝ) : wellFill full power n = wellLevel full n ^ power := rfl

variable {full : ℝ} (hf : 0 < full)
include hf

theorem wellLevel_mono : Monotone (wellLevel full) := fun x y h =>
  min_le_min le_rfl (max_le_max le_rfl ((div_le_div_iff_of_pos_right hf).2 h))

theorem wellLevel_bounds (n : ℝ) : 0 ≤ wellLevel full n ∧ wellLevel full n ≤ 1 :=
  ⟨le_min zero_le_one (le_max_left _ _), min_le_left _ _⟩

theorem wellLevel_lip {x y : ℝ} (h : x ≤ y) : wellLevel full y - wellLevel full x ≤ (y - x) / full := by
  have hxy : x / full ≤ y / full := (div_le_div_iff_of_pos_right hf).2 h
  unfold wellLevel
  rw [sub_div]
  rcases le_total (max 0 (x / full)) 1 with h1 | h1
  · rw [min_eq_right h1]
    have h2 : min 1 (max 0 (y / full)) ≤ max 0 (y / full) := min_le_right _ _
    rcases le_total 0 (y / full) with h3 | h3
    · rw [max_eq_right h3] at h2 ⊢
      have := le_max_right 0 (x / full)
      linarith
    · rw [max_eq_left h3] at h2 ⊢
      have := le_max_left 0 (x / full)
      linarith
  · rw [min_eq_left h1]
    have : min 1 (max 0 (y / full)) ≤ 1 := min_le_left _ _
    linarith

end level

theorem rpow_slope {p x y : ℝ} (hp : 1 ≤ p) (hx : 0 ≤ x) (hxy : x ≤ y) (hy : y ≤ 1) : y ^ p - x ^ p ≤ p * (y - x) := by
  rcases (hx.trans hxy).eq_or_lt with h0 | h0
  · have : x = 0 := le_antisymm (h0 ▸ hxy) hx
    rw [← h0, this]; simp
  · have hs : -1 ≤ (x - y) / y := by rw [le_div_iff₀ h0]; linarith
    have hb := one_add_mul_self_le_rpow_one_add hs hp
    have hxe : x = y * (1 + (x - y) / y) := by field_simp; ring
    have hxp : x ^ p = y ^ p * (1 + (x - y) / y) ^ p := by
      conv_lhs => rw [hxe]
      rw [Real.mul_rpow h0.le (by linarith)]
    have hyp : 0 ≤ y ^ p := Real.rpow_nonneg h0.le _
    have h1 := mul_le_mul_of_nonneg_left hb hyp
    rw [← hxp] at h1
    have h2 : y ^ p / y ≤ 1 := by
      rw [div_le_one h0]
      calc y ^ p ≤ y ^ (1 : ℝ) := Real.rpow_le_rpow_of_exponent_ge h0 hy hp
        _ = y := Real.rpow_one y
    have h3 : y ^ p * (p * ((x - y) / y)) = -(p * (y - x) * (y ^ p / y)) := by field_simp; ring
    have h4 : p * (y - x) * (y ^ p / y) ≤ p * (y - x) * 1 :=
      mul_le_mul_of_nonneg_left h2 (mul_nonneg (by linarith) (by linarith))
    nlinarith

/-- The filling law of a CCD with `well_fill_power` of at least one: the cloud grows by at most `power / full` per
electron. -/
theorem wellFill_lip {full power : ℝ} (hf : 0 < full) (hp : 1 ≤ power) :
    LipFill (wellFill full power) (power / full) := by
  refine ⟨(wellFill_exact hf (by linarith)).1, fun x y h => ?_, fun x y h => ?_⟩
  · exact Real.rpow_le_rpow (wellLevel_bounds hf x).1 (wellLevel_mono hf h) (by linarith)
  · rw [wellFill_level, wellFill_level]
    refine (rpow_slope hp (wellLevel_bounds hf x).1 (wellLevel_mono hf h) (wellLevel_bounds hf y).2).trans ?_
    have := mul_le_mul_of_nonneg_left (wellLevel_lip hf h) (by linarith : 0 ≤ power)
    refine this.trans (le_of_eq ?_)
    ring

/-- The filling law of a CCD with `well_fill_power` of at most one: the volume per electron is largest for small
clouds. -/
theorem wellFill_concave {full power : ℝ} (hf : 0 < full) (h0 : 0 < power) (h1 : power ≤ 1) :
    ConcaveFill (wellFill full power) := by
  refine ⟨(wellFill_exact hf h0).1, fun x y h => ?_, fun x y hx h => ?_⟩
  · exact Real.rpow_le_rpow (wellLevel_bounds hf x).1 (wellLevel_mono hf h) h0.le
  · have hy := hx.trans_le h
    have hxy : 1 ≤ y / x := (one_le_div hx).2 h
    have hl : wellLevel full y ≤ wellLevel full x * (y / x) := by
      unfold wellLevel
      rw [max_eq_right (div_nonneg hx.le hf.le), max_eq_right (div_nonneg hy.le hf.le)]
      rcases le_total (x / full) 1 with h2 | h2
      · rw [min_eq_right h2]
        refine (min_le_right _ _).trans (le_of_eq ?_)
        field_simp
      · rw [min_eq_left h2, one_mul]
        exact (min_le_left _ _).trans hxy
    have hb := wellLevel_bounds hf
    rw [wellFill_level, wellFill_level]
    have h3 := Real.rpow_le_rpow (hb y).1 hl h0.le
    rw [Real.mul_rpow (hb x).1 (by linarith)] at h3
    have h4 : (y / x) ^ power ≤ y / x := by
      calc (y / x) ^ power ≤ (y / x) ^ (1 : ℝ) := Real.rpow_le_rpow_of_exponent_le hxy h1
        _ = y / x := Real.rpow_one _
    have h5 := mul_le_mul_of_nonneg_left h4 (Real.rpow_nonneg (hb x).1 power)
    have h6 := mul_le_mul_of_nonneg_right (h3.trans h5) hx.le
    refine h6.trans (le_of_eq ?_)
    field_simp

/-- Number of traps in the lists. -/
noncomputable def trapCount (gs : List (List Trap)) : ℝ := (gs.map fun l => (l.map Trap.density).sum).sum

theorem Ref.ofTraps_total (l : List Trap) : (Ref.ofTraps l).total = (l.map Trap.density).sum := by
  unfold Ref.Traps.total Ref.ofTraps
  simp only
  rw [← List.sum_ofFn]
  congr 1
  apply List.ext_getElem <;> simp

theorem Ref.ofTraps_totals (gs : List (List Trap)) : Ref.totals (gs.map Ref.ofTraps) = trapCount gs := by
  unfold Ref.totals trapCount
  rw [List.map_map]
  congr 1
  exact List.map_congr_left fun l _ => Ref.ofTraps_total l

theorem Ref.Traps.Ok.reg {t : Ref.Traps} (h : t.Ok) {dw : ℝ} (hd : 0 < dw) : t.empty.Reg dw :=
  ⟨h.dens, fun j => ⟨(h.keep dw hd j).1, (h.keep dw hd j).2.le⟩, fun _ _ => ⟨le_rfl, zero_le_one⟩,
    fun _ => measurable_const⟩

theorem ExactDirection.few {f : ℝ → ℝ} {dw L : ℝ} {ts : List Ref.Traps} (h : ExactDirection f dw ts) (hL : 0 ≤ L)
    (hfew : Ref.totals ts * L ≤ 1) : Ref.Few dw L (ts.map Ref.Traps.empty) ∧
      Ref.totals (ts.map Ref.Traps.empty) = Ref.totals ts := by
  have e : Ref.totals (ts.map Ref.Traps.empty) = Ref.totals ts := by
    unfold Ref.totals
    rw [List.map_map]
    congr 1
  refine ⟨⟨fun t ht => ?_, hL, by rw [e]; exact hfew⟩, e⟩
  obtain ⟨u, hu, rfl⟩ := List.mem_map.1 ht
  exact (h.traps u hu).reg h.dwell

theorem ExactObjects.few {full power dw L : ℝ} {gs : List (List Trap)} {i : Bool} {c : CCD} {o : ℕ} {d : PyDirection}
    (h : ExactObjects full power dw gs i c o d) (hL : 0 ≤ L) (hfew : trapCount gs * L ≤ 1) :
    Ref.Few dw L (gs.map Ref.ofTraps) := by
  refine ⟨fun t ht => ?_, hL, by rw [Ref.ofTraps_totals]; exact hfew⟩
  obtain ⟨l, hl, rfl⟩ := List.mem_map.1 ht
  exact (Ref.ofTraps_ok (h.groups.2 l hl).2).reg h.dwell

/-- Every transfer represented, one by one. -/
theorem allPasses_good (n o : ℕ) : GoodPasses n 1 (Ref.allPasses n o) := by
  constructor
  · intro todo ht
    obtain ⟨k, -, rfl⟩ := List.mem_map.1 ht
    rw [List.map_map]
    have : (Prod.fst ∘ fun r : ℕ => (r, (1 : ℝ))) = id := rfl
    rw [this, List.map_id]
    exact List.nodup_range.filter _
  · intro todo ht p hp
    obtain ⟨k, -, rfl⟩ := List.mem_map.1 ht
    obtain ⟨r, hr, rfl⟩ := List.mem_map.1 hp
    exact ⟨List.mem_range.1 (List.mem_filter.1 hr).1, zero_le_one, le_rfl⟩

theorem allPasses_length (n o : ℕ) : (Ref.allPasses n o).length = n + o := by
  unfold Ref.allPasses; simp

end Arctic
