import Verif.Lemmas.FullGentle
import Verif.Lemmas.GentleError

/-!
# Transfers with slightly different traps of all classes
-/

set_option linter.unusedSectionVars false
set_option linter.unusedVariables false

namespace Arctic
open MeasureTheory

/-! ### fillings with slightly different densities -/

section zones
variable {s : ℕ}

theorem FilledParts.gap_integrable {x y : ℝ → Fin s → ℝ} (hx : FilledParts x) (hy : FilledParts y) (j : Fin s) :
    IntervalIntegrable (fun d => |x d j - y d j|) volume 0 1 :=
  ((hx.integrable j 0 1).sub (hy.integrable j 0 1)).abs

theorem heldGap_triangle {dens : Fin s → ℝ} (hd : ∀ j, 0 ≤ dens j) {x y z : ℝ → Fin s → ℝ} (hx : FilledParts x)
    (hy : FilledParts y) (hz : FilledParts z) : heldGap dens x z ≤ heldGap dens x y + heldGap dens y z := by
  unfold heldGap
  rw [← Finset.sum_add_distrib]
  refine Finset.sum_le_sum fun j _ => ?_
  rw [← mul_add, ← intervalIntegral.integral_add (hx.gap_integrable hy j) (hy.gap_integrable hz j)]
  refine mul_le_mul_of_nonneg_left (intervalIntegral.integral_mono_on zero_le_one (hx.gap_integrable hz j)
    ((hx.gap_integrable hy j).add (hy.gap_integrable hz j)) fun d _ => ?_) (hd j)
  exact abs_sub_le _ _ _

/-- Densities that differ by a fraction `ε` at most. -/
def NearDens (ε : ℝ) (dens dens' : Fin s → ℝ) : Prop := ∀ j, |dens j - dens' j| ≤ ε * dens' j

theorem heldGap_dens {ε : ℝ} {dens dens' : Fin s → ℝ} (hn : NearDens ε dens dens') (x y : ℝ → Fin s → ℝ) :
    heldGap dens x y ≤ (1 + ε) * heldGap dens' x y := by
  unfold heldGap
  rw [Finset.mul_sum]
  refine Finset.sum_le_sum fun j _ => ?_
  rw [← mul_assoc]
  refine mul_le_mul_of_nonneg_right ?_ (intervalIntegral.integral_nonneg zero_le_one fun d _ => abs_nonneg _)
  have := (abs_le.1 (hn j)).2
  linarith

/-- Electrons given off by two families of traps. -/
theorem held_dens {ε : ℝ} {dens dens' : Fin s → ℝ} (hd : ∀ j, 0 ≤ dens' j) (hn : NearDens ε dens dens')
    {x X Y : ℝ → Fin s → ℝ} (hx : FilledParts x) (hX : FilledParts X) (hY : FilledParts Y) :
    |(held dens x - held dens X) - (held dens' x - held dens' Y)| ≤ ε * heldGap dens' x X + heldGap dens' X Y := by
  rw [held_sub hx hX, held_sub hx hY, ← Finset.sum_sub_distrib]
  refine (Finset.abs_sum_le_sum_abs _ _).trans ?_
  unfold heldGap
  rw [Finset.mul_sum, ← Finset.sum_add_distrib]
  refine Finset.sum_le_sum fun j _ => ?_
  have i1 := (hx.integrable j 0 1).sub (hX.integrable j 0 1)
  have i2 := (hX.integrable j 0 1).sub (hY.integrable j 0 1)
  have e : dens j * (∫ d in (0 : ℝ)..1, (x d j - X d j)) - dens' j * ∫ d in (0 : ℝ)..1, (x d j - Y d j) =
      (dens j - dens' j) * (∫ d in (0 : ℝ)..1, (x d j - X d j)) - dens' j * ∫ d in (0 : ℝ)..1, (X d j - Y d j) := by
    have : ∫ d in (0 : ℝ)..1, (x d j - Y d j) =
        (∫ d in (0 : ℝ)..1, (x d j - X d j)) + ∫ d in (0 : ℝ)..1, (X d j - Y d j) := by
      rw [← intervalIntegral.integral_add i1 i2]
      exact intervalIntegral.integral_congr fun d _ => by ring
    rw [this]
    ring
  rw [e]
  refine (abs_sub _ _).trans ?_
  rw [abs_mul, abs_mul, abs_of_nonneg (hd j), ← mul_assoc]
  have a1 : |∫ d in (0 : ℝ)..1, (x d j - X d j)| ≤ ∫ d in (0 : ℝ)..1, |x d j - X d j| :=
    intervalIntegral.abs_integral_le_integral_abs zero_le_one
  have a2 : |∫ d in (0 : ℝ)..1, (X d j - Y d j)| ≤ ∫ d in (0 : ℝ)..1, |X d j - Y d j| :=
    intervalIntegral.abs_integral_le_integral_abs zero_le_one
  exact add_le_add (mul_le_mul (hn j) a1 (abs_nonneg _) ((abs_nonneg _).trans (hn j))) (mul_le_mul_of_nonneg_left a2 (hd j))

/-- Fillings one below the other. -/
theorem heldGap_below {dens : Fin s → ℝ} {x y : ℝ → Fin s → ℝ} (hx : FilledParts x) (hy : FilledParts y)
    (h : ∀ d j, y d j ≤ x d j) : heldGap dens x y = held dens x - held dens y := by
  rw [held_sub hx hy]
  unfold heldGap
  refine Finset.sum_congr rfl fun j _ => ?_
  congr 1
  exact intervalIntegral.integral_congr fun d _ => abs_of_nonneg (sub_nonneg.2 (h d j))

/-- Fillings that differ by at most `ε` times what the second one has given off. -/
theorem heldGap_release {ε : ℝ} {dens : Fin s → ℝ} (hd : ∀ j, 0 ≤ dens j) {x X Y : ℝ → Fin s → ℝ} (hx : FilledParts x)
    (hX : FilledParts X) (hY : FilledParts Y) (h : ∀ d j, |X d j - Y d j| ≤ ε * (x d j - Y d j)) :
    heldGap dens X Y ≤ ε * (held dens x - held dens Y) := by
  rw [held_sub hx hY, Finset.mul_sum]
  unfold heldGap
  refine Finset.sum_le_sum fun j _ => ?_
  have e : ε * ∫ d in (0 : ℝ)..1, (x d j - Y d j) = ∫ d in (0 : ℝ)..1, ε * (x d j - Y d j) :=
    (intervalIntegral.integral_const_mul _ _).symm
  rw [mul_left_comm, e]
  refine mul_le_mul_of_nonneg_left (intervalIntegral.integral_mono_on zero_le_one (hX.gap_integrable hY j)
    (((hx.integrable j 0 1).sub (hY.integrable j 0 1)).const_mul _) fun d _ => h d j) (hd j)

/-- Fillings that differ by at most `ε` up to the depth `z` and not at all beyond. -/
theorem heldGap_upTo {ε z : ℝ} {dens : Fin s → ℝ} (hd : ∀ j, 0 ≤ dens j) {X Y : ℝ → Fin s → ℝ} (hX : FilledParts X)
    (hY : FilledParts Y) (hz : 0 ≤ z ∧ z ≤ 1) (h : ∀ d j, |X d j - Y d j| ≤ if d ≤ z then ε else 0) :
    heldGap dens X Y ≤ ε * ((∑ j, dens j) * z) := by
  rw [Finset.sum_mul, Finset.mul_sum]
  unfold heldGap
  refine Finset.sum_le_sum fun j _ => ?_
  rw [mul_left_comm]
  refine mul_le_mul_of_nonneg_left ?_ (hd j)
  have m : Measurable fun d : ℝ => if d ≤ z then ε else 0 :=
    Measurable.ite measurableSet_Iic measurable_const measurable_const
  have ii : IntervalIntegrable (fun d : ℝ => if d ≤ z then ε else 0) volume 0 1 :=
    integrable_bdd |ε| m (fun d => by split <;> simp) _ _
  have e : ∫ d in (0 : ℝ)..1, (if d ≤ z then ε else 0) = ε * z := by
    rw [← integral_upTo (g := fun _ => ε) hz.1 hz.2 intervalIntegrable_const ii]
    simp [mul_comm]
  rw [← e]
  exact intervalIntegral.integral_mono_on zero_le_one (hX.gap_integrable hY j) ii fun d _ => h d j

/-- One transfer of slightly different traps, filled equally before: release, then capture below the surface of the cloud. -/
theorem two_stage {ε n L : ℝ} {f : ℝ → ℝ} {dens dens' a c a' c' : Fin s → ℝ} {x X X' : ℝ → Fin s → ℝ} (hf : LipFill f L)
    (h0 : 0 ≤ ε) (h1 : ε ≤ 1) (hd : ∀ j, 0 ≤ dens j) (hd' : ∀ j, 0 ≤ dens' j) (hn : NearDens ε dens dens')
    (hL : 4 * ((∑ j, dens' j) * L) ≤ 1) (hx : FilledParts x) (hX : FilledParts X) (hX' : FilledParts X')
    (hle : ∀ d j, X' d j ≤ x d j) (hrel : ∀ d j, |X d j - X' d j| ≤ ε * (x d j - X' d j))
    (h : ∀ j, FracMap (a j) (c j)) (h' : ∀ j, FracMap (a' j) (c' j))
    (hcap : ∀ j v, 0 ≤ v → v ≤ 1 → |(a j + c j * v) - (a' j + c' j * v)| ≤ 2 * ε) (hn0 : 0 ≤ n) :
    |(held dens x - held dens (zones a c (fun _ => 0) (fun _ => 1) X (f (n + (held dens x - held dens X))))) -
        (held dens' x - held dens' (zones a' c' (fun _ => 0) (fun _ => 1) X' (f (n + (held dens' x - held dens' X')))))| +
      heldGap dens (zones a c (fun _ => 0) (fun _ => 1) X (f (n + (held dens x - held dens X))))
        (zones a' c' (fun _ => 0) (fun _ => 1) X' (f (n + (held dens' x - held dens' X')))) ≤
      20 * ε * (3 * (held dens' x -
        held dens' (zones a' c' (fun _ => 0) (fun _ => 1) X' (f (n + (held dens' x - held dens' X'))))) +
          4 * ((∑ j, dens' j) * L) * n) := by
  set C := n + (held dens x - held dens X) with hC
  set C' := n + (held dens' x - held dens' X') with hC'
  set Z := zones a c (fun _ => 0) (fun _ => 1) X (f C) with hZd
  set Z' := zones a' c' (fun _ => 0) (fun _ => 1) X' (f C') with hZd'
  set m := zones a' c' (fun _ => 0) (fun _ => 1) X (f C) with hmd
  set T := ∑ j, dens' j with hT
  have hT0 : 0 ≤ T := Finset.sum_nonneg fun j _ => hd' j
  have k0 : 0 ≤ T * L := mul_nonneg hT0 hf.nonneg_slope
  have zr : ∀ y, 0 ≤ f y ∧ f y ≤ 1 := fun y => ⟨hf.nonneg _, hf.le_one _⟩
  have hZ : FilledParts Z := zones_fractions h (fun _ => fracMap_id) hX _
  have hZ' : FilledParts Z' := zones_fractions h' (fun _ => fracMap_id) hX' _
  have hm : FilledParts m := zones_fractions h' (fun _ => fracMap_id) hX _
  set O := held dens' x - held dens' X' with hO
  have eO : heldGap dens' x X' = O := heldGap_below hx hX' hle
  have O0 : 0 ≤ O := by rw [← eO]; exact heldGap_nonneg hd' _ _
  have H1 : heldGap dens' X X' ≤ ε * O := heldGap_release hd' hx hX hX' hrel
  have P : heldGap dens' x X ≤ O + ε * O := by
    refine (heldGap_triangle hd' hx hX' hX).trans ?_
    have : heldGap dens' X' X = heldGap dens' X X' := by
      unfold heldGap; simp only [abs_sub_comm]
    rw [eO, this]
    linarith
  have εO := mul_nonneg h0 O0
  have εεO : ε * (ε * O) ≤ ε * O := by
    have := mul_le_mul_of_nonneg_right h1 εO
    linarith
  have dC : |C - C'| ≤ 3 * (ε * O) := by
    have := held_dens hd' hn hx hX hX'
    have e : C - C' = (held dens x - held dens X) - (held dens' x - held dens' X') := by rw [hC, hC']; ring
    rw [e]
    have := mul_le_mul_of_nonneg_left P h0
    linarith
  have C0 : 0 ≤ C' := by rw [hC']; linarith
  have dz : T * |f C - f C'| ≤ T * L * (3 * (ε * O)) := by
    have a1 := mul_le_mul_of_nonneg_left (hf.abs_sub C C') hT0
    have a2 := mul_le_mul_of_nonneg_left dC k0
    rw [← mul_assoc] at a1
    linarith
  have z' : T * f C' ≤ T * L * C' := by
    have a1 := hf.le_slope C'
    rw [max_eq_right C0] at a1
    have := mul_le_mul_of_nonneg_left a1 hT0
    linarith
  have z : T * f C ≤ T * L * C' + T * L * (3 * (ε * O)) := by
    have := mul_le_mul_of_nonneg_left (le_abs_self (f C - f C')) hT0
    rw [mul_sub] at this
    linarith
  have κ34 : T * L * (3 * (ε * O)) ≤ 3 / 4 * (ε * O) := by
    have := mul_le_mul_of_nonneg_right hL (by linarith : 0 ≤ 3 * (ε * O))
    linarith
  have κC := mul_nonneg k0 C0
  have εκC := mul_nonneg h0 κC
  -- fillings after the capture
  have G1 : heldGap dens' Z m ≤ 2 * ε * (T * f C) := by
    refine heldGap_upTo hd' hZ hm (zr C) fun d j => ?_
    rw [hZd, hmd]
    unfold zones
    by_cases hh : d ≤ f C
    · simp only [hh, if_true]
      exact hcap j _ (hX.frac d j).1 (hX.frac d j).2
    · simp [hh]
  have G2 := zones_lip (a' := fun _ => 0) (c' := fun _ => 1) hd' h' (fun _ => fracMap_id) hX hX' (zr C) (zr C')
  rw [← hmd, ← hZd'] at G2
  have G : heldGap dens' Z Z' ≤ 2 * (ε * (T * L * C')) + 4 * (ε * O) := by
    have t := heldGap_triangle hd' hZ hm hZ'
    have b := abs_nonneg ((held dens' X - held dens' m) - (held dens' X' - held dens' Z'))
    have e1 := mul_le_mul_of_nonneg_left z (by linarith : 0 ≤ 2 * ε)
    have e2 := mul_le_mul_of_nonneg_left κ34 (by linarith : 0 ≤ 2 * ε)
    have e3 : 2 * (∑ j, dens' j) * |f C - f C'| = 2 * (T * |f C - f C'|) := by rw [hT]; ring
    rw [e3] at G2
    linarith
  have Q' : heldGap dens' X' Z' ≤ 1 * (T * f C') := by
    refine heldGap_upTo hd' hX' hZ' (zr C') fun d j => ?_
    rw [hZd']
    unfold zones
    by_cases hh : d ≤ f C'
    · simp only [hh, if_true]
      have r1 := hX'.frac d j
      have r2 := (h' j).range r1
      rw [abs_le]; constructor <;> linarith
    · simp [hh]
  have Q : heldGap dens' x Z ≤ O + T * L * C' + heldGap dens' Z Z' := by
    have t1 := heldGap_triangle hd' hx hZ' hZ
    have t2 := heldGap_triangle hd' hx hX' hZ'
    have e : heldGap dens' Z' Z = heldGap dens' Z Z' := by
      unfold heldGap; simp only [abs_sub_comm]
    rw [e] at t1
    rw [eO] at t2
    linarith
  have G0 := heldGap_nonneg hd' Z Z'
  have gains := held_dens hd' hn hx hZ hZ'
  have gap := heldGap_dens hn Z Z'
  have εQ := mul_le_mul_of_nonneg_left Q h0
  have εG := mul_le_mul_of_nonneg_right h1 G0
  have loss := zones_loss (c' := fun _ => 1) hd' h' (fun _ => fracMap_id) hX' (zr C')
  rw [← hZd', ← hT] at loss
  -- everything in terms of electrons released and captured
  have sum : |(held dens x - held dens Z) - (held dens' x - held dens' Z')| + heldGap dens Z Z' ≤
      17 * (ε * O) + 9 * (ε * (T * L * C')) := by
    linarith
  have bal : O - T * L * C' ≤ held dens' x - held dens' Z' := by linarith
  have eC : T * L * C' = T * L * n + T * L * O := by rw [hC']; ring
  have κO := mul_nonneg k0 O0
  have κO4 : T * L * O ≤ 1 / 4 * O := by
    have := mul_le_mul_of_nonneg_right hL O0
    linarith
  have κn := mul_nonneg k0 hn0
  have fin : 17 * O + 9 * (T * L * C') ≤ 20 * (3 * (held dens' x - held dens' Z') + 4 * (T * L) * n) := by
    nlinarith
  have := mul_le_mul_of_nonneg_left fin h0
  refine sum.trans ?_
  linarith

theorem integral_upto {e z : ℝ} (hz : 0 ≤ z ∧ z ≤ 1) :
    IntervalIntegrable (fun d : ℝ => if d ≤ z then e else 0) volume 0 1 ∧
      ∫ d in (0 : ℝ)..1, (if d ≤ z then e else 0) = e * z := by
  have m : Measurable fun d : ℝ => if d ≤ z then e else 0 :=
    Measurable.ite measurableSet_Iic measurable_const measurable_const
  have ii : IntervalIntegrable (fun d : ℝ => if d ≤ z then e else 0) volume 0 1 :=
    integrable_bdd |e| m (fun d => by split <;> simp) _ _
  refine ⟨ii, ?_⟩
  rw [← integral_upTo (g := fun _ => e) hz.1 hz.2 intervalIntegrable_const ii]
  simp [mul_comm]

/-- Electrons given off according to two laws. -/
theorem held_cross {e z : ℝ} {dens : Fin s → ℝ} (hd : ∀ j, 0 ≤ dens j) {x X x' X' p q : ℝ → Fin s → ℝ} (hx : FilledParts x)
    (hX : FilledParts X) (hx' : FilledParts x') (hX' : FilledParts X') (hp : FilledParts p) (hq : FilledParts q)
    (hz : 0 ≤ z ∧ z ≤ 1)
    (h : ∀ d j, |(x d j - X d j) - (x' d j - X' d j)| ≤ p d j - q d j + if d ≤ z then e else 0) :
    |(held dens x - held dens X) - (held dens x' - held dens X')| ≤
      held dens p - held dens q + e * ((∑ j, dens j) * z) := by
  obtain ⟨ii, ei⟩ := integral_upto (e := e) hz
  rw [held_sub hx hX, held_sub hx' hX', held_sub hp hq, ← Finset.sum_sub_distrib, Finset.sum_mul, Finset.mul_sum,
    ← Finset.sum_add_distrib]
  refine (Finset.abs_sum_le_sum_abs _ _).trans (Finset.sum_le_sum fun j _ => ?_)
  have i1 := (hx.integrable j 0 1).sub (hX.integrable j 0 1)
  have i2 := (hx'.integrable j 0 1).sub (hX'.integrable j 0 1)
  have i3 := (hp.integrable j 0 1).sub (hq.integrable j 0 1)
  rw [← mul_sub, abs_mul, abs_of_nonneg (hd j), ← intervalIntegral.integral_sub i1 i2, mul_left_comm, ← mul_add, ← ei,
    ← intervalIntegral.integral_add i3 ii]
  refine mul_le_mul_of_nonneg_left ((intervalIntegral.abs_integral_le_integral_abs zero_le_one).trans ?_) (hd j)
  exact intervalIntegral.integral_mono_on zero_le_one (i1.sub i2).abs (i3.add ii) fun d _ => h d j

/-- One transfer of traps that were filled at the same times and release according to slightly different laws. `v` is what the
laws may differ by from now on, `vW` after the release, `V` for traps just filled. -/
theorem clock_stage {ε n L : ℝ} {f : ℝ → ℝ} {dens dens' V : Fin s → ℝ} {x X x' X' v vW : ℝ → Fin s → ℝ} (hf : LipFill f L)
    (h0 : 0 ≤ ε) (h1 : ε ≤ 1) (hd : ∀ j, 0 ≤ dens j) (hd' : ∀ j, 0 ≤ dens' j) (hn : NearDens ε dens dens')
    (hL : 4 * ((∑ j, dens' j) * L) ≤ 1) (hx : FilledParts x) (hX : FilledParts X) (hx' : FilledParts x')
    (hX' : FilledParts X') (hv : FilledParts v) (hvW : FilledParts vW) (hle : ∀ d j, X d j ≤ x d j)
    (hle' : ∀ d j, X' d j ≤ x' d j) (hV : ∀ j, 0 ≤ V j ∧ V j ≤ ε)
    (hrel : ∀ d j, |(x d j - X d j) - (x' d j - X' d j)| ≤ v d j - vW d j) (hlaw : ∀ d j, |x d j - x' d j| ≤ ε)
    (hn0 : 0 ≤ n) :
    |(held dens x - held dens (zones (fun _ => 1) (fun _ => 0) (fun _ => 0) (fun _ => 1) X
          (f (n + (held dens x - held dens X))))) -
        (held dens' x' - held dens' (zones (fun _ => 1) (fun _ => 0) (fun _ => 0) (fun _ => 1) X'
          (f (n + (held dens' x' - held dens' X')))))| +
      heldGap dens (zones (fun _ => 1) (fun _ => 0) (fun _ => 0) (fun _ => 1) X (f (n + (held dens x - held dens X))))
        (zones (fun _ => 1) (fun _ => 0) (fun _ => 0) (fun _ => 1) X (f (n + (held dens' x' - held dens' X')))) +
      6 * held dens' (zones V (fun _ => 0) (fun _ => 0) (fun _ => 1) vW (f (n + (held dens' x' - held dens' X')))) ≤
      6 * held dens' v + 20 * ε * (3 * (held dens' x' -
        held dens' (zones (fun _ => 1) (fun _ => 0) (fun _ => 0) (fun _ => 1) X'
          (f (n + (held dens' x' - held dens' X'))))) + 4 * ((∑ j, dens' j) * L) * n) := by
  set C := n + (held dens x - held dens X) with hC
  set C' := n + (held dens' x' - held dens' X') with hC'
  set Z := zones (fun _ => 1) (fun _ => 0) (fun _ => 0) (fun _ => 1) X (f C) with hZd
  set Y := zones (fun _ => 1) (fun _ => 0) (fun _ => 0) (fun _ => 1) X (f C') with hYd
  set Z' := zones (fun _ => 1) (fun _ => 0) (fun _ => 0) (fun _ => 1) X' (f C') with hZd'
  set vZ := zones V (fun _ => 0) (fun _ => 0) (fun _ => 1) vW (f C') with hvZd
  set T := ∑ j, dens' j with hT
  have hT0 : 0 ≤ T := Finset.sum_nonneg fun j _ => hd' j
  have k0 : 0 ≤ T * L := mul_nonneg hT0 hf.nonneg_slope
  have zr : ∀ y, 0 ≤ f y ∧ f y ≤ 1 := fun y => ⟨hf.nonneg _, hf.le_one _⟩
  have hZ : FilledParts Z := zones_fractions (fun _ => fracMap_full) (fun _ => fracMap_id) hX _
  have hY : FilledParts Y := zones_fractions (fun _ => fracMap_full) (fun _ => fracMap_id) hX _
  have hZ' : FilledParts Z' := zones_fractions (fun _ => fracMap_full) (fun _ => fracMap_id) hX' _
  have hvZ : FilledParts vZ := zones_fractions (fun j => ⟨(hV j).1, le_rfl, by linarith [(hV j).2]⟩)
    (fun _ => fracMap_id) hvW _
  set O := held dens' x' - held dens' X' with hO
  have O0 : 0 ≤ O := by rw [hO, ← heldGap_below hx' hX' hle']; exact heldGap_nonneg hd' _ _
  set Ψ := held dens' v - held dens' vZ + 2 * ε * (T * f C') with hΨ
  have D1 : |(held dens' x - held dens' X) - O| ≤ Ψ := by
    refine held_cross hd' hx hX hx' hX' hv hvZ (zr C') fun d j => (hrel d j).trans ?_
    rw [hvZd]
    unfold zones
    by_cases hh : d ≤ f C'
    · simp only [hh, if_true]
      linarith [(hV j).2, (hvW.frac d j).1]
    · simp [hh]
  have D2 : |(held dens' x - held dens' Y) - (held dens' x' - held dens' Z')| ≤ Ψ := by
    refine held_cross hd' hx hY hx' hZ' hv hvZ (zr C') fun d j => ?_
    rw [hvZd, hYd, hZd']
    unfold zones
    by_cases hh : d ≤ f C'
    · simp only [hh, if_true]
      have := hlaw d j
      rw [show x d j - (1 + 0 * X d j) - (x' d j - (1 + 0 * X' d j)) = x d j - x' d j by ring]
      linarith [(hV j).2, (hv.frac d j).1]
    · simp only [hh, if_false]
      have := hrel d j
      simpa using this
  have Ψ0 : 0 ≤ Ψ := (abs_nonneg _).trans D1
  have eP : heldGap dens' x X = held dens' x - held dens' X := heldGap_below hx hX hle
  have P : heldGap dens' x X ≤ O + Ψ := by rw [eP]; linarith [(abs_le.1 D1).2]
  have εO := mul_nonneg h0 O0
  have εΨ : ε * Ψ ≤ Ψ := by
    have := mul_le_mul_of_nonneg_right h1 Ψ0
    linarith
  have self : ∀ y : ℝ → Fin s → ℝ, heldGap dens' y y = 0 := fun y => by simp [heldGap]
  have dC : |C - C'| ≤ ε * O + 2 * Ψ := by
    have a1 := held_dens hd' hn hx hX hX
    rw [self] at a1
    have e : C - C' = ((held dens x - held dens X) - (held dens' x - held dens' X)) +
      ((held dens' x - held dens' X) - O) := by rw [hC, hC']; ring
    rw [e]
    have a2 := mul_le_mul_of_nonneg_left P h0
    have a3 := abs_add_le ((held dens x - held dens X) - (held dens' x - held dens' X)) ((held dens' x - held dens' X) - O)
    linarith
  have C0 : 0 ≤ C' := by rw [hC']; linarith
  have dz : T * |f C - f C'| ≤ 1 / 4 * (ε * O + 2 * Ψ) := by
    have a1 := mul_le_mul_of_nonneg_left (hf.abs_sub C C') hT0
    have a2 := mul_le_mul_of_nonneg_left dC k0
    have a3 := mul_le_mul_of_nonneg_right hL (by linarith : 0 ≤ ε * O + 2 * Ψ)
    rw [← mul_assoc] at a1
    linarith
  have z' : T * f C' ≤ T * L * C' := by
    have a1 := hf.le_slope C'
    rw [max_eq_right C0] at a1
    have := mul_le_mul_of_nonneg_left a1 hT0
    linarith
  have κC := mul_nonneg k0 C0
  have εκC := mul_nonneg h0 κC
  have G : heldGap dens' Z Y ≤ 1 / 2 * (ε * O + 2 * Ψ) := by
    have a1 := zones_lip (a' := fun _ => 0) (c' := fun _ => 1) hd' (fun _ => fracMap_full) (fun _ => fracMap_id) hX hX
      (zr C) (zr C')
    rw [← hZd, ← hYd, self, ← hT] at a1
    have b := abs_nonneg ((held dens' X - held dens' Z) - (held dens' X - held dens' Y))
    linarith
  have Q' : heldGap dens' X Y ≤ 1 * (T * f C') := by
    refine heldGap_upTo hd' hX hY (zr C') fun d j => ?_
    rw [hYd]
    unfold zones
    by_cases hh : d ≤ f C'
    · simp only [hh, if_true]
      have r1 := hX.frac d j
      rw [abs_le]; constructor <;> linarith
    · simp [hh]
  have Q : heldGap dens' x Z ≤ O + Ψ + T * L * C' + heldGap dens' Z Y := by
    have t1 := heldGap_triangle hd' hx hY hZ
    have t2 := heldGap_triangle hd' hx hX hY
    have e : heldGap dens' Y Z = heldGap dens' Z Y := by
      unfold heldGap; simp only [abs_sub_comm]
    rw [e] at t1
    linarith
  have G0 := heldGap_nonneg hd' Z Y
  have gains := held_dens hd' hn hx hZ hY
  have gap := heldGap_dens hn Z Y
  have εQ := mul_le_mul_of_nonneg_left Q h0
  have εG := mul_le_mul_of_nonneg_right h1 G0
  have loss := zones_loss (c' := fun _ => 1) hd' (fun _ => fracMap_full) (fun _ => fracMap_id) hX' (zr C')
  rw [← hZd', ← hT] at loss
  have tri := abs_add_le ((held dens x - held dens Z) - (held dens' x - held dens' Y))
    ((held dens' x - held dens' Y) - (held dens' x' - held dens' Z'))
  rw [sub_add_sub_cancel] at tri
  have sum : |(held dens x - held dens Z) - (held dens' x' - held dens' Z')| + heldGap dens Z Y ≤
      3 * (ε * O) + ε * (T * L * C') + 6 * Ψ := by
    linarith
  have bal : O - T * L * C' ≤ held dens' x' - held dens' Z' := by linarith
  have eC : T * L * C' = T * L * n + T * L * O := by rw [hC']; ring
  have κO := mul_nonneg k0 O0
  have κO4 : T * L * O ≤ 1 / 4 * O := by
    have := mul_le_mul_of_nonneg_right hL O0
    linarith
  have κn := mul_nonneg k0 hn0
  have fin : 3 * O + 13 * (T * L * C') ≤ 20 * (3 * (held dens' x' - held dens' Z') + 4 * (T * L) * n) := by
    nlinarith
  have εz := mul_le_mul_of_nonneg_left z' h0
  have := mul_le_mul_of_nonneg_left fin h0
  rw [hΨ] at sum
  linarith

end zones

end Arctic
