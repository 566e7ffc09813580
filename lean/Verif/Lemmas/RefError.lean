import Verif.Lemmas.RefPass

/-!
# Readouts of the reference simulation with slightly different traps
-/

set_option linter.unusedSectionVars false
set_option linter.unusedVariables false

namespace Arctic

open MeasureTheory

/-- Capture at two heights by traps with two fillings: numbers captured and fillings afterwards. -/
theorem vac_gap {s : ℕ} (dens : Fin s → ℝ) (hd : ∀ j, 0 ≤ dens j) {x y : ℝ → Fin s → ℝ}
    (hx : ∀ d j, 0 ≤ x d j ∧ x d j ≤ 1) (hy : ∀ d j, 0 ≤ y d j ∧ y d j ≤ 1) (mx : ∀ j, Measurable fun d => x d j)
    (my : ∀ j, Measurable fun d => y d j) {h h' : ℝ} (h0 : 0 ≤ h) (h1 : h ≤ 1) (h0' : 0 ≤ h') (h1' : h' ≤ 1) :
    |(∑ j, dens j * ∫ d in (0 : ℝ)..h, (1 - x d j)) - ∑ j, dens j * ∫ d in (0 : ℝ)..h', (1 - y d j)| +
        (∑ j, dens j * ∫ d in (0 : ℝ)..1, |(if d ≤ h then (1 : ℝ) else x d j) - if d ≤ h' then 1 else y d j|) ≤
      ∑ j, dens j * ((∫ d in (0 : ℝ)..1, |x d j - y d j|) + 2 * |h - h'|) := by
  rw [← Finset.sum_sub_distrib]
  refine (add_le_add_left (Finset.abs_sum_le_sum_abs _ _) _).trans ?_
  rw [← Finset.sum_add_distrib]
  refine Finset.sum_le_sum fun j _ => ?_
  rw [← mul_sub, abs_mul, abs_of_nonneg (hd j), ← mul_add]
  refine mul_le_mul_of_nonneg_left ?_ (hd j)
  have i1 : IntervalIntegrable (fun d => 1 - x d j) volume 0 1 :=
    integrable_bdd (g := fun d => 1 - x d j) 1 (measurable_const.sub (mx j)) (fun d => by
      have := hx d j
      rw [abs_le]; constructor <;> linarith) _ _
  have i2 : IntervalIntegrable (fun d => 1 - y d j) volume 0 1 :=
    integrable_bdd (g := fun d => 1 - y d j) 1 (measurable_const.sub (my j)) (fun d => by
      have := hy d j
      rw [abs_le]; constructor <;> linarith) _ _
  have m3 : ∀ z : ℝ, Measurable fun d : ℝ => if d ≤ z then 1 - x d j else 0 := fun z =>
    Measurable.ite measurableSet_Iic (measurable_const.sub (mx j)) measurable_const
  have m4 : ∀ z : ℝ, Measurable fun d : ℝ => if d ≤ z then 1 - y d j else 0 := fun z =>
    Measurable.ite measurableSet_Iic (measurable_const.sub (my j)) measurable_const
  have b3 : ∀ z d : ℝ, |if d ≤ z then 1 - x d j else 0| ≤ 1 := fun z d => by
    have := hx d j
    split
    · rw [abs_le]; constructor <;> linarith
    · simp
  have b4 : ∀ z d : ℝ, |if d ≤ z then 1 - y d j else 0| ≤ 1 := fun z d => by
    have := hy d j
    split
    · rw [abs_le]; constructor <;> linarith
    · simp
  have i3 := integrable_bdd 1 (m3 h) (b3 h) 0 1
  have i4 := integrable_bdd 1 (m4 h') (b4 h') 0 1
  rw [integral_upTo h0 h1 i1 i3, integral_upTo h0' h1' i2 i4, ← intervalIntegral.integral_sub i3 i4]
  refine (add_le_add_left (intervalIntegral.abs_integral_le_integral_abs zero_le_one) _).trans ?_
  have i5 := (i3.sub i4).abs
  have m6 : Measurable fun d : ℝ => (if d ≤ h then (1 : ℝ) else x d j) - if d ≤ h' then 1 else y d j :=
    (Measurable.ite measurableSet_Iic measurable_const (mx j)).sub (Measurable.ite measurableSet_Iic measurable_const (my j))
  have i6 : IntervalIntegrable (fun d : ℝ => |(if d ≤ h then (1 : ℝ) else x d j) - if d ≤ h' then 1 else y d j|) volume 0 1 :=
    integrable_bdd (g := fun d : ℝ => |(if d ≤ h then (1 : ℝ) else x d j) - if d ≤ h' then 1 else y d j|) 1
      (continuous_abs.measurable.comp m6) (fun d => by
        have h1 := hx d j; have h2 := hy d j
        rw [abs_abs]
        split <;> split <;> rw [abs_le] <;> constructor <;> linarith) _ _
  rw [← intervalIntegral.integral_add i5 i6]
  have m7 : Measurable fun d : ℝ => (if d ≤ h then (1 : ℝ) else 0) - if d ≤ h' then 1 else 0 :=
    (Measurable.ite measurableSet_Iic measurable_const measurable_const).sub
      (Measurable.ite measurableSet_Iic measurable_const measurable_const)
  have i7 : IntervalIntegrable (fun d : ℝ => |(if d ≤ h then (1 : ℝ) else 0) - if d ≤ h' then 1 else 0|)
      volume 0 1 :=
    integrable_bdd (g := fun d : ℝ => |(if d ≤ h then (1 : ℝ) else 0) - if d ≤ h' then 1 else 0|) 1 (continuous_abs.measurable.comp m7)
      (fun d => by rw [abs_abs]; split <;> split <;> simp) _ _
  have i8 : IntervalIntegrable (fun d => |x d j - y d j|) volume 0 1 :=
    integrable_bdd (g := fun d => |x d j - y d j|) 1 (continuous_abs.measurable.comp ((mx j).sub (my j))) (fun d => by
      have h1 := hx d j; have h2 := hy d j
      rw [abs_abs, abs_le]; constructor <;> linarith) _ _
  have e := indicator_gap h0 h1 h0' h1'
  rw [← e, ← intervalIntegral.integral_const_mul, ← intervalIntegral.integral_add i8 (i7.const_mul _)]
  refine intervalIntegral.integral_mono_on zero_le_one (i5.add i6) (i8.add (i7.const_mul _)) ?_
  intro d _
  exact capture_gap (p := d ≤ h) (q := d ≤ h') (hx d j) (hy d j)

/-- The same fillings, other densities and releases. -/
def Ref.Traps.vary (t : Ref.Traps) (dens : Fin t.s → ℝ) (keep : ℝ → Fin t.s → ℝ) : Ref.Traps :=
  { t with dens := dens, keep := keep }

/-- Electrons captured by a transfer without shortage. -/
noncomputable def Ref.Traps.inflow (t : Ref.Traps) (f : ℝ → ℝ) (dw n : ℝ) : ℝ :=
  (t.release dw).vacant (f (n + t.outflow dw))

theorem Ref.Traps.plain_fst (t : Ref.Traps) (f : ℝ → ℝ) (dw n : ℝ) :
    (t.plain f dw n).1 = t.outflow dw - t.inflow f dw n := rfl

/-- Densities, and fractions released, that differ from those of `t` by a fraction `ε` at most. -/
structure Ref.Traps.NearTo (t : Ref.Traps) (dw ε : ℝ) (dens : Fin t.s → ℝ) (keep : ℝ → Fin t.s → ℝ) : Prop where
  dens : ∀ j, |t.dens j - dens j| ≤ ε * dens j
  keep : ∀ j, |t.keep dw j - keep dw j| ≤ ε * (1 - keep dw j)

section step
variable {dw : ℝ} {t : Ref.Traps} {f : ℝ → ℝ} {L : ℝ}

theorem Ref.Traps.Reg.inflow_nonneg (h : t.Reg dw) (hf : LipFill f L) (n : ℝ) : 0 ≤ t.inflow f dw n := by
  unfold Ref.Traps.inflow Ref.Traps.vacant
  refine Finset.sum_nonneg fun j _ => mul_nonneg (h.dens j) (intervalIntegral.integral_nonneg (hf.nonneg _) fun d _ => ?_)
  have := (h.released d j).2
  change 0 ≤ 1 - t.occ d j * t.keep dw j
  linarith

theorem Ref.Traps.Reg.inflow_le (h : t.Reg dw) (hf : LipFill f L) {n : ℝ} (hn : 0 ≤ n) :
    t.inflow f dw n ≤ t.total * L * (n + t.outflow dw) := by
  have h1 := h.release.vacant_le (hf.nonneg (n + t.outflow dw))
  have h2 := hf.le_slope (n + t.outflow dw)
  have ho := h.outflow_nonneg
  rw [max_eq_right (by linarith)] at h2
  have h3 := mul_le_mul_of_nonneg_left h2 h.total_nonneg
  change t.inflow f dw n ≤ t.total * _ at h1
  linarith

/-- No electron is lost. -/
theorem Ref.Traps.Reg.plain_filled (h : t.Reg dw) (hf : LipFill f L) (n : ℝ) :
    (t.plain f dw n).2.filled = t.filled - t.outflow dw + t.inflow f dw n := by
  set c := f (n + t.outflow dw) with hc
  have e1 : t.filled - t.outflow dw = (t.release dw).filled := by unfold Ref.Traps.outflow; ring
  rw [e1]
  unfold Ref.Traps.inflow
  rw [← hc]
  unfold Ref.Traps.filled Ref.Traps.vacant
  rw [← Finset.sum_add_distrib]
  refine Finset.sum_congr rfl fun j _ => ?_
  change t.dens j * (∫ d in (0 : ℝ)..1, if d ≤ c then 1 else t.occ d j * t.keep dw j) =
    t.dens j * (∫ d in (0 : ℝ)..1, t.occ d j * t.keep dw j) + t.dens j * ∫ d in (0 : ℝ)..c, (1 - t.occ d j * t.keep dw j)
  rw [← mul_add]
  congr 1
  have m1 := h.meas_released j
  have b1 := fun d => h.released d j
  have i0 : IntervalIntegrable (fun d => t.occ d j * t.keep dw j) volume 0 1 := integrable_bdd 1 m1 (fun d => by
    rw [abs_of_nonneg (b1 d).1]; exact (b1 d).2) _ _
  have i1 : IntervalIntegrable (fun d => 1 - t.occ d j * t.keep dw j) volume 0 1 :=
    integrable_bdd (g := fun d => 1 - t.occ d j * t.keep dw j) 1 (measurable_const.sub m1) (fun d => by
      have := b1 d
      rw [abs_le]; constructor <;> linarith) _ _
  have i2 : IntervalIntegrable (fun d => if d ≤ c then 1 - t.occ d j * t.keep dw j else 0) volume 0 1 :=
    integrable_bdd (g := fun d => if d ≤ c then 1 - t.occ d j * t.keep dw j else 0) 1
      (Measurable.ite measurableSet_Iic (measurable_const.sub m1) measurable_const) (fun d => by
      have := b1 d
      split
      · rw [abs_le]; constructor <;> linarith
      · simp) _ _
  rw [integral_upTo (hf.nonneg _) (hf.le_one _) i1 i2, ← intervalIntegral.integral_add i0 i2]
  refine intervalIntegral.integral_congr fun d _ => ?_
  split <;> ring

/-- One transfer of the same cloud past traps with the same fillings but slightly different densities and releases. -/
theorem plain_pert {dens : Fin t.s → ℝ} {keep : ℝ → Fin t.s → ℝ} (h : t.Reg dw) (h' : (t.vary dens keep).Reg dw)
    (hf : LipFill f L) (hL : 2 * (t.total * L) ≤ 1) {ε : ℝ} (h0 : 0 ≤ ε) (h1 : ε ≤ 1) (hn : t.NearTo dw ε dens keep) (n : ℝ) :
    |(t.plain f dw n).1 - ((t.vary dens keep).plain f dw n).1| +
        (t.plain f dw n).2.gap ((t.vary dens keep).plain f dw n).2.occ ≤
      10 * ε * ((t.vary dens keep).outflow dw + (t.vary dens keep).inflow f dw n) := by
  set u := t.vary dens keep with hu
  have hI : ∀ j, 0 ≤ ∫ d in (0 : ℝ)..1, t.occ d j := fun j =>
    intervalIntegral.integral_nonneg zero_le_one fun d _ => (h.frac d j).1
  have hd' : ∀ j, 0 ≤ dens j := h'.dens
  have hk' : ∀ j, 0 ≤ keep dw j ∧ keep dw j ≤ 1 := h'.keep
  have hdle : ∀ j, t.dens j ≤ (1 + ε) * dens j := fun j => by
    have := (abs_le.1 (hn.dens j)).2
    linarith
  -- release
  have hout : |t.outflow dw - u.outflow dw| ≤ 3 * ε * u.outflow dw := by
    rw [Ref.Traps.outflow_eq, Ref.Traps.outflow_eq]
    change |(∑ j, _) - ∑ j, dens j * (1 - keep dw j) * ∫ d in (0 : ℝ)..1, t.occ d j| ≤
      3 * ε * ∑ j, dens j * (1 - keep dw j) * ∫ d in (0 : ℝ)..1, t.occ d j
    rw [← Finset.sum_sub_distrib, Finset.mul_sum]
    refine (Finset.abs_sum_le_sum_abs _ _).trans (Finset.sum_le_sum fun j _ => ?_)
    rw [← sub_mul, abs_mul, abs_of_nonneg (hI j), ← mul_assoc]
    refine mul_le_mul_of_nonneg_right ?_ (hI j)
    have e : t.dens j * (1 - t.keep dw j) - dens j * (1 - keep dw j) =
        (t.dens j - dens j) * (1 - keep dw j) - t.dens j * (t.keep dw j - keep dw j) := by ring
    rw [e]
    refine (abs_sub _ _).trans ?_
    rw [abs_mul, abs_mul, abs_of_nonneg (h.dens j), abs_of_nonneg (sub_nonneg.2 (hk' j).2)]
    have q1 := mul_le_mul_of_nonneg_right (hn.dens j) (sub_nonneg.2 (hk' j).2)
    have q2 := mul_le_mul_of_nonneg_left (hn.keep j) (h.dens j)
    have q3 := mul_le_mul_of_nonneg_right (hdle j) (mul_nonneg h0 (sub_nonneg.2 (hk' j).2))
    have q4 : 0 ≤ (1 - ε) * (dens j * (ε * (1 - keep dw j))) :=
      mul_nonneg (by linarith) (mul_nonneg (hd' j) (mul_nonneg h0 (sub_nonneg.2 (hk' j).2)))
    nlinarith
  have hout0 := h'.outflow_nonneg
  have hin0 := h'.inflow_nonneg hf n
  set a := n + t.outflow dw with ha
  set a' := n + u.outflow dw with ha'
  have hff : |f a - f a'| ≤ L * (3 * ε * u.outflow dw) := by
    refine (hf.abs_sub a a').trans (mul_le_mul_of_nonneg_left ?_ hf.nonneg_slope)
    have : a - a' = t.outflow dw - u.outflow dw := by rw [ha, ha']; ring
    rw [this]; exact hout
  -- the occupancies after release
  have hocc : ∑ j, t.dens j * (∫ d in (0 : ℝ)..1, |t.occ d j * t.keep dw j - t.occ d j * keep dw j|) ≤
      2 * ε * u.outflow dw := by
    rw [Ref.Traps.outflow_eq]
    change _ ≤ 2 * ε * ∑ j, dens j * (1 - keep dw j) * ∫ d in (0 : ℝ)..1, t.occ d j
    rw [Finset.mul_sum]
    refine Finset.sum_le_sum fun j _ => ?_
    have e : ∫ d in (0 : ℝ)..1, |t.occ d j * t.keep dw j - t.occ d j * keep dw j| =
        (∫ d in (0 : ℝ)..1, t.occ d j) * |t.keep dw j - keep dw j| := by
      rw [← intervalIntegral.integral_mul_const]
      refine intervalIntegral.integral_congr fun d _ => ?_
      rw [← mul_sub, abs_mul, abs_of_nonneg (h.frac d j).1]
    rw [e]
    have q2 := mul_le_mul_of_nonneg_left (hn.keep j) (mul_nonneg (h.dens j) (hI j))
    have q5 := mul_nonneg (hI j) (mul_nonneg h0 (sub_nonneg.2 (hk' j).2))
    have q3 := mul_le_mul_of_nonneg_right (hdle j) q5
    have q4 : 0 ≤ (1 - ε) * (dens j * ((∫ d in (0 : ℝ)..1, t.occ d j) * (ε * (1 - keep dw j)))) :=
      mul_nonneg (by linarith) (mul_nonneg (hd' j) q5)
    nlinarith
  have key := vac_gap t.dens h.dens (x := fun d j => t.occ d j * t.keep dw j) (y := fun d j => t.occ d j * keep dw j)
    h.released h'.released h.meas_released h'.meas_released (hf.nonneg a) (hf.le_one a) (hf.nonneg a') (hf.le_one a')
  have hsum : ∑ j, t.dens j * ((∫ d in (0 : ℝ)..1, |t.occ d j * t.keep dw j - t.occ d j * keep dw j|) + 2 * |f a - f a'|) =
      ∑ j, t.dens j * (∫ d in (0 : ℝ)..1, |t.occ d j * t.keep dw j - t.occ d j * keep dw j|) + 2 * t.total * |f a - f a'| := by
    unfold Ref.Traps.total
    rw [mul_assoc, Finset.sum_mul, Finset.mul_sum, ← Finset.sum_add_distrib]
    exact Finset.sum_congr rfl fun j _ => by ring
  rw [hsum] at key
  set B := ∑ j, t.dens j * ∫ d in (0 : ℝ)..f a', (1 - t.occ d j * keep dw j) with hB
  have hvac : |B - u.inflow f dw n| ≤ ε * u.inflow f dw n := by
    unfold Ref.Traps.inflow Ref.Traps.vacant
    rw [← ha']
    change |B - ∑ j, dens j * ∫ d in (0 : ℝ)..f a', (1 - t.occ d j * keep dw j)| ≤
      ε * ∑ j, dens j * ∫ d in (0 : ℝ)..f a', (1 - t.occ d j * keep dw j)
    rw [hB, ← Finset.sum_sub_distrib, Finset.mul_sum]
    refine (Finset.abs_sum_le_sum_abs _ _).trans (Finset.sum_le_sum fun j _ => ?_)
    have hV : 0 ≤ ∫ d in (0 : ℝ)..f a', (1 - t.occ d j * keep dw j) :=
      intervalIntegral.integral_nonneg (hf.nonneg _) fun d _ => by
        have : t.occ d j * keep dw j ≤ 1 := (h'.released d j).2
        linarith
    rw [← sub_mul, abs_mul, abs_of_nonneg hV, ← mul_assoc]
    exact mul_le_mul_of_nonneg_right (hn.dens j) hV
  have hgap : (t.plain f dw n).2.gap (u.plain f dw n).2.occ = ∑ j, t.dens j * ∫ d in (0 : ℝ)..1,
      |(if d ≤ f a then (1 : ℝ) else t.occ d j * t.keep dw j) - if d ≤ f a' then 1 else t.occ d j * keep dw j| := rfl
  have hA : t.inflow f dw n = ∑ j, t.dens j * ∫ d in (0 : ℝ)..f a, (1 - t.occ d j * t.keep dw j) := rfl
  rw [← hgap, ← hA] at key
  have hnet : |(t.plain f dw n).1 - (u.plain f dw n).1| ≤
      |t.outflow dw - u.outflow dw| + |t.inflow f dw n - B| + |B - u.inflow f dw n| := by
    rw [Ref.Traps.plain_fst, Ref.Traps.plain_fst]
    rw [show (t.outflow dw - t.inflow f dw n) - (u.outflow dw - u.inflow f dw n) =
      (t.outflow dw - u.outflow dw) - ((t.inflow f dw n - B) + (B - u.inflow f dw n)) by ring]
    refine (abs_sub _ _).trans ?_
    have := abs_add_le (t.inflow f dw n - B) (B - u.inflow f dw n)
    linarith
  have hff2 : 2 * t.total * |f a - f a'| ≤ 3 * ε * u.outflow dw := by
    have w1 := mul_le_mul_of_nonneg_left hff (mul_nonneg zero_le_two h.total_nonneg)
    have w2 := mul_le_mul_of_nonneg_right hL (mul_nonneg (mul_nonneg (by norm_num : (0 : ℝ) ≤ 3) h0) hout0)
    nlinarith
  have w3 := mul_nonneg h0 hout0
  have w4 := mul_nonneg h0 hin0
  nlinarith

end step

/-! ### Lists of groups -/

/-- Electrons in the traps of all groups. -/
noncomputable def Ref.filling (ts : List Ref.Traps) : ℝ := (ts.map Ref.Traps.filled).sum

/-- Electrons released and captured by all groups during a transfer. -/
noncomputable def Ref.traffic (f : ℝ → ℝ) (dw : ℝ) (ts : List Ref.Traps) (n : ℝ) : ℝ :=
  (ts.map fun t => t.outflow dw + t.inflow f dw n).sum

theorem Ref.Few.gain_eq {dw L : ℝ} {f : ℝ → ℝ} (hf : LipFill f L) {ts : List Ref.Traps} (h : Ref.Few dw L ts) (n : ℝ) :
    Ref.gain f dw ts n = Ref.filling ts - Ref.filling (Ref.after f dw ts n) := by
  induction ts with
  | nil => simp [Ref.gain, Ref.filling, Ref.after]
  | cons t ts ih =>
    obtain ⟨h1, h2, h3, -⟩ := h.cons
    have i := ih h3
    unfold Ref.gain Ref.filling Ref.after at *
    simp only [List.map_cons, List.sum_cons]
    rw [i, h1.transfer_plain hf h2, h1.plain_filled hf, Ref.Traps.plain_fst]
    ring

theorem Ref.Few.filling_nonneg {dw L : ℝ} {ts : List Ref.Traps} (h : Ref.Few dw L ts) : 0 ≤ Ref.filling ts := by
  unfold Ref.filling
  refine List.sum_nonneg fun x hx => ?_
  obtain ⟨t, ht, rfl⟩ := List.mem_map.1 hx
  exact Finset.sum_nonneg fun j _ => mul_nonneg ((h.reg t ht).dens j)
    (intervalIntegral.integral_nonneg zero_le_one fun d _ => ((h.reg t ht).frac d j).1)

/-- The traffic of a transfer is paid for by the charge that passes and by what the traps hold. -/
theorem Ref.Few.traffic_le {dw L : ℝ} {f : ℝ → ℝ} (hf : LipFill f L) {ts : List Ref.Traps} (h : Ref.Few dw L ts)
    (h2 : 2 * (Ref.totals ts * L) ≤ 1) {n : ℝ} (hn : 0 ≤ n) :
    Ref.traffic f dw ts n + 3 * Ref.filling (Ref.after f dw ts n) ≤
      3 * Ref.filling ts + 4 * (Ref.totals ts * L) * n := by
  induction ts with
  | nil => simp [Ref.traffic, Ref.filling, Ref.after, Ref.totals]
  | cons t ts ih =>
    obtain ⟨h1, hL, h3, h4⟩ := h.cons
    have k1 := mul_nonneg h1.total_nonneg h.slope
    have k2 := mul_nonneg (Ref.totals_nonneg h3.reg) h.slope
    rw [h4, add_mul] at h2
    have i := ih h3 (by linarith)
    unfold Ref.traffic Ref.filling Ref.after at *
    simp only [List.map_cons, List.sum_cons]
    rw [h4, h1.transfer_plain hf hL, h1.plain_filled hf]
    have j := h1.inflow_le hf hn
    have o := h1.outflow_nonneg
    have k3 : t.total * L * t.outflow dw ≤ 1 / 2 * t.outflow dw := mul_le_mul_of_nonneg_right (by linarith) o
    nlinarith

/-- Lists of groups of slightly different traps, their fillings at distance `g`. -/
inductive Ref.Kin (dw ε : ℝ) : List Ref.Traps → List Ref.Traps → ℝ → Prop
  | nil : Ref.Kin dw ε [] [] 0
  | cons (t : Ref.Traps) (o : ℝ → Fin t.s → ℝ) (dens : Fin t.s → ℝ) (keep : ℝ → Fin t.s → ℝ) {ts ts' : List Ref.Traps} {g : ℝ}
      (h : ((t.refill o).vary dens keep).Reg dw) (hn : t.NearTo dw ε dens keep) (hs : Ref.Kin dw ε ts ts' g) :
      Ref.Kin dw ε (t :: ts) ((t.refill o).vary dens keep :: ts') (t.gap o + g)

theorem Ref.Traps.gap_triangle {dw : ℝ} {t : Ref.Traps} {o p : ℝ → Fin t.s → ℝ} (h : t.Reg dw) (ho : (t.refill o).Reg dw)
    (hp : (t.refill p).Reg dw) : t.gap p ≤ t.gap o + (t.refill o).gap p := by
  unfold Ref.Traps.gap
  change _ ≤ _ + ∑ j, t.dens j * ∫ d in (0 : ℝ)..1, |o d j - p d j|
  rw [← Finset.sum_add_distrib]
  refine Finset.sum_le_sum fun j _ => ?_
  rw [← mul_add]
  refine mul_le_mul_of_nonneg_left ?_ (h.dens j)
  have hi : ∀ {x y : ℝ → Fin t.s → ℝ}, (∀ d j, 0 ≤ x d j ∧ x d j ≤ 1) → (∀ d j, 0 ≤ y d j ∧ y d j ≤ 1) →
      (∀ j, Measurable fun d => x d j) → (∀ j, Measurable fun d => y d j) →
      IntervalIntegrable (fun d => |x d j - y d j|) volume 0 1 := by
    intro x y hx hy mx my
    exact integrable_bdd (g := fun d => |x d j - y d j|) 1 (continuous_abs.measurable.comp ((mx j).sub (my j))) (fun d => by
      have h1 := hx d j; have h2 := hy d j
      rw [abs_abs, abs_le]; constructor <;> linarith) _ _
  rw [← intervalIntegral.integral_add (hi (y := o) h.frac ho.frac h.meas ho.meas) (hi (x := o) (y := p) ho.frac hp.frac ho.meas hp.meas)]
  refine intervalIntegral.integral_mono_on zero_le_one (hi h.frac hp.frac h.meas hp.meas)
    ((hi h.frac ho.frac h.meas ho.meas).add (hi ho.frac hp.frac ho.meas hp.meas)) fun d _ => ?_
  have := abs_add_le (t.occ d j - o d j) (o d j - p d j)
  rw [show t.occ d j - o d j + (o d j - p d j) = t.occ d j - p d j by ring] at this
  exact this

theorem Ref.Kin.nonneg {dw ε g : ℝ} {ts ts' : List Ref.Traps} (h : Ref.Kin dw ε ts ts' g) (hr : ∀ t ∈ ts, t.Reg dw) :
    0 ≤ g := by
  induction h with
  | nil => exact le_rfl
  | cons t o dens keep h hn hs ih =>
    exact add_nonneg (Ref.Traps.gap_nonneg (hr t List.mem_cons_self) o) (ih fun x hx => hr x (List.mem_cons_of_mem _ hx))

theorem Ref.Kin.reg {dw ε g : ℝ} {ts ts' : List Ref.Traps} (h : Ref.Kin dw ε ts ts' g) : ∀ t ∈ ts', t.Reg dw := by
  induction h with
  | nil => simp
  | cons t o dens keep h hn hs ih =>
    intro x hx
    rcases List.mem_cons.1 hx with rfl | hx
    · exact h
    · exact ih x hx

theorem Ref.Traps.Reg.refill {dw : ℝ} {t : Ref.Traps} {o : ℝ → Fin t.s → ℝ} {dens : Fin t.s → ℝ} {keep : ℝ → Fin t.s → ℝ}
    (h : t.Reg dw) (h' : ((t.refill o).vary dens keep).Reg dw) : (t.refill o).Reg dw :=
  ⟨h.dens, h.keep, h'.frac, h'.meas⟩

theorem Ref.Kin.step {dw L ε g : ℝ} {f : ℝ → ℝ} (hf : LipFill f L) {ts ts' : List Ref.Traps} (h : Ref.Few dw L ts)
    (h' : Ref.Few dw L ts') (hL : 2 * (Ref.totals ts * L) ≤ 1) (h0 : 0 ≤ ε) (h1 : ε ≤ 1) (ht : Ref.Kin dw ε ts ts' g)
    (n n' : ℝ) :
    ∃ g1, Ref.Kin dw ε (Ref.after f dw ts n) (Ref.after f dw ts' n') g1 ∧
      (1 - 2 * (Ref.totals ts * L)) * |Ref.gain f dw ts n - Ref.gain f dw ts' n'| + g1 ≤
        g + 2 * (Ref.totals ts * L) * |n - n'| + 10 * ε * Ref.traffic f dw ts' n' := by
  induction ht with
  | nil => exact ⟨0, .nil, by simp [Ref.totals, Ref.gain, Ref.traffic]⟩
  | @cons t o dens keep ts ts' g hr hn hs ih =>
    obtain ⟨r1, r2, r3, r4⟩ := h.cons
    obtain ⟨s1, s2, s3, s4⟩ := h'.cons
    have k1 := mul_nonneg r1.total_nonneg h.slope
    have k2 := mul_nonneg (Ref.totals_nonneg r3.reg) h.slope
    rw [r4, add_mul] at hL
    obtain ⟨g1, i1, i2⟩ := ih r3 s3 (by linarith)
    have hm := r1.refill hr
    have j := plain_lip r1 hm hf (by linarith) n n'
    have hL' : (t.refill o).total * L ≤ 1 := r2
    have p := plain_pert (t := t.refill o) hm hr hf (by change 2 * (t.total * L) ≤ 1; linarith) h0 h1 ⟨hn.dens, hn.keep⟩ n'
    set u := (t.refill o).vary dens keep with hu
    have e1 := r1.transfer_plain hf r2 n
    have e2 := s1.transfer_plain hf s2 n'
    have tri : (t.plain f dw n).2.gap (u.plain f dw n').2.occ ≤
        (t.plain f dw n).2.gap ((t.refill o).plain f dw n').2.occ +
          ((t.refill o).plain f dw n').2.gap (u.plain f dw n').2.occ :=
      Ref.Traps.gap_triangle (t := (t.plain f dw n).2) (o := ((t.refill o).plain f dw n').2.occ)
        (p := (u.plain f dw n').2.occ) (r1.plain f n) (hm.plain f n')
        ⟨r1.dens, r1.keep, (s1.plain f n').frac, (s1.plain f n').meas⟩
    refine ⟨(t.plain f dw n).2.gap (u.plain f dw n').2.occ + g1, ?_, ?_⟩
    · unfold Ref.after
      rw [List.map_cons, List.map_cons, e1, e2]
      exact .cons (t.plain f dw n).2 (u.plain f dw n').2.occ dens keep (s1.plain f n') ⟨hn.dens, hn.keep⟩ i1
    · have a1 : Ref.gain f dw (t :: ts) n - Ref.gain f dw (u :: ts') n' =
          (((t.plain f dw n).1 - ((t.refill o).plain f dw n').1) +
            (((t.refill o).plain f dw n').1 - (u.plain f dw n').1)) + (Ref.gain f dw ts n - Ref.gain f dw ts' n') := by
        unfold Ref.gain
        rw [List.map_cons, List.map_cons, List.sum_cons, List.sum_cons, e1, e2]; ring
      have a0 : Ref.traffic f dw (u :: ts') n' = (u.outflow dw + u.inflow f dw n') + Ref.traffic f dw ts' n' := by
        simp [Ref.traffic]
      rw [a1, a0, r4, add_mul]
      set X := (t.plain f dw n).1 - ((t.refill o).plain f dw n').1
      set Y := ((t.refill o).plain f dw n').1 - (u.plain f dw n').1
      set W := Ref.gain f dw ts n - Ref.gain f dw ts' n'
      have a2 : |X + Y + W| ≤ |X| + |Y| + |W| := (abs_add_le _ _).trans (by linarith [abs_add_le X Y])
      have a3 := mul_le_mul_of_nonneg_left a2 (sub_nonneg.2 hL)
      have a4 := mul_nonneg k2 (abs_nonneg X)
      have a5 := mul_nonneg k1 (abs_nonneg W)
      have a6 := mul_nonneg k1 (abs_nonneg Y)
      have a7 := mul_nonneg k2 (abs_nonneg Y)
      nlinarith

/-! ### Passes and readouts -/

theorem Ref.Kin.after_few {dw L : ℝ} {f : ℝ → ℝ} (hf : LipFill f L) {ts : List Ref.Traps} (h : Ref.Few dw L ts) (n : ℝ) :
    Ref.Few dw L (Ref.after f dw ts n) := (h.after hf n).1

theorem pass_error {dw L ε : ℝ} {f : ℝ → ℝ} (hf : LipFill f L) (h0 : 0 ≤ ε) (h1 : ε ≤ 1) (R : ℕ) (M : ℝ) (todo : List (ℕ × ℝ)) :
    ∀ (x y : ℕ → ℝ) (ts ts' : List Ref.Traps) (g : ℝ), Ref.Few dw L ts → Ref.Few dw L ts' → Ref.Kin dw ε ts ts' g →
      (todo.map Prod.fst).Nodup → (∀ p ∈ todo, p.1 < R ∧ 0 ≤ p.2 ∧ p.2 ≤ M) → 0 ≤ M → M * (Ref.totals ts * L) ≤ 1 →
      M * (Ref.totals ts' * L) ≤ 1 → 2 * (Ref.totals ts * L) ≤ 1 → 2 * (Ref.totals ts' * L) ≤ 1 →
      (∀ r < R, 0 ≤ x r) → (∀ r < R, 0 ≤ y r) →
      (1 - 2 * (Ref.totals ts * L)) * ∑ r ∈ Finset.range R, |((todo.foldl (Ref.row f dw) (x, ts)).1 r - x r) -
          ((todo.foldl (Ref.row f dw) (y, ts')).1 r - y r)| ≤
        M * (g + 2 * (Ref.totals ts * L) * (todo.map fun p => |x p.1 - y p.1|).sum +
          10 * ε * (3 * Ref.filling ts' + 4 * (Ref.totals ts' * L) * (todo.map fun p => y p.1).sum)) := by
  induction todo with
  | nil =>
    intro x y ts ts' g hts hts' hk _ _ hM _ _ _ _ hx hy
    simp only [List.foldl_nil, sub_self, abs_zero, Finset.sum_const_zero,
      List.map_nil, List.sum_nil, mul_zero, add_zero]
    have h2 := hts'.filling_nonneg
    have := mul_nonneg (mul_nonneg (by norm_num : (0 : ℝ) ≤ 10) h0) (by linarith : 0 ≤ 3 * Ref.filling ts')
    exact mul_nonneg hM (add_nonneg (hk.nonneg hts.reg) this)
  | cons p todo ih =>
    intro x y ts ts' g hts hts' hk hnd hp hM hML hML' hl1 hl1' hx hy
    obtain ⟨p1, p2, p3⟩ := hp p List.mem_cons_self
    have hl : 0 ≤ Ref.totals ts * L := mul_nonneg (Ref.totals_nonneg hts.reg) hts.slope
    have hl' : 0 ≤ Ref.totals ts' * L := mul_nonneg (Ref.totals_nonneg hts'.reg) hts.slope
    obtain ⟨ex, hx0⟩ := row_plain hf hts x p (hx _ p1) p2 ((mul_le_mul_of_nonneg_right p3 hl).trans hML)
    obtain ⟨ey, hy0⟩ := row_plain hf hts' y p (hy _ p1) p2 ((mul_le_mul_of_nonneg_right p3 hl').trans hML')
    obtain ⟨g1, tw1, hg1⟩ := hk.step hf hts hts' hl1 h0 h1 (x p.1) (y p.1)
    have htr := hts'.traffic_le hf hl1' (hy _ p1)
    obtain ⟨a1, a2⟩ := hts.after hf (x p.1)
    obtain ⟨a1', a2'⟩ := hts'.after hf (y p.1)
    rw [List.map_cons, List.nodup_cons] at hnd
    rw [List.foldl_cons, List.foldl_cons, ex, ey]
    set u := Function.update x p.1 (x p.1 + Ref.gain f dw ts (x p.1) * p.2) with hu
    set v := Function.update y p.1 (y p.1 + Ref.gain f dw ts' (y p.1) * p.2) with hv
    have hu0 : ∀ r < R, 0 ≤ u r := by
      intro r hr
      by_cases h : r = p.1
      · subst h; rw [hu, Function.update_self]; exact hx0
      · rw [hu, Function.update_of_ne h]; exact hx r hr
    have hv0 : ∀ r < R, 0 ≤ v r := by
      intro r hr
      by_cases h : r = p.1
      · subst h; rw [hv, Function.update_self]; exact hy0
      · rw [hv, Function.update_of_ne h]; exact hy r hr
    have i2 := ih u v _ _ g1 a1 a1' tw1 hnd.2 (fun q hq => hp q (List.mem_cons_of_mem _ hq)) hM
      (by rw [a2]; exact hML) (by rw [a2']; exact hML') (by rw [a2]; exact hl1) (by rw [a2']; exact hl1') hu0 hv0
    rw [a2, a2'] at i2
    have hne : ∀ q ∈ todo, q.1 ≠ p.1 := fun q hq h => hnd.1 (h ▸ List.mem_map_of_mem hq)
    have e1 : (todo.map fun q => |u q.1 - v q.1|) = todo.map fun q => |x q.1 - y q.1| :=
      List.map_congr_left fun q hq => by
        rw [hu, hv, Function.update_of_ne (hne q hq), Function.update_of_ne (hne q hq)]
    have e1' : (todo.map fun q => v q.1) = todo.map fun q => y q.1 :=
      List.map_congr_left fun q hq => by rw [hv, Function.update_of_ne (hne q hq)]
    rw [e1, e1'] at i2
    have e2 : ∑ r ∈ Finset.range R, |(u r - x r) - (v r - y r)| =
        |Ref.gain f dw ts (x p.1) - Ref.gain f dw ts' (y p.1)| * p.2 := by
      rw [Finset.sum_eq_single p.1]
      · rw [hu, hv, Function.update_self, Function.update_self, add_sub_cancel_left, add_sub_cancel_left, ← sub_mul,
          abs_mul, abs_of_nonneg p2]
      · intro r _ h
        rw [hu, hv, Function.update_of_ne h, Function.update_of_ne h]; simp
      · intro h; exact absurd (Finset.mem_range.2 p1) h
    have e3 : ∀ X Y : ℕ → ℝ, ∑ r ∈ Finset.range R, |(X r - x r) - (Y r - y r)| ≤
        ∑ r ∈ Finset.range R, |(X r - u r) - (Y r - v r)| + ∑ r ∈ Finset.range R, |(u r - x r) - (v r - y r)| := by
      intro X Y
      rw [← Finset.sum_add_distrib]
      refine Finset.sum_le_sum fun r _ => ?_
      rw [show (X r - x r) - (Y r - y r) = ((X r - u r) - (Y r - v r)) + ((u r - x r) - (v r - y r)) by ring]
      exact abs_add_le _ _
    set l := 2 * (Ref.totals ts * L) with hldef
    set k := 4 * (Ref.totals ts' * L) with hkdef
    refine (mul_le_mul_of_nonneg_left (e3 _ _) (sub_nonneg.2 hl1)).trans ?_
    rw [e2, mul_add]
    simp only [List.map_cons, List.sum_cons]
    set S := (todo.map fun q => |x q.1 - y q.1|).sum with hS
    set T := (todo.map fun q => y q.1).sum with hT
    set G := |Ref.gain f dw ts (x p.1) - Ref.gain f dw ts' (y p.1)| with hG
    have hG0 : 0 ≤ (1 - l) * G := mul_nonneg (sub_nonneg.2 hl1) (abs_nonneg _)
    have c1 : (1 - l) * (G * p.2) ≤ M * ((1 - l) * G) := by
      have := mul_le_mul_of_nonneg_left p3 hG0
      nlinarith
    have c2 := mul_le_mul_of_nonneg_left hg1 hM
    have c3 := mul_le_mul_of_nonneg_left htr (mul_nonneg hM (mul_nonneg (by norm_num : (0 : ℝ) ≤ 10) h0))
    refine (add_le_add i2 c1).trans ?_
    rw [← mul_add]
    refine mul_le_mul_of_nonneg_left ?_ hM
    have c4 := mul_le_mul_of_nonneg_left htr (mul_nonneg (by norm_num : (0 : ℝ) ≤ 10) h0)
    nlinarith

/-- Passes do not increase the charge of a column when every transfer stands for one. -/
theorem pass_total {dw L : ℝ} {f : ℝ → ℝ} (hf : LipFill f L) (R : ℕ) (todo : List (ℕ × ℝ)) :
    ∀ (y : ℕ → ℝ) (ts : List Ref.Traps), Ref.Few dw L ts → (∀ p ∈ todo, p.1 < R ∧ p.2 = 1) → (∀ r < R, 0 ≤ y r) →
      (∀ r < R, 0 ≤ (todo.foldl (Ref.row f dw) (y, ts)).1 r) ∧
      ∑ r ∈ Finset.range R, (todo.foldl (Ref.row f dw) (y, ts)).1 r ≤ ∑ r ∈ Finset.range R, y r + Ref.filling ts := by
  induction todo with
  | nil =>
    intro y ts hts _ hy
    exact ⟨hy, by have := hts.filling_nonneg; simp only [List.foldl_nil]; linarith⟩
  | cons p todo ih =>
    intro y ts hts hp hy
    obtain ⟨p1, p2⟩ := hp p List.mem_cons_self
    obtain ⟨ey, hy0⟩ := row_plain hf hts y p (hy _ p1) (by rw [p2]; norm_num) (by rw [p2, one_mul]; exact hts.few)
    rw [List.foldl_cons, ey]
    rw [p2, mul_one] at hy0 ⊢
    set v := Function.update y p.1 (y p.1 + Ref.gain f dw ts (y p.1)) with hv
    have hv0 : ∀ r < R, 0 ≤ v r := by
      intro r hr
      by_cases h : r = p.1
      · subst h; rw [hv, Function.update_self]; exact hy0
      · rw [hv, Function.update_of_ne h]; exact hy r hr
    obtain ⟨i1, i2⟩ := ih v _ (hts.after hf (y p.1)).1 (fun q hq => hp q (List.mem_cons_of_mem _ hq)) hv0
    refine ⟨i1, i2.trans ?_⟩
    have e : ∑ r ∈ Finset.range R, v r = ∑ r ∈ Finset.range R, y r + Ref.gain f dw ts (y p.1) := by
      have h1 : ∑ r ∈ Finset.range R, v r - ∑ r ∈ Finset.range R, y r = Ref.gain f dw ts (y p.1) := by
        rw [← Finset.sum_sub_distrib, Finset.sum_eq_single p.1]
        · rw [hv, Function.update_self]; ring
        · intro r _ h; rw [hv, Function.update_of_ne h, sub_self]
        · intro h; exact absurd (Finset.mem_range.2 p1) h
      linarith
    rw [e, hts.gain_eq hf]
    linarith

/-- Readouts of two columns with slightly different traps, none of them filled before. -/
theorem readout_error {dw L ε l : ℝ} {f : ℝ → ℝ} (hf : LipFill f L) (h0 : 0 ≤ ε) (h1 : ε ≤ 1) (R : ℕ) (ts ts' : List Ref.Traps)
    (hts : Ref.Few dw L ts) (hts' : Ref.Few dw L ts') (hk : Ref.Kin dw ε ts ts' 0) (he : Ref.filling ts' = 0)
    (hl : 2 * (Ref.totals ts * L) ≤ l) (hl' : 2 * (Ref.totals ts' * L) ≤ l) (hl1 : l < 1) (passes : List (List (ℕ × ℝ)))
    (hnd : ∀ todo ∈ passes, (todo.map Prod.fst).Nodup) (hp : ∀ todo ∈ passes, ∀ p ∈ todo, p.1 < R ∧ p.2 = 1) :
    ∀ x y : ℕ → ℝ, (∀ r < R, 0 ≤ x r) → (∀ r < R, 0 ≤ y r) →
    ∑ r ∈ Finset.range R, Ref.readout f dw ts' passes y r ≤ ∑ r ∈ Finset.range R, y r ∧
    colDist R (Ref.readout f dw ts passes x) (Ref.readout f dw ts' passes y) ≤
      (1 / (1 - l)) ^ passes.length * colDist R x y +
        20 * ε * ((1 / (1 - l)) ^ passes.length - 1) * ∑ r ∈ Finset.range R, y r := by
  have k0 : 0 ≤ Ref.totals ts * L := mul_nonneg (Ref.totals_nonneg hts.reg) hts.slope
  have k0' : 0 ≤ Ref.totals ts' * L := mul_nonneg (Ref.totals_nonneg hts'.reg) hts.slope
  have hl0 : 0 ≤ l := by linarith
  set c := 1 / (1 - l) with hc
  have hcl : c * (1 - l) = 1 := by rw [hc]; exact one_div_mul_cancel (by linarith)
  have hc1 : 1 ≤ c := by rw [hc, one_le_div (by linarith)]; linarith
  induction passes with
  | nil => intro x y hx hy; simp [Ref.readout]
  | cons todo passes ih =>
    intro x y hx hy
    have hnd0 := hnd todo List.mem_cons_self
    have hp0 := hp todo List.mem_cons_self
    have hm : ∀ p ∈ todo, p.1 < R ∧ (0 : ℝ) ≤ p.2 ∧ p.2 ≤ 1 := fun p hp => ⟨(hp0 p hp).1, by rw [(hp0 p hp).2]; norm_num,
      by rw [(hp0 p hp).2]⟩
    have e := pass_error hf h0 h1 R 1 todo x y ts ts' 0 hts hts' hk hnd0 hm zero_le_one (by linarith) (by linarith)
      (by linarith) (by linarith) hx hy
    obtain ⟨x0, -⟩ := pass_total hf R todo x ts hts hp0 hx
    obtain ⟨y0, yt⟩ := pass_total hf R todo y ts' hts' hp0 hy
    rw [he, add_zero] at yt
    rw [he, mul_zero, zero_add, zero_add, one_mul] at e
    change _ ≤ _ at yt
    have hT := todo_sum_le x y todo hnd0 fun p hp => (hp0 p hp).1
    have hY : (todo.map fun p => y p.1).sum ≤ ∑ r ∈ Finset.range R, y r := by
      have e : (todo.map fun p => y p.1) = (todo.map Prod.fst).map fun r => y r := by rw [List.map_map]; rfl
      rw [e, ← List.sum_toFinset _ hnd0]
      refine Finset.sum_le_sum_of_subset_of_nonneg (fun r hr => ?_) fun r hr _ => hy r (Finset.mem_range.1 hr)
      rw [List.mem_toFinset] at hr
      obtain ⟨q, hq, rfl⟩ := List.mem_map.1 hr
      exact Finset.mem_range.2 (hp0 q hq).1
    set u := Ref.pass f dw ts x todo with hu
    set v := Ref.pass f dw ts' y todo with hv
    have eu : (todo.foldl (Ref.row f dw) (x, ts)).1 = u := rfl
    have ev : (todo.foldl (Ref.row f dw) (y, ts')).1 = v := rfl
    rw [eu] at x0 e
    rw [ev] at y0 yt e
    obtain ⟨i1, i2⟩ := ih (fun t ht => hnd t (List.mem_cons_of_mem _ ht)) (fun t ht => hp t (List.mem_cons_of_mem _ ht)) u v x0 y0
    have r1 : Ref.readout f dw ts (todo :: passes) x = Ref.readout f dw ts passes u := rfl
    have r2 : Ref.readout f dw ts' (todo :: passes) y = Ref.readout f dw ts' passes v := rfl
    rw [r1, r2]
    refine ⟨i1.trans yt, i2.trans ?_⟩
    set D := colDist R x y with hD
    set Y := ∑ r ∈ Finset.range R, y r with hYd
    have hD0 : 0 ≤ D := Finset.sum_nonneg fun _ _ => abs_nonneg _
    have hY0 : 0 ≤ Y := Finset.sum_nonneg fun r hr => hy r (Finset.mem_range.1 hr)
    set E := ∑ r ∈ Finset.range R, |(u r - x r) - (v r - y r)| with hE
    have hE0 : 0 ≤ E := Finset.sum_nonneg fun _ _ => abs_nonneg _
    have hT0 : 0 ≤ (todo.map fun p => |x p.1 - y p.1|).sum := List.sum_nonneg fun z hz => by
      obtain ⟨q, -, rfl⟩ := List.mem_map.1 hz
      exact abs_nonneg _
    have hY1 : 0 ≤ (todo.map fun p => y p.1).sum := List.sum_nonneg fun z hz => by
      obtain ⟨q, hq, rfl⟩ := List.mem_map.1 hz
      exact hy _ (hp0 q hq).1
    -- one pass
    have step : (1 - l) * E ≤ l * D + 20 * ε * (l * Y) := by
      have s1 : (1 - l) * E ≤ (1 - 2 * (Ref.totals ts * L)) * E := mul_le_mul_of_nonneg_right (by linarith) hE0
      have s2 : 2 * (Ref.totals ts * L) * (todo.map fun p => |x p.1 - y p.1|).sum ≤ l * D :=
        mul_le_mul hl hT hT0 hl0
      have s3 : 2 * (Ref.totals ts' * L) * (todo.map fun p => y p.1).sum ≤ l * Y := mul_le_mul hl' hY hY1 hl0
      have s4 := mul_le_mul_of_nonneg_left s3 h0
      nlinarith
    have duv : colDist R u v ≤ E + D := by
      unfold colDist at hD ⊢
      rw [hE, hD, ← Finset.sum_add_distrib]
      refine Finset.sum_le_sum fun r _ => ?_
      rw [show u r - v r = ((u r - x r) - (v r - y r)) + (x r - y r) by ring]
      exact abs_add_le _ _
    have hEc : E ≤ (c - 1) * D + 20 * ε * ((c - 1) * Y) := by
      have := mul_le_mul_of_nonneg_left step (by linarith : 0 ≤ c)
      have cl : c * l = c - 1 := by linarith
      have w1 : c * ((1 - l) * E) = E := by rw [← mul_assoc, hcl, one_mul]
      have w2 : c * (l * D + 20 * ε * (l * Y)) = (c * l) * D + 20 * ε * ((c * l) * Y) := by ring
      rw [w1, w2, cl] at this
      exact this
    rw [List.length_cons, pow_succ]
    set q := c ^ passes.length with hq
    have hq1 : 1 ≤ q := one_le_pow₀ hc1
    have t1 := mul_le_mul_of_nonneg_left (duv.trans (add_le_add_left hEc D)) (by linarith : 0 ≤ q)
    have t2 : 20 * ε * (q - 1) * ∑ r ∈ Finset.range R, v r ≤ 20 * ε * (q - 1) * Y :=
      mul_le_mul_of_nonneg_left yt (mul_nonneg (by linarith) (by linarith))
    nlinarith

end Arctic
