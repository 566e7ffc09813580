import Verif.Lemmas.SlowStep
import Verif.Lemmas.RefStep
import Verif.Lemmas.RefLipschitz
import Verif.Spec.RefSlow
import Mathlib.Topology.Order.IntermediateValue
import Mathlib.Topology.MetricSpace.Lipschitz

/-!
# One transfer of a slow-capture manager agrees with the reference if the traps are few
-/

set_option linter.unusedSectionVars false
set_option linter.unusedVariables false

namespace Arctic
open MeasureTheory

section above
variable {K : Type} [Field K] [LinearOrder K] [IsStrictOrderedRing K] {s : ℕ}

theorem electrons_cons (dens : Fin s → K) (r : Row K s) (l : WM K s) :
    electrons dens (r :: l) = r.vol * (∑ j, r.fill j * dens j) + electrons dens l := by
  simp [electrons]

theorem row_loss (dens : Fin s → K) (hd : ∀ j, 0 ≤ dens j) (p : Fin s → K) (hp : ∀ j, 0 ≤ p j ∧ p j ≤ 1)
    (x : Fin s → K) (hx : Frac x) :
    ∑ j, x j * p j * dens j ≤ ∑ j, x j * dens j ∧ ∑ j, x j * dens j - ∑ j, x j * p j * dens j ≤ ∑ j, dens j := by
  constructor
  · refine Finset.sum_le_sum fun j _ => mul_le_mul_of_nonneg_right (mul_le_of_le_one_right (hx j).1 (hp j).2) (hd j)
  · have h1 : ∑ j, x j * dens j ≤ ∑ j, dens j :=
      Finset.sum_le_sum fun j _ => mul_le_of_le_one_left (hd j) (hx j).2
    have h2 : 0 ≤ ∑ j, x j * p j * dens j :=
      Finset.sum_nonneg fun j _ => mul_nonneg (mul_nonneg (hx j).1 (hp j).1) (hd j)
    linarith

/-- The electrons released above depth `c` are at most the traps there. -/
theorem releaseAbove_loss (dens : Fin s → K) (hd : ∀ j, 0 ≤ dens j) (p : Fin s → K) (hp : ∀ j, 0 ≤ p j ∧ p j ≤ 1)
    (c : K) (act : WM K s) (hpos : Pos act) (hF : ∀ r ∈ act, Frac r.fill) :
    electrons dens (releaseAbove p c act) ≤ electrons dens act ∧
      (c ≤ volSum act → electrons dens act - electrons dens (releaseAbove p c act) ≤ (∑ j, dens j) * (volSum act - c)) := by
  have hD : 0 ≤ ∑ j, dens j := Finset.sum_nonneg fun j _ => hd j
  induction act generalizing c with
  | nil =>
    refine ⟨le_rfl, fun h => ?_⟩
    simp only [releaseAbove, sub_self]
    exact mul_nonneg hD (by linarith)
  | cons r rs ih =>
    have hr := hpos r List.mem_cons_self
    have hrs : Pos rs := fun x hx => hpos x (List.mem_cons_of_mem _ hx)
    have hFs : ∀ r ∈ rs, Frac r.fill := fun x hx => hF x (List.mem_cons_of_mem _ hx)
    obtain ⟨l1, l2⟩ := row_loss dens hd p hp r.fill (hF r List.mem_cons_self)
    have hvs := hrs.sum_nonneg
    unfold releaseAbove
    rw [volSum_cons]
    split
    · rename_i hc
      obtain ⟨i1, i2⟩ := ih 0 hrs hFs
      simp only [electrons_cons]
      refine ⟨add_le_add (mul_le_mul_of_nonneg_left l1 hr.le) i1, fun h => ?_⟩
      have i3 := i2 hvs
      have m1 := mul_le_mul_of_nonneg_left l2 hr.le
      have m2 : 0 ≤ (∑ j, dens j) * (-c) := mul_nonneg hD (by linarith)
      nlinarith
    · split
      · rename_i hc
        obtain ⟨i1, i2⟩ := ih (c - r.vol) hrs hFs
        simp only [electrons_cons]
        refine ⟨add_le_add le_rfl i1, fun h => ?_⟩
        have i3 := i2 (by linarith)
        have e : volSum rs - (c - r.vol) = r.vol + volSum rs - c := by ring
        rw [e] at i3
        linarith
      · rename_i hc0 hc
        have hc := not_le.1 hc
        obtain ⟨i1, i2⟩ := ih 0 hrs hFs
        simp only [electrons_cons]
        have m1 := mul_le_mul_of_nonneg_left l1 (sub_nonneg.2 hc.le)
        have m2 := mul_le_mul_of_nonneg_left l2 (sub_nonneg.2 hc.le)
        refine ⟨by nlinarith, fun h => ?_⟩
        have i3 := i2 hvs
        nlinarith

theorem releaseAbove_ok (p : Fin s → K) (hp : ∀ j, 0 ≤ p j ∧ p j ≤ 1) (c : K) (act : WM K s) (hpos : Pos act)
    (hF : ∀ r ∈ act, Frac r.fill) :
    Pos (releaseAbove p c act) ∧ (∀ r ∈ releaseAbove p c act, Frac r.fill) ∧
      volSum (releaseAbove p c act) = volSum act := by
  induction act generalizing c with
  | nil => exact ⟨hpos, hF, rfl⟩
  | cons r rs ih =>
    have hr := hpos r List.mem_cons_self
    have hfr := hF r List.mem_cons_self
    have hrs : Pos rs := fun x hx => hpos x (List.mem_cons_of_mem _ hx)
    have hFs : ∀ r ∈ rs, Frac r.fill := fun x hx => hF x (List.mem_cons_of_mem _ hx)
    have hrel : Frac fun j => r.fill j * p j := fun j => release_frac p hp j _ (hfr j).1 (hfr j).2
    have cons : ∀ (x : Row K s) l, 0 < x.vol → Pos l → Pos (x :: l) := by
      intro x l hx hl y hy
      rcases List.mem_cons.1 hy with rfl | hy
      · exact hx
      · exact hl y hy
    have cons' : ∀ (x : Row K s) (l : WM K s), Frac x.fill → (∀ r ∈ l, Frac r.fill) → ∀ r ∈ x :: l, Frac r.fill := by
      intro x l hx hl y hy
      rcases List.mem_cons.1 hy with rfl | hy
      · exact hx
      · exact hl y hy
    unfold releaseAbove
    rw [volSum_cons]
    split
    · obtain ⟨i1, i2, i3⟩ := ih 0 hrs hFs
      exact ⟨cons _ _ hr i1, cons' _ _ hrel i2, by rw [volSum_cons, i3]⟩
    · split
      · obtain ⟨i1, i2, i3⟩ := ih (c - r.vol) hrs hFs
        exact ⟨cons _ _ hr i1, cons' _ _ hfr i2, by rw [volSum_cons, i3]⟩
      · rename_i hc0 hc
        obtain ⟨i1, i2, i3⟩ := ih 0 hrs hFs
        refine ⟨cons _ _ (not_le.1 hc0) (cons _ _ (sub_pos.2 (not_le.1 hc)) i1), cons' _ _ hfr (cons' _ _ hrel i2), ?_⟩
        rw [volSum_cons, volSum_cons, i3]
        simp only
        ring

theorem occ_releaseAbove (p : Fin s → K) (c : K) (act : WM K s) (hp : Pos act) (d : K) (hd : 0 < d) (j : Fin s) :
    occ (releaseAbove p c act) d j = if d ≤ c then occ act d j else occ act d j * p j := by
  rcases le_or_gt c (volSum act) with h | h
  · rw [← aboveC_eq p c act hp h, occ_aboveC _ (by simp) c act hp d hd j]
  · rw [releaseAbove_top p c act hp h]
    split
    · rfl
    · rename_i h1
      rw [occ_above act hp d (h.trans (not_le.1 h1)) j, zero_mul]

end above

variable {s : ℕ}

/-- Few traps for the filling law: within a small change of the cloud there are fewer traps than electrons. -/
structure FewTraps (f : ℝ → ℝ) (D : ℝ) : Prop where
  mono : ∀ x y, x ≤ y → f x ≤ f y
  few : ∀ x y, 0 ≤ x → x ≤ y → D * (f y - f x) ≤ y - x
  pos : ∀ n, 0 < n → 0 < f n

theorem FewTraps.less {f : ℝ → ℝ} {D D' : ℝ} (h : FewTraps f D) (hD : D' ≤ D) : FewTraps f D' :=
  ⟨h.mono, fun x y hx hy =>
    (mul_le_mul_of_nonneg_right hD (sub_nonneg.2 (h.mono x y hy))).trans (h.few x y hx hy), h.pos⟩

/-- Electrons released beyond the cloud do not lift it above a level that it does not reach without them. -/
theorem FewTraps.noLift {f : ℝ → ℝ} {D : ℝ} (h : FewTraps f D) (hD : 0 ≤ D) {n out top : ℝ} (hn : 0 ≤ n) (h0 : 0 ≤ out)
    (hle : f n ≤ top) (hout : out ≤ D * (top - f n)) : f (n + out) ≤ top := by
  by_contra hc
  have hc := not_le.1 hc
  rcases hD.eq_or_lt with h1 | h1
  · rw [← h1, zero_mul] at hout
    rw [le_antisymm hout h0, add_zero] at hc
    linarith
  · have hcont : ContinuousOn f (Set.Icc n (n + out)) := by
      have hl : LipschitzOnWith (Real.toNNReal (1 / D)) f (Set.Icc n (n + out)) := by
        refine LipschitzOnWith.of_le_add_mul _ fun x hx y hy => ?_
        rw [Real.coe_toNNReal _ (by positivity)]
        rcases le_total x y with hxy | hxy
        · have := h.mono x y hxy
          have : 0 ≤ 1 / D * dist x y := mul_nonneg (by positivity) dist_nonneg
          linarith
        · have h2 := h.few y x (hn.trans hy.1) hxy
          have h3 : f x - f y ≤ (x - y) / D := by rw [le_div_iff₀ h1]; linarith
          have h4 : 1 / D * dist x y = (x - y) / D := by
            rw [Real.dist_eq, abs_of_nonneg (sub_nonneg.2 hxy)]; ring
          linarith
      exact hl.continuousOn
    obtain ⟨y, hy, hfy⟩ := intermediate_value_Icc (by linarith : n ≤ n + out) hcont ⟨hle, hc.le⟩
    have h2 := h.few n y hn hy.1
    rw [hfy] at h2
    have : n + out ≤ y := by linarith
    have := h.mono _ _ this
    linarith

/-- One transfer of few traps that need time to capture: those outside the cloud release, those inside the cloud that includes the
released electrons exchange electrons with it; there are always enough. -/
theorem slowStep_few (dens : Fin s → ℝ) (hd : ∀ j, 0 ≤ dens j) (p : Probs ℝ s) (hpr : ProbsOk p) {f : ℝ → ℝ} (hf : FillModel f)
    (hfew : FewTraps f (∑ j, dens j)) (n : ℝ) (hn : 0 ≤ n) (act : WM ℝ s) (z : ℕ) (hp : Pos act) (hv : volSum act ≤ 1)
    (hF : ∀ r ∈ act, Frac r.fill) :
    let w1 := releaseAbove p.fromRelease (f n) act
    let a := n + (electrons dens act - electrons dens w1)
    ∃ net act2 z2, slowStep dens p f n (act ++ Z (z + 3)) = .ok (net, act2 ++ Z (z2 + 1)) ∧
      act2.length + z2 = act.length + z + 2 ∧ act2.length ≤ act.length + 2 ∧ Pos act2 ∧ volSum act2 ≤ 1 ∧
      (∀ r ∈ act2, Frac r.fill) ∧ n ≤ a ∧
      (∀ d, 0 < d → ∀ j, occ act2 d j =
        if d ≤ f a then occ w1 d j * p.fromFull j + (1 - occ w1 d j) * p.fromEmpty j else occ w1 d j) ∧
      net = electrons dens act - electrons dens act2 ∧ -((∑ j, dens j) * f n) ≤ net := by
  intro w1 a
  have hD0 : 0 ≤ ∑ j, dens j := Finset.sum_nonneg fun j _ => hd j
  obtain ⟨l1, l2⟩ := releaseAbove_loss dens hd p.fromRelease hpr.release (f n) act hp hF
  obtain ⟨r1, r2, r3⟩ := releaseAbove_ok p.fromRelease hpr.release (f n) act hp hF
  obtain ⟨net, act2, z2, g1, g2, g3, g4, g5, g6, g7⟩ := slowStep_regular dens p f hf hd hpr n hn act z
    hp hv hF (fun _ h => hfew.pos n h) (fun hle => hfew.noLift hD0 hn (sub_nonneg.2 l1) hle (l2 hle))
  change electrons dens w1 ≤ _ at l1
  change Pos w1 at r1
  change ∀ r ∈ w1, _ at r2
  change volSum w1 = _ at r3
  have ha : a = n + (electrons dens act - electrons dens w1) := rfl
  obtain ⟨zr, hzr⟩ := releaseAbove_append_Z p.fromRelease (f n) act (z + 3) (hf.nonneg n) hp
  change _ = w1 ++ _ at hzr
  unfold SlowSpec at g7
  simp only [hzr, electrons_append_Z] at g7
  rw [← ha] at g7
  obtain ⟨T, t1, t2, t3, t4, t5, t6, t7⟩ := g7
  have t4' : ∀ d, 0 < d → ∀ j, occ T d j =
      if d ≤ f a then occ w1 d j * p.fromFull j + (1 - occ w1 d j) * p.fromEmpty j else occ w1 d j :=
    fun d h j => by rw [t4 d h j, occ_append_Z _ _ d h j]
  have hnn : ∀ l : WM ℝ s, Pos l → ∀ r ∈ l, 0 ≤ r.vol := fun l h r hr => (h r hr).le
  have ha0 : 0 ≤ a := by rw [ha]; linarith
  -- there are enough electrons
  have hgain : electrons dens T - electrons dens w1 ≤ (∑ j, dens j) * f a := by
    rw [← electrons_integral dens T (hnn _ t1) t3 t2, ← electrons_integral dens w1 (hnn _ r1) r2 (by rw [r3]; exact hv),
      ← Finset.sum_sub_distrib, Finset.sum_mul]
    refine Finset.sum_le_sum fun j _ => ?_
    rw [← mul_sub]
    refine mul_le_mul_of_nonneg_left ?_ (hd j)
    rw [← intervalIntegral.integral_sub (occ_integrable T t3 j _ _) (occ_integrable w1 r2 j _ _)]
    have hind : ∫ d in (0 : ℝ)..1, (if d ≤ f a then (1 : ℝ) else 0) = f a := by
      have hi : ∀ (b c : ℝ), IntervalIntegrable (fun d => if d ≤ f a then (1 : ℝ) else 0) volume b c := fun b c =>
        integrable_bdd 1 (Measurable.ite measurableSet_Iic measurable_const measurable_const)
          (fun d => by split <;> simp) b c
      rw [← intervalIntegral.integral_add_adjacent_intervals (hi 0 (f a)) (hi (f a) 1)]
      have e1 : ∫ d in (0 : ℝ)..f a, (if d ≤ f a then (1 : ℝ) else 0) = ∫ d in (0 : ℝ)..f a, (1 : ℝ) :=
        intervalIntegral.integral_congr_ae (Filter.Eventually.of_forall fun d hd => by
          rw [Set.uIoc_of_le (hf.nonneg _)] at hd; simp [hd.2])
      have e2 : ∫ d in f a..1, (if d ≤ f a then (1 : ℝ) else 0) = ∫ d in f a..1, (0 : ℝ) :=
        intervalIntegral.integral_congr_ae (Filter.Eventually.of_forall fun d hd => by
          rw [Set.uIoc_of_le (hf.le_one _)] at hd; simp [hd.1])
      rw [e1, e2]
      simp
    conv_rhs => rw [← hind]
    refine intervalIntegral.integral_mono_on_of_le_Ioo zero_le_one
      ((occ_integrable T t3 j _ _).sub (occ_integrable w1 r2 j _ _))
      (integrable_bdd 1 (Measurable.ite measurableSet_Iic measurable_const measurable_const)
          (fun d => by split <;> simp) _ _) fun d hd' => ?_
    rw [t4' d hd'.1 j]
    split
    · have b1 := occ_bounds w1 r2 d j
      have e1 := mul_le_of_le_one_right b1.1 (hpr.full j).2
      have e2 := mul_le_of_le_one_right (sub_nonneg.2 b1.2) (hpr.empty j).2
      linarith [b1.1]
    · linarith
  have henough : electrons dens T - electrons dens act ≤ a := by
    have h1 := hfew.few 0 a le_rfl ha0
    rw [hf.empty 0 le_rfl] at h1
    linarith
  rw [min_eq_right henough] at t6
  refine ⟨net, act2, z2, g1, g2, g3, g4, g5, g6, by rw [ha]; linarith, fun d hd' j => ?_, t5, ?_⟩
  · rw [← t4' d hd' j, ← t7 henough d hd' j, occ_append_Z _ _ d hd' j]
  · have h1 := hfew.few n a hn (by rw [ha]; linarith)
    rw [mul_sub] at h1
    linarith

/-- Two new levels per transfer at most, then at least one unused row. -/
def SlowForm (M k : ℕ) (wm : WM ℝ s) : Prop :=
  ∃ act z, wm = act ++ Z (z + 1) ∧ Pos act ∧ volSum act ≤ 1 ∧ (∀ r ∈ act, Frac r.fill) ∧ act.length ≤ 2 * k ∧
    act.length + (z + 1) = 1 + M * 2

/-- A manager and reference traps in the same state; at most `D` traps. -/
def SlowRef (D : ℝ) (M k : ℕ) (m : Mgr ℝ) (t : Ref.Slow) : Prop :=
  ∃ (s : ℕ) (dens : Fin s → ℝ) (pr : ℝ → Probs ℝ s) (tk hl kp : ℝ → Fin s → ℝ) (wm : WM ℝ s) (o : ℝ → Fin s → ℝ),
    m = ⟨s, dens, .slow pr, wm⟩ ∧ (∀ x, 0 < x → pr x = ⟨tk x, hl x, kp x⟩) ∧ t = ⟨s, dens, tk, hl, kp, o⟩ ∧ t.Ok ∧ t.total ≤ D ∧
      SlowForm M k wm ∧ ∀ d, 0 < d → ∀ j, o d j = occ wm d j

theorem SlowRef.step {D : ℝ} {M k : ℕ} {m : Mgr ℝ} {t : Ref.Slow} (h : SlowRef D M k m t) (hk : k < M)
    {f : ℝ → ℝ} (hf : FillModel f) (hfew : FewTraps f D) (n x : ℝ) (hn : 0 ≤ n) (hx : 0 < x) :
    ∃ m', m.step n x f = .ok ((t.transfer n x f).1, m') ∧ SlowRef D M (k + 1) m' (t.transfer n x f).2 ∧
      (t.transfer n x f).1 = m.nTrapped - m'.nTrapped ∧ -((∑ j, m.dens j) * f n) ≤ (t.transfer n x f).1 := by
  obtain ⟨s, dens, pr, tk, hl, kp, wm, o, rfl, hprx, rfl, hok, hD, ⟨act, z, rfl, hp, hv, hF, hlen, hz⟩, ho⟩ := h
  have hfew := hfew.less hD
  have hd := hok.dens
  simp only at hd
  obtain ⟨z, rfl⟩ : ∃ q, z = q + 2 := ⟨z - 2, by omega⟩
  have hpr : ProbsOk (⟨tk x, hl x, kp x⟩ : Probs ℝ s) :=
    ⟨fun j => (hok.fractions x hx j).1, fun j => (hok.fractions x hx j).2.1, fun j => (hok.fractions x hx j).2.2⟩
  have hDD : (⟨s, dens, tk, hl, kp, o⟩ : Ref.Slow).total = ∑ j, dens j := rfl
  rw [hDD] at hfew
  obtain ⟨r1, r2, r3⟩ := releaseAbove_ok (kp x) hpr.release (f n) act hp hF
  obtain ⟨net, act2, z2, g1, g2, g3, g4, g5, g6, -, g7, g8, g9⟩ := slowStep_few dens hd ⟨tk x, hl x, kp x⟩ hpr hf hfew n hn act z
    hp hv hF
  simp only at g7
  set w1 := releaseAbove (kp x) (f n) act with hw1
  set a := n + (electrons dens act - electrons dens w1) with ha
  have ho' : ∀ d, 0 < d → ∀ j, o d j = occ act d j := fun d h j => by rw [ho d h j, occ_append_Z _ _ d h j]
  have ho1 : ∀ d, 0 < d → ∀ j, (if d ≤ f n then o d j else o d j * kp x j) = occ w1 d j := fun d h j => by
    rw [hw1, occ_releaseAbove _ _ _ hp d h j, ho' d h j]
  have hnn : ∀ l : WM ℝ s, Pos l → ∀ r ∈ l, 0 ≤ r.vol := fun l h r hr => (h r hr).le
  have efill : (⟨s, dens, tk, hl, kp, o⟩ : Ref.Slow).filled = electrons dens act := by
    rw [← electrons_integral dens act (hnn _ hp) hF hv]
    unfold Ref.Slow.filled
    exact Finset.sum_congr rfl fun j _ => by rw [integral_congr_pos zero_le_one fun d hd => ho' d hd j]
  have efill1 : ((⟨s, dens, tk, hl, kp, o⟩ : Ref.Slow).release x (f n)).filled = electrons dens w1 := by
    rw [← electrons_integral dens w1 (hnn _ r1) r2 (by rw [r3]; exact hv)]
    unfold Ref.Slow.filled Ref.Slow.release
    exact Finset.sum_congr rfl fun j _ => by
      simp only
      rw [integral_congr_pos zero_le_one fun d hd => ho1 d hd j]
  have hoT : ∀ d, 0 < d → ∀ j,
      (((⟨s, dens, tk, hl, kp, o⟩ : Ref.Slow).release x (f n)).exchange x (f a)).occ d j = occ act2 d j := by
    intro d h j
    rw [g7 d h j]
    unfold Ref.Slow.exchange Ref.Slow.release
    simp only
    rw [ho1 d h j]
  have efill2 : (((⟨s, dens, tk, hl, kp, o⟩ : Ref.Slow).release x (f n)).exchange x (f a)).filled = electrons dens act2 := by
    rw [← electrons_integral dens act2 (hnn _ g4) g6 g5]
    unfold Ref.Slow.filled
    exact Finset.sum_congr rfl fun j _ => by
      rw [integral_congr_pos zero_le_one fun d hd => hoT d hd j]
      rfl
  unfold Ref.Slow.transfer
  simp only [efill, efill1, ← ha]
  rw [efill2, ← g8]
  refine ⟨⟨s, dens, .slow pr, act2 ++ Z (z2 + 1)⟩, ?_, ?_, ?_, g9⟩
  · rw [step_slow, hprx x hx, g1]; rfl
  · refine ⟨s, dens, pr, tk, hl, kp, _, _, rfl, hprx, rfl, ⟨hok.dens, hok.fractions⟩, hD, ⟨act2, z2, rfl, g4, g5, g6, ?_, ?_⟩, ?_⟩
    · omega
    · omega
    · intro d hd' j
      rw [occ_append_Z _ _ d hd' j]
      exact hoT d hd' j
  · simp only [Mgr.nTrapped, electrons_eq_cy, electrons_append_Z]
    exact g8

theorem slowRef_new {D : ℝ} (t : Ref.Slow) (M : ℕ) (frac : ℝ) (hok : t.Ok) (h0 : 0 ≤ frac) (hD : t.total * frac ≤ D)
    (pr : ℝ → Probs ℝ t.s) (hpr : ∀ x, 0 < x → pr x = ⟨t.take x, t.hold x, t.keep x⟩) :
    SlowRef D M 0 (Mgr.new (fun j => t.dens j * frac) (.slow pr) M) (t.inPhase frac) := by
  refine ⟨t.s, fun j => t.dens j * frac, pr, t.take, t.hold, t.keep, Z (1 + M * 2), fun _ _ => 0, rfl, hpr, rfl,
    ⟨fun j => mul_nonneg (hok.dens j) h0, hok.fractions⟩, ?_, ⟨[], M * 2, by rw [List.nil_append, Nat.add_comm],
      by simp [Pos], by simp [volSum], by simp, by simp, by simp; omega⟩,
    fun d hd j => (occ_Z _ d hd j).symm⟩
  unfold Ref.Slow.total Ref.Slow.inPhase
  simp only
  rw [← Finset.sum_mul]
  exact hD

theorem SlowRef.emptied {D : ℝ} {M k : ℕ} {m : Mgr ℝ} {t : Ref.Slow} (h : SlowRef D M k m t) :
    SlowRef D M 0 m.empty t.empty := by
  obtain ⟨s, dens, pr, tk, hl, kp, wm, o, rfl, hprx, rfl, hok, hD, ⟨act, z, rfl, hp, hv, hF, hlen, hz⟩, ho⟩ := h
  refine ⟨s, dens, pr, tk, hl, kp, Z (1 + M * 2), fun _ _ => 0, ?_, hprx, rfl, ⟨hok.dens, hok.fractions⟩, hD,
    ⟨[], M * 2, by rw [List.nil_append, Nat.add_comm], by simp [Pos], by simp [volSum], by simp, by simp, by simp; omega⟩,
    fun d hd j => (occ_Z _ d hd j).symm⟩
  unfold Mgr.empty
  simp only
  congr 1
  rw [List.map_const', ← hz, List.length_append, Z_length]
  rfl

theorem SlowRef.mono {D : ℝ} {M k k' : ℕ} {m : Mgr ℝ} {t : Ref.Slow} (h : SlowRef D M k m t) (hk : k ≤ k') :
    SlowRef D M k' m t := by
  obtain ⟨s, dens, pr, tk, hl, kp, wm, o, h1, h0, h2, h3, h4, ⟨act, z, a1, a2, a3, a4, a5, a6⟩, h6⟩ := h
  exact ⟨s, dens, pr, tk, hl, kp, wm, o, h1, h0, h2, h3, h4, ⟨act, z, a1, a2, a3, a4, by omega, a6⟩, h6⟩

end Arctic
