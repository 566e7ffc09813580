import Verif.Props.RefSlow
import Verif.Props.Corner

set_option linter.unusedSectionVars false
set_option linter.unusedVariables false

/-!
# C80 — the capture time

`Trap` (arcticpy/traps.py:7-51) has a `capture_timescale`, "Default 0 for instant capture"; its manager is `TrapManager`
(trap_managers.py:159-845). `TrapInstantCapture` (traps.py:201-226) has a manager of its own (trap_managers.py:847-1205). The
tests (test_arcticpy/test_traps.py:1307-1680) expect agreement of the two within a small tolerance.
-/

namespace Arctic

open MeasureTheory

/-! ## The fractions as functions of the capture time -/

section fractions

variable {τ t : ℝ}

/-- Fraction of the vacant traps in a cloud that is filled after `t`, for a rate of capture `r`. -/
noncomputable def takeAt (τ t r : ℝ) : ℝ := r / (r + 1 / τ) * (1 - Real.exp (-(r + 1 / τ) * t))

/-- Fraction of the filled traps in a cloud that is filled after `t`, for a rate of capture `r`. -/
noncomputable def holdAt (τ t r : ℝ) : ℝ := 1 - 1 / τ / (r + 1 / τ) * (1 - Real.exp (-(r + 1 / τ) * t))

theorem one_sub_exp_pos {x : ℝ} (hx : 0 < x) : 0 < 1 - Real.exp (-x) := by
  have : Real.exp (-x) < 1 := by rw [Real.exp_lt_one_iff]; linarith
  linarith

theorem takeAt_strict (hτ : 0 < τ) (ht : 0 < t) {r r' : ℝ} (hr : 0 ≤ r) (h : r < r') : takeAt τ t r < takeAt τ t r' := by
  have he : 0 < 1 / τ := by positivity
  unfold takeAt
  have h1 : r / (r + 1 / τ) < r' / (r' + 1 / τ) := by
    rw [div_lt_div_iff₀ (by linarith) (by linarith)]; nlinarith
  have h2 : Real.exp (-(r' + 1 / τ) * t) ≤ Real.exp (-(r + 1 / τ) * t) := by
    rw [Real.exp_le_exp]; nlinarith
  have h3 : 0 < 1 - Real.exp (-(r + 1 / τ) * t) := by
    rw [neg_mul]; exact one_sub_exp_pos (mul_pos (by linarith) ht)
  calc _ < r' / (r' + 1 / τ) * (1 - Real.exp (-(r + 1 / τ) * t)) := mul_lt_mul_of_pos_right h1 h3
    _ ≤ _ := mul_le_mul_of_nonneg_left (by linarith) (div_nonneg (by linarith) (by linarith))

theorem holdAt_strict (hτ : 0 < τ) (ht : 0 < t) {r r' : ℝ} (hr : 0 ≤ r) (h : r < r') : holdAt τ t r < holdAt τ t r' := by
  have he : 0 < 1 / τ := by positivity
  set x := (r + 1 / τ) * t with hx
  set y := (r' - r) * t with hy
  have hx0 : 0 < x := mul_pos (by linarith) ht
  have hy0 : 0 < y := mul_pos (by linarith) ht
  have e1 : -(r + 1 / τ) * t = -x := by rw [hx]; ring
  have e2 : -(r' + 1 / τ) * t = -x + -y := by rw [hx, hy]; ring
  have key : (1 - Real.exp (-x + -y)) * x < (1 - Real.exp (-x)) * (x + y) := by
    rw [Real.exp_add]
    have k1 : x * Real.exp (-x) < 1 - Real.exp (-x) := by
      have := Real.add_one_lt_exp hx0.ne'
      have h2 : Real.exp x * Real.exp (-x) = 1 := by rw [← Real.exp_add]; simp
      have := mul_lt_mul_of_pos_right this (Real.exp_pos (-x))
      linarith
    have k2 : 1 - Real.exp (-y) ≤ y := by
      have := Real.add_one_le_exp (-y); linarith
    have k3 := mul_le_mul_of_nonneg_left k2 (mul_nonneg hx0.le (Real.exp_pos (-x)).le)
    have k4 := mul_lt_mul_of_pos_right k1 hy0
    linarith
  unfold holdAt
  rw [e1, e2]
  have hS : 0 < r + 1 / τ := by linarith
  have hS' : 0 < r' + 1 / τ := by linarith
  have e3 : 1 / τ / (r + 1 / τ) * (1 - Real.exp (-x)) = 1 / τ * t * ((1 - Real.exp (-x)) / x) := by
    rw [hx]; field_simp
  have e4 : 1 / τ / (r' + 1 / τ) * (1 - Real.exp (-x + -y)) = 1 / τ * t * ((1 - Real.exp (-x + -y)) / (x + y)) := by
    have : x + y = (r' + 1 / τ) * t := by rw [hx, hy]; ring
    rw [this]; field_simp
  rw [e3, e4]
  have : (1 - Real.exp (-x + -y)) / (x + y) < (1 - Real.exp (-x)) / x := by
    rw [div_lt_div_iff₀ (by linarith) hx0]; exact key
  have := mul_lt_mul_of_pos_left this (mul_pos he ht)
  linarith

theorem holdAt_zero (hτ : 0 < τ) (t : ℝ) : holdAt τ t 0 = Real.exp (-t / τ) := by
  unfold holdAt
  rw [zero_add, div_self (by positivity)]
  have : -(1 / τ) * t = -t / τ := by ring
  rw [this]; ring

theorem takeAt_zero (τ t : ℝ) : takeAt τ t 0 = 0 := by simp [takeAt]

end fractions

/-- **C80**: the longer the capture time, the smaller the fractions of vacant and of filled traps in a cloud that are filled after
a dwell time. At capture time 0 both are 1, and they come as close to 1 as one likes for short capture times; for long ones they
approach those of traps outside a cloud. The fraction left by a release does not depend on the capture time. -/
theorem C80_fractions (d τ t : ℝ) (b : Bool) (hτ : 0 < τ) (ht : 0 < t) :
    ∃ take hold : ℝ → ℝ,
      (∀ c, 0 ≤ c → fillFromEmpty (.trap d τ c b) t = .fin (take c) ∧ fillFromFull (.trap d τ c b) t = .fin (hold c) ∧
        fillFromRelease (.trap d τ c b) t = Real.exp (-t / τ)) ∧
      (∀ c c', 0 ≤ c → c < c' → take c' < take c ∧ hold c' < hold c) ∧ take 0 = 1 ∧ hold 0 = 1 ∧
      (∀ c, 0 < c → 1 - c / τ - c / t ≤ take c ∧ 1 - c / τ ≤ hold c) ∧
      (∀ c, 0 < c → 0 < take c ∧ take c ≤ t / c ∧ Real.exp (-t / τ) < hold c ∧ hold c ≤ Real.exp (-t / τ) + t / c) := by
  have he : 0 < 1 / τ := by positivity
  have bounds : ∀ c, 0 < c → 1 - c / τ - c / t ≤ takeAt τ t (1 / c) ∧ 1 - c / τ ≤ holdAt τ t (1 / c) := by
    intro c hc
    have hr : 0 < 1 / c := by positivity
    have hE := Real.exp_pos (-(1 / c + 1 / τ) * t)
    have hE1 : Real.exp (-(1 / c + 1 / τ) * t) < 1 := by
      rw [Real.exp_lt_one_iff, neg_mul]; nlinarith [mul_pos (add_pos hr he) ht]
    have q1 : 1 / τ / (1 / c + 1 / τ) ≤ c / τ := by
      have : 1 / τ / (1 / c + 1 / τ) = c / (τ + c) := by field_simp
      rw [this]
      exact div_le_div_of_nonneg_left hc.le hτ (by linarith)
    have q0 : 0 < 1 / τ / (1 / c + 1 / τ) := by positivity
    have q2 : 1 / c / (1 / c + 1 / τ) = 1 - 1 / τ / (1 / c + 1 / τ) := by
      field_simp; ring
    have q3 : Real.exp (-(1 / c + 1 / τ) * t) ≤ c / t := by
      have h1 : (1 / c + 1 / τ) * t < Real.exp ((1 / c + 1 / τ) * t) := by
        have := Real.add_one_le_exp ((1 / c + 1 / τ) * t); linarith
      rw [neg_mul, Real.exp_neg, inv_le_comm₀ (Real.exp_pos _) (by positivity), inv_div]
      have : t / c ≤ (1 / c + 1 / τ) * t := by
        have : (1 / c + 1 / τ) * t = t / c + t / τ := by ring
        rw [this]; have : 0 < t / τ := by positivity
        linarith
      linarith
    unfold takeAt holdAt
    rw [q2]
    constructor
    · nlinarith [mul_pos q0 hE]
    · nlinarith [mul_pos q0 hE]
  refine ⟨fun c => if c = 0 then 1 else takeAt τ t (1 / c), fun c => if c = 0 then 1 else holdAt τ t (1 / c), fun c hc => ?_,
    fun c c' hc h => ?_, by simp, by simp, fun c hc => ?_, fun c hc => ?_⟩
  · refine ⟨?_, ?_, ?_⟩
    · rcases hc.eq_or_lt with h | h
      · subst h; simpa using fillFromEmpty_instant (.trap d τ 0 b) rfl ht.le
      · simp only [h.ne', if_false]; exact fillFromEmpty_slow hτ h t
    · rcases hc.eq_or_lt with h | h
      · subst h; simpa using fillFromFull_instant (.trap d τ 0 b) rfl ht
      · simp only [h.ne', if_false]; exact fillFromFull_slow hτ h t
    · unfold fillFromRelease Trap.emissionRate Trap.releaseTimescale
      congr 1; ring
  · have hc' : 0 < c' := by linarith
    simp only [hc'.ne', if_false]
    rcases hc.eq_or_lt with h0 | h0
    · subst h0
      have hr : 0 < 1 / c' := by positivity
      have hE := one_sub_exp_pos (mul_pos (add_pos hr he) ht)
      have hE0 := Real.exp_pos (-((1 / c' + 1 / τ) * t))
      simp only [if_true]
      unfold takeAt holdAt
      rw [neg_mul]
      constructor
      · have : 1 / c' / (1 / c' + 1 / τ) < 1 := by rw [div_lt_one (by positivity)]; linarith
        have := mul_lt_mul_of_pos_right this hE
        linarith
      · have := mul_pos (div_pos he (add_pos hr he)) hE
        linarith
    · simp only [h0.ne', if_false]
      have := one_div_lt_one_div_of_lt h0 h
      exact ⟨takeAt_strict hτ ht (by positivity) this, holdAt_strict hτ ht (by positivity) this⟩
  · simp only [hc.ne', if_false]; exact bounds c hc
  · simp only [hc.ne', if_false]
    have hr : 0 < 1 / c := by positivity
    have u1 := takeAt_strict hτ ht le_rfl hr
    have u2 := holdAt_strict hτ ht le_rfl hr
    rw [takeAt_zero] at u1
    rw [holdAt_zero hτ] at u2
    have u3 : takeAt τ t (1 / c) ≤ t / c := by
      unfold takeAt
      have h1 := Real.add_one_le_exp (-(1 / c + 1 / τ) * t)
      have h2 : 1 / c / (1 / c + 1 / τ) * (1 - Real.exp (-(1 / c + 1 / τ) * t)) ≤
          1 / c / (1 / c + 1 / τ) * ((1 / c + 1 / τ) * t) :=
        mul_le_mul_of_nonneg_left (by linarith) (by positivity)
      have h3 : 1 / c / (1 / c + 1 / τ) * ((1 / c + 1 / τ) * t) = t / c := by field_simp
      linarith
    refine ⟨u1, u3, u2, ?_⟩
    have h1 : holdAt τ t (1 / c) = takeAt τ t (1 / c) + Real.exp (-(1 / c + 1 / τ) * t) := by
      unfold holdAt takeAt
      have : 1 / c / (1 / c + 1 / τ) + 1 / τ / (1 / c + 1 / τ) = 1 := by rw [← add_div]; exact div_self (by positivity)
      generalize Real.exp (-(1 / c + 1 / τ) * t) = E
      generalize 1 / c / (1 / c + 1 / τ) = u at *
      generalize 1 / τ / (1 / c + 1 / τ) = v at *
      obtain rfl : u = 1 - v := by linarith
      ring
    have h2 : Real.exp (-(1 / c + 1 / τ) * t) ≤ Real.exp (-t / τ) := by
      rw [Real.exp_le_exp]
      have : -(1 / c + 1 / τ) * t = -t / τ - t / c := by ring
      rw [this]; have : 0 < t / c := by positivity
      linarith
    rw [h1]; linarith

/-! ## One transfer -/

variable {s : ℕ}

/-- A state of the traps as arrays hold it: `act` are the levels in use, `z` rows are free. -/
def rowsOf (act : WM ℝ s) (z : ℕ) : WM ℝ s := act ++ List.replicate z (zeroRow ℝ s)

/-- Levels that make sense. -/
structure Levels (act : WM ℝ s) : Prop where
  pos : ∀ r ∈ act, 0 < r.vol
  vol : volSum act ≤ 1
  frac : ∀ r ∈ act, ∀ j, 0 ≤ r.fill j ∧ r.fill j ≤ 1

/-- Electrons in two sets of levels of which one is fuller at all depths. -/
theorem electrons_le_of_occ (dens : Fin s → ℝ) (hd : ∀ j, 0 ≤ dens j) {A B : WM ℝ s} (hA : Levels A) (hB : Levels B)
    (h : ∀ d, 0 < d → ∀ j, occ A d j ≤ occ B d j) : electrons dens A ≤ electrons dens B := by
  rw [← electrons_integral dens A (fun r hr => (hA.pos r hr).le) hA.frac hA.vol,
    ← electrons_integral dens B (fun r hr => (hB.pos r hr).le) hB.frac hB.vol]
  refine Finset.sum_le_sum fun j _ => mul_le_mul_of_nonneg_left ?_ (hd j)
  exact intervalIntegral.integral_mono_on_of_le_Ioo zero_le_one (occ_integrable A hA.frac j _ _)
    (occ_integrable B hB.frac j _ _) fun d hd' => h d hd'.1 j

theorem electrons_eq_of_occ (dens : Fin s → ℝ) {A B : WM ℝ s} (hA : Levels A) (hB : Levels B)
    (h : ∀ d, 0 < d → ∀ j, occ A d j = occ B d j) : electrons dens A = electrons dens B := by
  rw [← electrons_integral dens A (fun r hr => (hA.pos r hr).le) hA.frac hA.vol,
    ← electrons_integral dens B (fun r hr => (hB.pos r hr).le) hB.frac hB.vol]
  refine Finset.sum_congr rfl fun j _ => ?_
  rw [integral_congr_pos zero_le_one fun d hd => h d hd j]

/-- **C80**: from the same state, with the same cloud, traps that capture more slowly take fewer electrons from the cloud, and
at every depth fewer are filled afterwards. -/
theorem C80_slower (dens : Fin s → ℝ) (hd : ∀ j, 0 ≤ dens j) (p q : ℝ → Probs ℝ s) {f : ℝ → ℝ} (hf : FillModel f)
    (hfew : FewTraps f (∑ j, dens j)) (n t : ℝ) (hn : 0 ≤ n) (hp : ProbsOk (p t)) (hq : ProbsOk (q t))
    (hrel : (p t).fromRelease = (q t).fromRelease) (hempty : ∀ j, (q t).fromEmpty j ≤ (p t).fromEmpty j)
    (hfull : ∀ j, (q t).fromFull j ≤ (p t).fromFull j) (act : WM ℝ s) (z : ℕ) (ha : Levels act) :
    ∃ net net' wm wm', Mgr.step ⟨s, dens, .slow p, rowsOf act (z + 3)⟩ n t f = .ok (net, ⟨s, dens, .slow p, wm⟩) ∧
      Mgr.step ⟨s, dens, .slow q, rowsOf act (z + 3)⟩ n t f = .ok (net', ⟨s, dens, .slow q, wm'⟩) ∧
      net ≤ net' ∧ (∀ d, 0 < d → ∀ j, occ wm' d j ≤ occ wm d j) := by
  obtain ⟨net, A, za, a1, a2, a3, a4, a5, a6, a7, a8, a9, -⟩ := slowStep_few dens hd (p t) hp hf hfew n hn act z ha.pos ha.vol ha.frac
  obtain ⟨net', B, zb, b1, b2, b3, b4, b5, b6, b7, b8, b9, -⟩ := slowStep_few dens hd (q t) hq hf hfew n hn act z ha.pos ha.vol ha.frac
  rw [← hrel] at b8
  have hle : ∀ d, 0 < d → ∀ j, occ B d j ≤ occ A d j := by
    intro d hd' j
    rw [a8 d hd' j, b8 d hd' j]
    have r := releaseAbove_ok (p t).fromRelease hp.release (f n) act ha.pos ha.frac
    have o := occ_bounds _ r.2.1 d j
    split
    · have e1 := mul_le_mul_of_nonneg_left (hfull j) o.1
      have e2 := mul_le_mul_of_nonneg_left (hempty j) (sub_nonneg.2 o.2)
      linarith
    · exact le_rfl
  refine ⟨net, net', A ++ Z (za + 1), B ++ Z (zb + 1), ?_, ?_, ?_, fun d hd' j => ?_⟩
  · rw [step_slow]
    have a1' : slowStep dens (p t) f n (rowsOf act (z + 3)) = _ := a1
    rw [a1']; rfl
  · rw [step_slow]
    have b1' : slowStep dens (q t) f n (rowsOf act (z + 3)) = _ := b1
    rw [b1']; rfl
  · have := electrons_le_of_occ dens hd ⟨b4, b5, b6⟩ ⟨a4, a5, a6⟩ hle
    linarith
  · rw [occ_append_Z _ _ d hd' j, occ_append_Z _ _ d hd' j]; exact hle d hd' j

/-- **C80** for trap objects: with a longer capture time a transfer takes fewer electrons from the cloud. -/
theorem C80_slower_traps (traps traps' : Fin s → Trap)
    (h : ∀ j, ∃ d τ c c' b b', traps j = .trap d τ c b ∧ traps' j = .trap d τ c' b' ∧ 0 ≤ d ∧ 0 < τ ∧ 0 ≤ c ∧ c ≤ c')
    {f : ℝ → ℝ} (hf : FillModel f) (hfew : FewTraps f (∑ j, (traps j).density)) (n t : ℝ) (hn : 0 ≤ n) (ht : 0 < t)
    (act : WM ℝ s) (z : ℕ) (ha : Levels act) :
    ∃ net net' wm wm',
      Mgr.step ⟨s, fun j => (traps j).density, .slow (fillProbs traps), rowsOf act (z + 3)⟩ n t f =
        .ok (net, ⟨s, fun j => (traps j).density, .slow (fillProbs traps), wm⟩) ∧
      Mgr.step ⟨s, fun j => (traps' j).density, .slow (fillProbs traps'), rowsOf act (z + 3)⟩ n t f =
        .ok (net', ⟨s, fun j => (traps' j).density, .slow (fillProbs traps'), wm'⟩) ∧
      net ≤ net' ∧ (∀ d, 0 < d → ∀ j, occ wm' d j ≤ occ wm d j) := by
  have hdens : (fun j => (traps' j).density) = fun j => (traps j).density := by
    funext j
    obtain ⟨d, τ, c, c', b, b', e, e', -⟩ := h j
    rw [e, e']; rfl
  have ok : ∀ (tr : Fin s → Trap), (∀ j, (tr j).Physical) → ProbsOk (fillProbs tr t) := by
    intro tr htr
    refine ⟨fun j => ?_, fun j => ?_, fun j => ?_⟩ <;>
      obtain ⟨p1, p2, p3, p4, p5⟩ := C25_fillProbs tr htr ht j
    · exact ⟨p1, p2.trans p3⟩
    · exact ⟨p1.trans p2, p3⟩
    · exact ⟨p4.le, p5.le⟩
  have phys : ∀ d τ c b, 0 < τ → 0 ≤ c → (Trap.trap d τ c b).Physical := fun d τ c b h1 h2 => ⟨h1, h2⟩
  rw [hdens]
  refine C80_slower _ (fun j => ?_) (fillProbs traps) (fillProbs traps') hf hfew n t hn (ok _ fun j => ?_) (ok _ fun j => ?_)
    (funext fun j => ?_) (fun j => ?_) (fun j => ?_) act z ha <;>
    obtain ⟨d, τ, c, c', b, b', e, e', h0, h1, h2, h3⟩ := h j
  · simp only [e]; exact h0
  · rw [e]; exact phys d τ c b h1 h2
  · rw [e']; exact phys d τ c' b' h1 (h2.trans h3)
  all_goals
    obtain ⟨take, hold, g1, g2, -⟩ := C80_fractions d τ t b h1 ht
    obtain ⟨take', hold', g1', -⟩ := C80_fractions d τ t b' h1 ht
    simp only [fillProbs, e, e']
  · rfl
  · change (fillFromEmpty (.trap d τ c' b) t).toReal ≤ _
    rw [(g1 c h2).1, (g1 c' (h2.trans h3)).1]
    rcases h3.eq_or_lt with h4 | h4
    · subst h4; exact le_rfl
    · exact (g2 c c' h2 h4).1.le
  · change (fillFromFull (.trap d τ c' b) t).toReal ≤ _
    rw [(g1 c h2).2.1, (g1 c' (h2.trans h3)).2.1]
    rcases h3.eq_or_lt with h4 | h4
    · subst h4; exact le_rfl
    · exact (g2 c c' h2 h4).2.le

/-! ## Capture time 0 and instant capture -/

/-- Release, as `TrapManager` with capture time 0 and `TrapManagerInstantCapture` see it. -/
theorem occ_released (p : Fin s → ℝ) (act : WM ℝ s) (d : ℝ) (j : Fin s) : occ (released p act) d j = occ act d j * p j := by
  induction act generalizing d with
  | nil => simp [released, occ]
  | cons r rs ih =>
    have ih' : ∀ d, occ (List.map (fun r => (⟨r.vol, fun j => r.fill j * p j⟩ : Row ℝ s)) rs) d j = occ rs d j * p j := ih
    simp only [released, List.map_cons, occ]
    split
    · rfl
    · exact ih' _

/-- **C80**: one transfer of traps with capture time 0 (`TrapManager`) and of traps with instant capture
(`TrapManagerInstantCapture`) that are in the same state. Both clouds fill all the traps they reach, but the first one lacks the
electrons released from the traps below its own height: fewer are captured, by at most the traps between the two heights. -/
theorem C80_fast_instant (dens : Fin s → ℝ) (hd : ∀ j, 0 ≤ dens j) (p : ℝ → Fin s → ℝ) {f : ℝ → ℝ} (hf : FillModel f)
    (hfew : FewTraps f (∑ j, dens j)) (n t : ℝ) (hn : 0 ≤ n) (hp : ∀ j, 0 ≤ p t j ∧ p t j ≤ 1) (act : WM ℝ s) (z : ℕ)
    (ha : Levels act) :
    let a := n + (electrons dens act - electrons dens (releaseAbove (p t) (f n) act))
    let b := n + (electrons dens act - electrons dens (released (p t) act))
    ∃ net net' wm wm',
      Mgr.step ⟨s, dens, .slow fun t => ⟨fun _ => 1, fun _ => 1, p t⟩, rowsOf act (z + 3)⟩ n t f =
        .ok (net, ⟨s, dens, .slow fun t => ⟨fun _ => 1, fun _ => 1, p t⟩, wm⟩) ∧
      Mgr.step ⟨s, dens, .instant p, rowsOf act (z + 3)⟩ n t f = .ok (net', ⟨s, dens, .instant p, wm'⟩) ∧
      a ≤ b ∧ (∀ d, 0 < d → ∀ j, occ wm d j = if d ≤ f a then 1 else occ act d j * p t j) ∧
      (∀ d, 0 < d → ∀ j, occ wm' d j = if d ≤ f b then 1 else occ act d j * p t j) ∧
      net' ≤ net ∧ net - net' ≤ (∑ j, dens j) * (f b - f a) ∧
      ((∀ d, 0 < d → d ≤ f n → ∀ j, occ act d j = 0) → a = b ∧ net = net') := by
  intro a b
  have hpr : ProbsOk (⟨fun _ => 1, fun _ => 1, p t⟩ : Probs ℝ s) := ⟨fun j => by simp, fun j => by simp, hp⟩
  obtain ⟨net, A, za, a1, a2, a3, a4, a5, a6, a7, a8, a9, -⟩ := slowStep_few dens hd _ hpr hf hfew n hn act z ha.pos ha.vol ha.frac
  obtain ⟨r1, r2, r3⟩ := releaseAbove_ok (p t) hp (f n) act ha.pos ha.frac
  have hD0 : 0 ≤ ∑ j, dens j := Finset.sum_nonneg fun j _ => hd j
  have hA1 : Levels (releaseAbove (p t) (f n) act) := ⟨r1, r3.le.trans ha.vol, r2⟩
  have hA2 : Levels (released (p t) act) := by
    refine ⟨fun r hr => ?_, ?_, fun r hr j => ?_⟩
    · obtain ⟨x, hx, rfl⟩ := List.mem_map.1 hr; exact ha.pos x hx
    · have : volSum (released (p t) act) = volSum act := by
        simp only [volSum, released, List.map_map]; rfl
      rw [this]; exact ha.vol
    · obtain ⟨x, hx, rfl⟩ := List.mem_map.1 hr
      exact release_frac (p t) hp j _ (ha.frac x hx j).1 (ha.frac x hx j).2
  have hab : a ≤ b := by
    have := electrons_le_of_occ dens hd hA2 hA1 fun d hd' j => by
      rw [occ_released, occ_releaseAbove _ _ _ ha.pos d hd' j]
      split
      · exact mul_le_of_le_one_right (occ_bounds act ha.frac d j).1 (hp j).2
      · exact le_rfl
    simp only [a, b]; linarith
  have hna : n ≤ a := a7
  have hA : Levels A := ⟨a4, a5, a6⟩
  have oA : ∀ d, 0 < d → ∀ j, occ A d j = if d ≤ f a then 1 else occ act d j * p t j := by
    intro d hd' j
    rw [a8 d hd' j]
    simp only [mul_one]
    change (if d ≤ f a then _ else _) = _
    split
    · ring
    · rename_i hgt
      rw [occ_releaseAbove _ _ _ ha.pos d hd' j, if_neg]
      have := hfew.mono n a hna
      linarith [not_le.1 hgt]
  have hInst : InstState (act.length + (z + 3)) (act.length + 1) (act ++ Z (z + 3)) :=
    ⟨by simp [Z_length], Or.inl ⟨act, z + 3, rfl, ha.pos, ha.vol, ha.frac, by omega⟩⟩
  obtain ⟨net', wm', b1, b2, b3, b4, -, -⟩ := instant_step dens (p t) f hf hd hp n _ _ _ hInst (by omega)
  have hb : available dens (p t) n (act ++ Z (z + 3)) = b := by
    have e1 : released (p t) (act ++ Z (z + 3)) = released (p t) act ++ Z (z + 3) := by
      unfold released
      rw [List.map_append]
      congr 1
      simp [Z, zeroRow]
    unfold available
    rw [e1, electrons_append_Z, electrons_append_Z]
  have hb0 : 0 ≤ b := by linarith
  have hvac : vacant dens (f b) (released (p t) (act ++ Z (z + 3))) ≤ max 0 b := by
    have hrel : ∀ r ∈ released (p t) (act ++ Z (z + 3)), 0 ≤ r.vol ∧ Frac r.fill := by
      intro r hr
      obtain ⟨x, hx, rfl⟩ := List.mem_map.1 hr
      rcases List.mem_append.1 hx with h | h
      · exact ⟨(ha.pos x h).le, fun j => release_frac (p t) hp j _ (ha.frac x h j).1 (ha.frac x h j).2⟩
      · rw [List.eq_of_mem_replicate h]
        exact ⟨le_rfl, fun j => by simp [zeroRow]⟩
    rw [← vacant_integral dens _ (fun r hr => (hrel r hr).1) (fun r hr => (hrel r hr).2) (f b) (hf.nonneg b)]
    have h1 : ∑ j, dens j * ∫ d in (0 : ℝ)..f b, (1 - occ (released (p t) (act ++ Z (z + 3))) d j) ≤ (∑ j, dens j) * f b := by
      rw [Finset.sum_mul]
      refine Finset.sum_le_sum fun j _ => mul_le_mul_of_nonneg_left ?_ (hd j)
      have : ∫ d in (0 : ℝ)..f b, (1 - occ (released (p t) (act ++ Z (z + 3))) d j) ≤ ∫ d in (0 : ℝ)..f b, (1 : ℝ) := by
        refine intervalIntegral.integral_mono_on (hf.nonneg b)
          (intervalIntegrable_const.sub (occ_integrable _ (fun r hr => (hrel r hr).2) j _ _)) intervalIntegrable_const fun d _ => ?_
        have := (occ_bounds _ (fun r hr => (hrel r hr).2) d j).1
        linarith
      simpa using this
    have h2 := hfew.few 0 b le_rfl hb0
    rw [hf.empty 0 le_rfl] at h2
    rw [max_eq_right hb0]
    linarith
  have oB : ∀ d, 0 < d → ∀ j, occ wm' d j = if d ≤ f b then 1 else occ act d j * p t j := by
    intro d hd' j
    have := b4
    unfold ProfileSpec at this
    simp only [hb] at this
    rw [this hvac d hd' j, occ_append_Z _ _ d hd' j]
  have hfab := hfew.mono a b hab
  -- the levels after instant capture
  obtain ⟨B, zb, hB, hwB⟩ : ∃ (B : WM ℝ s) (zb : ℕ), Levels B ∧ (∀ d, 0 < d → ∀ j, occ wm' d j = occ B d j) ∧
      electrons dens wm' = electrons dens B := by
    obtain ⟨-, ⟨B, zb, e, c1, c2, c3, -⟩ | ⟨-, zb, e⟩⟩ := b2
    · exact ⟨B, zb, ⟨c1, c2, c3⟩, fun d hd' j => by rw [e, occ_append_Z _ _ d hd' j], by rw [e, electrons_append_Z]⟩
    · refine ⟨[], zb, ⟨by simp, by simp [volSum], by simp⟩, fun d hd' j => ?_, ?_⟩
      · have h1 := occ_append_Z ([] : WM ℝ s) zb d hd' j
        rw [List.nil_append] at h1
        rw [e, occ_cons, if_neg (not_le.2 hd'), sub_zero, h1]
      · have h1 := electrons_append_Z dens ([] : WM ℝ s) zb
        rw [List.nil_append] at h1
        rw [e, electrons_cons, h1]; simp
  have hnets : net - net' = electrons dens B - electrons dens A := by
    rw [electrons_append_Z] at b3
    rw [b3, a9, hwB.2]; ring
  have gap : electrons dens B - electrons dens A ≤ (∑ j, dens j) * (f b - f a) := by
    rw [← electrons_integral dens B (fun r hr => (hB.pos r hr).le) hB.frac hB.vol,
      ← electrons_integral dens A (fun r hr => (hA.pos r hr).le) hA.frac hA.vol, ← Finset.sum_sub_distrib, Finset.sum_mul]
    refine Finset.sum_le_sum fun j _ => ?_
    rw [← mul_sub, ← intervalIntegral.integral_sub (occ_integrable B hB.frac j _ _) (occ_integrable A hA.frac j _ _)]
    refine mul_le_mul_of_nonneg_left ?_ (hd j)
    have hi : ∀ x y c, IntervalIntegrable (fun d => if d ≤ c then (1 : ℝ) else 0) volume x y := fun x y c =>
      integrable_bdd 1 (Measurable.ite measurableSet_Iic measurable_const measurable_const)
          (fun d => by split <;> simp) x y
    have hind : ∀ c, 0 ≤ c → c ≤ 1 → ∫ d in (0 : ℝ)..1, (if d ≤ c then (1 : ℝ) else 0) = c := by
      intro c c0 c1
      rw [← integral_upTo (g := fun _ => (1 : ℝ)) c0 c1 intervalIntegrable_const (hi 0 1 c)]
      simp
    have e : f b - f a = ∫ d in (0 : ℝ)..1, ((if d ≤ f b then (1 : ℝ) else 0) - if d ≤ f a then 1 else 0) := by
      rw [intervalIntegral.integral_sub (hi _ _ _) (hi _ _ _), hind _ (hf.nonneg b) (hf.le_one b), hind _ (hf.nonneg a) (hf.le_one a)]
    rw [e]
    refine intervalIntegral.integral_mono_on_of_le_Ioo zero_le_one
      ((occ_integrable B hB.frac j _ _).sub (occ_integrable A hA.frac j _ _)) ((hi _ _ _).sub (hi _ _ _)) fun d hd' => ?_
    rw [← hwB.1 d hd'.1 j, oB d hd'.1 j, oA d hd'.1 j]
    have o := mul_nonneg (occ_bounds act ha.frac d j).1 (hp j).1
    by_cases h1 : d ≤ f a
    · rw [if_pos (h1.trans hfab), if_pos h1, if_pos (h1.trans hfab), if_pos h1]
    · by_cases h2 : d ≤ f b
      · simp only [h1, h2, if_true, if_false]; linarith
      · simp only [h1, h2, if_false]; linarith
  refine ⟨net, net', A ++ Z (za + 1), wm', ?_, ?_, hab, fun d hd' j => ?_, oB, ?_, ?_, fun h0 => ?_⟩
  · rw [step_slow]
    have a1' : slowStep dens ⟨fun _ => 1, fun _ => 1, p t⟩ f n (rowsOf act (z + 3)) = _ := a1
    rw [a1']; rfl
  · rw [step_instant]
    have b1' : icStep (instantOps dens (p t)) f n (rowsOf act (z + 3)) = _ := b1
    rw [b1']; rfl
  · rw [occ_append_Z _ _ d hd' j, oA d hd' j]
  · have := electrons_le_of_occ dens hd hA hB fun d hd' j => by
      rw [← hwB.1 d hd' j, oA d hd' j, oB d hd' j]
      by_cases h1 : d ≤ f a
      · rw [if_pos (h1.trans hfab), if_pos h1]
      · rw [if_neg h1]
        split
        · exact (release_frac (p t) hp j _ (occ_bounds act ha.frac d j).1 (occ_bounds act ha.frac d j).2).2
        · exact le_rfl
    linarith
  · linarith
  · have hE : electrons dens (releaseAbove (p t) (f n) act) = electrons dens (released (p t) act) :=
      electrons_eq_of_occ dens hA1 hA2 fun d hd' j => by
        rw [occ_released, occ_releaseAbove _ _ _ ha.pos d hd' j]
        split
        · rename_i hle; rw [h0 d hd' hle j, zero_mul]
        · rfl
    have hab' : a = b := by simp only [a, b, hE]
    refine ⟨hab', ?_⟩
    rw [← hab', sub_self, mul_zero] at gap
    have := electrons_le_of_occ dens hd hA hB fun d hd' j => by
      rw [← hwB.1 d hd' j, oA d hd' j, oB d hd' j, hab']
    linarith

/-- Two levels, three quarters and a third full, that the comparisons apply to; 10 traps for a full well depth of 1000 electrons
are few; half the electrons released. -/
example : Levels (s := 1) [⟨1 / 4, fun _ => 3 / 4⟩, ⟨1 / 2, fun _ => 1 / 3⟩] ∧ FillModel (wellFill 1000 1) ∧
    FewTraps (wellFill 1000 1) (∑ _ : Fin 1, 10) ∧ (∀ j : Fin 1, (0 : ℝ) ≤ (fun _ : Fin 1 => (1 / 2 : ℝ)) j) := by
  have hl := wellFill_lip (full := 1000) (power := 1) (by norm_num) le_rfl
  refine ⟨⟨by simp, by norm_num [volSum], ?_⟩, (wellFill_exact (by norm_num) (by norm_num)).1,
    ⟨fun x y hxy => hl.mono hxy, fun x y _ hxy => ?_, (wellFill_exact (by norm_num) (by norm_num)).2⟩, fun j => by norm_num⟩
  · intro r hr j
    simp only [List.mem_cons, List.not_mem_nil, or_false] at hr
    rcases hr with rfl | rfl <;> norm_num
  · have := hl.lip x y hxy
    simp only [Finset.sum_const, Finset.card_univ, Fintype.card_fin, one_smul]
    linarith

/-- A species with capture times 0 and 0.01, the others equal. -/
example : ∀ _ : Fin 1, ∃ d τ c c' b b', (Trap.trap 10 2 0 false) = .trap d τ c b ∧ Trap.trap 10 2 (1 / 100) true = .trap d τ c' b' ∧
    0 ≤ d ∧ 0 < τ ∧ 0 ≤ c ∧ c ≤ c' := fun _ => ⟨10, 2, 0, 1 / 100, false, true, rfl, rfl, by norm_num, by norm_num, le_rfl, by norm_num⟩

/-! ## What does not hold -/

/-- Ten traps that capture at once, half of the electrons released in a dwell time; `TrapManager`. -/
def exFast : Group ℚ := ⟨1, fun _ => 10, .slow fun _ => ⟨fun _ => 1, fun _ => 1, fun _ => 1 / 2⟩⟩

/-- The same with half of the vacant traps filled in a dwell time. -/
def exHalf : Group ℚ := ⟨1, fun _ => 10, .slow fun _ => ⟨fun _ => 1 / 2, fun _ => 1, fun _ => 1 / 2⟩⟩

/-- **C80** (counterexample): capture time 0 and instant capture differ when a cloud meets traps that a cloud of the same size
has filled: with capture time 0 none of them releases anything, with instant capture the cloud gets their electrons
and fills more traps than before. -/
theorem C80_fast_instant_false :
    ((Mgr.new exFast.dens exFast.kind 2).run fill100 [(50, 1), (50, 1)]).map Prod.fst = .ok [-5, 0] ∧
      ((Mgr.new exGroup.dens exGroup.kind 2).run fill100 [(50, 1), (50, 1)]).map Prod.fst = .ok [-5, -1 / 4] := by
  constructor <;> decide +kernel

/-- **C80** (counterexample), images: the two classes of traps give different images. -/
theorem C80_image_false :
    let f := fun g => (addCti (exImg 2 1 [[50], [50]]) (some ⟨exCcd, exRoe, [g], 0, 0⟩) 0 .all none .all none).map fun x => x.1.rows
    f exFast = .ok [[45], [50]] ∧ f exGroup = .ok [[45], [1981 / 40]] := by decide +kernel

/-- **C80** (counterexample): a pixel can lose more to traps that capture more slowly, since the pixel before it has filled fewer of
them. -/
theorem C80_slower_image_false :
    let f := fun g => (addCti (exImg 2 1 [[50], [50]]) (some ⟨exCcd, exRoe, [g], 0, 0⟩) 0 .all none .all none).map fun x => x.1.rows
    f exFast = .ok [[45], [50]] ∧ f exHalf = .ok [[95 / 2], [121757 / 2560]] := by decide +kernel

end Arctic
