import Verif.Props.ErrorsFull
import Verif.Props.Units

/-!
# C113: another unit of time, traps of all classes

Dwell times, release timescales, capture timescales and lifetimes multiplied by the same factor give the same image, also with
distributions of lifetimes, for which C65 says nothing.
-/

set_option linter.unusedSectionVars false
set_option linter.unusedVariables false

namespace Arctic

open MeasureTheory Set

/-- The same trap with its timescales multiplied by `mu`. A distribution of lifetimes is a density per unit of time. -/
inductive Trap.Stretched (mu : ℝ) : Trap → Trap → Prop
  | instant (d τ : ℝ) (b b' : Bool) : Stretched mu (.instant d τ b) (.instant d (mu * τ) b')
  | trap (d τ c : ℝ) (b b' : Bool) : Stretched mu (.trap d τ c b) (.trap d (mu * τ) (mu * c) b')
  | continuum (d m s s' : ℝ) (p p' : ℝ → ℝ → ℝ → ℝ) (h : ∀ τ, 0 < τ → p' τ (mu * m) s' = p (τ / mu) m s / mu) :
      Stretched mu (.continuum d p m s) (.continuum d p' (mu * m) s')

/-- Groups of traps, one by one. -/
def StretchedAll (mu : ℝ) (gs gs' : List (List Trap)) : Prop := List.Forall₂ (List.Forall₂ (Trap.Stretched mu)) gs gs'

/-! ## Traps in another unit of time -/

namespace Ref
noncomputable section
variable {mu dw n : ℝ} {f : ℝ → ℝ}

def Traps.retime (mu : ℝ) (t : Traps) : Traps := { t with keep := fun x => t.keep (x / mu) }

def Slow.retime (mu : ℝ) (t : Slow) : Slow :=
  { t with take := fun x => t.take (x / mu), hold := fun x => t.hold (x / mu), keep := fun x => t.keep (x / mu) }

def Clocks.retime (mu : ℝ) (t : Clocks) : Clocks :=
  { t with law := fun j x => t.law j (x / mu), age := fun d j => (t.age d j).map (mu * ·) }

def FullTraps.retime (mu : ℝ) : FullTraps → FullTraps
  | .inl (.inl t) => .inl (.inl (t.retime mu))
  | .inl (.inr t) => .inl (.inr (t.retime mu))
  | .inr t => .inr (t.retime mu)

theorem Traps.retime_transfer (hmu : 0 < mu) (t : Traps) :
    (t.retime mu).transfer f (mu * dw) n = ((t.transfer f dw n).1, (t.transfer f dw n).2.retime mu) := by
  have hr : (t.retime mu).release (mu * dw) = (t.release dw).retime mu := by
    unfold Traps.retime Traps.release
    simp only [mul_div_cancel_left₀ _ hmu.ne']
  have hc : ∀ (u : Traps) (h a : ℝ), (u.retime mu).capture h a = ((u.capture h a).1, (u.capture h a).2.retime mu) := by
    intro u h a
    have hv : (u.retime mu).vacant h = u.vacant h := rfl
    unfold Traps.capture
    rw [hv]
    simp only
    split <;> rfl
  have hf : ∀ u : Traps, (u.retime mu).filled = u.filled := fun _ => rfl
  unfold Traps.transfer
  rw [hr]
  simp only [hf, hc]

theorem Slow.retime_transfer (hmu : 0 < mu) (t : Slow) :
    (t.retime mu).transfer n (mu * dw) f = ((t.transfer n dw f).1, (t.transfer n dw f).2.retime mu) := by
  have hr : ∀ h, (t.retime mu).release (mu * dw) h = (t.release dw h).retime mu := by
    intro h
    unfold Slow.retime Slow.release
    simp only [mul_div_cancel_left₀ _ hmu.ne']
  have he : ∀ (u : Slow) (h : ℝ), (u.retime mu).exchange (mu * dw) h = (u.exchange dw h).retime mu := by
    intro u h
    unfold Slow.retime Slow.exchange
    simp only [mul_div_cancel_left₀ _ hmu.ne']
  have hf : ∀ u : Slow, (u.retime mu).filled = u.filled := fun _ => rfl
  unfold Slow.transfer
  simp only [hr, he, hf]

theorem Clocks.retime_occ (hmu : 0 < mu) (t : Clocks) : (t.retime mu).occ = t.occ := by
  funext d j
  change ((t.age d j).map (mu * ·)).elim 0 (fun x => t.law j (x / mu)) = (t.age d j).elim 0 (t.law j)
  cases t.age d j with
  | none => rfl
  | some a => simp only [Option.map_some, Option.elim_some, mul_div_cancel_left₀ _ hmu.ne']

theorem Clocks.retime_pass (hmu : 0 < mu) (t : Clocks) :
    (t.retime mu).pass f (mu * dw) n = ((t.pass f dw n).1, (t.pass f dw n).2.retime mu) := by
  have hw : (t.retime mu).wait (mu * dw) = (t.wait dw).retime mu := by
    unfold Clocks.retime Clocks.wait
    simp only [Option.map_map]
    congr 1
    funext d j
    congr 1
    funext x
    simp only [Function.comp]
    ring
  have hfill : ∀ (u : Clocks) (h : ℝ), (u.retime mu).fill h = (u.fill h).retime mu := by
    intro u h
    unfold Clocks.retime Clocks.fill
    simp only
    congr 1
    funext d j
    split
    · simp
    · rfl
  have hf : ∀ u : Clocks, (u.retime mu).filled = u.filled := by
    intro u
    have := Clocks.retime_occ hmu u
    unfold Clocks.filled
    rw [this]
    rfl
  have hv : ∀ (u : Clocks) (h : ℝ), (u.retime mu).vacant h = u.vacant h := by
    intro u h
    have := Clocks.retime_occ hmu u
    unfold Clocks.vacant
    rw [this]
    rfl
  unfold Clocks.pass
  simp only [hw, hfill, hf, hv]

theorem FullTraps.retime_transfer (hmu : 0 < mu) (t : FullTraps) :
    FullTraps.transfer f (mu * dw) (t.retime mu) n =
      ((FullTraps.transfer f dw t n).1, (FullTraps.transfer f dw t n).2.retime mu) := by
  rcases t with (t | t) | t
  · simp only [FullTraps.retime, FullTraps.transfer, MixTraps.transfer, Traps.retime_transfer hmu]
  · simp only [FullTraps.retime, FullTraps.transfer, MixTraps.transfer, Slow.retime_transfer hmu]
  · simp only [FullTraps.retime, FullTraps.transfer, Clocks.retime_pass hmu]

theorem fullStep_retime (hmu : 0 < mu) (ts : List FullTraps) :
    fullStep f (mu * dw) (ts.map (FullTraps.retime mu)) n =
      ((fullStep f dw ts n).1, (fullStep f dw ts n).2.map (FullTraps.retime mu)) := by
  unfold fullStep
  simp only [List.map_map]
  congr 1
  · congr 1
    exact List.map_congr_left fun t _ => by simp only [Function.comp, FullTraps.retime_transfer hmu]
  · exact List.map_congr_left fun t _ => by simp only [Function.comp, FullTraps.retime_transfer hmu]

/-- A readout with other states of the traps that behave in the same way. -/
theorem stepReadout_conj {σ τ : Type} (g : σ → τ) (step : σ → ℝ → ℝ × σ) (step' : τ → ℝ → ℝ × τ)
    (h : ∀ s n, step' (g s) n = ((step s n).1, g (step s n).2)) (s : σ) (passes : List (List (ℕ × ℝ))) (col : ℕ → ℝ) :
    stepReadout step' (g s) passes col = stepReadout step s passes col := by
  have hp : stepPass step' (g s) = stepPass step s := by
    funext col todo
    unfold stepPass
    suffices ∀ (col : ℕ → ℝ) (s : σ), todo.foldl (stepRow step') (col, g s) =
        ((todo.foldl (stepRow step) (col, s)).1, g (todo.foldl (stepRow step) (col, s)).2) by rw [this]
    induction todo with
    | nil => intro col s; rfl
    | cons x todo ih =>
      intro col s
      rw [List.foldl_cons, List.foldl_cons]
      have e : stepRow step' (col, g s) x = ((stepRow step (col, s) x).1, g (stepRow step (col, s) x).2) := by
        unfold stepRow
        simp only [h]
      rw [e, ih]
  unfold stepReadout
  rw [hp]

end
end Ref

/-! ## Trap objects -/

section objects
variable {mu : ℝ}

theorem Trap.Stretched.density {t t' : Trap} (h : Trap.Stretched mu t t') : t'.density = t.density := by cases h <;> rfl

theorem Trap.Stretched.release {t t' : Trap} (h : Trap.Stretched mu t t') : t'.releaseTimescale = mu * t.releaseTimescale := by
  cases h <;> rfl

theorem Trap.Stretched.capture {t t' : Trap} (h : Trap.Stretched mu t t') : t'.captureTimescale = mu * t.captureTimescale := by
  cases h <;> simp [Trap.captureTimescale]

theorem Trap.Stretched.balance {t t' : Trap} (h : Trap.Stretched mu t t') (hmu : 0 < mu) : t'.balance = t.balance := by
  unfold Trap.balance
  rw [h.release, h.capture, ← mul_add, mul_div_mul_left _ _ hmu.ne']

theorem Trap.Stretched.memory {t t' : Trap} (h : Trap.Stretched mu t t') (hmu : 0 < mu) (x : ℝ) :
    t'.memory x = t.memory (x / mu) := by
  unfold Trap.memory
  rw [h.release, h.capture]
  by_cases h : t.captureTimescale = 0
  · rw [if_pos h, if_pos (by rw [h, mul_zero])]
  · rw [if_neg h, if_neg (mul_ne_zero hmu.ne' h), div_div, div_div]

theorem Trap.Stretched.decay {t t' : Trap} (h : Trap.Stretched mu t t') (x : ℝ) :
    Real.exp (-x / t'.releaseTimescale) = Real.exp (-(x / mu) / t.releaseTimescale) := by
  rw [h.release, ← div_div, neg_div]

theorem Trap.Stretched.law {t t' : Trap} (h : Trap.Stretched mu t t') (hmu : 0 < mu) (x : ℝ) :
    t'.fillFraction x = t.fillFraction (x / mu) := by
  cases h with
  | instant d τ b b' => simp only [Trap.fillFraction]; rw [← div_div, neg_div]
  | trap d τ c b b' => simp only [Trap.fillFraction]; rw [← div_div, neg_div]
  | continuum d m s s' p p' h =>
    have e := rescale_fillFraction (lam := 1) hmu (.continuum d p m s) (x / mu)
    rw [mul_div_cancel₀ _ hmu.ne'] at e
    rw [← e]
    simp only [Trap.rescale, Trap.fillFraction]
    refine setIntegral_congr_fun measurableSet_Ioi fun τ hτ => ?_
    rw [h τ hτ, mul_div_cancel_left₀ _ hmu.ne']

theorem Ref.fullOf_stretched (hmu : 0 < mu) {l l' : List Trap} (h : List.Forall₂ (Trap.Stretched mu) l l') :
    Ref.fullOf l' = (Ref.fullOf l).retime mu := by
  have hl : l'.length = l.length := h.length_eq.symm
  have each : ∀ j : Fin l.length, Trap.Stretched mu l[j.1] (l'[j.1]'(by rw [hl]; exact j.2)) := fun j =>
    h.get j.2 (by rw [hl]; exact j.2)
  have e1 : Ref.ofTraps l' = (Ref.ofTraps l).retime mu := by
    rw [Ref.ofTraps_of_length _ l.length hl]
    unfold Ref.Traps.retime Ref.ofTraps
    congr 1
    · funext j; exact (each j).density
    · funext x j; exact (each j).decay x
  have e2 : Ref.slowOf l' = (Ref.slowOf l).retime mu := by
    rw [Ref.slowOf_of_length _ l.length hl]
    unfold Ref.Slow.retime Ref.slowOf
    congr 1
    · funext j; exact (each j).density
    · funext x j; rw [(each j).balance hmu, (each j).memory hmu]; rfl
    · funext x j; rw [(each j).balance hmu, (each j).memory hmu]; rfl
    · funext x j; exact (each j).decay x
  have e3 : Ref.clocksOf l' = (Ref.clocksOf l).retime mu := by
    rw [Ref.clocksOf_of_length _ l.length hl]
    unfold Ref.Clocks.retime Ref.clocksOf
    congr 1
    · funext j; exact (each j).density
    · funext j x; exact (each j).law hmu x
  cases h with
  | nil => exact congrArg (fun t => Sum.inl (Sum.inl t)) e1
  | cons ha _ =>
    cases ha with
    | trap d τ c b b' => exact congrArg (fun t => Sum.inl (Sum.inr t)) e2
    | instant d τ b b' => exact congrArg (fun t => Sum.inl (Sum.inl t)) e1
    | continuum d m s s' p p' _ => exact congrArg Sum.inr e3

theorem Lifetimes.stretch {p : ℝ → ℝ} (h : Lifetimes p) (hmu : 0 < mu) : Lifetimes fun τ => p (τ / mu) / mu := by
  refine ⟨fun τ hτ => div_nonneg (h.nonneg _ (div_pos hτ hmu)) hmu.le, ?_, ?_⟩
  · have := (integrableOn_Ioi_comp_mul_left_iff p 0 (inv_pos.2 hmu)).2 (by rw [mul_zero]; exact h.integrable)
    refine (this.const_mul mu⁻¹).congr (Filter.Eventually.of_forall fun τ => ?_)
    simp only
    rw [div_eq_mul_inv, div_eq_mul_inv, mul_comm mu⁻¹ τ, mul_comm]
  · have := integral_comp_mul_left_Ioi p 0 (inv_pos.2 hmu)
    rw [mul_zero, h.total, inv_inv, smul_eq_mul, mul_one] at this
    have e : ∀ τ, p (τ / mu) / mu = mu⁻¹ * p (mu⁻¹ * τ) := fun τ => by
      rw [div_eq_mul_inv, div_eq_mul_inv, mul_comm mu⁻¹ τ, mul_comm]
    simp only [e]
    rw [integral_const_mul, this, inv_mul_cancel₀ hmu.ne']

theorem StretchedAll.count {gs gs' : List (List Trap)} (h : StretchedAll mu gs gs') : trapCount gs' = trapCount gs := by
  have inner : ∀ {l l' : List Trap}, List.Forall₂ (Trap.Stretched mu) l l' →
      (l'.map Trap.density).sum = (l.map Trap.density).sum := by
    intro l l' h
    induction h with
    | nil => rfl
    | cons ha _ ih => rw [List.map_cons, List.map_cons, List.sum_cons, List.sum_cons, ih, ha.density]
  unfold trapCount
  unfold StretchedAll at h
  induction h with
  | nil => rfl
  | cons ha _ ih =>
    simp only [List.map_cons, List.sum_cons] at ih ⊢
    rw [ih, inner ha]

end objects

/-- The reference readout of a column in another unit of time. -/
theorem readout_time {mu : ℝ} (f : ℝ → ℝ) (dw : ℝ) {gs gs' : List (List Trap)} (h : StretchedAll mu gs gs') (hmu : 0 < mu)
    (passes : List (List (ℕ × ℝ))) (y : ℕ → ℝ) :
    Ref.stepReadout (Ref.fullStep f (mu * dw)) (gs'.map Ref.fullOf) passes y =
      Ref.stepReadout (Ref.fullStep f dw) (gs.map Ref.fullOf) passes y := by
  have e : gs'.map Ref.fullOf = (gs.map Ref.fullOf).map (Ref.FullTraps.retime mu) := by
    unfold StretchedAll at h
    induction h with
    | nil => rfl
    | cons ha _ ih => rw [List.map_cons, List.map_cons, List.map_cons, ih, Ref.fullOf_stretched hmu ha]
  rw [e]
  exact Ref.stepReadout_conj (List.map (Ref.FullTraps.retime mu)) _ _ (fun s n => Ref.fullStep_retime hmu s) _ _ _

/-! ## C113 -/

section main
variable {fp fs pp ps dp ds mp ms : ℝ} {gp gs gp' gs' : List (List Trap)} {ip is ip' is' : Bool} {cp cs cp' cs' : CCD} {op os : ℕ}
  {par ser par' ser' : PyDirection}

/-- **C113**: `add_cti` with dwell times, timescales and lifetimes multiplied by the same factor, one factor for each direction. -/
theorem C113_add_cti (hp : FullObjects fp pp dp gp ip cp op par) (hs : FullObjects fs ps ds gs is cs os ser) (hmp : 0 < mp)
    (hms : 0 < ms) (hp' : FullObjects fp pp (mp * dp) gp' ip' cp' op par') (hs' : FullObjects fs ps (ms * ds) gs' is' cs' os ser')
    (hgp : StretchedAll mp gp gp') (hgs : StretchedAll ms gs gs') (hfp : trapCount gp * (pp / fp) ≤ 1)
    (hfs : trapCount gs * (ps / fs) ≤ 1) (img : Image ℝ) (himg : img.NonNeg) (hnr : 0 < img.nr) (hnc : 0 < img.nc) :
    ∃ out out' roes roes', addCtiPy img par .all ser .all none = .ok (out, roes) ∧
      addCtiPy img par' .all ser' .all none = .ok (out', roes') ∧ out.SameShape img ∧ out'.Same out := by
  obtain ⟨a, a1, a2, a3, a4⟩ := C103_add_cti hp hs hfp hfs img himg hnr hnc
  obtain ⟨b, b1, b2, b3, b4⟩ := C103_add_cti hp' hs' (by rw [hgp.count]; exact hfp) (by rw [hgs.count]; exact hfs) img himg hnr hnc
  refine ⟨a, b, _, _, a1, b1, ⟨a2, a3⟩, ⟨b2.trans a2.symm, b3.trans a3.symm, fun r hr c hc => ?_⟩⟩
  rw [b2] at hr
  rw [b3] at hc
  rw [a4 r hr c hc, b4 r hr c hc]
  simp only [readout_time _ _ hgp hmp, readout_time _ _ hgs hms]

/-- **C113**: `remove_cti` with dwell times, timescales and lifetimes multiplied by the same factor, for images with at least one
electron per trap and transfer in every pixel. -/
theorem C113_remove_cti (hp : FullObjects fp pp dp gp ip cp op par) (hs : FullObjects fs ps ds gs is cs os ser) (hmp : 0 < mp)
    (hms : 0 < ms) (hp' : FullObjects fp pp (mp * dp) gp' ip' cp' op par') (hs' : FullObjects fs ps (ms * ds) gs' is' cs' os ser')
    (hgp : StretchedAll mp gp gp') (hgs : StretchedAll ms gs gs') (hfp : 4 * (trapCount gp * (pp / fp)) < 1)
    (hfs : 4 * (trapCount gs * (ps / fs)) < 1) (img : Image ℝ) (hnr : 0 < img.nr) (hnc : 0 < img.nc)
    (himg : ∀ r < img.nr, ∀ c < img.nc,
      trapCount gp * ((r + op + 1 : ℕ) : ℝ) + trapCount gs * ((c + os + 1 : ℕ) : ℝ) ≤ img.px r c) (n : ℕ) :
    ∃ out out', removeCtiPy img n par .all ser .all none = .ok (out, par.roe, ser.roe) ∧
      removeCtiPy img n par' .all ser' .all none = .ok (out', par'.roe, ser'.roe) ∧ out.SameShape img ∧ out'.Same out := by
  have kp := hp.slope_nonneg
  have ks := hs.slope_nonneg
  obtain ⟨-, M⟩ := full_mild hp hs img.nr img.nc _ _ _ rfl rfl hfp hfs rfl
  have up0 : ∀ r < img.nr, ∀ c < img.nc,
      0 ≤ trapCount gp * ((r + op + 1 : ℕ) : ℝ) + trapCount gs * ((c + os + 1 : ℕ) : ℝ) := fun r _ c _ =>
    add_nonneg (mul_nonneg hp.count_nonneg (Nat.cast_nonneg _)) (mul_nonneg hs.count_nonneg (Nat.cast_nonneg _))
  have low : ∀ r < img.nr, ∀ c < img.nc,
      0 + (trapCount gp * ((r + op + 1 : ℕ) : ℝ) + trapCount gs * ((c + os + 1 : ℕ) : ℝ)) ≤ img.px r c := fun r hr c hc => by
    rw [zero_add]; exact himg r hr c hc
  obtain ⟨a, a1, a2, a3⟩ := removeIter_above (addAgain par ser) (par.roe, ser.roe) img M up0 low (fun x hx h0 => by
    obtain ⟨y, y1, y2, y3, y4⟩ := C103_add_cti hp hs (by linarith) (by linarith) x
      (fun r hr c hc => h0 r (by rw [← hx.1]; exact hr) c (by rw [← hx.2]; exact hc)) (by rw [hx.1]; exact hnr)
      (by rw [hx.2]; exact hnc)
    rw [hx.1, hx.2] at y4
    exact ⟨y, full_again hp hs x y y1, ⟨y2.trans hx.1, y3.trans hx.2⟩, y4⟩) n
  obtain ⟨b, b1, b2, b3⟩ := removeIter_above (addAgain par' ser') (par'.roe, ser'.roe) img M up0 low (fun x hx h0 => by
    obtain ⟨y, y1, y2, y3, y4⟩ := C103_add_cti hp' hs' (by rw [hgp.count]; linarith) (by rw [hgs.count]; linarith) x
      (fun r hr c hc => h0 r (by rw [← hx.1]; exact hr) c (by rw [← hx.2]; exact hc)) (by rw [hx.1]; exact hnr)
      (by rw [hx.2]; exact hnc)
    rw [hx.1, hx.2] at y4
    refine ⟨y, full_again hp' hs' x y y1, ⟨y2.trans hx.1, y3.trans hx.2⟩, fun r hr c hc => ?_⟩
    rw [y4 r hr c hc]
    simp only [readout_time _ _ hgp hmp, readout_time _ _ hgs hms]) n
  refine ⟨a, b, a1, b1, a2, ⟨b2.1.trans a2.1.symm, b2.2.trans a2.2.symm, fun r hr c hc => ?_⟩⟩
  rw [b2.1] at hr
  rw [b2.2] at hc
  rw [a3 r hr c hc, b3 r hr c hc]

/-- Log-normal lifetimes in another unit of time are log-normal lifetimes with another median. -/
theorem C113_logNormal {mu : ℝ} (hmu : 0 < mu) (d m s : ℝ) (hm : 0 < m) :
    Trap.Stretched mu (.logNormalTrap d m s) (.logNormalTrap d (mu * m) s) := by
  refine .continuum _ _ _ _ _ _ fun τ hτ => ?_
  unfold Trap.logNormal
  rw [Real.log_mul hmu.ne' hm.ne', Real.log_div hτ.ne' hmu.ne']
  rw [← sub_sub, div_div]
  congr 1
  field_simp

end main

/-! ### a case -/

/-- The traps of `exFull` in another unit of time. -/
theorem exStretched : FullObjects 1000 1 (2 * 1)
    [[.logNormalTrap 0.1 (2 * 3) (1 / 2)], [.trap 0.1 (2 * 2) (2 * 0.1) false], [.instant 0.1 (2 * 5) false]] false
    ⟨[1], [1000], [1], [0], [.num 1000]⟩ 2
    ⟨some ⟨[1], [1000], [1], [0], [.num 1000]⟩, some (.standard [2 * 1] true true true false),
      some (.list ([[.logNormalTrap 0.1 (2 * 3) (1 / 2)], [.trap 0.1 (2 * 2) (2 * 0.1) false],
        [.instant 0.1 (2 * 5) false]].map .group)), 0, 2⟩ := by
  refine ⟨rfl, exFull.phase, by norm_num, le_rfl, by norm_num, by simp, fun l hl => ?_⟩
  simp only [List.mem_cons, List.not_mem_nil, or_false] at hl
  rcases hl with rfl | rfl | rfl
  · refine ⟨by simp, fun t ht => ?_⟩
    simp only [List.mem_cons, List.not_mem_nil, or_false] at ht
    subst ht
    exact ⟨⟨by norm_num, by norm_num, C45_logNormal (by norm_num) (by norm_num)⟩, le_rfl⟩
  · refine ⟨by simp, fun t ht => ?_⟩
    simp only [List.mem_cons, List.not_mem_nil, or_false] at ht
    subst ht
    exact ⟨⟨by norm_num, by norm_num⟩, by simp only [Trap.captureTimescale]; norm_num⟩
  · refine ⟨by simp, fun t ht => ?_⟩
    simp only [List.mem_cons, List.not_mem_nil, or_false] at ht
    subst ht
    exact ⟨⟨by norm_num, by norm_num⟩, le_rfl⟩

/-- Three rows and two columns of 100 electrons, a log-normal distribution of lifetimes with median 3 and a dwell time 1, or median 6
and a dwell time 2, and likewise for the other traps: three iterations of `remove_cti` return the same image. -/
example (d e : PyDirection)
    (hd : d = ⟨some ⟨[1], [1000], [1], [0], [.num 1000]⟩, some (.standard [1] true true true false),
      some (.list ([[.logNormalTrap 0.1 3 (1 / 2)], [.trap 0.1 2 0.1 false], [.instant 0.1 5 false]].map .group)), 0, 2⟩)
    (he : e = ⟨some ⟨[1], [1000], [1], [0], [.num 1000]⟩, some (.standard [2 * 1] true true true false),
      some (.list ([[.logNormalTrap 0.1 (2 * 3) (1 / 2)], [.trap 0.1 (2 * 2) (2 * 0.1) false],
        [.instant 0.1 (2 * 5) false]].map .group)), 0, 2⟩) :
    ∃ out out', removeCtiPy ⟨3, 2, fun _ _ => 100⟩ 3 d .all d .all none = .ok (out, d.roe, d.roe) ∧
      removeCtiPy ⟨3, 2, fun _ _ => 100⟩ 3 e .all e .all none = .ok (out', e.roe, e.roe) ∧ out'.Same out := by
  have h := exFull
  have h' := exStretched
  rw [← hd] at h
  rw [← he] at h'
  have g : StretchedAll 2 [[.logNormalTrap 0.1 3 (1 / 2)], [.trap 0.1 2 0.1 false], [.instant 0.1 5 false]]
      [[.logNormalTrap 0.1 (2 * 3) (1 / 2)], [.trap 0.1 (2 * 2) (2 * 0.1) false], [.instant 0.1 (2 * 5) false]] :=
    .cons (.cons (C113_logNormal (by norm_num) _ _ _ (by norm_num)) .nil) (.cons (.cons (.trap ..) .nil)
      (.cons (.cons (.instant ..) .nil) .nil))
  obtain ⟨a, b, a1, b1, -, ab⟩ := C113_remove_cti h h (by norm_num) (by norm_num) h' h' g g (by rw [exFull_count]; norm_num)
    (by rw [exFull_count]; norm_num) (⟨3, 2, fun _ _ => 100⟩ : Image ℝ) (by norm_num) (by norm_num) (fun r hr c hc => by
      rw [exFull_count]
      have e1 : ((r + 2 + 1 : ℕ) : ℝ) ≤ 5 := by
        have : r + 2 + 1 ≤ 5 := by simp only at hr; omega
        exact_mod_cast this
      have e2 : ((c + 2 + 1 : ℕ) : ℝ) ≤ 4 := by
        have : c + 2 + 1 ≤ 4 := by simp only at hc; omega
        exact_mod_cast this
      linarith) 3
  exact ⟨a, b, a1, b1, ab⟩

end Arctic
