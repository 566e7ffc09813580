import Verif.Lemmas.SlowRef
import Verif.Lemmas.FewStep
import Verif.Lemmas.WellFill
import Verif.Props.RefClocks
import Verif.Props.Clock

/-!
# C62 — reference simulation with slow capture, if the traps are few
-/

set_option linter.unusedSectionVars false
set_option linter.unusedVariables false

namespace Arctic
open MeasureTheory

/-- At most `D` traps with instant capture whose occupancy never rises by itself. -/
def Mgr.Mild (D : ℝ) (m : Mgr ℝ) : Prop := m.kind.Ok (0 < ·) ∧ m.total ≤ D

theorem Mgr.Mild.step {D : ℝ} {m m' : Mgr ℝ} {n t net : ℝ} {f : ℝ → ℝ} (h : m.Mild D)
    (hs : m.step n t f = .ok (net, m')) : m'.Mild D := by
  obtain ⟨wm, rfl, -⟩ := Mgr.step_shape hs
  exact h

theorem ClkRef.mild_step {D : ℝ} {M k : ℕ} {m : Mgr ℝ} {t : Ref.Clocks} (h : ClkRef M k m t) (hm : m.Mild D) (hk : k < M)
    {f : ℝ → ℝ} (hf : FillModel f) (hfew : FewTraps f D) (n x : ℝ) (hn : 0 ≤ n) (hx : 0 < x) :
    m.step n x f ≠ .error .typeError := by
  obtain ⟨s, dens, law, wm, age, rfl, rfl, hd, h0, hl, hst, ha⟩ := h
  have hok : MgrOk (0 < ·) M k ⟨s, dens, .trackTime law, wm⟩ := ⟨hd, hm.1, k, le_rfl, hk.le, hst⟩
  obtain ⟨net, m', e, -⟩ := hok.few (Or.inl trivial) hk hf hfew hm.2 n x hn hx
  rw [e]
  simp

/-- A manager and reference traps of any sort; slow groups have at most `D` traps; so have those with lifetime
distributions, unless exceptions are expected. -/
def EveryRef (D : ℝ) (fails : Prop) (M k : ℕ) (m : Mgr ℝ) (t : Ref.EveryTraps) : Prop :=
  match t with
  | .inl (.inl t) => MgrRef (0 < ·) M k m t
  | .inl (.inr t) => (fails ∨ m.Mild D) ∧ ClkRef M k m t
  | .inr t => SlowRef D M k m t

theorem everyRef_follows (D : ℝ) (fails : Prop) :
    Follows Ref.everySpec true fails (fun f => FewTraps f D) (fun n => 0 ≤ n) (EveryRef D fails) where
  wide _ h := h
  step M k m t h hk f hf hF n x hn hx := by
    rcases t with (t | t) | t
    · rcases anyRef_follows.step M k m (.inl t) h hk f hf hF.pos n x trivial hx with
        ⟨net, m', t', h1, h2, h3⟩ | ⟨-, h1, h2⟩
      · refine Or.inl ⟨net, m', .inl t', h1, ?_, ?_⟩
        · simp only [Ref.everySpec, h2, Except.map]
        · simp only [Ref.anySpec] at h2
          injection h2 with h2
          injection h2 with _ h2
          subst h2
          exact h3
      · have := h2 rfl
        simp only [Ref.anySpec] at this
        cases this
    · rcases ClkRef.step h.2 hk hf n x hx with ⟨net, m', t', h1, h2, h3⟩ | ⟨h1, h2⟩
      · exact Or.inl ⟨net, m', .inl (.inr t'), h1, by simp only [Ref.everySpec, Ref.anySpec, h2, Except.map],
          h.1.imp id fun q => q.step h1, h3⟩
      · exact Or.inr ⟨h.1.elim id fun q => absurd h1 (h.2.mild_step q hk hf hF n x hn hx), h1, fun _ => by simp only [Ref.everySpec, Ref.anySpec, h2, Except.map]⟩
    · obtain ⟨m', h1, h2, -⟩ := SlowRef.step h hk hf hF n x hn hx
      exact Or.inl ⟨_, m', _, h1, rfl, h2⟩
  empty M k m t h := by
    rcases t with (t | t) | t
    · exact MgrRef.emptied h
    · exact ⟨h.1, ClkRef.emptied h.2⟩
    · exact SlowRef.emptied h
  mono M k k' m t h hk := by
    rcases t with (t | t) | t
    · exact MgrRef.mono h hk
    · exact ⟨h.1, anyRef_follows.mono M k k' m (.inr t) h.2 hk⟩
    · exact SlowRef.mono h hk

/-- Sensible traps. -/
def Ref.EveryTraps.Ok : Ref.EveryTraps → Prop
  | .inl t => Ref.AnyTraps.Ok t
  | .inr t => t.Ok

/-- At most `D` traps of a slow group in a phase with this fraction of the traps. -/
def Ref.EveryTraps.AtMost (D frac : ℝ) : Ref.EveryTraps → Prop
  | .inl _ => True
  | .inr t => t.total * frac ≤ D

/-- More than `D` traps with a distribution of lifetimes in a phase with this fraction of the traps (or an occupancy that
rises by itself). -/
def Ref.EveryTraps.ManyClocks (D frac : ℝ) : Ref.EveryTraps → Prop
  | .inl (.inr t) => ¬ ((∀ j x y, 0 ≤ x → x ≤ y → t.law j y ≤ t.law j x) ∧ (∑ j, t.dens j) * frac ≤ D)
  | _ => False

/-- **C62**: clocking in one direction with any mix of groups of traps with finite capture time, with instant capture and
with lifetime distributions does exactly what the reference does — the same image or the same exception — provided that
no pixel is negative and that wherever the cloud's volume grows by `v`, it grows by at least `D v` electrons, where `D`
bounds the number of traps of each slow group in a pixel and phase. No array is accessed out of bounds, and nothing is
raised (other than by the computation of the matrices) unless a group with a lifetime distribution has more than `D` traps
in a pixel and phase. -/
theorem C62_refinement (img : Image ℝ) (ccd : CcdView ℝ) (roe : Roe ℝ) (traps : List Ref.EveryTraps) (e o : ℕ)
    (rows columns : List ℕ) (tw : Option (List ℕ)) (D : ℝ)
    (hk : NoSaves roe ∨ roe.isPumping = true ∨ (e = 0 ∧ FullReadout o rows tw roe)) (hb : roe.emptyBetween = true)
    (hr : RowsFound rows roe) (hrows : ∀ w ∈ rows, w < img.nr) (hcols : ∀ c ∈ columns, c < img.nc)
    (hlow : ∀ w ∈ rows, ∀ z ∈ roe.accessed, 0 ≤ (w : ℤ) + z)
    (hlen : ccd.fractions.length ≤ roe.nPhases) (hfr : ∀ x ∈ ccd.fractions, 0 ≤ x)
    (hfill : ∀ ph < ccd.fractions.length, FillModel (ccd.fill ph) ∧ FewTraps (ccd.fill ph) D)
    (ht : ∀ t ∈ traps, t.Ok ∧ ∀ x ∈ ccd.fractions, t.AtMost D x) (himg : img.NonNeg) :
    clockCharge img ccd roe (traps.map Ref.EveryTraps.group) e o rows columns tw =
        Ref.everySpec.clock img ccd roe (SpecState.new Ref.EveryTraps.inPhase traps ccd.fractions) e o rows columns tw ∧
      ((∃ x, clockCfg roe ccd e o rows tw = .ok x) → (∀ t ∈ traps, ∀ x ∈ ccd.fractions, ¬ t.ManyClocks D x) →
        ∃ out, clockCharge img ccd roe (traps.map Ref.EveryTraps.group) e o rows columns tw = .ok out) := by
  rcases (everyRef_follows D (∃ t ∈ traps, ∃ x ∈ ccd.fractions, t.ManyClocks D x)).clock Ref.EveryTraps.inPhase Ref.EveryTraps.group traps img ccd
    roe e o rows columns tw
    (fun M t h x hx => by
      have hx0 := hfr x hx
      obtain ⟨hok, hmost⟩ := ht t h
      rcases t with (t | t) | t
      · exact mgrRef_new (fun j => t.dens j * x) t.keep M (fun j => mul_nonneg (hok.dens j) hx0) hok.keep
      · refine ⟨?_,
          clkRef_new (fun j => t.dens j * x) t.law M (fun j => mul_nonneg (hok.dens j) hx0) hok.start hok.law⟩
        by_cases hc : Ref.EveryTraps.ManyClocks D x (.inl (.inr t))
        · exact Or.inl ⟨_, h, x, hx, hc⟩
        · have hc := not_not.1 hc
          refine Or.inr ⟨⟨hok.start, hok.law, hc.1⟩, ?_⟩
          have e : (Mgr.new (fun j => t.dens j * x) (.trackTime t.law) M : Mgr ℝ).total = ∑ j, t.dens j * x := rfl
          have := hc.2
          rw [Finset.sum_mul] at this
          exact e.trans_le this
      · exact slowRef_new t M x hok hx0 (hmost x hx) _ fun _ _ => rfl)
    hk hb hr hrows hcols hlow hlen (fun ph h => (hfill ph h).1) (fun ph h => (hfill ph h).2) himg with
    ⟨x, h1, h2⟩ | ⟨err, h1, h0, h2⟩
  · exact ⟨by rw [h1, h2], fun _ _ => ⟨x, h1⟩⟩
  · refine ⟨by rw [h1, h2 (Or.inl rfl)], fun hm hn => ?_⟩
    obtain ⟨t, ht1, y, hy, ht2⟩ := h0 hm
    exact absurd ht2 (hn t ht1 y hy)

/-! ## Python objects -/

/-- Fraction of the traps of a species that is filled inside a cloud in equilibrium of capture and release. -/
noncomputable def Trap.balance (t : Trap) : ℝ := t.releaseTimescale / (t.releaseTimescale + t.captureTimescale)

/-- What is left of a deviation from that fraction after a dwell time. -/
noncomputable def Trap.memory (t : Trap) (x : ℝ) : ℝ :=
  if t.captureTimescale = 0 then 0 else Real.exp (-(x / t.captureTimescale + x / t.releaseTimescale))

/-- Traps with capture and release timescales, all empty: rate equations inside a cloud, exponential decay outside. -/
noncomputable def Ref.slowOf (l : List Trap) : Ref.Slow where
  s := l.length
  dens j := l[j].density
  take x j := l[j].balance * (1 - l[j].memory x)
  hold x j := l[j].balance + (1 - l[j].balance) * l[j].memory x
  keep x j := Real.exp (-x / l[j].releaseTimescale)
  occ _ _ := 0

/-- The first trap of a group decides how it is simulated. -/
noncomputable def Ref.everyOf (l : List Trap) : Ref.EveryTraps :=
  match l with
  | .trap .. :: _ => .inr (Ref.slowOf l)
  | _ => .inl (Ref.anyOf l)

/-- A group of trap objects with sensible parameters. -/
structure EveryGroup (l : List Trap) : Prop where
  ne_nil : l ≠ []
  all : ∀ t ∈ l, t.Sensible ∧ 0 ≤ t.captureTimescale

theorem slowOf_probs {l : List Trap} (h : EveryGroup l) {x : ℝ} (hx : 0 < x) :
    fillProbs (fun j : Fin l.length => l[j]) x = ⟨(Ref.slowOf l).take x, (Ref.slowOf l).hold x, (Ref.slowOf l).keep x⟩ := by
  have hall : ∀ j : Fin l.length, l[j].Physical := fun j =>
    ⟨(h.all _ (List.getElem_mem _)).1.timescale, (h.all _ (List.getElem_mem _)).2⟩
  unfold fillProbs Ref.slowOf
  simp only
  congr 1
  · funext j
    have hj := hall j
    generalize l[j] = t at hj
    rcases t.slow_or_instant hj with h0 | ⟨d, τ, c, b, rfl, hτ, hc⟩
    · rw [fillFromEmpty_instant t h0 hx.le]
      simp only [ExtF.toReal, Trap.memory, Trap.balance, h0, if_true, sub_zero, mul_one, add_zero]
      rw [div_self hj.release.ne']
    · rw [fillFromEmpty_slow hτ hc]
      simp only [ExtF.toReal, Trap.memory, Trap.balance, Trap.captureTimescale, Trap.releaseTimescale, hc.ne', if_false]
      have e1 : 1 / c / (1 / c + 1 / τ) = τ / (τ + c) := by field_simp
      have e2 : -(1 / c + 1 / τ) * x = -(x / c + x / τ) := by ring
      rw [e1, e2]
  · funext j
    have hj := hall j
    generalize l[j] = t at hj
    rcases t.slow_or_instant hj with h0 | ⟨d, τ, c, b, rfl, hτ, hc⟩
    · rw [fillFromFull_instant t h0 hx]
      simp only [ExtF.toReal, Trap.memory, Trap.balance, h0, if_true, mul_zero, add_zero]
      rw [div_self hj.release.ne']
    · rw [fillFromFull_slow hτ hc]
      simp only [ExtF.toReal, Trap.memory, Trap.balance, Trap.captureTimescale, Trap.releaseTimescale, hc.ne', if_false]
      have e1 : 1 / τ / (1 / c + 1 / τ) = 1 - τ / (τ + c) := by field_simp; ring
      have e2 : -(1 / c + 1 / τ) * x = -(x / c + x / τ) := by ring
      rw [e1, e2]
      ring
  · funext j
    unfold fillFromRelease Trap.emissionRate
    congr 1
    ring

theorem EveryGroup.slow_ok {l : List Trap} (h : EveryGroup l) : (Ref.slowOf l).Ok := by
  have hall : ∀ j : Fin l.length, l[j].Physical := fun j =>
    ⟨(h.all _ (List.getElem_mem _)).1.timescale, (h.all _ (List.getElem_mem _)).2⟩
  refine ⟨fun j => (h.all _ (List.getElem_mem _)).1.density, fun x hx j => ?_⟩
  obtain ⟨p1, p2, p3, p4, p5⟩ := C25_fillProbs (fun j : Fin l.length => l[j]) hall hx j
  rw [slowOf_probs h hx] at p1 p2 p3 p4 p5
  exact ⟨⟨p1, p2.trans p3⟩, ⟨p1.trans p2, p3⟩, p4.le, p5.le⟩

theorem Ref.slowOf_total (l : List Trap) : (Ref.slowOf l).total = (l.map Trap.density).sum := by
  unfold Ref.Slow.total Ref.slowOf
  simp only [Fin.getElem_fin]
  rw [← Fin.sum_univ_fun_getElem]

theorem Trap.Sensible.anti {t : Trap} (h : t.Sensible) : ∀ x y, 0 ≤ x → x ≤ y → t.fillFraction y ≤ t.fillFraction x := by
  have hexp : ∀ τ : ℝ, 0 < τ → ∀ x y : ℝ, 0 ≤ x → x ≤ y → Real.exp (-y / τ) ≤ Real.exp (-x / τ) := by
    intro τ hτ x y _ hxy
    rw [Real.exp_le_exp]
    exact div_le_div_of_nonneg_right (neg_le_neg hxy) hτ.le
  cases t with
  | trap d τ c b => exact hexp τ h.2
  | instant d τ b => exact hexp τ h.2
  | continuum d dist mu sigma =>
    exact fun x y hx hxy => (C45_fill_fraction d dist mu sigma h.2.2).2.2.1 hx (hx.trans hxy) hxy

/-- Arguments of one direction: a CCD without notches whose well_fill_power is at least one, a standard readout, groups of
any trap objects, no slow one with more than `D` traps in a phase; `D` times the power at most the full well depth. -/
structure SlowObjects (D : ℝ) (c : CCD) (dw : List ℝ) (i : Bool) (gs : List (List Trap)) : Prop where
  fractions : c.fractions ≠ [] ∧ ∀ x ∈ c.fractions, 0 ≤ x
  wells : ∀ ph < c.fractions.length, ∃ full power, c.HasPhase ph 0 full power ∧ 0 < full ∧ 1 ≤ power ∧ D * power ≤ full
  phases : c.fractions.length ≤ dw.length
  groups : gs ≠ [] ∧ ∀ l ∈ gs, EveryGroup l
  count : ∀ l ∈ gs, ∀ d τ τc b, Trap.trap d τ τc b ∈ l.head? → ∀ x ∈ c.fractions, (l.map Trap.density).sum * x ≤ D
  bound : 0 ≤ D

/-- The reference for these objects. -/
noncomputable def Ref.clockEvery (c : CCD) (dw : List ℝ) (i : Bool) (gs : List (List Trap)) (img : Image ℝ) (e o : ℕ)
    (rows columns : List ℕ) (tw : Option (List ℕ)) : Except Err (Image ℝ × Roe ℝ) :=
  Ref.everySpec.clock img c.view (.standard dw true true true i)
    (SpecState.new Ref.EveryTraps.inPhase (gs.map Ref.everyOf) c.fractions) e o rows columns tw

theorem SlowObjects.fill {D : ℝ} {c : CCD} {dw : List ℝ} {i : Bool} {gs : List (List Trap)} (h : SlowObjects D c dw i gs)
    (ph : ℕ) (hph : ph < c.view.fractions.length) : FillModel (c.view.fill ph) ∧ FewTraps (c.view.fill ph) D := by
  obtain ⟨full, power, h1, h2, h3, h4⟩ := h.wells ph hph
  rw [CCD.view_fill h1 h2 (by linarith)]
  have hl := wellFill_lip h2 h3
  refine ⟨(wellFill_exact h2 (by linarith)).1, fun x y hxy => hl.mono hxy, fun x y _ hxy => ?_,
    (wellFill_exact h2 (by linarith)).2⟩
  have e1 := mul_le_mul_of_nonneg_left (hl.lip x y hxy) h.bound
  have e2 : D * (power / full) ≤ 1 := by rw [← mul_div_assoc, div_le_one h2]; exact h4
  have e3 := mul_le_mul_of_nonneg_right e2 (sub_nonneg.2 hxy)
  linarith

/-- **C62** for one direction with Python objects. -/
theorem C62_objects {D : ℝ} {c : CCD} {dw : List ℝ} {i : Bool} {gs : List (List Trap)} (h : SlowObjects D c dw i gs)
    (img : Image ℝ) (himg : img.NonNeg) (e o : ℕ) (rows columns : List ℕ) (tw : Option (List ℕ))
    (hrows : ∀ w ∈ rows, w < img.nr) (hcols : ∀ c ∈ columns, c < img.nc) :
    clockChargePy img (some c) (.standard dw true true true i) (.list (gs.map .group)) e o rows columns tw =
        Ref.clockEvery c dw i gs img e o rows columns tw ∧
      (rows ≠ [] → ¬ ShortMatrix true rows e → (∀ t ∈ tw, t ≠ []) →
        (∀ l ∈ gs, ∀ d f m s, Trap.continuum d f m s ∈ l.head? → ∀ x ∈ c.fractions, (l.map Trap.density).sum * x ≤ D) →
        ∃ out, clockChargePy img (some c) (.standard dw true true true i) (.list (gs.map .group)) e o rows columns tw =
          .ok out) := by
  rw [clockChargePy_groups img c _ gs h.groups.1 (fun l hl => (h.groups.2 l hl).ne_nil) h.fractions.1]
  have hlow : ∀ w ∈ rows, ∀ z ∈ (Roe.standard dw true true true i).accessed, 0 ≤ (w : ℤ) + z := by
    intro w _ z hz
    have := (C14_accessed (.standard dw true true true i) z hz).1 rfl
    omega
  rcases (everyRef_follows D (∃ l ∈ gs, (∃ d f m s, Trap.continuum d f m s ∈ l.head?) ∧
      ∃ x ∈ c.fractions, D < (l.map Trap.density).sum * x)).clock
    (fun l x => (Ref.everyOf l).inPhase x) groupOf gs img c.view
    (.standard dw true true true i) e o rows columns tw
    (fun M l hl x hx => by
      have hx0 := h.fractions.2 x hx
      have hg := h.groups.2 l hl
      have hany : SensibleGroup l → groupOf l = (Ref.anyOf l).group := SensibleGroup.group
      cases l with
      | nil => exact absurd rfl hg.ne_nil
      | cons a l =>
        cases a with
        | trap d τ τc b =>
          exact slowRef_new (Ref.slowOf (.trap d τ τc b :: l)) M x hg.slow_ok hx0
            (by rw [Ref.slowOf_total]; exact h.count _ hl d τ τc b rfl x hx) (fun y => fillProbs _ y)
            fun y hy => slowOf_probs hg hy
        | instant d τ b =>
          have hs : SensibleGroup (.instant d τ b :: l) := ⟨⟨_, rfl, trivial⟩, fun t ht => (hg.all t ht).1⟩
          rw [hany hs]
          have hok := hs.ok
          exact mgrRef_new (fun j => (Ref.ofTraps (.instant d τ b :: l)).dens j * x) _ M
            (fun j => mul_nonneg (hok.dens j) hx0) hok.keep
        | continuum d f m s =>
          have hs : SensibleGroup (.continuum d f m s :: l) := ⟨⟨_, rfl, trivial⟩, fun t ht => (hg.all t ht).1⟩
          rw [hany hs]
          have hok := hs.ok
          refine ⟨?_, clkRef_new _ _ M (fun j => mul_nonneg (hok.dens j) hx0) hok.start hok.law⟩
          rcases lt_or_ge D (((Trap.continuum d f m s :: l).map Trap.density).sum * x) with hlt | hle
          · exact Or.inl ⟨_, hl, ⟨d, f, m, s, rfl⟩, x, hx, hlt⟩
          · refine Or.inr ⟨⟨hok.start, hok.law, fun j => (hs.all _ (List.getElem_mem _)).anti⟩, ?_⟩
            rw [← Fin.sum_univ_fun_getElem, Finset.sum_mul] at hle
            exact hle)
    (Or.inl (by rfl)) rfl trivial hrows hcols hlow h.phases (fun ph hp => (h.fill ph hp).1)
    (fun ph hp => (h.fill ph hp).2) himg with ⟨x, h1, h2⟩ | ⟨err, h1, h0, h2⟩
  · have e2 : Ref.clockEvery c dw i gs img e o rows columns tw = .ok x := by
      rw [← h2]
      unfold Ref.clockEvery SpecState.new
      simp only [List.map_map]
      rfl
    exact ⟨by rw [h1, e2], fun _ _ _ _ => ⟨x, h1⟩⟩
  · have e2 : Ref.clockEvery c dw i gs img e o rows columns tw = .error err := by
      rw [← h2 (Or.inl rfl)]
      unfold Ref.clockEvery SpecState.new
      simp only [List.map_map]
      rfl
    refine ⟨by rw [h1, e2], fun hne hsm ht hn => ?_⟩
    obtain ⟨l, hl, ⟨d, f, m, s, hd⟩, y, hy, hlt⟩ := h0 (standard_cfg dw i c.view e o rows tw hne hsm ht)
    exact absurd (hn l hl d f m s hd y hy) (not_le.2 hlt)

/-- **C62** for `add_cti` with both directions. -/
theorem C62_add_cti {D D' : ℝ} {c c' : CCD} {dw dw' : List ℝ} {i i' : Bool} {gs gs' : List (List Trap)}
    (hp : SlowObjects D c dw i gs) (hs : SlowObjects D' c' dw' i' gs') (img : Image ℝ) (himg : img.NonNeg)
    (e e' o o' : ℕ) (pw sw : Window)
    (hpr : ∀ w ∈ pw.resolve img.nr, w < img.nr) (hsr : ∀ w ∈ sw.resolve img.nc, w < img.nc) :
    addCtiPy img ⟨some c, some (.standard dw true true true i), some (.list (gs.map .group)), e, o⟩ pw
        ⟨some c', some (.standard dw' true true true i'), some (.list (gs'.map .group)), e', o'⟩ sw none = (do
      let (mid, rp) ← Ref.clockEvery c dw i gs img e o (pw.resolve img.nr) (sw.resolve img.nc)
        (some (List.range (img.nr + o)))
      let (out, rs) ← Ref.clockEvery c' dw' i' gs' mid.transpose e' o' (sw.resolve img.nc) (pw.resolve img.nr) none
      .ok (out.transpose, rp, rs)) := by
  unfold addCtiPy
  simp only [Option.getD_some, Option.getD_none]
  have h1 := (C62_objects hp img himg e o (pw.resolve img.nr) (sw.resolve img.nc) (some (List.range (img.nr + o))) hpr
    hsr).1
  simp only [bind, Except.bind]
  rw [h1]
  cases hc : Ref.clockEvery c dw i gs img e o (pw.resolve img.nr) (sw.resolve img.nc)
      (some (List.range (img.nr + o))) with
  | error err => rfl
  | ok x =>
    obtain ⟨mid, rp⟩ := x
    rw [hc, clockChargePy_groups img c _ gs hp.groups.1 (fun l hl => (hp.groups.2 l hl).ne_nil) hp.fractions.1] at h1
    have hsh := clockCharge_shape h1
    have hnn := clockCharge_nonneg _ _ _ _ _ _ _ _ _ _ _ h1 himg
    simp only
    rw [(C62_objects hs mid.transpose (fun r hr c hc => hnn c hc r hr) e' o' (sw.resolve img.nc) (pw.resolve img.nr) none
      (fun w hw => by change w < mid.nc; rw [hsh.2]; exact hsr w hw)
      (fun w hw => by change w < mid.nr; rw [hsh.1]; exact hpr w hw)).1]

/-- Ten traps per pixel with capture and release timescales, and two with instant capture, in a well for 1000 electrons. -/
example : SlowObjects 10 ⟨[1], [1000], [1.5], [0], [.num 1000]⟩ [1] false
    [[.trap 10 2 0.1 false], [.trap 4 3 0 false, .trap 6 1 2 false], [.instant 2 5 false]] := by
  refine ⟨⟨by simp, by simp⟩, fun ph hph => ?_, by simp, ⟨by simp, fun l hl => ?_⟩, ?_, by norm_num⟩
  · obtain rfl : ph = 0 := by simpa using hph
    exact ⟨1000, 1.5, ⟨rfl, rfl, rfl⟩, by norm_num, by norm_num, by norm_num⟩
  · simp only [List.mem_cons, List.not_mem_nil, or_false] at hl
    rcases hl with rfl | rfl | rfl
    · refine ⟨by simp, fun t ht => ?_⟩
      simp only [List.mem_cons, List.not_mem_nil, or_false] at ht
      subst ht
      exact ⟨⟨by norm_num, by norm_num⟩, by simp only [Trap.captureTimescale]; norm_num⟩
    · refine ⟨by simp, fun t ht => ?_⟩
      simp only [List.mem_cons, List.not_mem_nil, or_false] at ht
      rcases ht with rfl | rfl
      · exact ⟨⟨by norm_num, by norm_num⟩, by simp only [Trap.captureTimescale]; norm_num⟩
      · exact ⟨⟨by norm_num, by norm_num⟩, by simp only [Trap.captureTimescale]; norm_num⟩
    · refine ⟨by simp, fun t ht => ?_⟩
      simp only [List.mem_cons, List.not_mem_nil, or_false] at ht
      subst ht
      exact ⟨⟨by norm_num, by norm_num⟩, le_rfl⟩
  · intro l hl d τ τc b hd x hx
    simp only [List.mem_cons, List.not_mem_nil, or_false] at hl hx
    subst hx
    rcases hl with rfl | rfl | rfl
    · simp [Trap.density]
    · simp [Trap.density]; norm_num
    · simp at hd

/-- One transfer of the reference: a cloud of 50 electrons in a well for 100 meets 10 empty traps of which a quarter
captures. -/
example : (Ref.Slow.transfer ⟨1, fun _ => 10, fun _ _ => 1 / 4, fun _ _ => 1 / 2, fun _ _ => 1 / 8, fun _ _ => 0⟩ 50 1
    (wellFill 100 1)).1 = -(5 / 4) := by
  have hw : wellFill 100 1 50 = 1 / 2 := by unfold wellFill; norm_num
  have hind : ∫ d in (0 : ℝ)..1, (if d ≤ 1 / 2 then (1 / 4 : ℝ) else 0) = 1 / 8 := by
    have hi : ∀ (b c : ℝ), IntervalIntegrable (fun d => if d ≤ 1 / 2 then (1 / 4 : ℝ) else 0) volume b c := fun b c =>
      integrable_bdd 1 (Measurable.ite measurableSet_Iic measurable_const measurable_const)
        (fun d => by split <;> norm_num [abs_of_pos]) b c
    rw [← intervalIntegral.integral_add_adjacent_intervals (hi 0 (1 / 2)) (hi (1 / 2) 1)]
    have e1 : ∫ d in (0 : ℝ)..1 / 2, (if d ≤ 1 / 2 then (1 / 4 : ℝ) else 0) = ∫ d in (0 : ℝ)..1 / 2, (1 / 4 : ℝ) :=
      intervalIntegral.integral_congr_ae (Filter.Eventually.of_forall fun d hd => by
        rw [Set.uIoc_of_le (by norm_num)] at hd; rw [if_pos hd.2])
    have e2 : ∫ d in (1 / 2 : ℝ)..1, (if d ≤ 1 / 2 then (1 / 4 : ℝ) else 0) = ∫ d in (1 / 2 : ℝ)..1, (0 : ℝ) :=
      intervalIntegral.integral_congr_ae (Filter.Eventually.of_forall fun d hd => by
        rw [Set.uIoc_of_le (by norm_num)] at hd; rw [if_neg (not_le.2 hd.1)])
    rw [e1, e2]
    norm_num
  simp only [Ref.Slow.transfer, Ref.Slow.filled, Ref.Slow.release, Ref.Slow.exchange, Finset.univ_unique,
    Finset.sum_singleton, zero_mul, ite_self, intervalIntegral.integral_zero, mul_zero, sub_self, add_zero, hw, sub_zero,
    one_mul, zero_add, hind]
  norm_num
  rfl

end Arctic
