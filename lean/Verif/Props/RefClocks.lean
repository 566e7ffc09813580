import Verif.Lemmas.SpecRun
import Verif.Props.Reference
import Verif.Spec.RefClocks
import Verif.Lemmas.TrackRun
import Verif.Props.Total
import Verif.Props.EndToEnd
import Verif.Props.Continuum

/-!
# C61 — reference simulation with lifetime distributions
-/

set_option linter.unusedSectionVars false
set_option linter.unusedVariables false

namespace Arctic
open MeasureTheory

/-- A manager and reference traps in the same state. -/
def ClkRef (M k : ℕ) (m : Mgr ℝ) (t : Ref.Clocks) : Prop :=
  ∃ (s : ℕ) (dens : Fin s → ℝ) (law : Fin s → ℝ → ℝ) (wm : WM ℝ s) (age : ℝ → Fin s → Option ℝ),
    m = ⟨s, dens, .trackTime law, wm⟩ ∧ t = ⟨s, dens, law, age⟩ ∧ (∀ j, 0 ≤ dens j) ∧ (∀ j, law j 0 = 1) ∧
      (∀ j x, 0 ≤ x → 0 ≤ law j x ∧ law j x ≤ 1) ∧ TrackState (1 + M) k wm ∧
      ∀ (g : Fin s → ℝ → ℝ) d, 0 < d → ∀ j, (age d j).elim 0 (g j) = occ (asFractions g wm) d j

section state
variable {s : ℕ} {L k : ℕ} {wm : WM ℝ s}

theorem TrackState.rows (h : TrackState L k wm) : (∀ r ∈ wm, 0 ≤ r.vol ∧ Times r.fill) ∧ volSum wm ≤ 1 := by
  obtain ⟨act, z, rfl, hp, hv, hT, -, -⟩ := h
  constructor
  · intro r hr
    rcases List.mem_append.1 hr with hr | hr
    · exact ⟨(hp r hr).le, hT r hr⟩
    · rw [List.eq_of_mem_replicate hr]
      exact ⟨le_rfl, fun _ => le_rfl⟩
  · rw [volSum_append]
    have : volSum (Z z : WM ℝ s) = 0 := by
      unfold volSum
      rw [show (Z z : WM ℝ s) = List.replicate z (zeroRow ℝ s) from rfl, List.map_replicate, List.sum_replicate]
      simp [zeroRow]
    rw [this, add_zero]; exact hv

theorem TrackState.map (h : TrackState L k wm) (g : Fin s → ℝ → ℝ) (hg : ∀ j x, 0 ≤ x → 0 ≤ g j x ∧ g j x ≤ 1) :
    (∀ r ∈ asFractions g wm, 0 ≤ r.vol) ∧ (∀ r ∈ asFractions g wm, Frac r.fill) ∧ volSum (asFractions g wm) ≤ 1 := by
  obtain ⟨h1, h2⟩ := h.rows
  refine ⟨?_, ?_, ?_⟩
  · intro r hr
    obtain ⟨r0, hr0, rfl⟩ := List.mem_map.1 hr
    exact (h1 r0 hr0).1
  · intro r hr
    obtain ⟨r0, hr0, rfl⟩ := List.mem_map.1 hr
    exact fun j => hg j _ ((h1 r0 hr0).2 j)
  · unfold volSum asFractions at *
    rw [List.map_map]
    exact h2

end state

theorem ClkRef.step {M k : ℕ} {m : Mgr ℝ} {t : Ref.Clocks} (h : ClkRef M k m t) (hk : k < M)
    {f : ℝ → ℝ} (hf : FillModel f) (n x : ℝ) (hx : 0 < x) :
    (∃ net m' t', m.step n x f = .ok (net, m') ∧ t.transfer n x f = .ok (net, t') ∧ ClkRef M (k + 1) m' t') ∨
      m.step n x f = .error .typeError ∧ t.transfer n x f = .error .typeError := by
  obtain ⟨s, dens, law, wm, age, rfl, rfl, hd, h0, hl, hst, ha⟩ := h
  have hl' : ∀ j y, 0 ≤ y → 0 ≤ law j (y + x) ∧ law j (y + x) ≤ 1 := fun j y hy => hl j _ (by linarith)
  obtain ⟨p1, p2, p3⟩ := hst.map law hl
  obtain ⟨q1, q2, q3⟩ := hst.map (fun j y => law j (y + x)) hl'
  have hwait : ∀ (g : Fin s → ℝ → ℝ) d, 0 < d → ∀ j, ((age d j).map (· + x)).elim 0 (g j) =
      occ (asFractionsAfter g x wm) d j := by
    intro g d hd0 j
    have := ha (fun j y => g j (y + x)) d hd0 j
    rw [show asFractionsAfter g x wm = asFractions (fun j y => g j (y + x)) wm from rfl, ← this]
    cases age d j <;> rfl
  have efill : (⟨s, dens, law, age⟩ : Ref.Clocks).filled = electrons dens (asFractions law wm) := by
    rw [← electrons_integral dens _ p1 p2 p3]
    unfold Ref.Clocks.filled Ref.Clocks.occ
    exact Finset.sum_congr rfl fun j _ => by
      simp only
      rw [integral_congr_pos zero_le_one fun d hd => ha law d hd j]
  have efill1 : ((⟨s, dens, law, age⟩ : Ref.Clocks).wait x).filled = electrons dens (asFractionsAfter law x wm) := by
    rw [← electrons_integral dens (asFractionsAfter law x wm) q1 q2 q3]
    unfold Ref.Clocks.filled Ref.Clocks.occ Ref.Clocks.wait
    exact Finset.sum_congr rfl fun j _ => by
      simp only
      rw [integral_congr_pos zero_le_one fun d hd => hwait law d hd j]
  have evac : ∀ c, 0 ≤ c → ((⟨s, dens, law, age⟩ : Ref.Clocks).wait x).vacant c =
      vacant dens c (asFractionsAfter law x wm) := by
    intro c hc
    rw [← vacant_integral dens (asFractionsAfter law x wm) q1 q2 c hc]
    unfold Ref.Clocks.vacant Ref.Clocks.occ Ref.Clocks.wait
    exact Finset.sum_congr rfl fun j _ => by
      simp only
      rw [integral_congr_pos hc fun d hd => by rw [hwait law d hd j]]
  have key := track_step dens law x f hf hd h0 hl hx.le n (1 + M) k wm hst (by omega)
  unfold Ref.Clocks.transfer
  simp only [efill, efill1]
  rw [evac _ (hf.nonneg _)]
  simp only at key
  by_cases hs : Shortage dens law x f n wm
  · have hs' := hs
    unfold Shortage at hs'
    simp only at hs'
    rw [if_neg (not_le.2 hs')]
    refine Or.inr ⟨?_, rfl⟩
    simp only [Mgr.step, key.2 hs]
    rfl
  · have hs' := hs
    unfold Shortage at hs'
    simp only at hs'
    rw [if_pos (not_lt.1 hs')]
    obtain ⟨wm', g1, g2, -, -, g5⟩ := key.1 hs
    refine Or.inl ⟨_, ⟨s, dens, .trackTime law, wm'⟩, _, ?_, rfl, s, dens, law, wm', _, rfl, rfl, hd, h0, hl, g2, ?_⟩
    · simp only [Mgr.step, g1, bind_ok]
    · intro g d hd0 j
      rw [g5 g d hd0 j]
      split
      · rfl
      · exact hwait g d hd0 j

theorem clkRef_new {s : ℕ} (dens : Fin s → ℝ) (law : Fin s → ℝ → ℝ) (M : ℕ) (hd : ∀ j, 0 ≤ dens j)
    (h0 : ∀ j, law j 0 = 1) (hl : ∀ j x, 0 ≤ x → 0 ≤ law j x ∧ law j x ≤ 1) :
    ClkRef M 0 (Mgr.new dens (.trackTime law) M) ⟨s, dens, law, fun _ _ => none⟩ := by
  refine ⟨s, dens, law, Z (1 + M), _, ?_, rfl, hd, h0, hl, trackState_zero _, fun g d hd0 j => ?_⟩
  · simp only [Mgr.new, Kind.perTransfer, mul_one]
    rfl
  · exact (occ_zero_rows _ (map_Z_vol g _) d hd0 j).symm

theorem ClkRef.emptied {M k : ℕ} {m : Mgr ℝ} {t : Ref.Clocks} (h : ClkRef M k m t) : ClkRef M 0 m.empty t.empty := by
  obtain ⟨s, dens, law, wm, age, rfl, rfl, hd, h0, hl, ⟨act, z, rfl, -, -, -, -, hz⟩, ha⟩ := h
  refine ⟨s, dens, law, Z (1 + M), _, ?_, rfl, hd, h0, hl, trackState_zero _, fun g d hd0 j => ?_⟩
  · unfold Mgr.empty
    simp only
    congr 1
    rw [List.map_const', ← hz, List.length_append, Z_length]
    rfl
  · exact (occ_zero_rows _ (map_Z_vol g _) d hd0 j).symm

/-- A manager and reference traps of either sort. -/
def AnyRef (M k : ℕ) (m : Mgr ℝ) (t : Ref.AnyTraps) : Prop :=
  match t with
  | .inl t => MgrRef (0 < ·) M k m t
  | .inr t => ClkRef M k m t

theorem anyRef_follows : Follows Ref.anySpec true True (fun f => ∀ n, 0 < n → 0 < f n) (fun _ => True) AnyRef where
  wide _ _ := trivial
  step M k m t h hk f hf hF n x hn hx := by
    cases t with
    | inl t =>
      obtain ⟨m', h1, h2⟩ := MgrRef.step h hk hf hF n x hx
      exact Or.inl ⟨_, m', _, h1, rfl, h2⟩
    | inr t =>
      rcases ClkRef.step h hk hf n x hx with ⟨net, m', t', h1, h2, h3⟩ | ⟨h1, h2⟩
      · refine Or.inl ⟨net, m', .inr t', h1, ?_, h3⟩
        simp only [Ref.anySpec, h2, Except.map]
      · refine Or.inr ⟨trivial, h1, fun _ => ?_⟩
        simp only [Ref.anySpec, h2, Except.map]
  empty M k m t h := by
    cases t with
    | inl t => exact MgrRef.emptied h
    | inr t => exact ClkRef.emptied h
  mono M k k' m t h hk := by
    cases t with
    | inl t => exact MgrRef.mono h hk
    | inr t =>
      obtain ⟨s, dens, law, wm, age, h1, h2, h3, h4, h5, ⟨act, z, a1, a2, a3, a4, a5, a6⟩, h7⟩ := h
      exact ⟨s, dens, law, wm, age, h1, h2, h3, h4, h5, ⟨act, z, a1, a2, a3, a4, a5.trans hk, a6⟩, h7⟩

/-- Sensible traps. -/
def Ref.AnyTraps.Ok : Ref.AnyTraps → Prop
  | .inl t => t.Ok
  | .inr t => t.Ok

/-- **C61**: clocking in one direction with any mix of instant-capture traps and traps with lifetime distributions does
exactly what the reference does, which keeps the occupancy of the former and the time since the latter were filled as
functions of depth: the same image, or the same exception (`TypeError` when a cloud holds fewer electrons than there
are vacant traps with a lifetime distribution inside it). -/
theorem C61_refinement (img : Image ℝ) (ccd : CcdView ℝ) (roe : Roe ℝ) (traps : List Ref.AnyTraps) (e o : ℕ)
    (rows columns : List ℕ) (tw : Option (List ℕ))
    (hk : NoSaves roe ∨ roe.isPumping = true ∨ (e = 0 ∧ FullReadout o rows tw roe)) (hb : roe.emptyBetween = true)
    (hr : RowsFound rows roe) (hrows : ∀ w ∈ rows, w < img.nr) (hcols : ∀ c ∈ columns, c < img.nc)
    (hlow : ∀ w ∈ rows, ∀ z ∈ roe.accessed, 0 ≤ (w : ℤ) + z)
    (hlen : ccd.fractions.length ≤ roe.nPhases) (hccd : GoodFill ccd) (ht : ∀ t ∈ traps, t.Ok) :
    clockCharge img ccd roe (traps.map Ref.AnyTraps.group) e o rows columns tw =
      Ref.anySpec.clock img ccd roe (SpecState.new Ref.AnyTraps.inPhase traps ccd.fractions) e o rows columns tw := by
  rcases anyRef_follows.clock Ref.AnyTraps.inPhase Ref.AnyTraps.group traps img ccd roe e o rows columns tw
    (fun M t h x hx => by
      have hx0 := hccd.1 x hx
      have hok := ht t h
      cases t with
      | inl t =>
        exact mgrRef_new (fun j => t.dens j * x) t.keep M (fun j => mul_nonneg (hok.dens j) hx0) hok.keep
      | inr t =>
        exact clkRef_new (fun j => t.dens j * x) t.law M (fun j => mul_nonneg (hok.dens j) hx0) hok.start hok.law)
    hk hb hr hrows hcols hlow hlen (fun ph h => (hccd.2 ph h).1) (fun ph h => (hccd.2 ph h).2)
    (fun _ _ _ _ => trivial) with
    ⟨x, h1, h2⟩ | ⟨err, h1, -, h2⟩
  · rw [h1, h2]
  · rw [h1, h2 (Or.inl rfl)]

/-! ## Python objects -/

/-- A trap object with non-negative density, positive timescale and, for a continuum, a distribution of lifetimes. -/
def Trap.Sensible : Trap → Prop
  | .trap d τ _ _ => 0 ≤ d ∧ 0 < τ
  | .instant d τ _ => 0 ≤ d ∧ 0 < τ
  | .continuum d dist mu sigma => 0 ≤ d ∧ 0 < mu ∧ Lifetimes fun τ => dist τ mu sigma

/-- The first trap of a group decides how the group is simulated; finite capture times are not covered here. -/
def Trap.NotSlow : Trap → Prop
  | .trap .. => False
  | _ => True

/-- A group of trap objects that is simulated with instant capture. -/
structure SensibleGroup (l : List Trap) : Prop where
  head : ∃ t ∈ l.head?, t.NotSlow
  all : ∀ t ∈ l, t.Sensible

/-- Groups headed by a lifetime distribution keep times, others occupancies. -/
noncomputable def Ref.anyOf (l : List Trap) : Ref.AnyTraps :=
  match l with
  | .continuum .. :: _ => .inr ⟨l.length, fun j => l[j].density, fun j => l[j].fillFraction, fun _ _ => none⟩
  | _ => .inl (Ref.ofTraps l)

theorem Trap.Sensible.density {t : Trap} (h : t.Sensible) : 0 ≤ t.density := by
  cases t <;> exact h.1

theorem Trap.Sensible.timescale {t : Trap} (h : t.Sensible) : 0 < t.releaseTimescale := by
  cases t with
  | trap => exact h.2
  | instant => exact h.2
  | continuum => exact h.2.1

theorem Trap.Sensible.law {t : Trap} (h : t.Sensible) :
    t.fillFraction 0 = 1 ∧ ∀ x, 0 ≤ x → 0 ≤ t.fillFraction x ∧ t.fillFraction x ≤ 1 := by
  have hexp : ∀ τ : ℝ, 0 < τ → Real.exp (-0 / τ) = 1 ∧ ∀ x, 0 ≤ x → 0 ≤ Real.exp (-x / τ) ∧ Real.exp (-x / τ) ≤ 1 := by
    refine fun τ hτ => ⟨by simp, fun x hx => ⟨(Real.exp_pos _).le, ?_⟩⟩
    rw [Real.exp_le_one_iff]; exact div_nonpos_of_nonpos_of_nonneg (by linarith) hτ.le
  cases t with
  | trap d τ c b => exact hexp τ h.2
  | instant d τ b => exact hexp τ h.2
  | continuum d dist mu sigma =>
    have := C45_fill_fraction d dist mu sigma h.2.2
    exact ⟨this.1, this.2.1⟩

theorem SensibleGroup.ne_nil {l : List Trap} (h : SensibleGroup l) : l ≠ [] := by
  obtain ⟨t, ht, -⟩ := h.head
  rintro rfl
  simp at ht

theorem SensibleGroup.ok {l : List Trap} (h : SensibleGroup l) : (Ref.anyOf l).Ok := by
  have hall : ∀ j : Fin l.length, l[j].Sensible := fun j => h.all _ (List.getElem_mem _)
  unfold Ref.anyOf
  split
  · exact ⟨fun j => (hall j).density, fun j => (hall j).law.1, fun j => (hall j).law.2⟩
  · refine ⟨fun j => (hall j).density, fun x hx j => ⟨(Real.exp_pos _).le, Real.exp_lt_one_iff.2 ?_⟩⟩
    exact div_neg_of_neg_of_pos (by linarith) (hall j).timescale

theorem SensibleGroup.group {l : List Trap} (h : SensibleGroup l) : groupOf l = (Ref.anyOf l).group := by
  obtain ⟨t, ht, hs⟩ := h.head
  cases l with
  | nil => simp at ht
  | cons a l =>
    simp only [List.head?_cons, Option.mem_def, Option.some.injEq] at ht
    subst ht
    cases a with
    | trap => exact hs.elim
    | continuum d dist mu sigma => rfl
    | instant d τ b =>
      unfold groupOf groupOfTraps Ref.anyOf Ref.AnyTraps.group Ref.ofTraps Ref.Traps.group
      simp only
      congr 2
      funext x j
      unfold fillFromRelease Trap.emissionRate
      congr 1
      simp only [Fin.getElem_fin]
      ring

/-- A CCD without notches. -/
def CCD.NoNotch (c : CCD) : Prop :=
  c.fractions ≠ [] ∧ (∀ x ∈ c.fractions, 0 ≤ x) ∧
    ∀ ph < c.fractions.length, ∃ full power, c.HasPhase ph 0 full power ∧ 0 < full ∧ 0 < power

theorem CCD.NoNotch.good {c : CCD} (h : c.NoNotch) : GoodFill c.view := by
  refine ⟨h.2.1, fun ph hph => ?_⟩
  obtain ⟨full, power, h1, h2, h3⟩ := h.2.2 ph hph
  obtain ⟨v1, v2, v3⟩ := C40_view c ph 0 full power h1 le_rfl h2 h3
  refine ⟨⟨fun n => (v1 n).1, fun n => (v1 n).2, v3⟩, fun n hn => ?_⟩
  obtain ⟨-, -, w1, w2⟩ := C40_values c ph 0 full power h1 le_rfl h2 h3
  unfold CCD.view
  rcases le_total n full with hf | hf
  · simp only [w2 n hn.le hf, sub_zero]
    exact Real.rpow_pos_of_pos (div_pos hn h2) _
  · simp only [w1 n hf]
    exact one_pos

/-- Arguments of one direction: a CCD without notches, a standard readout, groups of trap objects. -/
structure RefObjects (c : CCD) (dw : List ℝ) (i : Bool) (gs : List (List Trap)) : Prop where
  ccd : c.NoNotch
  phases : c.fractions.length ≤ dw.length
  groups : gs ≠ [] ∧ ∀ l ∈ gs, SensibleGroup l

/-- The reference for these objects. -/
noncomputable def Ref.clockObjects (c : CCD) (dw : List ℝ) (i : Bool) (gs : List (List Trap)) (img : Image ℝ) (e o : ℕ)
    (rows columns : List ℕ) (tw : Option (List ℕ)) : Except Err (Image ℝ × Roe ℝ) :=
  Ref.anySpec.clock img c.view (.standard dw true true true i)
    (SpecState.new Ref.AnyTraps.inPhase (gs.map Ref.anyOf) c.fractions) e o rows columns tw

/-- **C61** for one direction with Python objects. -/
theorem C61_objects {c : CCD} {dw : List ℝ} {i : Bool} {gs : List (List Trap)} (h : RefObjects c dw i gs)
    (img : Image ℝ) (e o : ℕ) (rows columns : List ℕ) (tw : Option (List ℕ)) (hrows : ∀ w ∈ rows, w < img.nr)
    (hcols : ∀ c ∈ columns, c < img.nc) :
    clockChargePy img (some c) (.standard dw true true true i) (.list (gs.map .group)) e o rows columns tw =
      Ref.clockObjects c dw i gs img e o rows columns tw := by
  rw [clockChargePy_groups img c _ gs h.groups.1 (fun l hl => (h.groups.2 l hl).ne_nil) h.ccd.1]
  have hg : gs.map groupOf = (gs.map Ref.anyOf).map Ref.AnyTraps.group := by
    rw [List.map_map]
    exact List.map_congr_left fun l hl => (h.groups.2 l hl).group
  rw [hg]
  refine C61_refinement img c.view (.standard dw true true true i) _ e o rows columns tw (Or.inl (by rfl)) rfl trivial
    hrows hcols (fun w _ z hz => ?_) h.phases h.ccd.good fun t ht => ?_
  · have := (C14_accessed (.standard dw true true true i) z hz).1 rfl
    omega
  · obtain ⟨l, hl, rfl⟩ := List.mem_map.1 ht
    exact (h.groups.2 l hl).ok

/-- **C61** for `add_cti` with both directions: the reference for the parallel readout of the columns, then that for the
serial readout of the rows. -/
theorem C61_add_cti {c c' : CCD} {dw dw' : List ℝ} {i i' : Bool} {gs gs' : List (List Trap)}
    (hp : RefObjects c dw i gs) (hs : RefObjects c' dw' i' gs') (img : Image ℝ) (e e' o o' : ℕ) (pw sw : Window)
    (hpr : ∀ w ∈ pw.resolve img.nr, w < img.nr) (hsr : ∀ w ∈ sw.resolve img.nc, w < img.nc) :
    addCtiPy img ⟨some c, some (.standard dw true true true i), some (.list (gs.map .group)), e, o⟩ pw
        ⟨some c', some (.standard dw' true true true i'), some (.list (gs'.map .group)), e', o'⟩ sw none = (do
      let (mid, rp) ← Ref.clockObjects c dw i gs img e o (pw.resolve img.nr) (sw.resolve img.nc)
        (some (List.range (img.nr + o)))
      let (out, rs) ← Ref.clockObjects c' dw' i' gs' mid.transpose e' o' (sw.resolve img.nc) (pw.resolve img.nr) none
      .ok (out.transpose, rp, rs)) := by
  unfold addCtiPy
  simp only [Option.getD_some, Option.getD_none]
  have h1 := C61_objects hp img e o (pw.resolve img.nr) (sw.resolve img.nc) (some (List.range (img.nr + o))) hpr hsr
  simp only [bind, Except.bind]
  rw [h1]
  cases hc : Ref.clockObjects c dw i gs img e o (pw.resolve img.nr) (sw.resolve img.nc)
      (some (List.range (img.nr + o))) with
  | error err => rfl
  | ok x =>
    obtain ⟨mid, rp⟩ := x
    rw [hc, clockChargePy_groups img c _ gs hp.groups.1 (fun l hl => (hp.groups.2 l hl).ne_nil) hp.ccd.1] at h1
    have hsh := clockCharge_shape h1
    simp only
    rw [C61_objects hs mid.transpose e' o' (sw.resolve img.nc) (pw.resolve img.nr) none
      (fun w hw => by change w < mid.nc; rw [hsh.2]; exact hsr w hw)
      (fun w hw => by change w < mid.nr; rw [hsh.1]; exact hpr w hw)]

/-- A group of log-normal traps, and one of an instant-capture trap with a log-normal one, in a two-phase CCD. -/
example : RefObjects ⟨[1 / 2, 1 / 2], [1000, 2000], [1, 0.5], [0, 0], [.num 1000, .num 2000]⟩ [1, 1] false
    [[Trap.logNormalTrap 10 3 0.5], [.instant 5 2 false, Trap.logNormalTrap 1 2 1]] := by
  have hl : ∀ d mu sigma : ℝ, 0 ≤ d → 0 < mu → 0 < sigma → (Trap.logNormalTrap d mu sigma).Sensible :=
    fun d mu sigma hd hmu hs => ⟨hd, hmu, C45_logNormal hmu hs⟩
  refine ⟨⟨by simp, by simp, fun ph hph => ?_⟩, by simp, by simp, fun l hl' => ?_⟩
  · have : ph = 0 ∨ ph = 1 := by simp at hph; omega
    rcases this with rfl | rfl
    · exact ⟨1000, 1, ⟨rfl, rfl, rfl⟩, by norm_num, by norm_num⟩
    · exact ⟨2000, 0.5, ⟨rfl, rfl, rfl⟩, by norm_num, by norm_num⟩
  · simp only [List.mem_cons, List.not_mem_nil, or_false] at hl'
    rcases hl' with rfl | rfl
    · refine ⟨⟨_, rfl, trivial⟩, fun t ht => ?_⟩
      simp only [List.mem_cons, List.not_mem_nil, or_false] at ht
      subst ht
      exact hl _ _ _ (by norm_num) (by norm_num) (by norm_num)
    · refine ⟨⟨_, rfl, trivial⟩, fun t ht => ?_⟩
      simp only [List.mem_cons, List.not_mem_nil, or_false] at ht
      rcases ht with rfl | rfl
      · exact ⟨by norm_num, by norm_num⟩
      · exact hl _ _ _ (by norm_num) (by norm_num) (by norm_num)

end Arctic
