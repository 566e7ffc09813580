import Verif.Props.Units
import Verif.Props.RefClocks

/-!
# C65 for lifetime distributions
-/

set_option linter.unusedSectionVars false
set_option linter.unusedVariables false

namespace Arctic
open MeasureTheory

noncomputable section

/-- The same species in another unit of time. A distribution of lifetimes is a density per unit of time. -/
inductive Trap.Retimed (mu : ℝ) : Trap → Trap → Prop
  | trap (d τ c : ℝ) (b : Bool) : Retimed mu (.trap d τ c b) (.trap d (mu * τ) (mu * c) b)
  | instant (d τ : ℝ) (b : Bool) : Retimed mu (.instant d τ b) (.instant d (mu * τ) b)
  | continuum (d : ℝ) (dist dist' : ℝ → ℝ → ℝ → ℝ) (m σ : ℝ)
      (h : ∀ τ, 0 < τ → dist' (mu * τ) (mu * m) σ = dist τ m σ / mu) :
      Retimed mu (.continuum d dist m σ) (.continuum d dist' (mu * m) σ)

variable {mu : ℝ}

/-- A log-normal distribution with its median in another unit of time. -/
theorem C65_log_normal (hmu : 0 < mu) (d : ℝ) {m : ℝ} (hm : 0 < m) (σ : ℝ) :
    (Trap.logNormalTrap d m σ).Retimed mu (Trap.logNormalTrap d (mu * m) σ) := by
  refine .continuum d _ _ m σ fun τ hτ => ?_
  unfold Trap.logNormal
  rw [Real.log_mul hmu.ne' hτ.ne', Real.log_mul hmu.ne' hm.ne', div_div]
  congr 1
  · congr 2
    ring
  · ring

section one
variable {t t' : Trap}

theorem Trap.Retimed.density (h : t.Retimed mu t') : t'.density = t.density := by cases h <;> rfl

theorem Trap.Retimed.timescale (h : t.Retimed mu t') : t'.releaseTimescale = mu * t.releaseTimescale := by cases h <;> rfl

theorem retimed_integral (hmu : 0 < mu) {p p' : ℝ → ℝ} (h : ∀ τ, 0 < τ → p' (mu * τ) = p τ / mu) (g g' : ℝ → ℝ)
    (hg : ∀ τ, 0 < τ → g' (mu * τ) = g τ) :
    ∫ τ in Set.Ioi (0 : ℝ), p' τ * g' τ = ∫ τ in Set.Ioi (0 : ℝ), p τ * g τ := by
  have := integral_comp_mul_left_Ioi (fun τ => p' τ * g' τ) 0 hmu
  rw [mul_zero] at this
  have e : ∫ τ in Set.Ioi (0 : ℝ), p' (mu * τ) * g' (mu * τ) = ∫ τ in Set.Ioi (0 : ℝ), mu⁻¹ * (p τ * g τ) := by
    refine setIntegral_congr_fun measurableSet_Ioi fun τ hτ => ?_
    rw [h τ hτ, hg τ hτ]
    ring
  rw [e, integral_const_mul, smul_eq_mul] at this
  exact (mul_left_cancel₀ (inv_ne_zero hmu.ne') this).symm

theorem Trap.Retimed.fillFraction (hmu : 0 < mu) (h : t.Retimed mu t') (x : ℝ) :
    t'.fillFraction (mu * x) = t.fillFraction x := by
  cases h with
  | trap d τ c b =>
    simp only [Trap.fillFraction]
    rw [← mul_neg, mul_div_mul_left _ _ hmu.ne']
  | instant d τ b =>
    simp only [Trap.fillFraction]
    rw [← mul_neg, mul_div_mul_left _ _ hmu.ne']
  | continuum d dist dist' m σ h =>
    simp only [Trap.fillFraction]
    exact retimed_integral hmu (p := fun τ => dist τ m σ) (p' := fun τ => dist' τ (mu * m) σ) h _ _ fun τ _ => by
      rw [← mul_neg, mul_div_mul_left _ _ hmu.ne']

theorem Trap.Retimed.sensible (hmu : 0 < mu) (h : t.Retimed mu t') (ht : t.Sensible) : t'.Sensible := by
  cases h with
  | trap d τ c b => exact ⟨ht.1, mul_pos hmu ht.2⟩
  | instant d τ b => exact ⟨ht.1, mul_pos hmu ht.2⟩
  | continuum d dist dist' m σ h =>
    obtain ⟨h1, h2, h3⟩ := ht
    refine ⟨h1, mul_pos hmu h2, ?_, ?_, ?_⟩
    · intro τ hτ
      have := h (τ / mu) (div_pos hτ hmu)
      rw [mul_div_cancel₀ _ hmu.ne'] at this
      rw [this]
      exact div_nonneg (h3.nonneg _ (div_pos hτ hmu)) hmu.le
    · have e := integrableOn_Ioi_comp_mul_left_iff (fun τ => dist' τ (mu * m) σ) 0 hmu
      rw [mul_zero] at e
      rw [← e]
      refine IntegrableOn.congr_fun (f := fun τ => dist τ m σ / mu) (h3.integrable.div_const mu) (fun τ hτ => ?_)
        measurableSet_Ioi
      exact (h τ hτ).symm
    · have := retimed_integral hmu (p := fun τ => dist τ m σ) (p' := fun τ => dist' τ (mu * m) σ) h (fun _ => 1)
        (fun _ => 1) fun _ _ => rfl
      simp only [mul_one] at this
      rw [this]
      exact h3.total

end one

/-! ### the reference in another unit of time -/

/-- Reference traps in another unit of time. -/
inductive AnyScaled (mu : ℝ) : Ref.AnyTraps → Ref.AnyTraps → Prop
  | inl {s : ℕ} (dens : Fin s → ℝ) (keep keep' : ℝ → Fin s → ℝ) (occ : ℝ → Fin s → ℝ)
      (h : ∀ t, keep' (mu * t) = keep t) : AnyScaled mu (.inl ⟨s, dens, keep, occ⟩) (.inl ⟨s, dens, keep', occ⟩)
  | inr {s : ℕ} (dens : Fin s → ℝ) (law law' : Fin s → ℝ → ℝ) (age : ℝ → Fin s → Option ℝ)
      (h : ∀ j t, law' j (mu * t) = law j t) :
      AnyScaled mu (.inr ⟨s, dens, law, age⟩) (.inr ⟨s, dens, law', fun d j => (age d j).map fun t => mu * t⟩)

theorem AnyScaled.step {t t' : Ref.AnyTraps} (h : AnyScaled mu t t') (f : ℝ → ℝ) (n x : ℝ) :
    ExRel (fun a b => b.1 = a.1 ∧ AnyScaled mu a.2 b.2) (Ref.anySpec.step t n x f) (Ref.anySpec.step t' n (mu * x) f) := by
  cases h with
  | @inl s dens keep keep' occ h =>
    have hr : (⟨s, dens, keep', occ⟩ : Ref.Traps).release (mu * x) = ⟨s, dens, keep', fun d j => occ d j * keep x j⟩ := by
      unfold Ref.Traps.release
      simp only [h]
    simp only [Ref.anySpec, Ref.Traps.transfer]
    rw [hr]
    unfold Ref.Traps.release Ref.Traps.capture Ref.Traps.filled Ref.Traps.vacant
    simp only
    split
    · exact ⟨rfl, .inl _ _ _ _ h⟩
    · exact ⟨rfl, .inl _ _ _ _ h⟩
  | @inr s dens law law' age h =>
    have ho : ∀ (age : ℝ → Fin s → Option ℝ) d j,
        ((age d j).map fun t => mu * t).elim 0 (law' j) = (age d j).elim 0 (law j) := by
      intro age d j
      cases age d j with
      | none => rfl
      | some a => exact h j a
    have hw : (⟨s, dens, law', fun d j => (age d j).map fun t => mu * t⟩ : Ref.Clocks).wait (mu * x) =
        ⟨s, dens, law', fun d j => ((age d j).map (· + x)).map fun t => mu * t⟩ := by
      unfold Ref.Clocks.wait
      simp only [Option.map_map]
      congr 1
      funext d j
      cases age d j with
      | none => rfl
      | some a => simp only [Option.map_some, Function.comp, mul_add]
    simp only [Ref.anySpec, Ref.Clocks.transfer]
    rw [hw]
    unfold Ref.Clocks.wait Ref.Clocks.filled Ref.Clocks.vacant Ref.Clocks.occ Ref.Clocks.fill
    simp only [ho, ho fun d j => (age d j).map (· + x)]
    split
    · refine ⟨rfl, ?_⟩
      have e : (fun d j => if d ≤ f (n + (∑ j, dens j * (∫ d in (0 : ℝ)..1, (age d j).elim 0 (law j)) -
          ∑ j, dens j * ∫ d in (0 : ℝ)..1, ((age d j).map (· + x)).elim 0 (law j))) then some 0
          else ((age d j).map (· + x)).map fun t => mu * t) =
          fun d j => (if d ≤ f (n + (∑ j, dens j * (∫ d in (0 : ℝ)..1, (age d j).elim 0 (law j)) -
          ∑ j, dens j * ∫ d in (0 : ℝ)..1, ((age d j).map (· + x)).elim 0 (law j))) then some 0
          else (age d j).map (· + x)).map fun t => mu * t := by
        funext d j
        split
        · simp
        · rfl
      simp only
      rw [e]
      exact .inr _ _ _ _ h
    · rfl

theorem AnyScaled.empty {t t' : Ref.AnyTraps} (h : AnyScaled mu t t') :
    AnyScaled mu (Ref.anySpec.empty t) (Ref.anySpec.empty t') := by
  cases h with
  | inl dens keep keep' occ h => exact .inl _ _ _ _ h
  | inr dens law law' age h => exact .inr _ _ _ _ h

theorem AnyScaled.inPhase {t t' : Ref.AnyTraps} (h : AnyScaled mu t t') (x : ℝ) :
    AnyScaled mu (t.inPhase x) (t'.inPhase x) := by
  cases h with
  | inl dens keep keep' occ h => exact .inl _ _ _ _ h
  | inr dens law law' age h => exact .inr _ _ _ _ h

/-- The states of the reference in two units of time. -/
def SpecScaled (mu : ℝ) (a b : SpecState Ref.AnyTraps) : Prop :=
  List.Forall₂ (List.Forall₂ (AnyScaled mu)) a.data b.data ∧ List.Forall₂ (List.Forall₂ (AnyScaled mu)) a.saved b.saved

theorem anyGroups_scaled (f : ℝ → ℝ) (n x : ℝ) {l l' : List Ref.AnyTraps} (h : List.Forall₂ (AnyScaled mu) l l') :
    ExRel (fun a b => b.1 = a.1 ∧ List.Forall₂ (AnyScaled mu) a.2 b.2) (Ref.anySpec.groups n x f l)
      (Ref.anySpec.groups n (mu * x) f l') := by
  induction h with
  | nil => exact ⟨rfl, .nil⟩
  | cons h hs ih =>
    refine ExRel.bind (h.step f n x) ?_
    rintro ⟨x1, t⟩ ⟨x2, t'⟩ ⟨e, ht⟩
    refine ExRel.bind ih ?_
    rintro ⟨y1, ts⟩ ⟨y2, ts'⟩ ⟨e', hts⟩
    simp only at e e' ht hts
    subst e e'
    exact ⟨rfl, .cons ht hts⟩

theorem anySys_scaled (fill : ℕ → ℝ → ℝ) :
    SysScaled 1 mu (Ref.anySpec.sys fill) (Ref.anySpec.sys fill) (SpecScaled mu) where
  react := by
    rintro a b ⟨h1, h2⟩ phase n dwell
    rw [one_mul]
    unfold TrapSpec.sys
    simp only
    have := forall₂_getElem? h1 phase
    rcases e : a.data[phase]? with - | ms <;> rcases e' : b.data[phase]? with - | ms' <;> rw [e, e'] at this
    · exact rfl
    · cases this
    · cases this
    · cases this with
      | some this =>
        have := anyGroups_scaled (mu := mu) (fill phase) n dwell this
        simp only
        generalize Ref.anySpec.groups n dwell (fill phase) ms = u at this ⊢
        generalize Ref.anySpec.groups n (mu * dwell) (fill phase) ms' = v at this ⊢
        rcases u with u | ⟨u, l⟩ <;> rcases v with v | ⟨v, l'⟩
        · exact this
        · exact this
        · exact this
        · obtain ⟨e, hl⟩ := this
          exact ⟨by rw [one_mul]; exact e, forall₂_set h1 phase hl, h2⟩
  save := fun a b h => ⟨h.1, h.1⟩
  restore := fun a b h => ⟨h.2, h.2⟩
  empty := by
    rintro a b ⟨h1, h2⟩
    refine ⟨?_, h2⟩
    change List.Forall₂ _ (a.data.map _) (b.data.map _)
    rw [List.forall₂_map_left_iff, List.forall₂_map_right_iff]
    refine h1.imp fun x y hxy => ?_
    rw [List.forall₂_map_left_iff, List.forall₂_map_right_iff]
    exact hxy.imp fun _ _ h => h.empty

theorem anyClock_scaled (hmu : 0 < mu) (img : Image ℝ) (ccd : CcdView ℝ) (roe : Roe ℝ) {st st' : SpecState Ref.AnyTraps}
    (h : SpecScaled mu st st') (e o : ℕ) (rows columns : List ℕ) (tw : Option (List ℕ)) :
    Ref.anySpec.clock img ccd (roe.scaleTime mu) st' e o rows columns tw =
      (Ref.anySpec.clock img ccd roe st e o rows columns tw).map fun x => (x.1, x.2.scaleTime mu) := by
  unfold TrapSpec.clock
  rw [clockCfg_scaled hmu roe ccd ccd rfl]
  cases clockCfg roe ccd e o rows tw with
  | error e => rfl
  | ok x =>
    obtain ⟨cfg, roe'⟩ := x
    simp only [Except.map, bind_ok, scaleTime_accessed]
    have := clockLoops_scaled one_pos (anySys_scaled (mu := mu) ccd.fill) cfg columns
      (img.pad (nPadding roe.accessed), st) (img.pad (nPadding roe.accessed), st') ⟨(Image.scale_one _).symm, h⟩
    generalize clockLoops (Ref.anySpec.sys ccd.fill) cfg columns (img.pad (nPadding roe.accessed), st) = x at this ⊢
    generalize clockLoops (Ref.anySpec.sys ccd.fill) (cfg.scaleTime mu) columns
      (img.pad (nPadding roe.accessed), st') = y at this ⊢
    rcases x with e | ⟨i, s⟩ <;> rcases y with e' | ⟨j, t⟩
    · have e : e = e' := this
      rw [e]
      rfl
    · exact this.elim
    · exact this.elim
    · have e : j = i := by
        have := this.1
        rwa [Image.scale_one] at this
      subst e
      rfl

/-! ### groups of trap objects in another unit of time -/

/-- Groups of trap objects in another unit of time. -/
def Retimed (mu : ℝ) (gs gs' : List (List Trap)) : Prop := List.Forall₂ (List.Forall₂ (Trap.Retimed mu)) gs gs'

/-- The reference traps of `n` trap objects. -/
def objAny (head : Trap) (n : ℕ) (f : Fin n → Trap) : Ref.AnyTraps :=
  match head with
  | .continuum .. => .inr ⟨n, fun j => (f j).density, fun j => (f j).fillFraction, fun _ _ => none⟩
  | _ => .inl ⟨n, fun j => (f j).density, fun x j => Real.exp (-x / (f j).releaseTimescale), fun _ _ => 0⟩

theorem anyOf_cons (a : Trap) (l : List Trap) : Ref.anyOf (a :: l) = objAny a (a :: l).length fun j => (a :: l)[j] := by
  cases a <;> rfl

theorem objAny_congr (a : Trap) {n m : ℕ} (h : n = m) (f : Fin n → Trap) (g : Fin m → Trap)
    (hfg : ∀ i (h1 : i < n) (h2 : i < m), f ⟨i, h1⟩ = g ⟨i, h2⟩) : objAny a n f = objAny a m g := by
  subst h
  congr 1
  funext i
  exact hfg i.1 i.2 i.2

theorem objAny_scaled (hmu : 0 < mu) {a a' : Trap} (ha : a.Retimed mu a') {n : ℕ} {f f' : Fin n → Trap}
    (h : ∀ j, (f j).Retimed mu (f' j)) : AnyScaled mu (objAny a n f) (objAny a' n f') := by
  have hd : (fun j => (f' j).density) = fun j => (f j).density := funext fun j => (h j).density
  have hk : ∀ t, (fun j => Real.exp (-(mu * t) / (f' j).releaseTimescale)) =
      fun j => Real.exp (-t / (f j).releaseTimescale) := fun t => funext fun j => by
    rw [(h j).timescale, ← mul_neg, mul_div_mul_left _ _ hmu.ne']
  cases ha with
  | trap d τ c b =>
    simp only [objAny, hd]
    exact .inl _ _ _ _ hk
  | instant d τ b =>
    simp only [objAny, hd]
    exact .inl _ _ _ _ hk
  | continuum d dist dist' m σ _ =>
    simp only [objAny, hd]
    exact .inr (fun j => (f j).density) (fun j => (f j).fillFraction) (fun j => (f' j).fillFraction) (fun _ _ => none)
      fun j t => (h j).fillFraction hmu t

theorem anyOf_scaled (hmu : 0 < mu) {l l' : List Trap} (h : List.Forall₂ (Trap.Retimed mu) l l') (hl : l ≠ []) :
    AnyScaled mu (Ref.anyOf l) (Ref.anyOf l') := by
  have hlen := h.length_eq
  have hget : ∀ i (h1 : i < l.length) (h2 : i < l'.length), l[i].Retimed mu l'[i] := fun i h1 h2 => by
    have := (List.forall₂_iff_get.1 h).2 i h1 h2
    simpa using this
  cases h with
  | nil => exact absurd rfl hl
  | @cons a a' l l' ha hs =>
    rw [anyOf_cons, anyOf_cons]
    rw [← objAny_congr a' hlen (fun j => (a' :: l')[j.1]'(hlen ▸ j.2)) (fun j => (a' :: l')[j]) fun i h1 h2 => rfl]
    exact objAny_scaled hmu ha fun j => hget j.1 j.2 _

theorem SensibleGroup.retimed (hmu : 0 < mu) {l l' : List Trap} (h : List.Forall₂ (Trap.Retimed mu) l l')
    (hl : SensibleGroup l) : SensibleGroup l' := by
  refine ⟨?_, ?_⟩
  · obtain ⟨t, ht, hs⟩ := hl.head
    cases h with
    | nil => simp at ht
    | @cons a a' l l' ha _ =>
      simp only [List.head?_cons, Option.mem_def, Option.some.injEq] at ht
      subst ht
      exact ⟨a', rfl, by cases ha <;> exact hs⟩
  · have hall := hl.all
    clear hl
    induction h with
    | nil => simp
    | cons ha _ ih =>
      intro t ht
      rcases List.mem_cons.1 ht with rfl | ht
      · exact ha.sensible hmu (hall _ (by simp))
      · exact ih (fun t ht => hall t (List.mem_cons_of_mem _ ht)) t ht

theorem RefObjects.retimed (hmu : 0 < mu) {c : CCD} {dw : List ℝ} {i : Bool} {gs gs' : List (List Trap)}
    (h : RefObjects c dw i gs) (hg : Retimed mu gs gs') : RefObjects c (dw.map fun t => mu * t) i gs' := by
  refine ⟨h.ccd, by simpa using h.phases, ?_, ?_⟩
  · have := h.groups.1
    rintro rfl
    cases hg
    exact this rfl
  · have hall := h.groups.2
    clear h
    induction hg with
    | nil => simp
    | cons ha _ ih =>
      intro t ht
      rcases List.mem_cons.1 ht with rfl | ht
      · exact (hall _ (by simp)).retimed hmu ha
      · exact ih (fun t ht => hall t (List.mem_cons_of_mem _ ht)) t ht

theorem clockObjects_scaled (hmu : 0 < mu) {c : CCD} {dw : List ℝ} {i : Bool} {gs gs' : List (List Trap)}
    (h : RefObjects c dw i gs) (hg : Retimed mu gs gs') (img : Image ℝ) (e o : ℕ) (rows columns : List ℕ)
    (tw : Option (List ℕ)) :
    Ref.clockObjects c (dw.map fun t => mu * t) i gs' img e o rows columns tw =
      (Ref.clockObjects c dw i gs img e o rows columns tw).map fun x => (x.1, x.2.scaleTime mu) := by
  have hgr : List.Forall₂ (AnyScaled mu) (gs.map Ref.anyOf) (gs'.map Ref.anyOf) := by
    rw [List.forall₂_map_left_iff, List.forall₂_map_right_iff]
    have hall := h.groups.2
    clear h
    induction hg with
    | nil => exact .nil
    | cons ha _ ih =>
      exact .cons (anyOf_scaled hmu ha (hall _ (by simp)).ne_nil) (ih fun t ht => hall t (List.mem_cons_of_mem _ ht))
  refine anyClock_scaled hmu img c.view (.standard dw true true true i) ?_ e o rows columns tw
  have : List.Forall₂ (List.Forall₂ (AnyScaled mu))
      (c.fractions.map fun frac => (gs.map Ref.anyOf).map fun g => g.inPhase frac)
      (c.fractions.map fun frac => (gs'.map Ref.anyOf).map fun g => g.inPhase frac) := by
    rw [List.forall₂_map_left_iff, List.forall₂_map_right_iff, List.forall₂_same]
    intro frac _
    rw [List.forall₂_map_left_iff, List.forall₂_map_right_iff]
    exact hgr.imp fun _ _ h => h.inPhase frac
  exact ⟨this, this⟩

/-- **C65** with lifetime distributions: `add_cti` of the same traps in another unit of time gives the same image. -/
theorem C65_lifetimes (hmu : 0 < mu) {c c' : CCD} {dw dw' : List ℝ} {i i' : Bool} {gs gs' hs hs' : List (List Trap)}
    (hp : RefObjects c dw i gs) (hser : RefObjects c' dw' i' hs) (hgs : Retimed mu gs gs') (hhs : Retimed mu hs hs')
    (img : Image ℝ) (e e' o o' : ℕ) (pw sw : Window)
    (hpr : ∀ w ∈ pw.resolve img.nr, w < img.nr) (hsr : ∀ w ∈ sw.resolve img.nc, w < img.nc) :
    addCtiPy img ⟨some c, some (.standard (dw.map fun t => mu * t) true true true i), some (.list (gs'.map .group)), e, o⟩ pw
        ⟨some c', some (.standard (dw'.map fun t => mu * t) true true true i'), some (.list (hs'.map .group)), e', o'⟩
        sw none =
      (addCtiPy img ⟨some c, some (.standard dw true true true i), some (.list (gs.map .group)), e, o⟩ pw
        ⟨some c', some (.standard dw' true true true i'), some (.list (hs.map .group)), e', o'⟩ sw none).map
        fun x => (x.1, x.2.1.scaleTime mu, x.2.2.scaleTime mu) := by
  rw [C61_add_cti hp hser img e e' o o' pw sw hpr hsr,
    C61_add_cti (hp.retimed hmu hgs) (hser.retimed hmu hhs) img e e' o o' pw sw hpr hsr,
    clockObjects_scaled hmu hp hgs]
  cases Ref.clockObjects c dw i gs img e o (pw.resolve img.nr) (sw.resolve img.nc)
    (some (List.range (img.nr + o))) with
  | error e => rfl
  | ok x =>
    simp only [Except.map, bind_ok, clockObjects_scaled hmu hser hhs]
    cases Ref.clockObjects c' dw' i' hs x.1.transpose e' o' (sw.resolve img.nc) (pw.resolve img.nr) none <;> rfl

/-- A species given by `rescale` is the same species in another unit of time. -/
theorem Trap.retimed_rescale (hmu : 0 < mu) (t : Trap) : t.Retimed mu (t.rescale 1 mu) := by
  cases t with
  | trap d τ c b => simp only [Trap.rescale, one_mul]; exact .trap d τ c b
  | instant d τ b => simp only [Trap.rescale, one_mul]; exact .instant d τ b
  | continuum d dist m σ =>
    simp only [Trap.rescale, one_mul]
    refine .continuum d dist _ m σ fun τ _ => ?_
    rw [mul_div_cancel_left₀ _ hmu.ne', mul_div_cancel_left₀ _ hmu.ne']

/-- Seconds and milliseconds. -/
example : Retimed 1000 [[Trap.logNormalTrap 10 3 0.5], [.instant 5 2 false, Trap.logNormalTrap 1 2 1]]
    [[Trap.logNormalTrap 10 (1000 * 3) 0.5], [.instant 5 (1000 * 2) false, Trap.logNormalTrap 1 (1000 * 2) 1]] :=
  .cons (.cons (C65_log_normal (by norm_num) _ (by norm_num) _) .nil)
    (.cons (.cons (.instant _ _ _) (.cons (C65_log_normal (by norm_num) _ (by norm_num) _) .nil)) .nil)

end
end Arctic
