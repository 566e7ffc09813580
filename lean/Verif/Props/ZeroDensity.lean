import Verif.Props.RefSlow
import Verif.Props.GroupOrder
import Verif.Props.CaptureTime

set_option linter.unusedSectionVars false
set_option linter.unusedVariables false

/-!
# C86 — traps of density zero

A species of density zero, or a whole group of them, is simulated like any other: it has its own column of watermark
fractions, and the watermarks are merged only where *all* species are filled (trap_managers.py:302-331, 744-792). The image
does not depend on it, though it may change the watermarks that are kept.
-/

namespace Arctic

open MeasureTheory

/-! ## Reference traps with more species, all of the additional ones of density zero -/

/-- The species `ι j` of the second list is species `j` of the first; all others have density zero. -/
structure Embeds {s s' : ℕ} (dens : Fin s → ℝ) (dens' : Fin s' → ℝ) (ι : Fin s → Fin s') : Prop where
  inj : Function.Injective ι
  zero : ∀ i, i ∉ Set.range ι → dens' i = 0
  dens : ∀ j, dens' (ι j) = dens j

theorem Embeds.sum {s s' : ℕ} {dens : Fin s → ℝ} {dens' : Fin s' → ℝ} {ι : Fin s → Fin s'} (h : Embeds dens dens' ι)
    {F : Fin s → ℝ} {F' : Fin s' → ℝ} (hF : ∀ j, F' (ι j) = F j) : ∑ i, dens' i * F' i = ∑ j, dens j * F j := by
  symm
  refine Finset.sum_of_injOn ι h.inj.injOn (fun _ _ => Finset.mem_coe.2 (Finset.mem_univ _)) (fun i _ hi => ?_)
    (fun j _ => by rw [h.dens, hF])
  rw [h.zero i (fun ⟨j, hj⟩ => hi ⟨j, by simp, hj⟩), zero_mul]

theorem Embeds.scale {s s' : ℕ} {dens : Fin s → ℝ} {dens' : Fin s' → ℝ} {ι : Fin s → Fin s'} (h : Embeds dens dens' ι)
    (x : ℝ) : Embeds (fun j => dens j * x) (fun i => dens' i * x) ι :=
  ⟨h.inj, fun i hi => by rw [h.zero i hi, zero_mul], fun j => by rw [h.dens]⟩

/-- Groups with instant capture that differ in species of density zero only. -/
inductive AnyPadded : Ref.AnyTraps → Ref.AnyTraps → Prop
  | inl {s s' : ℕ} (dens : Fin s → ℝ) (dens' : Fin s' → ℝ) (keep : ℝ → Fin s → ℝ) (keep' : ℝ → Fin s' → ℝ)
      (occ : ℝ → Fin s → ℝ) (occ' : ℝ → Fin s' → ℝ) (ι : Fin s → Fin s') (h : Embeds dens dens' ι)
      (hk : ∀ x j, keep' x (ι j) = keep x j) (ho : ∀ d j, occ' d (ι j) = occ d j) :
      AnyPadded (.inl ⟨s, dens, keep, occ⟩) (.inl ⟨s', dens', keep', occ'⟩)
  | inr {s s' : ℕ} (dens : Fin s → ℝ) (dens' : Fin s' → ℝ) (law : Fin s → ℝ → ℝ) (law' : Fin s' → ℝ → ℝ)
      (age : ℝ → Fin s → Option ℝ) (age' : ℝ → Fin s' → Option ℝ) (ι : Fin s → Fin s') (h : Embeds dens dens' ι)
      (hl : ∀ j, law' (ι j) = law j) (ha : ∀ d j, age' d (ι j) = age d j) :
      AnyPadded (.inr ⟨s, dens, law, age⟩) (.inr ⟨s', dens', law', age'⟩)

/-- Groups of density zero. -/
inductive AnyVoid : Ref.AnyTraps → Prop
  | inl (t : Ref.Traps) (h : ∀ j, t.dens j = 0) : AnyVoid (.inl t)
  | inr (t : Ref.Clocks) (h : ∀ j, t.dens j = 0) : AnyVoid (.inr t)

theorem AnyPadded.step {t t' : Ref.AnyTraps} (h : AnyPadded t t') (f : ℝ → ℝ) (n x : ℝ) :
    ExRel (fun a b => a.1 = b.1 ∧ AnyPadded a.2 b.2) (Ref.anySpec.step t n x f) (Ref.anySpec.step t' n x f) := by
  cases h with
  | @inl s s' dens dens' keep keep' occ occ' ι h hk ho =>
    have hf : ∀ (occ : ℝ → Fin s → ℝ) (occ' : ℝ → Fin s' → ℝ), (∀ d j, occ' d (ι j) = occ d j) →
        (⟨s', dens', keep', occ'⟩ : Ref.Traps).filled = (⟨s, dens, keep, occ⟩ : Ref.Traps).filled :=
      fun occ occ' ho => h.sum fun j => by simp only [ho]
    have hv : ∀ (b : ℝ) (occ : ℝ → Fin s → ℝ) (occ' : ℝ → Fin s' → ℝ), (∀ d j, occ' d (ι j) = occ d j) →
        (⟨s', dens', keep', occ'⟩ : Ref.Traps).vacant b = (⟨s, dens, keep, occ⟩ : Ref.Traps).vacant b :=
      fun b occ occ' ho => h.sum fun j => by simp only [ho]
    have hr : ∀ d j, occ' d (ι j) * keep' x (ι j) = occ d j * keep x j := fun d j => by rw [ho, hk]
    have e2 := hf (fun d j => occ d j * keep x j) (fun d i => occ' d i * keep' x i) hr
    have e3 := fun b => hv b (fun d j => occ d j * keep x j) (fun d i => occ' d i * keep' x i) hr
    simp only [Ref.anySpec, Ref.Traps.transfer, Ref.Traps.release, hf occ occ' ho, e2]
    unfold Ref.Traps.capture
    simp only [e3]
    split
    · refine ⟨rfl, .inl _ _ _ _ _ _ ι h hk fun d j => ?_⟩
      simp only [hr]
    · refine ⟨rfl, .inl _ _ _ _ _ _ ι h hk fun d j => ?_⟩
      simp only [hr]
  | @inr s s' dens dens' law law' age age' ι h hl ha =>
    have hf : ∀ (age : ℝ → Fin s → Option ℝ) (age' : ℝ → Fin s' → Option ℝ), (∀ d j, age' d (ι j) = age d j) →
        (⟨s', dens', law', age'⟩ : Ref.Clocks).filled = (⟨s, dens, law, age⟩ : Ref.Clocks).filled :=
      fun age age' ho => h.sum fun j => by simp only [Ref.Clocks.occ, ho, hl]
    have hv : ∀ (b : ℝ) (age : ℝ → Fin s → Option ℝ) (age' : ℝ → Fin s' → Option ℝ), (∀ d j, age' d (ι j) = age d j) →
        (⟨s', dens', law', age'⟩ : Ref.Clocks).vacant b = (⟨s, dens, law, age⟩ : Ref.Clocks).vacant b :=
      fun b age age' ho => h.sum fun j => by simp only [Ref.Clocks.occ, ho, hl]
    have hr : ∀ d j, (age' d (ι j)).map (· + x) = (age d j).map (· + x) := fun d j => by rw [ha]
    have e2 := hf (fun d j => (age d j).map (· + x)) (fun d i => (age' d i).map (· + x)) hr
    have e3 := fun b => hv b (fun d j => (age d j).map (· + x)) (fun d i => (age' d i).map (· + x)) hr
    set T : Ref.Clocks := ⟨s, dens, law, age⟩ with hT
    set T' : Ref.Clocks := ⟨s', dens', law', age'⟩ with hT'
    have h0 : T'.filled = T.filled := hf age age' ha
    have h1 : (T'.wait x).filled = (T.wait x).filled := e2
    have h2 : ∀ b, (T'.wait x).vacant b = (T.wait x).vacant b := e3
    have hfill : ∀ b, AnyPadded (.inr ((T.wait x).fill b)) (.inr ((T'.wait x).fill b)) := by
      intro b
      refine .inr _ _ _ _ _ _ ι h hl fun d j => ?_
      exact congrArg (fun z => if d ≤ b then some 0 else z) (hr d j)
    change ExRel _ ((T.transfer n x f).map _) ((T'.transfer n x f).map _)
    by_cases hc : (T.wait x).vacant (f (n + (T.filled - (T.wait x).filled))) ≤ max 0 (n + (T.filled - (T.wait x).filled))
    · have q1 : T.transfer n x f = .ok (T.filled - (T.wait x).filled -
        (T.wait x).vacant (f (n + (T.filled - (T.wait x).filled))),
          (T.wait x).fill (f (n + (T.filled - (T.wait x).filled)))) := if_pos hc
      have hc' := hc
      rw [← h0, ← h1, ← h2] at hc'
      have q2 : T'.transfer n x f = .ok (T'.filled - (T'.wait x).filled -
        (T'.wait x).vacant (f (n + (T'.filled - (T'.wait x).filled))),
          (T'.wait x).fill (f (n + (T'.filled - (T'.wait x).filled)))) := if_pos hc'
      rw [q1, q2, h0, h1, h2]
      exact ⟨rfl, hfill _⟩
    · have q1 : T.transfer n x f = .error .typeError := if_neg hc
      rw [← h0, ← h1, ← h2] at hc
      have q2 : T'.transfer n x f = .error .typeError := if_neg hc
      rw [q1, q2]
      exact rfl

theorem capture_dens (t : Ref.Traps) (h : ∀ j, t.dens j = 0) (b a : ℝ) : ∀ j, (t.capture b a).2.dens j = 0 := by
  by_cases hw : t.vacant b ≤ a
  · have : t.capture b a = (t.vacant b, { t with occ := fun d j => if d ≤ b then 1 else t.occ d j }) := if_pos hw
    rw [this]
    exact h
  · have : t.capture b a = (a, { t with occ := fun d j =>
      if d ≤ b then a / (t.vacant b) + (1 - a / (t.vacant b)) * ((∫ x in (0 : ℝ)..b, t.occ x j) / b) else t.occ d j }) :=
      if_neg hw
    rw [this]
    exact h

theorem AnyVoid.step {t : Ref.AnyTraps} (h : AnyVoid t) (f : ℝ → ℝ) (n x : ℝ) :
    ∃ t', Ref.anySpec.step t n x f = .ok (0, t') ∧ AnyVoid t' := by
  cases h with
  | inl t h =>
    have h1 : ∀ occ, ({ t with occ := occ } : Ref.Traps).filled = 0 := fun occ =>
      Finset.sum_eq_zero fun j _ => by simp only [h, zero_mul]
    have h2 : ∀ occ b, ({ t with occ := occ } : Ref.Traps).vacant b = 0 := fun occ b =>
      Finset.sum_eq_zero fun j _ => by simp only [h, zero_mul]
    refine ⟨_, ?_, .inl (t.transfer f x n).2 ?_⟩
    · simp only [Ref.anySpec, Ref.Traps.transfer, Ref.Traps.release, h1, Ref.Traps.capture, h2, le_max_left, if_true]
      simp
    · exact capture_dens (t.release x) h _ _
  | inr t h =>
    have h1 : ∀ age, ({ t with age := age } : Ref.Clocks).filled = 0 := fun age =>
      Finset.sum_eq_zero fun j _ => by simp only [h, zero_mul]
    have h2 : ∀ age b, ({ t with age := age } : Ref.Clocks).vacant b = 0 := fun age b =>
      Finset.sum_eq_zero fun j _ => by simp only [h, zero_mul]
    refine ⟨_, ?_, .inr ((t.wait x).fill (f (n + 0))) h⟩
    simp only [Ref.anySpec, Ref.Clocks.transfer, Ref.Clocks.wait, h1, h2, le_max_left, if_true, sub_zero]
    rfl

theorem AnyPadded.empty {t t' : Ref.AnyTraps} (h : AnyPadded t t') :
    AnyPadded (Ref.anySpec.empty t) (Ref.anySpec.empty t') := by
  cases h with
  | inl dens dens' keep keep' occ occ' ι h hk ho => exact .inl _ _ _ _ _ _ ι h hk fun _ _ => rfl
  | inr dens dens' law law' age age' ι h hl ha => exact .inr _ _ _ _ _ _ ι h hl fun _ _ => rfl

theorem AnyVoid.empty {t : Ref.AnyTraps} (h : AnyVoid t) : AnyVoid (Ref.anySpec.empty t) := by
  cases h with
  | inl t h => exact .inl _ h
  | inr t h => exact .inr _ h

theorem AnyPadded.inPhase {t t' : Ref.AnyTraps} (h : AnyPadded t t') (x : ℝ) : AnyPadded (t.inPhase x) (t'.inPhase x) := by
  cases h with
  | inl dens dens' keep keep' occ occ' ι h hk ho => exact .inl _ _ _ _ _ _ ι (h.scale x) hk fun _ _ => rfl
  | inr dens dens' law law' age age' ι h hl ha => exact .inr _ _ _ _ _ _ ι (h.scale x) hl fun _ _ => rfl

theorem AnyVoid.inPhase {t : Ref.AnyTraps} (h : AnyVoid t) (x : ℝ) : AnyVoid (t.inPhase x) := by
  cases h with
  | inl t h => exact .inl _ fun j => mul_eq_zero_of_left (h j) x
  | inr t h => exact .inr _ fun j => mul_eq_zero_of_left (h j) x

/-- Groups of any sort that differ in species of density zero only. -/
inductive EveryPadded : Ref.EveryTraps → Ref.EveryTraps → Prop
  | inl {t t' : Ref.AnyTraps} (h : AnyPadded t t') : EveryPadded (.inl t) (.inl t')
  | inr {s s' : ℕ} (dens : Fin s → ℝ) (dens' : Fin s' → ℝ) (take hold keep : ℝ → Fin s → ℝ)
      (take' hold' keep' : ℝ → Fin s' → ℝ) (occ : ℝ → Fin s → ℝ) (occ' : ℝ → Fin s' → ℝ) (ι : Fin s → Fin s')
      (h : Embeds dens dens' ι) (ht : ∀ x j, take' x (ι j) = take x j) (hh : ∀ x j, hold' x (ι j) = hold x j)
      (hk : ∀ x j, keep' x (ι j) = keep x j) (ho : ∀ d j, occ' d (ι j) = occ d j) :
      EveryPadded (.inr ⟨s, dens, take, hold, keep, occ⟩) (.inr ⟨s', dens', take', hold', keep', occ'⟩)

/-- Groups of density zero. -/
inductive EveryVoid : Ref.EveryTraps → Prop
  | inl {t : Ref.AnyTraps} (h : AnyVoid t) : EveryVoid (.inl t)
  | inr (t : Ref.Slow) (h : ∀ j, t.dens j = 0) : EveryVoid (.inr t)

theorem EveryPadded.step {t t' : Ref.EveryTraps} (h : EveryPadded t t') (f : ℝ → ℝ) (n x : ℝ) :
    ExRel (fun a b => a.1 = b.1 ∧ EveryPadded a.2 b.2) (Ref.everySpec.step t n x f) (Ref.everySpec.step t' n x f) := by
  cases h with
  | @inl t t' h =>
    have := h.step f n x
    simp only [Ref.everySpec]
    generalize Ref.anySpec.step t n x f = a at this ⊢
    generalize Ref.anySpec.step t' n x f = b at this ⊢
    rcases a with a | a <;> rcases b with b | b
    · exact this
    · exact this
    · exact this
    · exact ⟨this.1, .inl this.2⟩
  | @inr s s' dens dens' take hold keep take' hold' keep' occ occ' ι h ht hh hk ho =>
    have hf : ∀ (occ : ℝ → Fin s → ℝ) (occ' : ℝ → Fin s' → ℝ), (∀ d j, occ' d (ι j) = occ d j) →
        (⟨s', dens', take', hold', keep', occ'⟩ : Ref.Slow).filled = (⟨s, dens, take, hold, keep, occ⟩ : Ref.Slow).filled :=
      fun occ occ' ho => h.sum fun j => by simp only [ho]
    have e1 := hf (fun d j => if d ≤ f n then occ d j else occ d j * keep x j)
      (fun d i => if d ≤ f n then occ' d i else occ' d i * keep' x i) fun d j => by simp only [ho, hk]
    have e2 := fun b => hf
      (fun d j => if d ≤ b then (if d ≤ f n then occ d j else occ d j * keep x j) * hold x j +
        (1 - (if d ≤ f n then occ d j else occ d j * keep x j)) * take x j
        else if d ≤ f n then occ d j else occ d j * keep x j)
      (fun d i => if d ≤ b then (if d ≤ f n then occ' d i else occ' d i * keep' x i) * hold' x i +
        (1 - (if d ≤ f n then occ' d i else occ' d i * keep' x i)) * take' x i
        else if d ≤ f n then occ' d i else occ' d i * keep' x i) fun d j => by simp only [ho, hk, ht, hh]
    simp only [Ref.everySpec, Ref.Slow.transfer, Ref.Slow.release, Ref.Slow.exchange, hf occ occ' ho, e1, e2]
    exact ⟨rfl, .inr _ _ _ _ _ _ _ _ _ _ ι h ht hh hk fun d j => by simp only [ho, hk, ht, hh]⟩

theorem EveryVoid.step {t : Ref.EveryTraps} (h : EveryVoid t) (f : ℝ → ℝ) (n x : ℝ) :
    ∃ t', Ref.everySpec.step t n x f = .ok (0, t') ∧ EveryVoid t' := by
  cases h with
  | inl h =>
    obtain ⟨t', h1, h2⟩ := h.step f n x
    exact ⟨.inl t', by simp only [Ref.everySpec, h1, Except.map], .inl h2⟩
  | inr t h =>
    have h1 : ∀ occ, ({ t with occ := occ } : Ref.Slow).filled = 0 := fun occ =>
      Finset.sum_eq_zero fun j _ => by simp only [h, zero_mul]
    refine ⟨_, ?_, .inr (t.transfer n x f).2 h⟩
    simp only [Ref.everySpec]
    congr 2
    simp only [Ref.Slow.transfer, Ref.Slow.release, Ref.Slow.exchange, h1, sub_zero]

theorem EveryPadded.empty {t t' : Ref.EveryTraps} (h : EveryPadded t t') :
    EveryPadded (Ref.everySpec.empty t) (Ref.everySpec.empty t') := by
  cases h with
  | inl h => exact .inl h.empty
  | inr dens dens' take hold keep take' hold' keep' occ occ' ι h ht hh hk ho =>
    exact .inr _ _ _ _ _ _ _ _ _ _ ι h ht hh hk fun _ _ => rfl

theorem EveryVoid.empty {t : Ref.EveryTraps} (h : EveryVoid t) : EveryVoid (Ref.everySpec.empty t) := by
  cases h with
  | inl h => exact .inl h.empty
  | inr t h => exact .inr _ h

theorem EveryPadded.inPhase {t t' : Ref.EveryTraps} (h : EveryPadded t t') (x : ℝ) :
    EveryPadded (t.inPhase x) (t'.inPhase x) := by
  cases h with
  | inl h => exact .inl (h.inPhase x)
  | inr dens dens' take hold keep take' hold' keep' occ occ' ι h ht hh hk ho =>
    exact .inr _ _ _ _ _ _ _ _ _ _ ι (h.scale x) ht hh hk fun _ _ => rfl

theorem EveryVoid.inPhase {t : Ref.EveryTraps} (h : EveryVoid t) (x : ℝ) : EveryVoid (t.inPhase x) := by
  cases h with
  | inl h => exact .inl (h.inPhase x)
  | inr t h => exact .inr _ fun j => mul_eq_zero_of_left (h j) x

/-! ## Lists of groups -/

/-- The second list has the groups of the first, changed by `R`, and others that satisfy `Z`. -/
inductive PaddedList {α : Type} (R : α → α → Prop) (Z : α → Prop) : List α → List α → Prop
  | nil : PaddedList R Z [] []
  | keep {a b : α} {l l' : List α} (h : R a b) (hl : PaddedList R Z l l') : PaddedList R Z (a :: l) (b :: l')
  | add {b : α} {l l' : List α} (h : Z b) (hl : PaddedList R Z l l') : PaddedList R Z l (b :: l')

theorem PaddedList.map {α β : Type} {R : α → α → Prop} {Z : α → Prop} {R' : β → β → Prop} {Z' : β → Prop} {l l' : List α}
    (h : PaddedList R Z l l') (f : α → β) (hR : ∀ a b, R a b → R' (f a) (f b)) (hZ : ∀ a, Z a → Z' (f a)) :
    PaddedList R' Z' (l.map f) (l'.map f) := by
  induction h with
  | nil => exact .nil
  | keep h _ ih => exact .keep (hR _ _ h) ih
  | add h _ ih => exact .add (hZ _ h) ih

/-- Kinds of traps for which `R` and `Z` are kept by transfers, and groups in `Z` do nothing. -/
structure SpecPadded {τ : Type} (sp : TrapSpec ℝ τ) (R : τ → τ → Prop) (Z : τ → Prop) : Prop where
  step : ∀ t t', R t t' → ∀ f n x, ExRel (fun a b => a.1 = b.1 ∧ R a.2 b.2) (sp.step t n x f) (sp.step t' n x f)
  void : ∀ t, Z t → ∀ f n x, ∃ t', sp.step t n x f = .ok (0, t') ∧ Z t'
  empty : ∀ t t', R t t' → R (sp.empty t) (sp.empty t')
  emptyVoid : ∀ t, Z t → Z (sp.empty t)

theorem SpecPadded.groups {τ : Type} {sp : TrapSpec ℝ τ} {R : τ → τ → Prop} {Z : τ → Prop} (hs : SpecPadded sp R Z)
    (f : ℝ → ℝ) (n x : ℝ) {l l' : List τ} (h : PaddedList R Z l l') :
    ExRel (fun a b => a.1 = b.1 ∧ PaddedList R Z a.2 b.2) (sp.groups n x f l) (sp.groups n x f l') := by
  induction h with
  | nil => exact ⟨rfl, .nil⟩
  | keep h _ ih =>
    refine ExRel.bind (hs.step _ _ h f n x) ?_
    rintro ⟨x1, t⟩ ⟨x2, t'⟩ ⟨e, ht⟩
    refine ExRel.bind ih ?_
    rintro ⟨y1, ts⟩ ⟨y2, ts'⟩ ⟨e', hts⟩
    simp only at e e' ht hts
    subst e e'
    exact ⟨rfl, .keep ht hts⟩
  | @add b l l' h _ ih =>
    obtain ⟨t', h1, h2⟩ := hs.void _ h f n x
    have e : sp.groups n x f (b :: l') = (sp.groups n x f l').map fun o => (0 + o.1, t' :: o.2) := by
      conv_lhs => unfold TrapSpec.groups
      rw [h1]
      simp only [bind, Except.bind]
      cases sp.groups n x f l' <;> rfl
    rw [e]
    generalize sp.groups n x f l = u at ih ⊢
    generalize sp.groups n x f l' = v at ih ⊢
    rcases u with u | u <;> rcases v with v | v
    · exact ih
    · exact ih
    · exact ih
    · exact ⟨ih.1.trans (zero_add _).symm, .add h2 ih.2⟩

theorem SpecPadded.clock {τ : Type} {sp : TrapSpec ℝ τ} {R : τ → τ → Prop} {Z : τ → Prop} (hs : SpecPadded sp R Z)
    (img : Image ℝ) (ccd : CcdView ℝ) (roe : Roe ℝ) {st st' : SpecState τ}
    (h1 : List.Forall₂ (PaddedList R Z) st.data st'.data) (h2 : List.Forall₂ (PaddedList R Z) st.saved st'.saved)
    (e o : ℕ) (rows columns : List ℕ) (tw : Option (List ℕ)) :
    sp.clock img ccd roe st e o rows columns tw = sp.clock img ccd roe st' e o rows columns tw := by
  let RS : SpecState τ → SpecState τ → Prop := fun a b =>
    List.Forall₂ (PaddedList R Z) a.data b.data ∧ List.Forall₂ (PaddedList R Z) a.saved b.saved
  have hE : ∀ a b, RS a b → RS ((sp.sys ccd.fill).emptyAll a) ((sp.sys ccd.fill).emptyAll b) := by
    rintro a b ⟨h1, h2⟩
    refine ⟨?_, h2⟩
    change List.Forall₂ _ (a.data.map _) (b.data.map _)
    rw [List.forall₂_map_left_iff, List.forall₂_map_right_iff]
    exact h1.imp fun x y hxy => hxy.map sp.empty hs.empty hs.emptyVoid
  have hS : SysRel (sp.sys ccd.fill) (sp.sys ccd.fill) RS RS := by
    refine ⟨?_, fun a b h => ⟨h.1, h.1⟩, fun a b h => ⟨h.2, h.2⟩, fun _ _ h => h⟩
    rintro a b ⟨h1, h2⟩ phase n dwell
    unfold TrapSpec.sys
    simp only
    have := forall₂_getElem? h1 phase
    rcases e : a.data[phase]? with - | ms <;> rcases e' : b.data[phase]? with - | ms' <;> rw [e, e'] at this
    · exact rfl
    · cases this
    · cases this
    · cases this with
      | some this =>
        have := hs.groups (ccd.fill phase) n dwell this
        simp only
        generalize sp.groups n dwell (ccd.fill phase) ms = u at this ⊢
        generalize sp.groups n dwell (ccd.fill phase) ms' = v at this ⊢
        rcases u with u | ⟨u, l⟩ <;> rcases v with v | ⟨v, l'⟩
        · exact this
        · exact this
        · exact this
        · exact ⟨this.1, forall₂_set h1 phase this.2, h2⟩
  unfold TrapSpec.clock
  congr 1
  funext x
  obtain ⟨cfg, roe'⟩ := x
  simp only
  have := clockLoops_rel hS (RI := (· = ·)) cfg columns (fun c _ => imgRel_eq c)
    (fun s t hst => by
      split
      · exact hS.save _ _ (hE _ _ hst)
      · exact hS.save _ _ hst)
    (img.pad (nPadding roe.accessed), st) (img.pad (nPadding roe.accessed), st') ⟨rfl, h1, h2⟩
  generalize clockLoops (sp.sys ccd.fill) cfg columns (img.pad (nPadding roe.accessed), st) = x at this ⊢
  generalize clockLoops (sp.sys ccd.fill) cfg columns (img.pad (nPadding roe.accessed), st') = y at this ⊢
  rcases x with e | ⟨i, s⟩ <;> rcases y with e' | ⟨j, t⟩ <;> simp only [ExRel] at this
  · rw [this]
  · obtain ⟨rfl, -⟩ := this
    rfl

theorem SpecPadded.clock_new {τ : Type} {sp : TrapSpec ℝ τ} {R : τ → τ → Prop} {Z : τ → Prop} (hs : SpecPadded sp R Z)
    (inPhase : τ → ℝ → τ) (hR : ∀ t t', R t t' → ∀ x, R (inPhase t x) (inPhase t' x)) (hZ : ∀ t, Z t → ∀ x, Z (inPhase t x))
    (img : Image ℝ) (ccd : CcdView ℝ) (roe : Roe ℝ) {l l' : List τ} (h : PaddedList R Z l l') (fr : List ℝ)
    (e o : ℕ) (rows columns : List ℕ) (tw : Option (List ℕ)) :
    sp.clock img ccd roe (SpecState.new inPhase l fr) e o rows columns tw =
      sp.clock img ccd roe (SpecState.new inPhase l' fr) e o rows columns tw := by
  have key : List.Forall₂ (PaddedList R Z) (fr.map fun x => l.map fun g => inPhase g x)
      (fr.map fun x => l'.map fun g => inPhase g x) := by
    rw [List.forall₂_map_left_iff, List.forall₂_map_right_iff, List.forall₂_same]
    exact fun x _ => h.map _ (fun a b hab => hR a b hab x) (fun a ha => hZ a ha x)
  exact hs.clock img ccd roe key key e o rows columns tw

theorem anyPadded_spec : SpecPadded Ref.anySpec AnyPadded AnyVoid :=
  ⟨fun _ _ h => h.step, fun _ h => h.step, fun _ _ h => h.empty, fun _ h => h.empty⟩

theorem everyPadded_spec : SpecPadded Ref.everySpec EveryPadded EveryVoid :=
  ⟨fun _ _ h => h.step, fun _ h => h.step, fun _ _ h => h.empty, fun _ h => h.empty⟩

/-- **C86** for one direction of clocking with groups of instant capture or lifetime distributions: any image, readout
class, express value and windows covered by C61, also when the call fails. -/
theorem C86_clock (img : Image ℝ) (ccd : CcdView ℝ) (roe : Roe ℝ) (traps traps' : List Ref.AnyTraps)
    (hpad : PaddedList AnyPadded AnyVoid traps traps') (e o : ℕ) (rows columns : List ℕ) (tw : Option (List ℕ))
    (hk : NoSaves roe ∨ roe.isPumping = true ∨ (e = 0 ∧ FullReadout o rows tw roe)) (hb : roe.emptyBetween = true)
    (hr : RowsFound rows roe) (hrows : ∀ w ∈ rows, w < img.nr) (hcols : ∀ c ∈ columns, c < img.nc)
    (hlow : ∀ w ∈ rows, ∀ z ∈ roe.accessed, 0 ≤ (w : ℤ) + z)
    (hlen : ccd.fractions.length ≤ roe.nPhases) (hccd : GoodFill ccd) (ht : ∀ t ∈ traps, t.Ok) (ht' : ∀ t ∈ traps', t.Ok) :
    clockCharge img ccd roe (traps'.map Ref.AnyTraps.group) e o rows columns tw =
      clockCharge img ccd roe (traps.map Ref.AnyTraps.group) e o rows columns tw := by
  rw [C61_refinement img ccd roe traps e o rows columns tw hk hb hr hrows hcols hlow hlen hccd ht,
    C61_refinement img ccd roe traps' e o rows columns tw hk hb hr hrows hcols hlow hlen hccd ht']
  exact (anyPadded_spec.clock_new Ref.AnyTraps.inPhase (fun _ _ h => h.inPhase) (fun _ h => h.inPhase) img ccd roe hpad
    ccd.fractions e o rows columns tw).symm

/-! ## Python objects -/

/-- The second list of traps has those of the first in the same order, and others of density zero between them. -/
inductive Trap.Padded : List Trap → List Trap → Prop
  | nil : Padded [] []
  | keep (t : Trap) {l l' : List Trap} (h : Padded l l') : Padded (t :: l) (t :: l')
  | add (t : Trap) {l l' : List Trap} (hz : t.density = 0) (h : Padded l l') : Padded l (t :: l')

theorem Trap.Padded.embeds {l l' : List Trap} (h : Trap.Padded l l') :
    ∃ ι : Fin l.length → Fin l'.length, (∀ j, l'[ι j] = l[j]) ∧
      Embeds (fun j : Fin l.length => l[j].density) (fun i : Fin l'.length => l'[i].density) ι := by
  induction h with
  | nil => exact ⟨id, fun j => rfl, Function.injective_id, fun i hi => i.elim0, fun j => rfl⟩
  | @keep t l l' _ ih =>
    obtain ⟨ι, h1, h2⟩ := ih
    have hz : ∀ j : Fin (t :: l).length, (t :: l')[(Fin.cases 0 (fun j => (ι j).succ) j : Fin (t :: l').length)] = (t :: l)[j] := by
      intro j
      induction j using Fin.cases with
      | zero => rfl
      | succ j => exact h1 j
    refine ⟨Fin.cases 0 fun j => (ι j).succ, hz, ?_, ?_, fun j => by rw [hz j]⟩
    · intro a b hab
      induction a using Fin.cases with
      | zero =>
        induction b using Fin.cases with
        | zero => rfl
        | succ b => exact absurd hab.symm (Fin.succ_ne_zero _)
      | succ a =>
        induction b using Fin.cases with
        | zero => exact absurd hab (Fin.succ_ne_zero _)
        | succ b => exact congrArg Fin.succ (h2.inj (Fin.succ_injective _ hab))
    · intro i hi
      induction i using Fin.cases with
      | zero => exact absurd ⟨0, rfl⟩ hi
      | succ i =>
        refine h2.zero i fun ⟨j, hj⟩ => hi ⟨j.succ, ?_⟩
        change (ι j).succ = i.succ
        rw [hj]
  | @add t l l' hz _ ih =>
    obtain ⟨ι, h1, h2⟩ := ih
    refine ⟨fun j => (ι j).succ, fun j => h1 j, fun a b hab => h2.inj (Fin.succ_injective _ hab), ?_, fun j => h2.dens j⟩
    intro i hi
    induction i using Fin.cases with
    | zero => exact hz
    | succ i => exact h2.zero i fun ⟨j, hj⟩ => hi ⟨j, congrArg Fin.succ hj⟩

/-- Groups of traps that differ in traps of density zero only: the same class of the first trap, or a whole group of density
zero. -/
def Trap.PaddedGroups : List (List Trap) → List (List Trap) → Prop :=
  PaddedList (fun l l' => Trap.Padded l l' ∧ l.head?.map Trap.cls = l'.head?.map Trap.cls) (fun l => ∀ t ∈ l, t.density = 0)

theorem Ref.anyOf_padded {l l' : List Trap} (h : Trap.Padded l l') (hc : l.head?.map Trap.cls = l'.head?.map Trap.cls) :
    AnyPadded (Ref.anyOf l) (Ref.anyOf l') := by
  obtain ⟨ι, h1, h2⟩ := h.embeds
  have hinl : AnyPadded (.inl (Ref.ofTraps l)) (.inl (Ref.ofTraps l')) :=
    .inl _ _ _ _ _ _ ι h2 (fun x j => by rw [h1]) fun _ _ => rfl
  rcases l with - | ⟨t, l⟩ <;> rcases l' with - | ⟨t', l'⟩
  · exact hinl
  · simp at hc
  · simp at hc
  · simp only [List.head?_cons, Option.map_some, Option.some.injEq] at hc
    cases t <;> cases t' <;> simp only [Trap.cls, reduceCtorEq] at hc
    · exact hinl
    · exact hinl
    · exact .inr _ _ _ _ _ _ ι h2 (fun j => by rw [h1]) fun _ _ => rfl

theorem Ref.everyOf_padded {l l' : List Trap} (h : Trap.Padded l l') (hc : l.head?.map Trap.cls = l'.head?.map Trap.cls) :
    EveryPadded (Ref.everyOf l) (Ref.everyOf l') := by
  have ha := Ref.anyOf_padded h hc
  obtain ⟨ι, h1, h2⟩ := h.embeds
  rcases l with - | ⟨t, l⟩ <;> rcases l' with - | ⟨t', l'⟩
  · exact .inl ha
  · simp at hc
  · simp at hc
  · simp only [List.head?_cons, Option.map_some, Option.some.injEq] at hc
    cases t <;> cases t' <;> simp only [Trap.cls, reduceCtorEq] at hc
    · exact .inr _ _ _ _ _ _ _ _ _ _ ι h2 (fun x j => by rw [h1]) (fun x j => by rw [h1]) (fun x j => by rw [h1])
        fun _ _ => rfl
    · exact .inl ha
    · exact .inl ha

theorem Ref.anyOf_void {l : List Trap} (h : ∀ t ∈ l, t.density = 0) : AnyVoid (Ref.anyOf l) := by
  have hj : ∀ j : Fin l.length, l[j].density = 0 := fun j => h _ (List.getElem_mem _)
  unfold Ref.anyOf
  split
  · exact .inr _ hj
  · exact .inl _ hj

theorem Ref.everyOf_void {l : List Trap} (h : ∀ t ∈ l, t.density = 0) : EveryVoid (Ref.everyOf l) := by
  have hj : ∀ j : Fin l.length, l[j].density = 0 := fun j => h _ (List.getElem_mem _)
  unfold Ref.everyOf
  split
  · exact .inr _ hj
  · exact .inl (Ref.anyOf_void h)

/-- **C86** for one direction with Python objects, `TrapInstantCapture` or lifetime continuum first in each group. -/
theorem C86_instant {c : CCD} {dw : List ℝ} {i : Bool} {gs gs' : List (List Trap)} (h : RefObjects c dw i gs)
    (h' : RefObjects c dw i gs') (hp : Trap.PaddedGroups gs gs') (img : Image ℝ) (e o : ℕ) (rows columns : List ℕ)
    (tw : Option (List ℕ)) (hrows : ∀ w ∈ rows, w < img.nr) (hcols : ∀ c ∈ columns, c < img.nc) :
    clockChargePy img (some c) (.standard dw true true true i) (.list (gs'.map .group)) e o rows columns tw =
      clockChargePy img (some c) (.standard dw true true true i) (.list (gs.map .group)) e o rows columns tw := by
  rw [C61_objects h img e o rows columns tw hrows hcols, C61_objects h' img e o rows columns tw hrows hcols]
  exact (anyPadded_spec.clock_new Ref.AnyTraps.inPhase (fun _ _ h => h.inPhase) (fun _ h => h.inPhase) img c.view _
    (hp.map Ref.anyOf (fun a b hab => Ref.anyOf_padded hab.1 hab.2) fun a ha => Ref.anyOf_void ha)
    c.fractions e o rows columns tw).symm

/-- **C86** for one direction with traps of any class, also with finite capture times, for a non-negative image and few slow
traps compared with the full well depth (as in C62). -/
theorem C86_slow {D D' : ℝ} {c : CCD} {dw : List ℝ} {i : Bool} {gs gs' : List (List Trap)} (h : SlowObjects D c dw i gs)
    (h' : SlowObjects D' c dw i gs') (hp : Trap.PaddedGroups gs gs') (img : Image ℝ) (himg : img.NonNeg) (e o : ℕ)
    (rows columns : List ℕ) (tw : Option (List ℕ)) (hrows : ∀ w ∈ rows, w < img.nr) (hcols : ∀ c ∈ columns, c < img.nc) :
    clockChargePy img (some c) (.standard dw true true true i) (.list (gs'.map .group)) e o rows columns tw =
      clockChargePy img (some c) (.standard dw true true true i) (.list (gs.map .group)) e o rows columns tw := by
  rw [(C62_objects h img himg e o rows columns tw hrows hcols).1, (C62_objects h' img himg e o rows columns tw hrows hcols).1]
  exact (everyPadded_spec.clock_new Ref.EveryTraps.inPhase (fun _ _ h => h.inPhase) (fun _ h => h.inPhase) img c.view _
    (hp.map Ref.everyOf (fun a b hab => Ref.everyOf_padded hab.1 hab.2) fun a ha => Ref.everyOf_void ha)
    c.fractions e o rows columns tw).symm

theorem clockChargePy_shape {img : Image ℝ} {ccd : Option CCD} {roe : Roe ℝ} {traps : PyTraps} {e o : ℕ}
    {rows columns : List ℕ} {tw : Option (List ℕ)} {out : Image ℝ} {roe' : Roe ℝ}
    (h : clockChargePy img ccd roe traps e o rows columns tw = .ok (out, roe')) :
    (out.nr = img.nr ∧ out.nc = img.nc) ∧ ∃ m mon, roe.express rows e o tw = .ok (m, mon, roe') := by
  unfold clockChargePy at h
  cases ccd with
  | none =>
    obtain ⟨⟨m, mon, r⟩, -, h⟩ := bind_eq_ok h
    obtain ⟨sv, -, h⟩ := bind_eq_ok h
    cases h
  | some c =>
    obtain ⟨⟨cfg, r⟩, h1, h⟩ := bind_eq_ok h
    obtain ⟨mg, -, h⟩ := bind_eq_ok h
    obtain ⟨⟨i, st⟩, h2, h⟩ := bind_eq_ok h
    injection h with h
    injection h with h3 h4
    subst h3 h4
    obtain ⟨f1, f2, -⟩ := clockLoops_frame _ cfg h2
    refine ⟨?_, _, _, (clockCfg_fields h1).1⟩
    simp only [Image.unpad, Image.pad] at f1 f2 ⊢
    exact ⟨by omega, f2⟩

/-- One direction of `add_cti`: nothing happens without traps. -/
noncomputable def PyDirection.clock (d : PyDirection) (img : Image ℝ) (rows columns : List ℕ) (tw : Option (List ℕ)) :
    Except Err (Image ℝ × Roe ℝ) :=
  match d.traps with
  | none => .ok (img, d.roe.getD Roe.default)
  | some q => clockChargePy img d.ccd (d.roe.getD Roe.default) q d.express d.offset rows columns tw

theorem addCtiPy_clock (img : Image ℝ) (par ser : PyDirection) (pw sw : Window) :
    addCtiPy img par pw ser sw none =
      par.clock img (pw.resolve img.nr) (sw.resolve img.nc) (some (List.range (img.nr + par.offset))) >>= fun y =>
        ser.clock y.1.transpose (sw.resolve img.nc) (pw.resolve img.nr) none >>= fun z =>
          .ok (z.1.transpose, y.2, z.2) := by
  unfold addCtiPy PyDirection.clock
  obtain ⟨c, r, t, e, o⟩ := par
  obtain ⟨c', r', t', e', o'⟩ := ser
  cases t with
  | none => cases t' <;> rfl
  | some t =>
    simp only [Option.getD_none, bind_ok]
    cases clockChargePy img c (r.getD Roe.default) t e o (pw.resolve img.nr) (sw.resolve img.nc)
      (some (List.range (img.nr + o))) with
    | error err => rfl
    | ok x => cases t' <;> rfl

theorem PyDirection.clock_shape {d : PyDirection} {img : Image ℝ} {rows columns : List ℕ} {tw : Option (List ℕ)}
    {out : Image ℝ} {roe' : Roe ℝ} (h : d.clock img rows columns tw = .ok (out, roe')) :
    (out.nr = img.nr ∧ out.nc = img.nc) ∧
      ∀ dw ef b f i, d.roe = some (.standard dw ef b f i) → roe' = .standard dw ef b f i := by
  unfold PyDirection.clock at h
  split at h
  · injection h with h
    injection h with h1 h2
    subst h1 h2
    refine ⟨⟨rfl, rfl⟩, fun dw ef b f i hd => by rw [hd]; rfl⟩
  · obtain ⟨h1, m, mon, h2⟩ := clockChargePy_shape h
    refine ⟨h1, fun dw ef b f i hd => ?_⟩
    rw [hd] at h2
    simp only [Option.getD_some] at h2
    unfold Roe.express at h2
    obtain ⟨⟨m', mon'⟩, -, h2⟩ := bind_eq_ok h2
    injection h2 with h2
    injection h2 with _ h2
    injection h2 with _ h2
    exact h2.symm

/-- Arguments of a direction that differ in traps of density zero only; or that are the same. -/
inductive PyDirection.Padded : PyDirection → PyDirection → Prop
  | refl (d : PyDirection) : Padded d d
  | traps {c : CCD} {dw : List ℝ} {i : Bool} {gs gs' : List (List Trap)} (e o : ℕ) (h : RefObjects c dw i gs)
      (h' : RefObjects c dw i gs') (hp : Trap.PaddedGroups gs gs') :
      Padded ⟨some c, some (.standard dw true true true i), some (.list (gs.map .group)), e, o⟩
        ⟨some c, some (.standard dw true true true i), some (.list (gs'.map .group)), e, o⟩

theorem PyDirection.Padded.clock {d d' : PyDirection} (h : d.Padded d') (img : Image ℝ) (rows columns : List ℕ)
    (tw : Option (List ℕ)) (hrows : ∀ w ∈ rows, w < img.nr) (hcols : ∀ c ∈ columns, c < img.nc) :
    d'.clock img rows columns tw = d.clock img rows columns tw := by
  cases h with
  | refl => rfl
  | traps e o h h' hp => exact C86_instant h h' hp img _ _ _ _ _ hrows hcols

/-- **C86** for `add_cti`: the same image and readout objects, or the same exception. -/
theorem C86_add_cti (img : Image ℝ) {par par' ser ser' : PyDirection} (hp : par.Padded par') (hs : ser.Padded ser')
    (pw sw : Window) (hpr : ∀ w ∈ pw.resolve img.nr, w < img.nr) (hsr : ∀ w ∈ sw.resolve img.nc, w < img.nc) :
    addCtiPy img par' pw ser' sw none = addCtiPy img par pw ser sw none := by
  have ho : par'.offset = par.offset := by cases hp <;> rfl
  rw [addCtiPy_clock, addCtiPy_clock, ho, hp.clock img _ _ _ hpr hsr]
  cases hx : par.clock img (pw.resolve img.nr) (sw.resolve img.nc) (some (List.range (img.nr + par.offset))) with
  | error err => rfl
  | ok x =>
    have hsh := (PyDirection.clock_shape hx).1
    simp only [bind_ok]
    rw [hs.clock x.1.transpose (sw.resolve img.nc) (pw.resolve img.nr) none
      (fun w hw => by rw [show x.1.transpose.nr = x.1.nc from rfl, hsh.2]; exact hsr w hw)
      (fun w hw => by rw [show x.1.transpose.nc = x.1.nr from rfl, hsh.1]; exact hpr w hw)]

theorem PyDirection.Padded.next {d d' : PyDirection} {r : Option (Roe ℝ)}
    (h : PyDirection.Padded { d with roe := r } { d' with roe := r }) {rp : Roe ℝ}
    (hr : ∀ dw ef b f i, r = some (.standard dw ef b f i) → rp = .standard dw ef b f i) :
    PyDirection.Padded { d with roe := r.map fun _ => rp } { d' with roe := r.map fun _ => rp } := by
  obtain ⟨c, r0, t, e, o⟩ := d
  obtain ⟨c', r0', t', e', o'⟩ := d'
  cases h with
  | refl => exact .refl _
  | traps e o h h' hp =>
    simp only [Option.map_some]
    rw [hr _ _ _ _ _ rfl]
    exact .traps e o h h' hp

/-- **C86** for `remove_cti`. -/
theorem C86_remove_cti (img : Image ℝ) (n : ℕ) {par par' ser ser' : PyDirection} (hp : par.Padded par')
    (hs : ser.Padded ser') (pw sw : Window) (hpr : ∀ w ∈ pw.resolve img.nr, w < img.nr)
    (hsr : ∀ w ∈ sw.resolve img.nc, w < img.nc) :
    removeCtiPy img n par' pw ser' sw none = removeCtiPy img n par pw ser sw none := by
  have hr : par'.roe = par.roe := by cases hp <;> rfl
  have hr' : ser'.roe = ser.roe := by cases hs <;> rfl
  unfold removeCtiPy
  rw [hr, hr']
  have key : ∀ (m : ℕ) (cur : Image ℝ), cur.nr = img.nr → cur.nc = img.nc → ∀ s : Option (Roe ℝ) × Option (Roe ℝ),
      PyDirection.Padded { par with roe := s.1 } { par' with roe := s.1 } →
      PyDirection.Padded { ser with roe := s.2 } { ser' with roe := s.2 } →
      removeIter (fun cur s => do
          let (out, rp, rs) ← addCtiPy cur { par' with roe := s.1 } pw { ser' with roe := s.2 } sw none
          .ok (out, s.1.map fun _ => rp, s.2.map fun _ => rs)) img m (cur, s) =
        removeIter (fun cur s => do
          let (out, rp, rs) ← addCtiPy cur { par with roe := s.1 } pw { ser with roe := s.2 } sw none
          .ok (out, s.1.map fun _ => rp, s.2.map fun _ => rs)) img m (cur, s) := by
    intro m
    induction m with
    | zero => intros; rfl
    | succ m ih =>
      intro cur h1 h2 s q1 q2
      unfold removeIter
      rw [C86_add_cti cur q1 q2 pw sw (by rw [h1]; exact hpr) (by rw [h2]; exact hsr)]
      cases hx : addCtiPy cur { par with roe := s.1 } pw { ser with roe := s.2 } sw none with
      | error err => rfl
      | ok x =>
        obtain ⟨out, rp, rs⟩ := x
        rw [addCtiPy_clock] at hx
        obtain ⟨⟨mid, rp'⟩, g1, hx⟩ := bind_eq_ok hx
        obtain ⟨⟨fin, rs'⟩, g2, hx⟩ := bind_eq_ok hx
        injection hx with hx
        injection hx with _ hx
        injection hx with e1 e2
        subst e1 e2
        refine ih _ ?_ ?_ (s.1.map fun _ => rp', s.2.map fun _ => rs') (q1.next (PyDirection.clock_shape g1).2)
          (q2.next (PyDirection.clock_shape g2).2)
        · exact h1
        · exact h2
  exact key n img rfl rfl _ (by obtain ⟨c, r, t, e, o⟩ := par; cases hp <;> constructor <;> assumption)
    (by obtain ⟨c, r, t, e, o⟩ := ser; cases hs <;> constructor <;> assumption)

/-- **C86**: a trap of density zero can matter if it is the first of its group, since its class is used for all of them: a
`TrapInstantCapture` of density zero in front makes all traps of the group capture instantly. -/
theorem C86_first {c : CCD} {dw : List ℝ} (i : Bool) (hc : c.NoNotch) (hph : c.fractions.length ≤ dw.length) (τ : ℝ) (hτ : 0 < τ)
    (b : Bool) (l : List Trap) (hl : l ≠ []) (hs : ∀ t ∈ l, 0 ≤ t.density ∧ 0 < t.releaseTimescale) (img : Image ℝ)
    (e o : ℕ) (rows columns : List ℕ) (tw : Option (List ℕ)) (hrows : ∀ w ∈ rows, w < img.nr)
    (hcols : ∀ c ∈ columns, c < img.nc) :
    clockChargePy img (some c) (.standard dw true true true i) (.list [.group (.instant 0 τ b :: l)]) e o rows columns tw =
      clockChargePy img (some c) (.standard dw true true true i)
        (.list [.group (l.map fun t => .instant t.density t.releaseTimescale false)]) e o rows columns tw := by
  have h1 := C71_first_decides img (some c) (.standard dw true true true i) [.instant 0 τ b :: l] (by simp) (by simp) e o rows
    columns tw
  simp only [List.map_cons, List.map_nil, Trap.asFirst] at h1
  rw [← h1]
  have hall : ∀ t ∈ l.map (fun t => Trap.instant t.density t.releaseTimescale false), t.Sensible := by
    intro t ht
    obtain ⟨t0, h0, rfl⟩ := List.mem_map.1 ht
    exact hs t0 h0
  obtain ⟨a, l', rfl⟩ := List.exists_cons_of_ne_nil hl
  have hrefl : ∀ l : List Trap, Trap.Padded l l := by
    intro l
    induction l with
    | nil => exact .nil
    | cons t l ih => exact .keep t ih
  have r1 : RefObjects c dw i [(a :: l').map fun t => .instant t.density t.releaseTimescale false] := by
    refine ⟨hc, hph, by simp, fun l hl => ?_⟩
    rw [List.mem_singleton.1 hl]
    exact ⟨⟨.instant a.density a.releaseTimescale false, by simp, trivial⟩, hall⟩
  have r2 : RefObjects c dw i [.instant 0 τ b :: (a :: l').map fun t => .instant t.density t.releaseTimescale false] := by
    refine ⟨hc, hph, by simp, fun l hl => ?_⟩
    rw [List.mem_singleton.1 hl]
    refine ⟨⟨.instant 0 τ b, by simp, trivial⟩, fun t ht => ?_⟩
    rcases List.mem_cons.1 ht with rfl | ht
    · exact ⟨le_refl (0 : ℝ), hτ⟩
    · exact hall t ht
  have r3 : Trap.PaddedGroups [(a :: l').map fun t => .instant t.density t.releaseTimescale false]
      [.instant 0 τ b :: (a :: l').map fun t => .instant t.density t.releaseTimescale false] :=
    .keep ⟨.add _ (by simp only [Trap.density]) (hrefl _), by simp [Trap.cls]⟩ .nil
  have h2 := C86_instant r1 r2 r3 img e o rows columns tw hrows hcols
  simp only [List.map_cons, List.map_nil] at h2 ⊢
  exact h2

/-! ## Examples -/

/-- A group with two traps of density zero added, and a group of density zero. -/
example : Trap.PaddedGroups [[.instant 5 2 false], [Trap.logNormalTrap 10 3 0.5]]
    [[.instant 0 7 true, .instant 5 2 false, .trap 0 1 1 false], [.instant 0 3 false], [Trap.logNormalTrap 10 3 0.5]] :=
  .keep ⟨.add _ (by simp only [Trap.density]) (.keep _ (.add _ (by simp only [Trap.density]) .nil)), by simp [Trap.cls]⟩
    (.add (by simp [Trap.density]) (.keep ⟨.keep _ .nil, rfl⟩ .nil))

/-- Species of density 10; the same with another one of density zero that releases faster. -/
def exPadded : Arctic.Group ℚ := ⟨2, ![10, 0], .instant fun _ => ![1 / 2, 1 / 8]⟩

/-- The same image, though the watermarks differ. -/
example : (addCti (exImg 3 1 [[50], [80], [0]]) (some ⟨exCcd, exRoe, [exPadded], 0, 0⟩) 0 .all none .all none).map
      (fun x => x.1.rows) =
    (addCti (exImg 3 1 [[50], [80], [0]]) (some ⟨exCcd, exRoe, [exGroup], 0, 0⟩) 0 .all none .all none).map
      (fun x => x.1.rows) := by decide +kernel

/-- More traps than the full well of 100 electrons, with `TrapManager` and capture time 0. -/
def exOverfull : Arctic.Group ℚ := ⟨1, fun _ => 150, .slow fun _ => ⟨fun _ => 1, fun _ => 1, fun _ => 1 / 2⟩⟩

/-- The same with another species of density zero. -/
def exOverfullPadded : Arctic.Group ℚ :=
  ⟨2, ![150, 0], .slow fun _ => ⟨![1, 1 / 4], ![1, 1 / 2], ![1 / 2, 1 / 8]⟩⟩

/-- **C86** (counterexample): with `TrapManager` and many traps a species of density zero can change the image: the watermarks
below the cloud are merged only where all species are filled, and what is captured when there are too few electrons for all
traps depends on the watermarks. -/
theorem C86_many_false :
    let f := fun g => (addCti (exImg 3 1 [[10], [50], [0]]) (some ⟨exCcd, exRoe, [g], 0, 0⟩) 0 .all none .all none).map
      fun x => x.1.rows
    f exOverfull = .ok [[0], [0], [903 / 256]] ∧ f exOverfullPadded = .ok [[0], [0], [12465 / 3328]] := by decide +kernel

end Arctic
