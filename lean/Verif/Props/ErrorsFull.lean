import Verif.Lemmas.FullKin
import Verif.Props.TrapErrors
import Verif.Props.LeftOut

/-!
# C110 — errors of the parameters of traps of all classes
-/

set_option linter.unusedSectionVars false
set_option linter.unusedVariables false

namespace Arctic
open MeasureTheory Set

/-! ## Specification -/

/-- Two numbers that differ by a fraction `ε` of the second at most. -/
def Within (ε a b : ℝ) : Prop := |a - b| ≤ ε * b

/-- Two traps of the same class: densities, release rates and capture rates that differ by a fraction `ε` at most, distributions of
lifetimes that differ by `ε` at most in the mean. -/
inductive Trap.NearSame (ε : ℝ) : Trap → Trap → Prop
  | instant (d τ d' τ' : ℝ) (b b' : Bool) (hd : Within ε d d') (hτ : Within ε (1 / τ) (1 / τ')) :
      NearSame ε (.instant d τ b) (.instant d' τ' b')
  | trap (d τ c d' τ' c' : ℝ) (b b' : Bool) (hd : Within ε d d') (hτ : Within ε (1 / τ) (1 / τ'))
      (hc : Within ε (1 / c) (1 / c')) (h0 : c = 0 ↔ c' = 0) : NearSame ε (.trap d τ c b) (.trap d' τ' c' b')
  | continuum (d mu sigma d' mu' sigma' : ℝ) (f f' : ℝ → ℝ → ℝ → ℝ) (hd : Within ε d d')
      (hf : ∫ τ in Ioi (0 : ℝ), |f τ mu sigma - f' τ mu' sigma'| ≤ ε) :
      NearSame ε (.continuum d f mu sigma) (.continuum d' f' mu' sigma')

/-- A class of traps. -/
inductive Trap.SameClass : Trap → Trap → Prop
  | instant (d τ d' τ' : ℝ) (b b' : Bool) : SameClass (.instant d τ b) (.instant d' τ' b')
  | trap (d τ c d' τ' c' : ℝ) (b b' : Bool) : SameClass (.trap d τ c b) (.trap d' τ' c' b')
  | continuum (d mu sigma d' mu' sigma' : ℝ) (f f' : ℝ → ℝ → ℝ → ℝ) :
      SameClass (.continuum d f mu sigma) (.continuum d' f' mu' sigma')

/-- The same numbers of groups and species, one close to the other, every group of one class. -/
def NearAll (ε : ℝ) (gs gs' : List (List Trap)) : Prop :=
  List.Forall₂ (fun l l' => List.Forall₂ (Trap.NearSame ε) l l' ∧ ∀ t ∈ l, ∀ u ∈ l, Trap.SameClass t u) gs gs'

/-! ## Fractions of a dwell time -/

/-- Shares of two rates. -/
theorem share_near {ε a b a' b' : ℝ} (h0 : 0 ≤ ε) (h1 : ε ≤ 1) (ha : 0 < a) (hb : 0 < b) (ha' : 0 < a') (hb' : 0 < b')
    (hl : a ≤ (1 + ε) * a') (hr : (1 - ε) * b' ≤ b) : a / (a + b) ≤ a' / (a' + b') + ε := by
  rw [div_add' _ _ _ (by linarith : a' + b' ≠ 0), div_le_div_iff₀ (by linarith) (by linarith)]
  have key : a * (b' - ε * (a' + b')) ≤ b * (a' + ε * (a' + b')) := by
    have r0 : 0 ≤ a' + ε * (a' + b') := by positivity
    rcases le_total b' (ε * (a' + b')) with h | h
    · exact (mul_nonpos_of_nonneg_of_nonpos ha.le (by linarith)).trans (mul_nonneg hb.le r0)
    · refine (mul_le_mul_of_nonneg_right hl (by linarith)).trans (le_trans ?_ (mul_le_mul_of_nonneg_right hr r0))
      have e1 : 0 ≤ ε * (a' * a' * (1 + ε) + b' * b' * (1 - ε)) :=
        mul_nonneg h0 (add_nonneg (mul_nonneg (mul_nonneg ha'.le ha'.le) (by linarith))
          (mul_nonneg (mul_nonneg hb'.le hb'.le) (by linarith)))
      nlinarith
  linarith

theorem Within.bounds {ε a b : ℝ} (h : Within ε a b) : a ≤ (1 + ε) * b ∧ (1 - ε) * b ≤ a := by
  obtain ⟨l, u⟩ := abs_le.1 h
  constructor <;> linarith

/-- Traps with a capture timescale. -/
theorem slow_near {ε d τ c d' τ' c' x : ℝ} {b b' : Bool} (h0 : 0 ≤ ε) (h1 : ε ≤ 1) (hx : 0 ≤ x) (hτ : 0 < τ) (hτ' : 0 < τ')
    (hc : 0 ≤ c) (hc' : 0 ≤ c') (nτ : Within ε (1 / τ) (1 / τ')) (nc : Within ε (1 / c) (1 / c')) (n0 : c = 0 ↔ c' = 0) :
    |(Trap.trap d τ c b).balance * (1 - (Trap.trap d τ c b).memory x) -
        (Trap.trap d' τ' c' b').balance * (1 - (Trap.trap d' τ' c' b').memory x)| ≤ 2 * ε ∧
    |((Trap.trap d τ c b).balance + (1 - (Trap.trap d τ c b).balance) * (Trap.trap d τ c b).memory x) -
        ((Trap.trap d' τ' c' b').balance + (1 - (Trap.trap d' τ' c' b').balance) * (Trap.trap d' τ' c' b').memory x)| ≤
      2 * ε := by
  simp only [Trap.balance, Trap.memory, Trap.captureTimescale, Trap.releaseTimescale]
  by_cases hz : c = 0
  · have hz' := n0.1 hz
    subst hz hz'
    simp only [if_true, add_zero, div_self hτ.ne', div_self hτ'.ne']
    norm_num
    exact h0
  have hz' : c' ≠ 0 := fun h => hz (n0.2 h)
  have hcp := lt_of_le_of_ne hc (Ne.symm hz)
  have hcp' := lt_of_le_of_ne hc' (Ne.symm hz')
  simp only [hz, hz', if_false]
  have rc := one_div_pos.2 hcp
  have rc' := one_div_pos.2 hcp'
  have rr := one_div_pos.2 hτ
  have rr' := one_div_pos.2 hτ'
  have f1 : τ / (τ + c) = (1 / c) / (1 / c + 1 / τ) := by field_simp
  have f1' : τ' / (τ' + c') = (1 / c') / (1 / c' + 1 / τ') := by field_simp
  have f2 : 1 - τ / (τ + c) = (1 / τ) / (1 / τ + 1 / c) := by field_simp; ring
  have f2' : 1 - τ' / (τ' + c') = (1 / τ') / (1 / τ' + 1 / c') := by field_simp; ring
  have u1 := share_near h0 h1 rc rr rc' rr' nc.bounds.1 nτ.bounds.2
  have u2 := share_near h0 h1 rr rc rr' rc' nτ.bounds.1 nc.bounds.2
  rw [← f1, ← f1'] at u1
  rw [← f2, ← f2'] at u2
  have hs : |(1 / c + 1 / τ) - (1 / c' + 1 / τ')| ≤ ε * (1 / c' + 1 / τ') := by
    have e1 := nc.bounds
    have e2 := nτ.bounds
    rw [abs_le]
    constructor <;> linarith [e1.1, e1.2, e2.1, e2.2]
  have ex := exp_near h0 hx (by linarith) hs h1
  have e3 : ∀ p q : ℝ, -x * (1 / p + 1 / q) = -(x / p + x / q) := by intro p q; ring
  rw [e3, e3] at ex
  have m1 : 0 ≤ Real.exp (-(x / c + x / τ)) := (Real.exp_pos _).le
  have m1' : 0 ≤ Real.exp (-(x / c' + x / τ')) := (Real.exp_pos _).le
  have m2 : Real.exp (-(x / c + x / τ)) ≤ 1 := Real.exp_le_one_iff.2 (by
    have := div_nonneg hx hcp.le
    have := div_nonneg hx hτ.le
    linarith)
  have p0 : 0 ≤ τ' / (τ' + c') := by positivity
  have p1 : 0 ≤ 1 - τ' / (τ' + c') := by rw [f2']; positivity
  generalize τ / (τ + c) = φ at *
  generalize τ' / (τ' + c') = φ' at *
  generalize Real.exp (-(x / c + x / τ)) = e at *
  generalize Real.exp (-(x / c' + x / τ')) = e' at *
  have hφ : |φ - φ'| ≤ ε := by rw [abs_le]; constructor <;> linarith
  have he : |e - e'| ≤ ε := ex.trans (by nlinarith)
  have g1 : |φ - φ'| * (1 - e) ≤ ε := (mul_le_of_le_one_right (abs_nonneg _) (by linarith)).trans hφ
  have g2 : φ' * |e - e'| ≤ ε := (mul_le_of_le_one_left (abs_nonneg _) (by linarith)).trans he
  have g3 : (1 - φ') * |e - e'| ≤ ε := (mul_le_of_le_one_left (abs_nonneg _) (by linarith)).trans he
  constructor
  · rw [show φ * (1 - e) - φ' * (1 - e') = (φ - φ') * (1 - e) - φ' * (e - e') by ring]
    refine (abs_sub _ _).trans ?_
    rw [abs_mul, abs_mul, abs_of_nonneg (sub_nonneg.2 m2), abs_of_nonneg p0]
    linarith
  · rw [show φ + (1 - φ) * e - (φ' + (1 - φ') * e') = (φ - φ') * (1 - e) + (1 - φ') * (e - e') by ring]
    refine (abs_add_le _ _).trans ?_
    rw [abs_mul, abs_mul, abs_of_nonneg (sub_nonneg.2 m2), abs_of_nonneg p1]
    linarith

/-- How the difference of two distributions of lifetimes fades. -/
noncomputable def lawFall (p p' : ℝ → ℝ) (x : ℝ) : ℝ := ∫ τ in Ioi (0 : ℝ), |p τ - p' τ| * Real.exp (-x / τ)

theorem lawFall_integrable {p p' : ℝ → ℝ} (h : Lifetimes p) (h' : Lifetimes p') {x : ℝ} (hx : 0 ≤ x) :
    IntegrableOn (fun τ => |p τ - p' τ| * Real.exp (-x / τ)) (Ioi 0) := by
  refine Integrable.mono' (h.integrable.sub h'.integrable).abs ?_ ?_
  · exact (h.integrable.sub h'.integrable).abs.aestronglyMeasurable.mul
      (Measurable.aestronglyMeasurable (Real.measurable_exp.comp (measurable_const.div measurable_id)))
  · refine (ae_restrict_iff' measurableSet_Ioi).2 (ae_of_all _ fun τ hτ => ?_)
    have hτ : 0 < τ := hτ
    rw [Real.norm_eq_abs, abs_of_nonneg (mul_nonneg (abs_nonneg _) (Real.exp_pos _).le)]
    refine mul_le_of_le_one_right (abs_nonneg _) (Real.exp_le_one_iff.2 ?_)
    have := div_nonneg hx hτ.le
    rw [neg_div]; linarith

theorem lawFall_nonneg (p p' : ℝ → ℝ) (x : ℝ) : 0 ≤ lawFall p p' x :=
  setIntegral_nonneg measurableSet_Ioi fun τ _ => mul_nonneg (abs_nonneg _) (Real.exp_pos _).le

theorem lawFall_zero (p p' : ℝ → ℝ) : lawFall p p' 0 = ∫ τ in Ioi (0 : ℝ), |p τ - p' τ| := by
  unfold lawFall
  simp

theorem lawFall_change {p p' : ℝ → ℝ} (h : Lifetimes p) (h' : Lifetimes p') {x y : ℝ} (hx : 0 ≤ x) (hxy : x ≤ y) :
    |((∫ τ in Ioi (0 : ℝ), p τ * Real.exp (-x / τ)) - ∫ τ in Ioi (0 : ℝ), p τ * Real.exp (-y / τ)) -
        ((∫ τ in Ioi (0 : ℝ), p' τ * Real.exp (-x / τ)) - ∫ τ in Ioi (0 : ℝ), p' τ * Real.exp (-y / τ))| ≤
      lawFall p p' x - lawFall p p' y := by
  have hy := hx.trans hxy
  unfold lawFall
  have i1 : IntegrableOn (fun τ => p τ * Real.exp (-x / τ) - p τ * Real.exp (-y / τ)) (Ioi 0) :=
    (h.integrable_exp hx).sub (h.integrable_exp hy)
  have i2 : IntegrableOn (fun τ => p' τ * Real.exp (-x / τ) - p' τ * Real.exp (-y / τ)) (Ioi 0) :=
    (h'.integrable_exp hx).sub (h'.integrable_exp hy)
  rw [← integral_sub (h.integrable_exp hx) (h.integrable_exp hy), ← integral_sub (h'.integrable_exp hx) (h'.integrable_exp hy),
    ← integral_sub i1 i2, ← integral_sub (lawFall_integrable h h' hx) (lawFall_integrable h h' hy)]
  refine (abs_integral_le_integral_abs).trans (setIntegral_mono_on
    (i1.sub i2).abs
    ((lawFall_integrable h h' hx).sub (lawFall_integrable h h' hy)) measurableSet_Ioi fun τ hτ => ?_)
  have hτ : 0 < τ := hτ
  have he : Real.exp (-y / τ) ≤ Real.exp (-x / τ) := Real.exp_le_exp.2 (by
    rw [div_le_div_iff_of_pos_right hτ]; linarith)
  rw [show p τ * Real.exp (-x / τ) - p τ * Real.exp (-y / τ) - (p' τ * Real.exp (-x / τ) - p' τ * Real.exp (-y / τ)) =
    (p τ - p' τ) * (Real.exp (-x / τ) - Real.exp (-y / τ)) by ring, abs_mul, abs_of_nonneg (sub_nonneg.2 he), mul_sub]

/-! ## Groups -/

theorem Ref.slowOf_of_length (l : List Trap) (s : ℕ) (h : l.length = s) :
    Ref.slowOf l = ⟨s, fun j => (l[j.1]'(by rw [h]; exact j.2)).density,
      fun x j => (l[j.1]'(by rw [h]; exact j.2)).balance * (1 - (l[j.1]'(by rw [h]; exact j.2)).memory x),
      fun x j => (l[j.1]'(by rw [h]; exact j.2)).balance + (1 - (l[j.1]'(by rw [h]; exact j.2)).balance) *
        (l[j.1]'(by rw [h]; exact j.2)).memory x,
      fun x j => Real.exp (-x / (l[j.1]'(by rw [h]; exact j.2)).releaseTimescale), fun _ _ => 0⟩ := by
  subst h
  rfl

theorem Ref.clocksOf_of_length (l : List Trap) (s : ℕ) (h : l.length = s) :
    Ref.clocksOf l = ⟨s, fun j => (l[j.1]'(by rw [h]; exact j.2)).density,
      fun j => (l[j.1]'(by rw [h]; exact j.2)).fillFraction, fun _ _ => none⟩ := by
  subst h
  rfl

/-- A group of traps and one with slightly different parameters, none filled. -/
theorem Ref.fullOf_kin {dw ε : ℝ} (hd : 0 < dw) (h0 : 0 ≤ ε) (h1 : ε ≤ 1) {l l' : List Trap}
    (h : List.Forall₂ (Trap.NearSame ε) l l') (hc : ∀ t ∈ l, ∀ u ∈ l, Trap.SameClass t u) (he : EveryGroup l)
    (he' : EveryGroup l') : Ref.FullKin dw ε (Ref.fullOf l) (Ref.fullOf l') 0 := by
  have hlen := h.length_eq
  have near : ∀ (j : ℕ) (h1 : j < l.length) (h2 : j < l'.length), Trap.NearSame ε l[j] l'[j] := fun j h1 h2 =>
    (List.forall₂_iff_get.1 h).2 j h1 h2
  have all : ∀ (j : ℕ) (h2 : j < l'.length), l'[j].Sensible ∧ 0 ≤ l'[j].captureTimescale := fun j h2 =>
    he'.all _ (List.getElem_mem h2)
  have all0 : ∀ (j : ℕ) (h2 : j < l.length), l[j].Sensible ∧ 0 ≤ l[j].captureTimescale := fun j h2 =>
    he.all _ (List.getElem_mem h2)
  have dens : ∀ (j : ℕ) (h1 : j < l.length) (h2 : j < l'.length), |l[j].density - l'[j].density| ≤ ε * l'[j].density := by
    intro j g1 g2
    have n := near j g1 g2
    generalize l[j] = t at n ⊢
    generalize l'[j] = t' at n ⊢
    cases n <;> assumption
  have first : ∃ a, l.head? = some a := by
    cases l with
    | nil => exact absurd rfl he.ne_nil
    | cons a l => exact ⟨a, rfl⟩
  obtain ⟨a, ha⟩ := first
  have hal : a ∈ l := List.mem_of_head? ha
  have cls : ∀ (j : ℕ) (h1 : j < l.length), Trap.SameClass a l[j] := fun j h1 => hc a hal _ (List.getElem_mem h1)
  have reg' := he'.full_reg hd
  cases a with
  | instant d0 τ0 b0 =>
    have e1 : Ref.fullOf l = .inl (.inl (Ref.ofTraps l)) := by
      cases l with
      | nil => simp at ha
      | cons x l => simp at ha; subst ha; rfl
    have e2 : Ref.fullOf l' = .inl (.inl (Ref.ofTraps l')) := by
      cases h with
      | nil => simp at ha
      | cons hx hl =>
        simp at ha; subst ha
        cases hx; rfl
    rw [e2] at reg'
    have reg2 : (Ref.ofTraps l').Reg dw := reg'
    have e := Ref.ofTraps_of_length l' l.length hlen.symm
    rw [e] at reg2
    have := Ref.FullKin.instant (dw := dw) (ε := ε) (Ref.ofTraps l) (fun _ _ => 0)
      (fun j => (l'[j.1]'(by rw [← hlen]; exact j.2)).density)
      (fun x j => Real.exp (-x / (l'[j.1]'(by rw [← hlen]; exact j.2)).releaseTimescale)) reg2
      ⟨fun j => dens j.1 j.2 (by rw [← hlen]; exact j.2), fun j => ?_⟩
    · have hg : (Ref.ofTraps l).gap (fun _ _ => 0) = 0 := by
        unfold Ref.Traps.gap Ref.ofTraps
        simp
      rw [hg] at this
      rw [e1, e2, e]
      exact this
    · have hj : j.1 < l'.length := by rw [← hlen]; exact j.2
      have n := near j.1 j.2 hj
      have s := (all j.1 hj).1
      have c := cls j.1 j.2
      change |Real.exp (-dw / (l[j.1]'j.2).releaseTimescale) - Real.exp (-dw / (l'[j.1]'hj).releaseTimescale)| ≤
        ε * (1 - Real.exp (-dw / (l'[j.1]'hj).releaseTimescale))
      generalize l[j.1]'j.2 = t at n c ⊢
      generalize l'[j.1]'hj = t' at n s ⊢
      cases c
      cases n with
      | instant _ τ d' τ' _ b' hd' hτ =>
        have := exp_near (x := dw) h0 hd.le (one_div_nonneg.2 s.2.le) hτ h1
        rw [mul_one_div, mul_one_div] at this
        exact this
  | trap d0 τ0 c0 b0 =>
    have e1 : Ref.fullOf l = .inl (.inr (Ref.slowOf l)) := by
      cases l with
      | nil => simp at ha
      | cons x l => simp at ha; subst ha; rfl
    have e2 : Ref.fullOf l' = .inl (.inr (Ref.slowOf l')) := by
      cases h with
      | nil => simp at ha
      | cons hx hl =>
        simp at ha; subst ha
        cases hx; rfl
    rw [e2] at reg'
    have reg2 : (Ref.slowOf l').Reg dw := reg'
    have e := Ref.slowOf_of_length l' l.length hlen.symm
    rw [e] at reg2
    have each : ∀ (j : ℕ) (g1 : j < l.length) (g2 : j < l'.length),
        |Real.exp (-dw / l[j].releaseTimescale) - Real.exp (-dw / l'[j].releaseTimescale)| ≤
          ε * (1 - Real.exp (-dw / l'[j].releaseTimescale)) ∧
        |l[j].balance * (1 - l[j].memory dw) - l'[j].balance * (1 - l'[j].memory dw)| ≤ 2 * ε ∧
        |(l[j].balance + (1 - l[j].balance) * l[j].memory dw) -
          (l'[j].balance + (1 - l'[j].balance) * l'[j].memory dw)| ≤ 2 * ε := by
      intro j g1 g2
      have n := near j g1 g2
      have s := all j g2
      have s0 := all0 j g1
      have c := cls j g1
      generalize l[j] = t at n c s0 ⊢
      generalize l'[j] = t' at n s ⊢
      cases c
      cases n with
      | trap _ τ c d' τ' c' _ b' hd' hτ hcc hz =>
        refine ⟨?_, slow_near h0 h1 hd.le s0.1.2 s.1.2 s0.2 s.2 hτ hcc hz⟩
        have := exp_near (x := dw) h0 hd.le (one_div_nonneg.2 s.1.2.le) hτ h1
        rw [mul_one_div, mul_one_div] at this
        exact this
    have := Ref.FullKin.slow (dw := dw) (ε := ε) (Ref.slowOf l) (fun _ _ => 0)
      (fun j => (l'[j.1]'(by rw [← hlen]; exact j.2)).density)
      (fun x j => (l'[j.1]'(by rw [← hlen]; exact j.2)).balance * (1 - (l'[j.1]'(by rw [← hlen]; exact j.2)).memory x))
      (fun x j => (l'[j.1]'(by rw [← hlen]; exact j.2)).balance + (1 - (l'[j.1]'(by rw [← hlen]; exact j.2)).balance) *
        (l'[j.1]'(by rw [← hlen]; exact j.2)).memory x)
      (fun x j => Real.exp (-x / (l'[j.1]'(by rw [← hlen]; exact j.2)).releaseTimescale)) reg2
      ⟨fun j => dens j.1 j.2 (by rw [← hlen]; exact j.2), fun j => (each j.1 j.2 (by rw [← hlen]; exact j.2)).1,
        fun j => (each j.1 j.2 (by rw [← hlen]; exact j.2)).2.1, fun j => (each j.1 j.2 (by rw [← hlen]; exact j.2)).2.2⟩
    have hg : heldGap (Ref.slowOf l).dens (Ref.slowOf l).occ (fun _ _ => 0) = 0 := by
      unfold heldGap Ref.slowOf
      simp
    rw [hg] at this
    rw [e1, e2, e]
    exact this
  | continuum d0 f0 m0 s0 =>
    have e1 : Ref.fullOf l = .inr (Ref.clocksOf l) := by
      cases l with
      | nil => simp at ha
      | cons x l => simp at ha; subst ha; rfl
    have e2 : Ref.fullOf l' = .inr (Ref.clocksOf l') := by
      cases h with
      | nil => simp at ha
      | cons hx hl =>
        simp at ha; subst ha
        cases hx; rfl
    have reg2 := he'.clocks_reg
    have reg0 := he.clocks_reg
    have e := Ref.clocksOf_of_length l' l.length hlen.symm
    rw [e] at reg2
    have each : ∀ (j : ℕ) (g1 : j < l.length) (g2 : j < l'.length), ∃ V : ℝ → ℝ, V 0 ≤ ε ∧ (∀ x, 0 ≤ x → 0 ≤ V x) ∧
        ∀ x y, 0 ≤ x → x ≤ y → |(l[j].fillFraction x - l[j].fillFraction y) - (l'[j].fillFraction x - l'[j].fillFraction y)| ≤
          V x - V y := by
      intro j g1 g2
      have n := near j g1 g2
      have s := (all j g2).1
      have s0 := (all0 j g1).1
      have c := cls j g1
      generalize l[j] = t at n c s0 ⊢
      generalize l'[j] = t' at n s ⊢
      cases c
      cases n with
      | continuum _ mu sigma d' mu' sigma' f f' hd' hf =>
        refine ⟨lawFall _ _, ?_, fun x _ => lawFall_nonneg _ _ x,
          fun x y hx hxy => lawFall_change s0.2.2 s.2.2 hx hxy⟩
        rw [lawFall_zero]
        exact hf
    choose V v1 v2 v3 using each
    have := Ref.FullKin.clock (dw := dw) (ε := ε) (Ref.clocksOf l) (fun _ _ => none)
      (fun j => (l'[j.1]'(by rw [← hlen]; exact j.2)).density)
      (fun j => (l'[j.1]'(by rw [← hlen]; exact j.2)).fillFraction)
      (fun j => V j.1 j.2 (by rw [← hlen]; exact j.2)) reg2 reg0
      (fun j => dens j.1 j.2 (by rw [← hlen]; exact j.2))
      ⟨fun j => v1 j.1 j.2 _, fun j => v2 j.1 j.2 _, fun j => v3 j.1 j.2 _⟩
      ⟨fun d j a ha => by simp at ha, fun x hx j => measurable_const⟩
    have hg : heldGap (Ref.clocksOf l).dens (Ref.clocksOf l).occ ((Ref.clocksOf l).reage fun _ _ => none).occ +
        6 * held (fun j : Fin l.length => (l'[j.1]'(by rw [← hlen]; exact j.2)).density)
          (aged (fun j : Fin l.length => V j.1 j.2 (by rw [← hlen]; exact j.2)) (fun _ _ => none) 0) = 0 := by
      have z1 : heldGap (Ref.clocksOf l).dens (Ref.clocksOf l).occ ((Ref.clocksOf l).reage fun _ _ => none).occ = 0 := by
        change heldGap (Ref.clocksOf l).dens (Ref.clocksOf l).occ (Ref.clocksOf l).occ = 0
        simp [heldGap]
      rw [z1]
      simp [held, aged]
    rw [e1, e2, e]
    have h2 := this
    exact hg ▸ h2

theorem Ref.fullOf_kins {dw ε : ℝ} (hd : 0 < dw) (h0 : 0 ≤ ε) (h1 : ε ≤ 1) {gs gs' : List (List Trap)}
    (h : NearAll ε gs gs') (he : ∀ l ∈ gs, EveryGroup l) (he' : ∀ l ∈ gs', EveryGroup l) :
    Ref.FullKins dw ε (gs.map Ref.fullOf) (gs'.map Ref.fullOf) 0 := by
  induction h with
  | nil => exact .nil
  | @cons l l' gs gs' hl hs ih =>
    have i := ih (fun l hl => he l (List.mem_cons_of_mem _ hl)) fun l hl => he' l (List.mem_cons_of_mem _ hl)
    have := Ref.FullKins.cons (Ref.fullOf_kin hd h0 h1 hl.1 hl.2 (he l List.mem_cons_self) (he' l' List.mem_cons_self)) i
    rw [add_zero] at this
    exact this

section columns
variable {full power dw : ℝ} {gs gs' : List (List Trap)} {i i' : Bool} {c c' : CCD} {o : ℕ} {d d' : PyDirection}

theorem full_close {ε l : ℝ} (h : FullObjects full power dw gs i c o d) (h' : FullObjects full power dw gs' i' c' o d')
    (h0 : 0 ≤ ε) (h1 : ε ≤ 1) (hn : NearAll ε gs gs') (hl : 4 * (trapCount gs * (power / full)) ≤ l)
    (hl' : 4 * (trapCount gs' * (power / full)) ≤ l) (hl1 : l < 1) (n : ℕ) :
    Close n 0 ε (lossSlope l (n + o))
      (Ref.stepReadout (Ref.fullStep (wellFill full power) dw) (gs.map Ref.fullOf) (Ref.allPasses n o))
      (Ref.stepReadout (Ref.fullStep (wellFill full power) dw) (gs'.map Ref.fullOf) (Ref.allPasses n o)) := by
  have hf := wellFill_lip h.full h.power
  have k := h.slope_nonneg
  have D := full_drift (dw := dw) hf h0 h1 hl hl' hl1.le
  have key := D.readout (full_gentle (dw := dw) hf h.count_nonneg (by linarith)) (full_gentle hf h'.count_nonneg (by linarith))
    (by linarith) hl1 (by linarith) n h.few.1 h'.few.1 (Ref.fullOf_kins h.dwell h0 h1 hn h.groups.2 h'.groups.2) h'.few.2
    (Ref.allPasses n o) (allPasses_good n o).nodup (allPasses_one n o)
  rw [allPasses_length] at key
  exact ⟨fun y hy => (key y y hy hy).1, fun x y hx hy => (key x y hx hy).2⟩

end columns

/-! ## C110 -/

section main
variable {fp fs pp ps dp ds : ℝ} {gp gp' gs gs' : List (List Trap)} {ip is ip' is' : Bool} {cp cs cp' cs' : CCD} {op os : ℕ}
  {par ser par' ser' : PyDirection}

/-- **C110**: `add_cti` with two descriptions of traps of all classes that differ by `ε` at most, `well_fill_power ≥ 1`. Let `λ` be at
least four times the numbers of traps per pixel times `power / full_well_depth` and
`q = (1-λ_p)^-(rows+offset_p) · (1-λ_s)^-(columns+offset_s) - 1`. Then the images differ by at most `20 ε q` times the charge
of the image, summed over all pixels. -/
theorem C110_add_cti (hp : FullObjects fp pp dp gp ip cp op par) (hs : FullObjects fs ps ds gs is cs os ser)
    (hp' : FullObjects fp pp dp gp' ip' cp' op par') (hs' : FullObjects fs ps ds gs' is' cs' os ser') (ε : ℝ)
    (h0 : 0 ≤ ε) (h1 : ε ≤ 1) (np : NearAll ε gp gp') (ns : NearAll ε gs gs')
    (img : Image ℝ) (hnr : 0 < img.nr) (hnc : 0 < img.nc) (himg : img.NonNeg) (lp ls q : ℝ)
    (hlp : 4 * (trapCount gp * (pp / fp)) ≤ lp) (hlp' : 4 * (trapCount gp' * (pp / fp)) ≤ lp)
    (hls : 4 * (trapCount gs * (ps / fs)) ≤ ls) (hls' : 4 * (trapCount gs' * (ps / fs)) ≤ ls) (hlp1 : lp < 1) (hls1 : ls < 1)
    (hq : q = (1 / (1 - lp)) ^ (img.nr + op) * (1 / (1 - ls)) ^ (img.nc + os) - 1) :
    ∃ a b roes roes', addCtiPy img par .all ser .all none = .ok (a, roes) ∧
      addCtiPy img par' .all ser' .all none = .ok (b, roes') ∧ a.SameShape img ∧ b.SameShape img ∧
      a.dist b ≤ 20 * ε * q * img.total := by
  have kp := hp.slope_nonneg
  have ks := hs.slope_nonneg
  have kp' := hp'.slope_nonneg
  have ks' := hs'.slope_nonneg
  have mP := (hp.mild (by linarith) img.nr).mono le_rfl (lossSlope_mono hlp hlp1 (img.nr + op))
  have mP' := (hp'.mild (by linarith) img.nr).mono le_rfl (lossSlope_mono hlp' hlp1 (img.nr + op))
  have cP := full_close hp hp' h0 h1 np hlp hlp' hlp1 img.nr
  have cS := full_close hs hs' h0 h1 ns hls hls' hls1 img.nc
  obtain ⟨a, a1, a2, a3, a4⟩ := C103_add_cti hp hs (by linarith) (by linarith) img himg hnr hnc
  obtain ⟨b, b1, b2, b3, b4⟩ := C103_add_cti hp' hs' (by linarith) (by linarith) img himg hnr hnc
  refine ⟨a, b, _, _, a1, b1, ⟨a2, a3⟩, ⟨b2, b3⟩, ?_⟩
  have key := close_image cP cS mP mP' h0 (lossSlope_nonneg (by linarith) hls1 _) img.px himg
  have e : (1 + lossSlope lp (img.nr + op)) * (1 + lossSlope ls (img.nc + os)) - 1 = q := by
    rw [hq]; unfold lossSlope; ring
  rw [e] at key
  refine le_trans (le_of_eq ?_) key
  unfold Image.dist
  rw [a2, a3]
  refine Finset.sum_congr rfl fun r hr => Finset.sum_congr rfl fun c hc => ?_
  rw [a4 r (Finset.mem_range.1 hr) c (Finset.mem_range.1 hc), b4 r (Finset.mem_range.1 hr) c (Finset.mem_range.1 hc)]

/-- **C110**: `remove_cti` with a description of traps of all classes that differs by `ε` at most from the one that the image was
made with. If `q < 1` and every pixel of the true image has at least `q + 20 ε q / (1-q)` times the total charge of the image,
the image returned after `n` iterations differs from the true image by at most `q^(n+1) + 20 ε q / (1-q)` times its total
charge. -/
theorem C110_remove_cti (hp : FullObjects fp pp dp gp ip cp op par) (hs : FullObjects fs ps ds gs is cs os ser)
    (hp' : FullObjects fp pp dp gp' ip cp op par') (hs' : FullObjects fs ps ds gs' is cs os ser') (ε : ℝ)
    (h0 : 0 ≤ ε) (h1 : ε ≤ 1) (np : NearAll ε gp gp') (ns : NearAll ε gs gs')
    (truth : Image ℝ) (hnr : 0 < truth.nr) (hnc : 0 < truth.nc) (lp ls q : ℝ)
    (hlp : 4 * (trapCount gp * (pp / fp)) ≤ lp) (hlp' : 4 * (trapCount gp' * (pp / fp)) ≤ lp)
    (hls : 4 * (trapCount gs * (ps / fs)) ≤ ls) (hls' : 4 * (trapCount gs' * (ps / fs)) ≤ ls) (hlp1 : lp < 1) (hls1 : ls < 1)
    (hq : q = (1 / (1 - lp)) ^ (truth.nr + op) * (1 / (1 - ls)) ^ (truth.nc + os) - 1) (hq1 : q < 1) (hpos : 0 ≤ truth.total)
    (htruth : ∀ r < truth.nr, ∀ c < truth.nc, (q + 20 * ε * q / (1 - q)) * truth.total ≤ truth.px r c) :
    ∃ img roes, addCtiPy truth par' .all ser' .all none = .ok (img, roes) ∧
      ∀ n, ∃ out, removeCtiPy img n par .all ser .all none = .ok (out, par.roe, ser.roe) ∧ out.SameShape truth ∧
        out.dist truth ≤ (q ^ (n + 1) + 20 * ε * q / (1 - q)) * truth.total := by
  have kp := hp.slope_nonneg
  have ks := hs.slope_nonneg
  have kp' := hp'.slope_nonneg
  have ks' := hs'.slope_nonneg
  have mP := (hp.mild (by linarith) truth.nr).mono le_rfl (lossSlope_mono hlp hlp1 (truth.nr + op))
  have mP' := (hp'.mild (by linarith) truth.nr).mono le_rfl (lossSlope_mono hlp' hlp1 (truth.nr + op))
  have mS := (hs.mild (by linarith) truth.nc).mono le_rfl (lossSlope_mono hls hls1 (truth.nc + os))
  have mS' := (hs'.mild (by linarith) truth.nc).mono le_rfl (lossSlope_mono hls' hls1 (truth.nc + os))
  have cP := full_close hp hp' h0 h1 np hlp hlp' hlp1 truth.nr
  have cS := full_close hs hs' h0 h1 ns hls hls' hls1 truth.nc
  have q0p := lossSlope_nonneg (by linarith : 0 ≤ lp) hlp1 (truth.nr + op)
  have q0s := lossSlope_nonneg (by linarith : 0 ≤ ls) hls1 (truth.nc + os)
  have qe : (1 + lossSlope lp (truth.nr + op)) * (1 + lossSlope ls (truth.nc + os)) - 1 = q := by
    rw [hq]; unfold lossSlope; ring
  have hq0 : 0 ≤ q := by rw [← qe]; nlinarith
  have hE : 0 ≤ 20 * ε * q := mul_nonneg (by linarith) hq0
  have hd : 0 ≤ 20 * ε * q / (1 - q) := div_nonneg hE (by linarith)
  have ht0 : ∀ r < truth.nr, ∀ c < truth.nc, 0 ≤ truth.px r c := fun r hr c hc =>
    (mul_nonneg (by linarith) hpos).trans (htruth r hr c hc)
  have key := close_image cP cS mP mP' h0 q0s truth.px ht0
  rw [qe] at key
  exact remove_other hp' hs' (by linarith) (by linarith) hp hs (by linarith) (by linarith) truth hnr hnc _ _ q (20 * ε * q) q0s qe
    hq0 hq1 hE mP mS mP' mS' hpos htruth key

end main

/-! ### a case -/

/-- One lifetime in a hundred belongs to traps of twice the median lifetime. -/
noncomputable def exMix (τ m s : ℝ) : ℝ := 0.99 * Trap.logNormal τ m s + 0.01 * Trap.logNormal τ (2 * m) s

theorem exMix_lifetimes : Lifetimes fun τ => exMix τ 3 (1 / 2) := by
  have a : Lifetimes fun τ => Trap.logNormal τ 3 (1 / 2) := C45_logNormal (by norm_num) (by norm_num)
  have b : Lifetimes fun τ => Trap.logNormal τ (2 * 3) (1 / 2) := C45_logNormal (by norm_num) (by norm_num)
  refine ⟨fun τ hτ => ?_, (a.integrable.const_mul 0.99).add (b.integrable.const_mul 0.01), ?_⟩
  · have := a.nonneg τ hτ
    have := b.nonneg τ hτ
    unfold exMix
    linarith
  · unfold exMix
    rw [integral_add (a.integrable.const_mul 0.99) (b.integrable.const_mul 0.01), integral_const_mul, integral_const_mul, a.total,
      b.total]
    norm_num

theorem exMix_near : ∫ τ in Ioi (0 : ℝ), |Trap.logNormal τ 3 (1 / 2) - exMix τ 3 (1 / 2)| ≤ 0.02 := by
  have a : Lifetimes fun τ => Trap.logNormal τ 3 (1 / 2) := C45_logNormal (by norm_num) (by norm_num)
  have b : Lifetimes fun τ => Trap.logNormal τ (2 * 3) (1 / 2) := C45_logNormal (by norm_num) (by norm_num)
  have key : ∫ τ in Ioi (0 : ℝ), |Trap.logNormal τ 3 (1 / 2) - exMix τ 3 (1 / 2)| ≤
      ∫ τ in Ioi (0 : ℝ), (0.01 * Trap.logNormal τ 3 (1 / 2) + 0.01 * Trap.logNormal τ (2 * 3) (1 / 2)) := by
    refine setIntegral_mono_on (a.integrable.sub exMix_lifetimes.integrable).abs
      ((a.integrable.const_mul 0.01).add (b.integrable.const_mul 0.01)) measurableSet_Ioi fun τ hτ => ?_
    have := a.nonneg τ hτ
    have := b.nonneg τ hτ
    unfold exMix
    rw [abs_le]
    constructor <;> linarith
  rw [integral_add (a.integrable.const_mul 0.01) (b.integrable.const_mul 0.01), integral_const_mul, integral_const_mul, a.total,
    b.total] at key
  refine key.trans (by norm_num)

/-- Three rows and two columns of 100 electrons. The traps that made the image have other lifetimes, one per cent more of those with
a capture timescale and, for those with instant capture, one per cent longer release times than the description used for the
correction: after three iterations the corrected image is within 3 of 600 electrons of the true one. -/
example : ∃ img roes out, addCtiPy ⟨3, 2, fun _ _ => 100⟩
      ⟨some ⟨[1], [1000], [1], [0], [.num 1000]⟩, some (.standard [1] true true true false),
        some (.list ([[.continuum 0.1 exMix 3 (1 / 2)], [.trap 0.101 2 0.101 false], [.instant 0.1 5.05 false]].map .group)), 0, 2⟩
      .all
      ⟨some ⟨[1], [1000], [1], [0], [.num 1000]⟩, some (.standard [1] true true true false),
        some (.list ([[.continuum 0.1 exMix 3 (1 / 2)], [.trap 0.101 2 0.101 false], [.instant 0.1 5.05 false]].map .group)), 0, 2⟩
      .all none = .ok (img, roes) ∧
    removeCtiPy img 3
      ⟨some ⟨[1], [1000], [1], [0], [.num 1000]⟩, some (.standard [1] true true true false),
        some (.list ([[.logNormalTrap 0.1 3 (1 / 2)], [.trap 0.1 2 0.1 false], [.instant 0.1 5 false]].map .group)), 0, 2⟩ .all
      ⟨some ⟨[1], [1000], [1], [0], [.num 1000]⟩, some (.standard [1] true true true false),
        some (.list ([[.logNormalTrap 0.1 3 (1 / 2)], [.trap 0.1 2 0.1 false], [.instant 0.1 5 false]].map .group)), 0, 2⟩ .all
      none = .ok (out, some (.standard [1] true true true false), some (.standard [1] true true true false)) ∧
    out.dist ⟨3, 2, fun _ _ => 100⟩ ≤ 3 := by
  have h := exFull
  have h' : FullObjects 1000 1 1
      [[.continuum 0.1 exMix 3 (1 / 2)], [.trap 0.101 2 0.101 false], [.instant 0.1 5.05 false]] false
      ⟨[1], [1000], [1], [0], [.num 1000]⟩ 2
      ⟨some ⟨[1], [1000], [1], [0], [.num 1000]⟩, some (.standard [1] true true true false),
        some (.list ([[.continuum 0.1 exMix 3 (1 / 2)], [.trap 0.101 2 0.101 false], [.instant 0.1 5.05 false]].map .group)),
        0, 2⟩ := by
    refine ⟨rfl, h.phase, h.full, h.power, h.dwell, by simp, fun l hl => ?_⟩
    simp only [List.mem_cons, List.not_mem_nil, or_false] at hl
    rcases hl with rfl | rfl | rfl
    · refine ⟨by simp, fun t ht => ?_⟩
      simp only [List.mem_cons, List.not_mem_nil, or_false] at ht
      subst ht
      exact ⟨⟨by norm_num, by norm_num, exMix_lifetimes⟩, le_rfl⟩
    · refine ⟨by simp, fun t ht => ?_⟩
      simp only [List.mem_cons, List.not_mem_nil, or_false] at ht
      subst ht
      exact ⟨⟨by norm_num, by norm_num⟩, by simp only [Trap.captureTimescale]; norm_num⟩
    · refine ⟨by simp, fun t ht => ?_⟩
      simp only [List.mem_cons, List.not_mem_nil, or_false] at ht
      subst ht
      exact ⟨⟨by norm_num, by norm_num⟩, le_rfl⟩
  have hc' : trapCount [[.continuum 0.1 exMix 3 (1 / 2)], [.trap 0.101 2 0.101 false], [.instant 0.1 5.05 false]] = 0.301 := by
    simp [trapCount, Trap.density]; norm_num
  have hn : NearAll 0.02 [[.logNormalTrap 0.1 3 (1 / 2)], [.trap 0.1 2 0.1 false], [.instant 0.1 5 false]]
      [[.continuum 0.1 exMix 3 (1 / 2)], [.trap 0.101 2 0.101 false], [.instant 0.1 5.05 false]] := by
    refine .cons ⟨.cons (.continuum _ _ _ _ _ _ _ _ ?_ exMix_near) .nil, ?_⟩
      (.cons ⟨.cons (.trap _ _ _ _ _ _ _ _ ?_ ?_ ?_ ?_) .nil, ?_⟩ (.cons ⟨.cons (.instant _ _ _ _ _ _ ?_ ?_) .nil, ?_⟩ .nil))
    · unfold Within; norm_num
    · intro t ht u hu
      simp only [List.mem_cons, List.not_mem_nil, or_false] at ht hu
      subst ht hu
      exact .continuum ..
    · unfold Within; rw [abs_le]; norm_num
    · unfold Within; norm_num
    · unfold Within; rw [abs_le]; norm_num
    · norm_num
    · intro t ht u hu
      simp only [List.mem_cons, List.not_mem_nil, or_false] at ht hu
      subst ht hu
      exact .trap ..
    · unfold Within; norm_num
    · unfold Within; rw [abs_le]; norm_num
    · intro t ht u hu
      simp only [List.mem_cons, List.not_mem_nil, or_false] at ht hu
      subst ht hu
      exact .instant ..
  obtain ⟨q, hq⟩ : ∃ q : ℝ, q = (1 / (1 - 0.001204)) ^ (3 + 2) * (1 / (1 - 0.001204)) ^ (2 + 2) - 1 := ⟨_, rfl⟩
  have hq0 : 0 ≤ q := by rw [hq]; norm_num
  have hq1 : q ≤ 0.011 := by rw [hq]; norm_num
  have htot : Image.total (⟨3, 2, fun _ _ => 100⟩ : Image ℝ) = 600 := by
    simp [Image.total]; norm_num
  have hfrac : 20 * 0.02 * q / (1 - q) ≤ 0.0045 := by
    rw [div_le_iff₀ (by linarith)]
    linarith
  obtain ⟨img, roes, g1, G⟩ := C110_remove_cti h h h' h' 0.02 (by norm_num) (by norm_num) hn hn
    (⟨3, 2, fun _ _ => 100⟩ : Image ℝ) (by norm_num) (by norm_num) 0.001204 0.001204 q (by rw [exFull_count]; norm_num)
    (by rw [hc']; norm_num) (by rw [exFull_count]; norm_num) (by rw [hc']; norm_num) (by norm_num) (by norm_num) hq (by linarith)
    (by rw [htot]; norm_num) (fun r hr c hc' => by
      rw [htot]
      simp only
      linarith)
  obtain ⟨out, g2, -, g3⟩ := G 3
  refine ⟨img, roes, out, g1, g2, g3.trans ?_⟩
  rw [htot]
  have e : q ^ (3 + 1) ≤ 0.011 ^ (3 + 1) := pow_le_pow_left₀ hq0 hq1 _
  norm_num at e ⊢
  norm_num at hfrac
  linarith

end Arctic
