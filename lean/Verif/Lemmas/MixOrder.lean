import Verif.Lemmas.MixGentle
import Verif.Lemmas.RefContract

/-!
# Brighter clouds over fuller traps, with instant and with slow capture
-/

set_option linter.unusedSectionVars false
set_option linter.unusedVariables false

namespace Arctic
open MeasureTheory
open Ref (stepRow stepPass stepReadout)

section zones
variable {s : ℕ}

theorem held_mono {dens : Fin s → ℝ} (hd : ∀ j, 0 ≤ dens j) {x y : ℝ → Fin s → ℝ} (hx : FilledParts x) (hy : FilledParts y)
    (hxy : ∀ d j, x d j ≤ y d j) : held dens x ≤ held dens y :=
  Finset.sum_le_sum fun j _ => mul_le_mul_of_nonneg_left
    (intervalIntegral.integral_mono_on zero_le_one (hx.integrable j 0 1) (hy.integrable j 0 1) fun d _ => hxy d j) (hd j)

/-- If the traps inside end up fuller than those outside, order is kept. -/
theorem zones_mono {a c a' c' : Fin s → ℝ} (h : ∀ j, 0 ≤ c j) (h' : ∀ j, 0 ≤ c' j) {x y : ℝ → Fin s → ℝ}
    (hxy : ∀ d j, x d j ≤ y d j) (hin : ∀ d j, a' j + c' j * y d j ≤ a j + c j * y d j) {z z' : ℝ} (hz : z ≤ z') :
    ∀ d j, zones a c a' c' x z d j ≤ zones a c a' c' y z' d j := by
  intro d j
  have e1 := mul_le_mul_of_nonneg_left (hxy d j) (h j)
  have e2 := mul_le_mul_of_nonneg_left (hxy d j) (h' j)
  have e3 := hin d j
  unfold zones
  by_cases h1 : d ≤ z
  · rw [if_pos h1, if_pos (h1.trans hz)]; linarith
  · rw [if_neg h1]
    split <;> linarith

/-- A brighter cloud over fuller traps loses at most one electron per trap that it covers in addition. -/
theorem zones_gain {dens a c a' c' : Fin s → ℝ} (hd : ∀ j, 0 ≤ dens j) (h : ∀ j, FracMap (a j) (c j))
    (h' : ∀ j, FracMap (a' j) (c' j)) {x y : ℝ → Fin s → ℝ} (hx : FilledParts x) (hy : FilledParts y)
    (hxy : ∀ d j, x d j ≤ y d j) {z z' : ℝ} (hz : 0 ≤ z) (hzz : z ≤ z') (hz' : z' ≤ 1) :
    -((∑ j, dens j) * (z' - z)) ≤
      (held dens y - held dens (zones a c a' c' y z')) - (held dens x - held dens (zones a c a' c' x z)) := by
  have hX := zones_fractions h h' hx z
  have hY := zones_fractions h h' hy z'
  rw [held_sub hy hY, held_sub hx hX, ← Finset.sum_sub_distrib, Finset.sum_mul, ← Finset.sum_neg_distrib]
  refine Finset.sum_le_sum fun j _ => ?_
  rw [← mul_sub, ← mul_neg]
  refine mul_le_mul_of_nonneg_left ?_ (hd j)
  have i1 := (hx.integrable j 0 1).sub (hX.integrable j 0 1)
  have i2 := (hy.integrable j 0 1).sub (hY.integrable j 0 1)
  rw [← intervalIntegral.integral_sub i2 i1]
  have m7 : Measurable fun d : ℝ => (if d ≤ z then (1 : ℝ) else 0) - if d ≤ z' then 1 else 0 :=
    (Measurable.ite measurableSet_Iic measurable_const measurable_const).sub
      (Measurable.ite measurableSet_Iic measurable_const measurable_const)
  have i7 : IntervalIntegrable (fun d : ℝ => |(if d ≤ z then (1 : ℝ) else 0) - if d ≤ z' then 1 else 0|) volume 0 1 :=
    integrable_bdd (g := fun d : ℝ => |(if d ≤ z then (1 : ℝ) else 0) - if d ≤ z' then 1 else 0|) 1
      (continuous_abs.measurable.comp m7) (fun d => by rw [abs_abs]; split <;> split <;> simp) _ _
  have e := indicator_gap hz (hzz.trans hz') (hz.trans hzz) hz'
  rw [abs_sub_comm z z', abs_of_nonneg (sub_nonneg.2 hzz)] at e
  rw [← e, ← intervalIntegral.integral_neg]
  refine intervalIntegral.integral_mono_on zero_le_one i7.neg (i2.sub i1) fun d _ => ?_
  have q := hx.frac d j
  have q' := hy.frac d j
  have b1 := (h j).range q
  have b2 := (h' j).range q
  have b1' := (h j).range q'
  have b2' := (h' j).range q'
  have hle := hxy d j
  have k1 := mul_le_mul_of_nonneg_right (by linarith [(h j).1, (h j).2.2] : c j ≤ 1) (sub_nonneg.2 hle)
  have k2 := mul_le_mul_of_nonneg_right (by linarith [(h' j).1, (h' j).2.2] : c' j ≤ 1) (sub_nonneg.2 hle)
  unfold zones
  by_cases h1 : d ≤ z
  · have h2 := h1.trans hzz
    simp only [h1, h2, if_true, sub_self, abs_zero, neg_zero]
    nlinarith
  · by_cases h2 : d ≤ z'
    · simp only [h1, h2, if_true, if_false, zero_sub, abs_neg, abs_one]
      linarith
    · simp only [h1, h2, if_false, sub_self, abs_zero, neg_zero]
      nlinarith

end zones

section slow
variable {dw : ℝ} {t : Ref.Slow}

/-- No depth is fuller than the equilibrium inside a cloud. -/
def Ref.Slow.Settled (dw : ℝ) (t : Ref.Slow) : Prop :=
  ∀ d j, (1 - (t.hold dw j - t.take dw j)) * t.occ d j ≤ t.take dw j

theorem Ref.Slow.Reg.first_settled (h : t.Reg dw) (hs : t.Settled dw) (f : ℝ → ℝ) (n : ℝ) :
    (t.refill (t.first f dw n)).Settled dw := by
  intro d j
  have h1 := h.swap j
  have h2 := h.keep j
  have q := h.occ.frac d j
  have h3 := hs d j
  change (1 - (t.hold dw j - t.take dw j)) * t.first f dw n d j ≤ t.take dw j
  refine le_trans (mul_le_mul_of_nonneg_left ?_ (by linarith [h1.1, h1.2.2])) h3
  unfold Ref.Slow.first zones
  have := mul_le_mul_of_nonneg_right (by linarith [h2.2.2] : t.keep dw j ≤ 1) q.1
  split <;> linarith

theorem Ref.Slow.Reg.second_settled (h : t.Reg dw) (hs : t.Settled dw) (f : ℝ → ℝ) (n : ℝ) :
    (t.refill (t.second f dw n)).Settled dw := by
  intro d j
  have h1 := h.swap j
  have h3 : (1 - (t.hold dw j - t.take dw j)) * t.first f dw n d j ≤ t.take dw j := h.first_settled hs f n d j
  change (1 - (t.hold dw j - t.take dw j)) * t.second f dw n d j ≤ t.take dw j
  unfold Ref.Slow.second zones
  split
  · have := mul_le_mul_of_nonneg_left h3 h1.2.1
    nlinarith
  · linarith

/-- A brighter cloud over fuller traps leaves fuller traps behind, and what it gains is not much less. -/
theorem slow_mono {o : ℝ → Fin t.s → ℝ} {f : ℝ → ℝ} {L : ℝ} (h : t.Reg dw) (h' : (t.refill o).Reg dw)
    (hs : (t.refill o).Settled dw) (hle : ∀ d j, t.occ d j ≤ o d j) (hf : LipFill f L) (hL : t.total * L ≤ 1) {n n' : ℝ}
    (hn : n ≤ n') :
    (∀ d j, t.second f dw n d j ≤ (t.refill o).second f dw n' d j) ∧
      -(2 * (t.total * L) * (n' - n)) ≤ (held t.dens o - held t.dens ((t.refill o).second f dw n')) -
        (held t.dens t.occ - held t.dens (t.second f dw n)) := by
  have k0 := mul_nonneg h.total_nonneg hf.nonneg_slope
  have m1 : ∀ d j, t.first f dw n d j ≤ (t.refill o).first f dw n' d j :=
    zones_mono (fun _ => zero_le_one) (fun j => (h.keep j).2.1) hle (fun d j => by
      have := mul_le_mul_of_nonneg_right (by linarith [(h.keep j).2.2] : t.keep dw j ≤ 1) (h'.occ.frac d j).1
      rw [one_mul] at this
      simp only [zero_add, one_mul]
      exact this) (hf.mono hn)
  have d1 : -(t.total * (f n' - f n)) ≤ (held t.dens o - held t.dens ((t.refill o).first f dw n')) -
      (held t.dens t.occ - held t.dens (t.first f dw n)) :=
    zones_gain h.dens (fun _ => fracMap_id) h.keep h.occ h'.occ hle (hf.nonneg n) (hf.mono hn) (hf.le_one n')
  have l1 := mul_le_mul_of_nonneg_left (hf.lip n n' hn) h.total_nonneg
  have ec : (t.refill o).cloud f dw n' - t.cloud f dw n = (n' - n) + ((held t.dens o - held t.dens ((t.refill o).first f dw n')) -
      (held t.dens t.occ - held t.dens (t.first f dw n))) := by
    unfold Ref.Slow.cloud
    change n' + (held t.dens o - held t.dens ((t.refill o).first f dw n')) - _ = _
    ring
  have l2 := mul_le_mul_of_nonneg_right hL (sub_nonneg.2 hn)
  have hc : t.cloud f dw n ≤ (t.refill o).cloud f dw n' := by
    have : 0 ≤ (t.refill o).cloud f dw n' - t.cloud f dw n := by rw [ec]; nlinarith
    linarith
  have m2 : ∀ d j, t.second f dw n d j ≤ (t.refill o).second f dw n' d j :=
    zones_mono (fun j => (h.swap j).2.1) (fun _ => zero_le_one) m1 (fun d j => by
      have : (1 - (t.hold dw j - t.take dw j)) * (t.refill o).first f dw n' d j ≤ t.take dw j :=
        h'.first_settled hs f n' d j
      simp only [zero_add, one_mul]
      change _ ≤ t.take dw j + _
      linarith) (hf.mono hc)
  have d2 : -(t.total * (f ((t.refill o).cloud f dw n') - f (t.cloud f dw n))) ≤
      (held t.dens ((t.refill o).first f dw n') - held t.dens ((t.refill o).second f dw n')) -
      (held t.dens (t.first f dw n) - held t.dens (t.second f dw n)) :=
    zones_gain h.dens h.swap (fun _ => fracMap_id) (h.first f n) (h'.first f n') m1 (hf.nonneg _) (hf.mono hc) (hf.le_one _)
  have l3 := mul_le_mul_of_nonneg_left (hf.lip _ _ hc) h.total_nonneg
  refine ⟨m2, ?_⟩
  set κ := t.total * L with hκ
  set D := (held t.dens o - held t.dens ((t.refill o).first f dw n')) -
      (held t.dens t.occ - held t.dens (t.first f dw n)) with hD
  have e3 : t.total * (L * ((t.refill o).cloud f dw n' - t.cloud f dw n)) = κ * ((n' - n) + D) := by rw [ec, hκ]; ring
  have e1 : t.total * (L * (n' - n)) = κ * (n' - n) := by rw [hκ]; ring
  rw [e3] at l3
  rw [e1] at l1
  have g1 : -(κ * (n' - n)) ≤ D := by linarith
  have g2 := mul_le_mul_of_nonneg_left g1 (by linarith : 0 ≤ 1 - κ)
  have g3 := mul_nonneg (mul_nonneg k0 k0) (sub_nonneg.2 hn)
  nlinarith

end slow

/-! ### groups -/

/-- Densities and fractions that make sense, no depth fuller than in equilibrium. -/
def Ref.MixTraps.Calm (dw : ℝ) : Ref.MixTraps → Prop
  | .inl t => t.Reg dw
  | .inr t => t.Reg dw ∧ t.Settled dw

/-- The same traps, fuller at every depth. -/
inductive Ref.MixBelow (dw : ℝ) : Ref.MixTraps → Ref.MixTraps → Prop
  | inl (t : Ref.Traps) (o : ℝ → Fin t.s → ℝ) (hle : ∀ d j, t.occ d j ≤ o d j) : MixBelow dw (.inl t) (.inl (t.refill o))
  | inr (t : Ref.Slow) (o : ℝ → Fin t.s → ℝ) (hle : ∀ d j, t.occ d j ≤ o d j) : MixBelow dw (.inr t) (.inr (t.refill o))

section group
variable {dw L : ℝ} {f : ℝ → ℝ} {t t' : Ref.MixTraps}

theorem Ref.MixTraps.Calm.reg (h : t.Calm dw) : t.Reg dw := by
  cases t with
  | inl t => exact h
  | inr t => exact h.1

theorem Ref.MixTraps.Calm.step (hf : LipFill f L) (h : t.Calm dw) (hL : t.total * L ≤ 1) (n : ℝ) :
    (Ref.MixTraps.transfer f dw t n).2.Calm dw := by
  cases t with
  | inl t =>
    have := (mix_transfer (t := .inl t) hf h hL n).1
    exact this
  | inr t =>
    have e : Ref.MixTraps.transfer f dw (.inr t) n = ((held t.dens t.occ - held t.dens (t.second f dw n)),
        .inr (t.refill (t.second f dw n))) := by
      unfold Ref.MixTraps.transfer
      simp only [Ref.Slow.transfer_eq]
    rw [e]
    exact ⟨h.1.step f n, h.1.second_settled h.2 f n⟩

theorem Ref.MixBelow.step (hf : LipFill f L) (hb : Ref.MixBelow dw t t') (h : t.Calm dw) (h' : t'.Calm dw)
    (hL : t.total * L ≤ 1) {n n' : ℝ} (hn : n ≤ n') :
    Ref.MixBelow dw (Ref.MixTraps.transfer f dw t n).2 (Ref.MixTraps.transfer f dw t' n').2 ∧
      -(2 * (t.total * L) * (n' - n)) ≤
        (Ref.MixTraps.transfer f dw t' n').1 - (Ref.MixTraps.transfer f dw t n).1 := by
  cases hb with
  | inl t o hle =>
    have hh : t.Reg dw := h
    have hr : (t.refill o).Reg dw := h'
    have hL1 : t.total * L ≤ 1 := hL
    have hL' : (t.refill o).total * L ≤ 1 := hL
    obtain ⟨j1, j2⟩ := plain_mono hh hr hle hf hL1 hn
    have e1 := hh.transfer_plain hf hL1 n
    have e2 := hr.transfer_plain hf hL' n'
    unfold Ref.MixTraps.transfer
    simp only [e1, e2]
    refine ⟨.inl (t.plain f dw n).2 ((t.refill o).plain f dw n').2.occ j2, ?_⟩
    have k := mul_nonneg (mul_nonneg hh.total_nonneg hf.nonneg_slope) (sub_nonneg.2 hn)
    change -(2 * (t.total * L) * (n' - n)) ≤ _
    linarith
  | inr t o hle =>
    have hh : t.Reg dw := h.1
    have hr : (t.refill o).Reg dw := h'.1
    obtain ⟨j1, j2⟩ := slow_mono hh hr h'.2 hle hf hL hn
    unfold Ref.MixTraps.transfer
    simp only [Ref.Slow.transfer_eq]
    exact ⟨.inr (t.refill (t.second f dw n)) ((t.refill o).second f dw n') j1, j2⟩

theorem Ref.MixBelow.refl (t : Ref.MixTraps) : Ref.MixBelow dw t t := by
  cases t with
  | inl t => exact .inl t t.occ fun _ _ => le_rfl
  | inr t => exact .inr t t.occ fun _ _ => le_rfl

theorem Ref.MixBelow.total (hb : Ref.MixBelow dw t t') : t'.total = t.total := by
  cases hb <;> rfl

theorem Ref.MixBelow.filled_le (hb : Ref.MixBelow dw t t') (h : t.Reg dw) (h' : t'.Reg dw) : t.filled ≤ t'.filled := by
  cases hb with
  | inl t o hle =>
    have hh : t.Reg dw := h
    have hr : (t.refill o).Reg dw := h'
    have := held_mono (x := t.occ) (y := o) hh.dens ⟨hh.frac, hh.meas⟩ ⟨hr.frac, hr.meas⟩ hle
    exact this
  | inr t o hle =>
    have hh : t.Reg dw := h
    have hr : (t.refill o).Reg dw := h'
    exact held_mono hh.dens hh.occ hr.occ hle

end group

/-! ### steps that keep order -/

/-- A step of the traps that keeps order and charge. -/
structure Orderly {σ : Type} (step : σ → ℝ → ℝ × σ) (Inv : σ → Prop) (below : σ → σ → Prop) (mass : σ → ℝ) : Prop where
  inv : ∀ s n, Inv s → Inv (step s n).2
  refl : ∀ s, below s s
  order : ∀ s s' n n', Inv s → Inv s' → below s s' → n ≤ n' →
    below (step s n).2 (step s' n').2 ∧ n + (step s n).1 ≤ n' + (step s' n').1
  gain : ∀ s n, Inv s → (step s n).1 = mass s - mass (step s n).2
  mass_le : ∀ s s', Inv s → Inv s' → below s s' → mass s ≤ mass s'

section orderly
variable {σ : Type} {step : σ → ℝ → ℝ × σ} {Inv : σ → Prop} {below : σ → σ → Prop} {mass : σ → ℝ}

/-- One pass over two columns, one of them brighter. -/
theorem Orderly.pass (h : Orderly step Inv below mass) (R : ℕ) (todo : List (ℕ × ℝ)) :
    ∀ (x y : ℕ → ℝ) (s s' : σ), Inv s → Inv s' → below s s' → (∀ p ∈ todo, p.1 < R ∧ p.2 = 1) → (∀ r < R, x r ≤ y r) →
      (∀ r < R, (todo.foldl (stepRow step) (x, s)).1 r ≤ (todo.foldl (stepRow step) (y, s')).1 r) ∧
      ∑ r ∈ Finset.range R, (todo.foldl (stepRow step) (y, s')).1 r -
        ∑ r ∈ Finset.range R, (todo.foldl (stepRow step) (x, s)).1 r ≤
      (∑ r ∈ Finset.range R, y r - ∑ r ∈ Finset.range R, x r) + (mass s' - mass s) := by
  induction todo with
  | nil =>
    intro x y s s' hs hs' hb _ hxy
    refine ⟨hxy, ?_⟩
    simp only [List.foldl_nil]
    linarith [h.mass_le s s' hs hs' hb]
  | cons p todo ih =>
    intro x y s s' hs hs' hb hp hxy
    obtain ⟨p1, p2⟩ := hp p List.mem_cons_self
    obtain ⟨b1, hle⟩ := h.order s s' _ _ hs hs' hb (hxy p.1 p1)
    have a1 := h.inv s (x p.1) hs
    have a1' := h.inv s' (y p.1) hs'
    have g := h.gain s (x p.1) hs
    have g' := h.gain s' (y p.1) hs'
    have er : ∀ (v : ℕ → ℝ) (u : σ), stepRow step (v, u) p =
        (Function.update v p.1 (max 0 (v p.1 + (step u (v p.1)).1)), (step u (v p.1)).2) := by
      intro v u
      unfold stepRow
      simp only [p2, one_ne_zero, if_false, mul_one]
    rw [List.foldl_cons, List.foldl_cons, er, er]
    obtain ⟨i1, i2⟩ := ih (Function.update x p.1 (max 0 (x p.1 + (step s (x p.1)).1)))
      (Function.update y p.1 (max 0 (y p.1 + (step s' (y p.1)).1))) _ _ a1 a1' b1
      (fun q hq => hp q (List.mem_cons_of_mem _ hq)) (fun r hr => by
        by_cases hrp : r = p.1
        · subst hrp
          rw [Function.update_self, Function.update_self]
          exact max_le_max le_rfl hle
        · rw [Function.update_of_ne hrp, Function.update_of_ne hrp]
          exact hxy r hr)
    refine ⟨i1, i2.trans ?_⟩
    rw [sum_update_sub x p1, sum_update_sub y p1]
    have hm : max 0 (y p.1 + (step s' (y p.1)).1) - max 0 (x p.1 + (step s (x p.1)).1) ≤
        (y p.1 + (step s' (y p.1)).1) - (x p.1 + (step s (x p.1)).1) := by
      rcases le_total 0 (x p.1 + (step s (x p.1)).1) with h | h
      · rw [max_eq_right h, max_eq_right (h.trans hle)]
      · rw [max_eq_left h]
        rcases le_total 0 (y p.1 + (step s' (y p.1)).1) with h' | h'
        · rw [max_eq_right h']; linarith
        · rw [max_eq_left h']; linarith
    linarith

/-- A readout: brighter columns stay brighter, and their surplus does not grow. -/
theorem Orderly.readout (h : Orderly step Inv below mass) (R : ℕ) {s : σ} (hs : Inv s)
    (passes : List (List (ℕ × ℝ))) (hp : OnePasses R passes) (x y : ℕ → ℝ) (hxy : ∀ r < R, x r ≤ y r) :
    (∀ r < R, stepReadout step s passes x r ≤ stepReadout step s passes y r) ∧
      ∑ r ∈ Finset.range R, stepReadout step s passes y r - ∑ r ∈ Finset.range R, stepReadout step s passes x r ≤
        ∑ r ∈ Finset.range R, y r - ∑ r ∈ Finset.range R, x r := by
  induction passes generalizing x y with
  | nil => exact ⟨hxy, le_rfl⟩
  | cons todo passes ih =>
    obtain ⟨a1, a2⟩ := h.pass R todo x y s s hs hs (h.refl s) (hp todo List.mem_cons_self) hxy
    unfold stepReadout at *
    rw [List.foldl_cons, List.foldl_cons]
    obtain ⟨i1, i2⟩ := ih (fun t ht => hp t (List.mem_cons_of_mem _ ht)) _ _ a1
    refine ⟨i1, i2.trans ?_⟩
    rw [sub_self, add_zero] at a2
    exact a2

/-- A readout does not move columns apart. -/
theorem Orderly.contract (h : Orderly step Inv below mass) (R : ℕ) {s : σ} (hs : Inv s) (passes : List (List (ℕ × ℝ)))
    (hp : OnePasses R passes) (x y : ℕ → ℝ) :
    colDist R (stepReadout step s passes x) (stepReadout step s passes y) ≤ colDist R x y :=
  colDist_le_of_surplus (h.readout R hs passes hp x _ fun r _ => le_max_left _ _)
    (h.readout R hs passes hp y _ fun r _ => le_max_right _ _)

end orderly

section groups
variable {dw L T : ℝ} {f : ℝ → ℝ} {ts ts' : List Ref.MixTraps}

/-- Groups with `T` traps in all, no depth fuller than in equilibrium. -/
structure Ref.MixCalm (dw T : ℝ) (ts : List Ref.MixTraps) : Prop where
  calm : ∀ t ∈ ts, t.Calm dw
  total : Ref.mixTotal ts = T

theorem Ref.MixCalm.few (h : Ref.MixCalm dw T ts) : Ref.MixFew dw T ts := ⟨fun t ht => (h.calm t ht).reg, h.total⟩

theorem Ref.MixCalm.split {t : Ref.MixTraps} (h : Ref.MixCalm dw T (t :: ts)) :
    t.Calm dw ∧ Ref.MixCalm dw (Ref.mixTotal ts) ts ∧ T = t.total + Ref.mixTotal ts :=
  ⟨h.calm t List.mem_cons_self, ⟨fun x hx => h.calm x (List.mem_cons_of_mem _ hx), rfl⟩,
    by rw [← h.total, Ref.mixTotal_cons]⟩

theorem Ref.MixCalm.each (h : Ref.MixCalm dw T ts) (hL : 0 ≤ L) (hT : T * L ≤ 1) : ∀ t ∈ ts, t.total * L ≤ 1 := by
  intro t ht
  refine le_trans (mul_le_mul_of_nonneg_right ?_ hL) hT
  rw [← h.total]
  unfold Ref.mixTotal
  refine List.single_le_sum (fun x hx => ?_) _ (List.mem_map_of_mem ht)
  obtain ⟨u, hu, rfl⟩ := List.mem_map.1 hx
  exact (h.calm u hu).reg.total_nonneg

theorem Ref.MixCalm.step (hf : LipFill f L) (h : Ref.MixCalm dw T ts) (hL : T * L ≤ 1) (n : ℝ) :
    Ref.MixCalm dw T (Ref.mixStep f dw ts n).2 := by
  have hs := mix_step hf h.few hL n
  refine ⟨fun t ht => ?_, hs.1.total⟩
  obtain ⟨u, hu, rfl⟩ := List.mem_map.1 ht
  exact (h.calm u hu).step hf (h.each hf.nonneg_slope hL u hu) n

theorem mix_below (hf : LipFill f L) (hb : List.Forall₂ (Ref.MixBelow dw) ts ts') {T : ℝ} (h : Ref.MixCalm dw T ts)
    (h' : ∀ t ∈ ts', t.Calm dw) (hL : T * L ≤ 1) {n n' : ℝ} (hn : n ≤ n') :
    List.Forall₂ (Ref.MixBelow dw) (Ref.mixStep f dw ts n).2 (Ref.mixStep f dw ts' n').2 ∧
      -(2 * (T * L) * (n' - n)) ≤ (Ref.mixStep f dw ts' n').1 - (Ref.mixStep f dw ts n).1 := by
  induction hb generalizing T with
  | nil =>
    have hT : T = 0 := by rw [← h.total]; rfl
    subst hT
    exact ⟨.nil, by simp [Ref.mixStep]⟩
  | @cons t t' ts ts' ht hts ih =>
    obtain ⟨h1, h2, h3⟩ := h.split
    have hl := h.each hf.nonneg_slope hL t List.mem_cons_self
    have k := mul_nonneg h1.reg.total_nonneg hf.nonneg_slope
    obtain ⟨i1, i2⟩ := ih h2 (fun x hx => h' x (List.mem_cons_of_mem _ hx)) (by rw [h3, add_mul] at hL; linarith)
    obtain ⟨j1, j2⟩ := ht.step hf h1 (h' t' List.mem_cons_self) hl hn
    rw [Ref.mixStep_cons, Ref.mixStep_cons]
    refine ⟨.cons j1 i1, ?_⟩
    rw [h3]
    simp only
    nlinarith

/-- All groups together. -/
theorem mix_orderly (hf : LipFill f L) (hL : 2 * (T * L) ≤ 1) (hT : 0 ≤ T) :
    Orderly (Ref.mixStep f dw) (Ref.MixCalm dw T) (List.Forall₂ (Ref.MixBelow dw)) Ref.mixFilled where
  inv s n hs := hs.step hf (by have := mul_nonneg hT hf.nonneg_slope; linarith) n
  refl s := by
    induction s with
    | nil => exact .nil
    | cons t ts ih => exact .cons (Ref.MixBelow.refl t) ih
  order s s' n n' hs hs' hb hn := by
    have k := mul_nonneg hT hf.nonneg_slope
    obtain ⟨b1, b2⟩ := mix_below hf hb hs hs'.calm (by linarith) hn
    refine ⟨b1, ?_⟩
    have := mul_le_mul_of_nonneg_right hL (sub_nonneg.2 hn)
    linarith
  gain s n hs := by
    have k := mul_nonneg hT hf.nonneg_slope
    have := (mix_step hf hs.few (by linarith) n).2.1
    exact this
  mass_le s s' hs hs' hb := by
    have h1 := hs.calm
    have h2 := hs'.calm
    clear hs hs'
    induction hb with
    | nil => exact le_rfl
    | @cons t t' ts ts' ht hts ih =>
      rw [Ref.mixFilled_cons, Ref.mixFilled_cons]
      exact add_le_add (ht.filled_le (h1 t List.mem_cons_self).reg (h2 t' List.mem_cons_self).reg)
        (ih (fun x hx => h1 x (List.mem_cons_of_mem _ hx)) fun x hx => h2 x (List.mem_cons_of_mem _ hx))

end groups

end Arctic
