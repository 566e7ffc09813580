import Verif.Lemmas.RefLipschitz
import Verif.Lemmas.RefColumn

/-!
# Passes and readouts of the reference simulation: order and distance
-/

set_option linter.unusedSectionVars false
set_option linter.unusedVariables false

namespace Arctic

/-- All traps of a pixel. -/
noncomputable def Ref.totals (ts : List Ref.Traps) : ℝ := (ts.map Ref.Traps.total).sum

/-- Electrons gained by a cloud of `n` electrons, from all groups. -/
noncomputable def Ref.gain (f : ℝ → ℝ) (dw : ℝ) (ts : List Ref.Traps) (n : ℝ) : ℝ :=
  (ts.map fun t => (t.transfer f dw n).1).sum

/-- The traps afterwards. -/
noncomputable def Ref.after (f : ℝ → ℝ) (dw : ℝ) (ts : List Ref.Traps) (n : ℝ) : List Ref.Traps :=
  ts.map fun t => (t.transfer f dw n).2

theorem Ref.row_eq (f : ℝ → ℝ) (dw : ℝ) (col : ℕ → ℝ) (ts : List Ref.Traps) (x : ℕ × ℝ) :
    Ref.row f dw (col, ts) x = (if x.2 = 0 then col else
      Function.update col x.1 (max 0 (col x.1 + Ref.gain f dw ts (col x.1) * x.2)), Ref.after f dw ts (col x.1)) := by
  unfold Ref.row Ref.gain Ref.after
  simp only [List.map_map, Function.comp_def]

theorem Ref.totals_nonneg {dw : ℝ} {ts : List Ref.Traps} (h : ∀ t ∈ ts, t.Reg dw) : 0 ≤ Ref.totals ts := by
  unfold Ref.totals
  refine List.sum_nonneg fun x hx => ?_
  obtain ⟨t, ht, rfl⟩ := List.mem_map.1 hx
  exact (h t ht).total_nonneg

/-- Well-behaved groups of traps, at most `1 / L` traps in all. -/
structure Ref.Few (dw L : ℝ) (ts : List Ref.Traps) : Prop where
  reg : ∀ t ∈ ts, t.Reg dw
  slope : 0 ≤ L
  few : Ref.totals ts * L ≤ 1

theorem Ref.Few.cons {dw L : ℝ} {t : Ref.Traps} {ts : List Ref.Traps} (h : Ref.Few dw L (t :: ts)) :
    t.Reg dw ∧ t.total * L ≤ 1 ∧ Ref.Few dw L ts ∧ Ref.totals (t :: ts) = t.total + Ref.totals ts := by
  have e : Ref.totals (t :: ts) = t.total + Ref.totals ts := by simp [Ref.totals]
  have h1 := h.reg t List.mem_cons_self
  have h2 : ∀ t ∈ ts, t.Reg dw := fun x hx => h.reg x (List.mem_cons_of_mem _ hx)
  have h3 := mul_nonneg h1.total_nonneg h.slope
  have h4 := mul_nonneg (Ref.totals_nonneg h2) h.slope
  have h5 := h.few
  rw [e, add_mul] at h5
  exact ⟨h1, by linarith, ⟨h2, h.slope, by linarith⟩, e⟩

theorem Ref.Few.after {dw L : ℝ} {f : ℝ → ℝ} (hf : LipFill f L) {ts : List Ref.Traps} (h : Ref.Few dw L ts) (n : ℝ) :
    Ref.Few dw L (Ref.after f dw ts n) ∧ Ref.totals (Ref.after f dw ts n) = Ref.totals ts := by
  induction ts with
  | nil => exact ⟨h, rfl⟩
  | cons t ts ih =>
    obtain ⟨h1, h2, h3, h4⟩ := h.cons
    obtain ⟨i1, i2⟩ := ih h3
    have e : Ref.after f dw (t :: ts) n = (t.plain f dw n).2 :: Ref.after f dw ts n := by
      unfold Ref.after
      rw [List.map_cons, h1.transfer_plain hf h2]
    have e2 : Ref.totals (Ref.after f dw (t :: ts) n) = Ref.totals (t :: ts) := by
      rw [e, h4, ← i2]
      simp [Ref.totals]
      rfl
    refine ⟨⟨fun x hx => ?_, h.slope, by rw [e2]; exact h.few⟩, e2⟩
    rw [e] at hx
    rcases List.mem_cons.1 hx with rfl | hx
    · exact h1.plain f n
    · exact i1.reg x hx

theorem Ref.Few.gain_ge {dw L : ℝ} {f : ℝ → ℝ} (hf : LipFill f L) {ts : List Ref.Traps} (h : Ref.Few dw L ts) {n : ℝ}
    (hn : 0 ≤ n) : -(Ref.totals ts * L * n) ≤ Ref.gain f dw ts n := by
  induction ts with
  | nil => simp [Ref.totals, Ref.gain]
  | cons t ts ih =>
    obtain ⟨h1, h2, h3, h4⟩ := h.cons
    have i := ih h3
    have j := h1.plain_ge hf h2 hn
    have e : Ref.gain f dw (t :: ts) n = (t.plain f dw n).1 + Ref.gain f dw ts n := by
      unfold Ref.gain
      rw [List.map_cons, h1.transfer_plain hf h2, List.sum_cons]
    rw [e, h4, add_mul, add_mul]
    linarith

/-! ### order -/

/-- The same traps, fuller at every depth. -/
def Ref.Below (dw : ℝ) : List Ref.Traps → List Ref.Traps → Prop :=
  List.Forall₂ fun t t' => ∃ o, t' = t.refill o ∧ t'.Reg dw ∧ ∀ d j, t.occ d j ≤ o d j

theorem Ref.Below.refl {dw : ℝ} {ts : List Ref.Traps} (h : ∀ t ∈ ts, t.Reg dw) : Ref.Below dw ts ts := by
  induction ts with
  | nil => exact .nil
  | cons t ts ih =>
    exact .cons ⟨t.occ, rfl, h t List.mem_cons_self, fun _ _ => le_rfl⟩ (ih fun x hx => h x (List.mem_cons_of_mem _ hx))

theorem Ref.Below.step {dw L : ℝ} {f : ℝ → ℝ} (hf : LipFill f L) {ts ts' : List Ref.Traps} (h : Ref.Few dw L ts)
    (hb : Ref.Below dw ts ts') {n n' : ℝ} (hn : n ≤ n') :
    Ref.Below dw (Ref.after f dw ts n) (Ref.after f dw ts' n') ∧
      -(Ref.totals ts * L * (n' - n)) ≤ Ref.gain f dw ts' n' - Ref.gain f dw ts n := by
  induction hb with
  | nil => exact ⟨.nil, by simp [Ref.totals, Ref.gain]⟩
  | @cons t t' ts ts' ht hts ih =>
    obtain ⟨h1, h2, h3, h4⟩ := h.cons
    obtain ⟨i1, i2⟩ := ih h3
    obtain ⟨o, rfl, hr, hle⟩ := ht
    obtain ⟨j1, j2⟩ := plain_mono h1 hr hle hf h2 hn
    have hL' : (t.refill o).total * L ≤ 1 := h2
    have e1 := h1.transfer_plain hf h2 n
    have e2 := hr.transfer_plain hf hL' n'
    refine ⟨?_, ?_⟩
    · unfold Ref.after
      rw [List.map_cons, List.map_cons, e1, e2]
      exact .cons ⟨((t.refill o).plain f dw n').2.occ, rfl, hr.plain f n', j2⟩ i1
    · unfold Ref.gain at i2 ⊢
      rw [List.map_cons, List.map_cons, List.sum_cons, List.sum_cons, e1, e2, h4, add_mul, add_mul]
      linarith

theorem pass_mono {dw L : ℝ} {f : ℝ → ℝ} (hf : LipFill f L) (R : ℕ) (todo : List (ℕ × ℝ)) :
    ∀ (x y : ℕ → ℝ) (ts ts' : List Ref.Traps), Ref.Few dw L ts → Ref.Below dw ts ts' →
      (∀ p ∈ todo, p.1 < R ∧ 0 ≤ p.2 ∧ p.2 * (Ref.totals ts * L) ≤ 1) → (∀ r < R, x r ≤ y r) →
      ∀ r < R, (todo.foldl (Ref.row f dw) (x, ts)).1 r ≤ (todo.foldl (Ref.row f dw) (y, ts')).1 r := by
  induction todo with
  | nil => intro x y ts ts' _ _ _ h; exact h
  | cons p todo ih =>
    intro x y ts ts' hts hb hp hxy
    obtain ⟨p1, p2, p3⟩ := hp p List.mem_cons_self
    obtain ⟨b1, b2⟩ := hb.step hf hts (hxy p.1 p1)
    obtain ⟨a1, a2⟩ := hts.after hf (x p.1)
    rw [List.foldl_cons, List.foldl_cons, Ref.row_eq, Ref.row_eq]
    refine ih _ _ _ _ a1 b1 (fun q hq => ?_) (fun r hr => ?_)
    · rw [a2]; exact hp q (List.mem_cons_of_mem _ hq)
    · by_cases h0 : p.2 = 0
      · rw [if_pos h0, if_pos h0]; exact hxy r hr
      · rw [if_neg h0, if_neg h0]
        by_cases hrp : r = p.1
        · subst hrp
          rw [Function.update_self, Function.update_self]
          refine max_le_max le_rfl ?_
          have h1 := mul_le_mul_of_nonneg_left b2 p2
          have h2 := mul_le_mul_of_nonneg_right p3 (sub_nonneg.2 (hxy p.1 p1))
          nlinarith
        · rw [Function.update_of_ne hrp, Function.update_of_ne hrp]
          exact hxy r hr

/-- A readout in which no cloud is short of electrons: brighter columns stay brighter. -/
theorem readout_mono {dw L : ℝ} {f : ℝ → ℝ} (hf : LipFill f L) (R : ℕ) (ts : List Ref.Traps) (hts : Ref.Few dw L ts)
    (passes : List (List (ℕ × ℝ)))
    (hp : ∀ todo ∈ passes, ∀ p ∈ todo, p.1 < R ∧ 0 ≤ p.2 ∧ p.2 * (Ref.totals ts * L) ≤ 1) (x y : ℕ → ℝ)
    (hxy : ∀ r < R, x r ≤ y r) : ∀ r < R, Ref.readout f dw ts passes x r ≤ Ref.readout f dw ts passes y r := by
  induction passes generalizing x y with
  | nil => exact hxy
  | cons todo passes ih =>
    unfold Ref.readout at *
    rw [List.foldl_cons, List.foldl_cons]
    exact ih (fun t ht => hp t (List.mem_cons_of_mem _ ht)) _ _
      (pass_mono hf R todo x y ts ts hts (Ref.Below.refl hts.reg) (hp todo List.mem_cons_self) hxy)

/-! ### distance -/

/-- The same traps, their fillings at distance `g`. -/
inductive Ref.Twins (dw : ℝ) : List Ref.Traps → List Ref.Traps → ℝ → Prop
  | nil : Ref.Twins dw [] [] 0
  | cons (t : Ref.Traps) (o : ℝ → Fin t.s → ℝ) {ts ts' : List Ref.Traps} {g : ℝ} (h : (t.refill o).Reg dw)
      (hs : Ref.Twins dw ts ts' g) : Ref.Twins dw (t :: ts) (t.refill o :: ts') (t.gap o + g)

theorem Ref.Traps.gap_nonneg {t : Ref.Traps} {dw : ℝ} (h : t.Reg dw) (o : ℝ → Fin t.s → ℝ) : 0 ≤ t.gap o :=
  Finset.sum_nonneg fun j _ => mul_nonneg (h.dens j)
    (intervalIntegral.integral_nonneg zero_le_one fun d _ => abs_nonneg _)

theorem Ref.Twins.nonneg {dw g : ℝ} {ts ts' : List Ref.Traps} (h : Ref.Twins dw ts ts' g) (hr : ∀ t ∈ ts, t.Reg dw) :
    0 ≤ g := by
  induction h with
  | nil => exact le_rfl
  | cons t o h hs ih =>
    exact add_nonneg (Ref.Traps.gap_nonneg (hr t List.mem_cons_self) o) (ih fun x hx => hr x (List.mem_cons_of_mem _ hx))

theorem Ref.Twins.refl {dw : ℝ} {ts : List Ref.Traps} (h : ∀ t ∈ ts, t.Reg dw) : Ref.Twins dw ts ts 0 := by
  induction ts with
  | nil => exact .nil
  | cons t ts ih =>
    have := Ref.Twins.cons t t.occ (h t List.mem_cons_self) (ih fun x hx => h x (List.mem_cons_of_mem _ hx))
    simpa [Ref.Traps.gap, Ref.Traps.refill] using this

theorem Ref.Twins.few {dw L g : ℝ} {ts ts' : List Ref.Traps} (h : Ref.Twins dw ts ts' g) (hf : Ref.Few dw L ts) :
    Ref.Few dw L ts' ∧ Ref.totals ts' = Ref.totals ts := by
  have e : Ref.totals ts' = Ref.totals ts := by
    clear hf
    induction h with
    | nil => rfl
    | cons t o h hs ih =>
      have : ∀ (a : Ref.Traps) l, Ref.totals (a :: l) = a.total + Ref.totals l := fun a l => by simp [Ref.totals]
      rw [this, this, ih]; rfl
  refine ⟨⟨?_, hf.slope, by rw [e]; exact hf.few⟩, e⟩
  clear hf e
  induction h with
  | nil => simp
  | cons t o h hs ih =>
    intro x hx
    rcases List.mem_cons.1 hx with rfl | hx
    · exact h
    · exact ih x hx

theorem Ref.Twins.step {dw L g : ℝ} {f : ℝ → ℝ} (hf : LipFill f L) {ts ts' : List Ref.Traps} (h : Ref.Few dw L ts)
    (hL : 2 * (Ref.totals ts * L) ≤ 1) (ht : Ref.Twins dw ts ts' g) (n n' : ℝ) :
    ∃ g1, Ref.Twins dw (Ref.after f dw ts n) (Ref.after f dw ts' n') g1 ∧
      (1 - 2 * (Ref.totals ts * L)) * |Ref.gain f dw ts n - Ref.gain f dw ts' n'| + g1 ≤
        g + 2 * (Ref.totals ts * L) * |n - n'| := by
  induction ht with
  | nil => exact ⟨0, .nil, by simp [Ref.totals, Ref.gain]⟩
  | @cons t o ts ts' g hr hs ih =>
    obtain ⟨h1, h2, h3, h4⟩ := h.cons
    have k1 := mul_nonneg h1.total_nonneg h.slope
    have k2 := mul_nonneg (Ref.totals_nonneg h3.reg) h.slope
    rw [h4, add_mul] at hL
    obtain ⟨g1, i1, i2⟩ := ih h3 (by linarith)
    have j := plain_lip h1 hr hf (by linarith) n n'
    have hL' : (t.refill o).total * L ≤ 1 := h2
    have e1 := h1.transfer_plain hf h2 n
    have e2 := hr.transfer_plain hf hL' n'
    refine ⟨(t.plain f dw n).2.gap ((t.refill o).plain f dw n').2.occ + g1, ?_, ?_⟩
    · unfold Ref.after
      rw [List.map_cons, List.map_cons, e1, e2]
      exact .cons (t.plain f dw n).2 ((t.refill o).plain f dw n').2.occ (hr.plain f n') i1
    · have a1 : Ref.gain f dw (t :: ts) n - Ref.gain f dw (t.refill o :: ts') n' =
          ((t.plain f dw n).1 - ((t.refill o).plain f dw n').1) + (Ref.gain f dw ts n - Ref.gain f dw ts' n') := by
        unfold Ref.gain
        rw [List.map_cons, List.map_cons, List.sum_cons, List.sum_cons, e1, e2]; ring
      rw [a1, h4, add_mul]
      have a2 := abs_add_le ((t.plain f dw n).1 - ((t.refill o).plain f dw n').1)
        (Ref.gain f dw ts n - Ref.gain f dw ts' n')
      have a3 := mul_le_mul_of_nonneg_left a2 (sub_nonneg.2 hL)
      have a4 := mul_nonneg k2 (abs_nonneg ((t.plain f dw n).1 - ((t.refill o).plain f dw n').1))
      have a5 := mul_nonneg k1 (abs_nonneg (Ref.gain f dw ts n - Ref.gain f dw ts' n'))
      nlinarith

/-- Without shortage no pixel is clipped at zero. -/
theorem row_plain {dw L : ℝ} {f : ℝ → ℝ} (hf : LipFill f L) {ts : List Ref.Traps} (h : Ref.Few dw L ts) (x : ℕ → ℝ)
    (p : ℕ × ℝ) (hx : 0 ≤ x p.1) (hp : 0 ≤ p.2) (hpm : p.2 * (Ref.totals ts * L) ≤ 1) :
    Ref.row f dw (x, ts) p = (Function.update x p.1 (x p.1 + Ref.gain f dw ts (x p.1) * p.2),
      Ref.after f dw ts (x p.1)) ∧ 0 ≤ x p.1 + Ref.gain f dw ts (x p.1) * p.2 := by
  have h0 : 0 ≤ x p.1 + Ref.gain f dw ts (x p.1) * p.2 := by
    have h1 := mul_le_mul_of_nonneg_right (h.gain_ge hf hx) hp
    have h2 := mul_le_mul_of_nonneg_right hpm hx
    nlinarith
  refine ⟨?_, h0⟩
  rw [Ref.row_eq]
  by_cases hz : p.2 = 0
  · rw [if_pos hz, hz, mul_zero, add_zero, Function.update_eq_self]
  · rw [if_neg hz, max_eq_right h0]

theorem pass_lip {dw L : ℝ} {f : ℝ → ℝ} (hf : LipFill f L) (R : ℕ) (M : ℝ) (todo : List (ℕ × ℝ)) :
    ∀ (x y : ℕ → ℝ) (ts ts' : List Ref.Traps) (g : ℝ), Ref.Few dw L ts → Ref.Twins dw ts ts' g →
      (todo.map Prod.fst).Nodup → (∀ p ∈ todo, p.1 < R ∧ 0 ≤ p.2 ∧ p.2 ≤ M) → 0 ≤ M → M * (Ref.totals ts * L) ≤ 1 →
      2 * (Ref.totals ts * L) ≤ 1 → (∀ r < R, 0 ≤ x r) → (∀ r < R, 0 ≤ y r) →
      (∀ r < R, 0 ≤ (todo.foldl (Ref.row f dw) (x, ts)).1 r) ∧
      (1 - 2 * (Ref.totals ts * L)) * ∑ r ∈ Finset.range R, |((todo.foldl (Ref.row f dw) (x, ts)).1 r - x r) -
          ((todo.foldl (Ref.row f dw) (y, ts')).1 r - y r)| ≤
        M * (g + 2 * (Ref.totals ts * L) * (todo.map fun p => |x p.1 - y p.1|).sum) := by
  induction todo with
  | nil =>
    intro x y ts ts' g hts htw _ _ hM _ _ hx hy
    refine ⟨hx, ?_⟩
    simp only [List.foldl_nil, sub_self, abs_zero, Finset.sum_const_zero,
      List.map_nil, List.sum_nil, mul_zero, add_zero]
    exact mul_nonneg hM (htw.nonneg hts.reg)
  | cons p todo ih =>
    intro x y ts ts' g hts htw hnd hp hM hML hl1 hx hy
    obtain ⟨p1, p2, p3⟩ := hp p List.mem_cons_self
    obtain ⟨hfew', htot'⟩ := htw.few hts
    have hl : 0 ≤ Ref.totals ts * L := mul_nonneg (Ref.totals_nonneg hts.reg) hts.slope
    have hpm : p.2 * (Ref.totals ts * L) ≤ 1 := (mul_le_mul_of_nonneg_right p3 hl).trans hML
    obtain ⟨ex, hx0⟩ := row_plain hf hts x p (hx _ p1) p2 hpm
    obtain ⟨ey, hy0⟩ := row_plain hf hfew' y p (hy _ p1) p2 (by rw [htot']; exact hpm)
    obtain ⟨g1, tw1, hg1⟩ := htw.step hf hts hl1 (x p.1) (y p.1)
    obtain ⟨a1, a2⟩ := hts.after hf (x p.1)
    rw [List.map_cons, List.nodup_cons] at hnd
    rw [List.foldl_cons, List.foldl_cons, ex, ey]
    set u := Function.update x p.1 (x p.1 + Ref.gain f dw ts (x p.1) * p.2) with hu
    set v := Function.update y p.1 (y p.1 + Ref.gain f dw ts' (y p.1) * p.2) with hv
    have hu0 : ∀ r < R, 0 ≤ u r := by
      intro r hr
      by_cases h : r = p.1
      · subst h; rw [hu, Function.update_self]; exact hx0
      · rw [hu, Function.update_of_ne h]; exact hx r hr
    have hv0 : ∀ r < R, 0 ≤ v r := by
      intro r hr
      by_cases h : r = p.1
      · subst h; rw [hv, Function.update_self]; exact hy0
      · rw [hv, Function.update_of_ne h]; exact hy r hr
    obtain ⟨i1, i2⟩ := ih u v _ _ g1 a1 tw1 hnd.2 (fun q hq => hp q (List.mem_cons_of_mem _ hq)) hM
      (by rw [a2]; exact hML) (by rw [a2]; exact hl1) hu0 hv0
    refine ⟨i1, ?_⟩
    rw [a2] at i2
    have e1 : (todo.map fun q => |u q.1 - v q.1|) = todo.map fun q => |x q.1 - y q.1| := by
      refine List.map_congr_left fun q hq => ?_
      have : q.1 ≠ p.1 := fun h => hnd.1 (h ▸ List.mem_map_of_mem hq)
      rw [hu, hv, Function.update_of_ne this, Function.update_of_ne this]
    rw [e1] at i2
    have e2 : ∑ r ∈ Finset.range R, |(u r - x r) - (v r - y r)| =
        |Ref.gain f dw ts (x p.1) - Ref.gain f dw ts' (y p.1)| * p.2 := by
      rw [Finset.sum_eq_single p.1]
      · rw [hu, hv, Function.update_self, Function.update_self, add_sub_cancel_left, add_sub_cancel_left, ← sub_mul,
          abs_mul, abs_of_nonneg p2]
      · intro r _ h
        rw [hu, hv, Function.update_of_ne h, Function.update_of_ne h]; simp
      · intro h; exact absurd (Finset.mem_range.2 p1) h
    have e3 : ∀ X Y : ℕ → ℝ, ∑ r ∈ Finset.range R, |(X r - x r) - (Y r - y r)| ≤
        ∑ r ∈ Finset.range R, |(X r - u r) - (Y r - v r)| + ∑ r ∈ Finset.range R, |(u r - x r) - (v r - y r)| := by
      intro X Y
      rw [← Finset.sum_add_distrib]
      refine Finset.sum_le_sum fun r _ => ?_
      rw [show (X r - x r) - (Y r - y r) = ((X r - u r) - (Y r - v r)) + ((u r - x r) - (v r - y r)) by ring]
      exact abs_add_le _ _
    set l := 2 * (Ref.totals ts * L) with hldef
    refine (mul_le_mul_of_nonneg_left (e3 _ _) (sub_nonneg.2 hl1)).trans ?_
    rw [e2, mul_add]
    set S := (todo.map fun q => |x q.1 - y q.1|).sum with hS
    rw [List.map_cons, List.sum_cons]
    set G := |Ref.gain f dw ts (x p.1) - Ref.gain f dw ts' (y p.1)| with hG
    have hG0 : 0 ≤ (1 - l) * G := mul_nonneg (sub_nonneg.2 hl1) (abs_nonneg _)
    have c1 : (1 - l) * (G * p.2) ≤ M * ((1 - l) * G) := by
      have := mul_le_mul_of_nonneg_left p3 hG0
      nlinarith
    have c2 := mul_le_mul_of_nonneg_left hg1 hM
    nlinarith

/-- Distance of two columns of `R` pixels. -/
noncomputable def colDist (R : ℕ) (x y : ℕ → ℝ) : ℝ := ∑ r ∈ Finset.range R, |x r - y r|

theorem todo_sum_le {R : ℕ} (x y : ℕ → ℝ) (todo : List (ℕ × ℝ)) (hnd : (todo.map Prod.fst).Nodup)
    (hp : ∀ p ∈ todo, p.1 < R) : (todo.map fun p => |x p.1 - y p.1|).sum ≤ colDist R x y := by
  have e : (todo.map fun p => |x p.1 - y p.1|) = (todo.map Prod.fst).map fun r => |x r - y r| := by
    rw [List.map_map]; rfl
  rw [e, ← List.sum_toFinset _ hnd]
  refine Finset.sum_le_sum_of_subset_of_nonneg (fun r hr => ?_) fun _ _ _ => abs_nonneg _
  rw [List.mem_toFinset] at hr
  obtain ⟨q, hq, rfl⟩ := List.mem_map.1 hr
  exact Finset.mem_range.2 (hp q hq)

/-- Passes in which rows occur at most once and no transfer is represented by one with a multiplier above `M`. -/
structure GoodPasses (R : ℕ) (M : ℝ) (passes : List (List (ℕ × ℝ))) : Prop where
  nodup : ∀ todo ∈ passes, (todo.map Prod.fst).Nodup
  mult : ∀ todo ∈ passes, ∀ p ∈ todo, p.1 < R ∧ 0 ≤ p.2 ∧ p.2 ≤ M

/-- How much more than its input one pass can change between two columns, per electron of difference. -/
noncomputable def passSlope (M l : ℝ) : ℝ := M * l / (1 - l)

theorem readout_lip {dw L : ℝ} {f : ℝ → ℝ} (hf : LipFill f L) (R : ℕ) (M : ℝ) (hM : 0 ≤ M) (ts : List Ref.Traps)
    (hts : Ref.Few dw L ts) (hML : M * (Ref.totals ts * L) ≤ 1) (hl1 : 2 * (Ref.totals ts * L) < 1) (passes : List (List (ℕ × ℝ)))
    (hp : GoodPasses R M passes) :
    ∀ x y : ℕ → ℝ, (∀ r < R, 0 ≤ x r) → (∀ r < R, 0 ≤ y r) →
    (∀ r < R, 0 ≤ Ref.readout f dw ts passes x r) ∧
    ∑ r ∈ Finset.range R, |(Ref.readout f dw ts passes x r - x r) - (Ref.readout f dw ts passes y r - y r)| ≤
      ((1 + passSlope M (2 * (Ref.totals ts * L))) ^ passes.length - 1) * colDist R x y := by
  have hl : 0 ≤ Ref.totals ts * L := mul_nonneg (Ref.totals_nonneg hts.reg) hts.slope
  set l := 2 * (Ref.totals ts * L) with hldef
  have hl0 : 0 ≤ l := by linarith
  have hs0 : 0 ≤ passSlope M l := div_nonneg (mul_nonneg hM hl0) (by linarith)
  induction passes with
  | nil =>
    intro x y hx hy
    refine ⟨hx, ?_⟩
    simp [Ref.readout]
  | cons todo passes ih =>
    intro x y hx hy
    have hnd := hp.nodup todo List.mem_cons_self
    have hm := hp.mult todo List.mem_cons_self
    obtain ⟨a1, a2⟩ := pass_lip hf R M todo x y ts ts 0 hts (Ref.Twins.refl hts.reg) hnd hm hM hML hl1.le hx hy
    obtain ⟨b1, -⟩ := pass_lip hf R M todo y x ts ts 0 hts (Ref.Twins.refl hts.reg) hnd hm hM hML hl1.le hy hx
    have hD : 0 ≤ colDist R x y := Finset.sum_nonneg fun _ _ => abs_nonneg _
    have hT := todo_sum_le x y todo hnd fun p hp => (hm p hp).1
    have hT0 : 0 ≤ (todo.map fun p => |x p.1 - y p.1|).sum := List.sum_nonneg fun z hz => by
      obtain ⟨q, -, rfl⟩ := List.mem_map.1 hz
      exact abs_nonneg _
    have a3 : ∑ r ∈ Finset.range R, |(Ref.pass f dw ts x todo r - x r) - (Ref.pass f dw ts y todo r - y r)| ≤
        passSlope M l * colDist R x y := by
      have h3 : M * (l * (todo.map fun p => |x p.1 - y p.1|).sum) ≤ M * (l * colDist R x y) :=
        mul_le_mul_of_nonneg_left (mul_le_mul_of_nonneg_left hT hl0) hM
      rw [zero_add] at a2
      unfold passSlope
      rw [div_mul_eq_mul_div, le_div_iff₀ (by linarith), mul_comm]
      refine (a2.trans h3).trans (le_of_eq ?_)
      ring
    have hp' : GoodPasses R M passes :=
      ⟨fun t ht => hp.nodup t (List.mem_cons_of_mem _ ht), fun t ht => hp.mult t (List.mem_cons_of_mem _ ht)⟩
    obtain ⟨c1, c2⟩ := ih hp' (Ref.pass f dw ts x todo) (Ref.pass f dw ts y todo) a1 b1
    refine ⟨c1, ?_⟩
    change ∑ r ∈ Finset.range R, |(Ref.readout f dw ts passes (Ref.pass f dw ts x todo) r - x r) -
      (Ref.readout f dw ts passes (Ref.pass f dw ts y todo) r - y r)| ≤ _
    set u := Ref.pass f dw ts x todo
    set v := Ref.pass f dw ts y todo
    have d1 : colDist R u v ≤ (1 + passSlope M l) * colDist R x y := by
      have : colDist R u v ≤ ∑ r ∈ Finset.range R, |(u r - x r) - (v r - y r)| + colDist R x y := by
        unfold colDist
        rw [← Finset.sum_add_distrib]
        refine Finset.sum_le_sum fun r _ => ?_
        rw [show u r - v r = ((u r - x r) - (v r - y r)) + (x r - y r) by ring]
        exact abs_add_le _ _
      linarith
    have d2 : ∑ r ∈ Finset.range R, |(Ref.readout f dw ts passes u r - x r) - (Ref.readout f dw ts passes v r - y r)| ≤
        ∑ r ∈ Finset.range R, |(Ref.readout f dw ts passes u r - u r) - (Ref.readout f dw ts passes v r - v r)| +
          ∑ r ∈ Finset.range R, |(u r - x r) - (v r - y r)| := by
      rw [← Finset.sum_add_distrib]
      refine Finset.sum_le_sum fun r _ => ?_
      rw [show (Ref.readout f dw ts passes u r - x r) - (Ref.readout f dw ts passes v r - y r) =
        ((Ref.readout f dw ts passes u r - u r) - (Ref.readout f dw ts passes v r - v r)) +
          ((u r - x r) - (v r - y r)) by ring]
      exact abs_add_le _ _
    have hq : 0 ≤ (1 + passSlope M l) ^ passes.length - 1 := by
      have := one_le_pow₀ (n := passes.length) (by linarith : 1 ≤ 1 + passSlope M l)
      linarith
    have d3 := mul_le_mul_of_nonneg_left d1 hq
    rw [List.length_cons, pow_succ]
    nlinarith

end Arctic
