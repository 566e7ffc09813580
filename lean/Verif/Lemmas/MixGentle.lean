import Verif.Lemmas.SlowLip
import Verif.Lemmas.Gentle

/-!
# Groups with instant and with slow capture together
-/

set_option linter.unusedSectionVars false
set_option linter.unusedVariables false

namespace Arctic

/-- Number of traps of a group. -/
noncomputable def Ref.MixTraps.total : Ref.MixTraps → ℝ
  | .inl t => t.total
  | .inr t => t.total

/-- Electrons in the traps of a group. -/
noncomputable def Ref.MixTraps.filled : Ref.MixTraps → ℝ
  | .inl t => t.filled
  | .inr t => held t.dens t.occ

/-- Densities and fractions that make sense. -/
def Ref.MixTraps.Reg (dw : ℝ) : Ref.MixTraps → Prop
  | .inl t => t.Reg dw
  | .inr t => t.Reg dw

/-- The same traps, their fillings at distance `g`. -/
inductive Ref.MixNear (dw : ℝ) : Ref.MixTraps → Ref.MixTraps → ℝ → Prop
  | inl (t : Ref.Traps) (o : ℝ → Fin t.s → ℝ) (h : (t.refill o).Reg dw) : MixNear dw (.inl t) (.inl (t.refill o)) (t.gap o)
  | inr (t : Ref.Slow) (o : ℝ → Fin t.s → ℝ) (h : (t.refill o).Reg dw) :
    MixNear dw (.inr t) (.inr (t.refill o)) (heldGap t.dens t.occ o)

section group
variable {dw L : ℝ} {f : ℝ → ℝ} {t t' : Ref.MixTraps}

theorem Ref.MixTraps.Reg.total_nonneg (h : t.Reg dw) : 0 ≤ t.total := by
  cases t with
  | inl t => exact Ref.Traps.Reg.total_nonneg h
  | inr t => exact Ref.Slow.Reg.total_nonneg h

theorem Ref.MixTraps.Reg.filled_nonneg (h : t.Reg dw) : 0 ≤ t.filled := by
  cases t with
  | inl t =>
    have hh : t.Reg dw := h
    have := held_nonneg (x := t.occ) hh.dens ⟨hh.frac, hh.meas⟩
    exact this
  | inr t => exact held_nonneg h.dens h.occ

theorem Ref.MixTraps.Reg.filled_le (h : t.Reg dw) : t.filled ≤ t.total := by
  cases t with
  | inl t =>
    have hh : t.Reg dw := h
    have := held_le (x := t.occ) hh.dens ⟨hh.frac, hh.meas⟩
    exact this
  | inr t => exact held_le h.dens h.occ

/-- One transfer of one group. -/
theorem mix_transfer (hf : LipFill f L) (h : t.Reg dw) (hL : t.total * L ≤ 1) (n : ℝ) :
    (Ref.MixTraps.transfer f dw t n).2.Reg dw ∧ (Ref.MixTraps.transfer f dw t n).2.total = t.total ∧
      (Ref.MixTraps.transfer f dw t n).1 = t.filled - (Ref.MixTraps.transfer f dw t n).2.filled ∧
      (0 ≤ n → -(t.total * L * n) ≤ (Ref.MixTraps.transfer f dw t n).1) := by
  cases t with
  | inl t =>
    have hh : t.Reg dw := h
    have e := hh.transfer_plain hf hL n
    have e2 : Ref.MixTraps.transfer f dw (.inl t) n = ((t.plain f dw n).1, .inl (t.plain f dw n).2) := by
      unfold Ref.MixTraps.transfer
      simp only [e]
    rw [e2]
    refine ⟨hh.plain f n, rfl, ?_, fun hn => hh.plain_ge hf hL hn⟩
    change (t.plain f dw n).1 = t.filled - (t.plain f dw n).2.filled
    rw [hh.plain_filled hf, Ref.Traps.plain_fst]
    ring
  | inr t =>
    have hh : t.Reg dw := h
    have e2 : Ref.MixTraps.transfer f dw (.inr t) n =
        (held t.dens t.occ - held t.dens (t.second f dw n), .inr (t.refill (t.second f dw n))) := by
      unfold Ref.MixTraps.transfer
      simp only [Ref.Slow.transfer_eq]
    rw [e2]
    exact ⟨hh.step f n, rfl, rfl, fun hn => hh.loss hf hL hn⟩

theorem Ref.MixNear.nonneg {g : ℝ} (h : Ref.MixNear dw t t' g) (ht : t.Reg dw) : 0 ≤ g := by
  cases h with
  | inl t o h => exact Ref.Traps.gap_nonneg ht o
  | inr t o h => exact heldGap_nonneg (Ref.Slow.Reg.dens ht) _ _

theorem Ref.MixNear.refl (h : t.Reg dw) : Ref.MixNear dw t t 0 := by
  cases t with
  | inl t =>
    have := Ref.MixNear.inl t t.occ h
    simpa [Ref.Traps.gap, Ref.Traps.refill] using this
  | inr t =>
    have := Ref.MixNear.inr t t.occ h
    simpa [heldGap, Ref.Slow.refill] using this

/-- Two transfers of one group. -/
theorem Ref.MixNear.step {g : ℝ} (hf : LipFill f L) (h : Ref.MixNear dw t t' g) (ht : t.Reg dw)
    (hL : 4 * (t.total * L) ≤ 1) (n n' : ℝ) :
    ∃ g1, Ref.MixNear dw (Ref.MixTraps.transfer f dw t n).2 (Ref.MixTraps.transfer f dw t' n').2 g1 ∧
      (1 - 4 * (t.total * L)) * |(Ref.MixTraps.transfer f dw t n).1 - (Ref.MixTraps.transfer f dw t' n').1| + g1 ≤
        g + 4 * (t.total * L) * |n - n'| := by
  have k0 := mul_nonneg ht.total_nonneg hf.nonneg_slope
  cases h with
  | inl t o h =>
    have hh : t.Reg dw := ht
    have hL1 : t.total * L ≤ 1 := by change 4 * (t.total * L) ≤ 1 at hL; change 0 ≤ t.total * L at k0; linarith
    have e1 := hh.transfer_plain hf hL1 n
    have e2 := h.transfer_plain hf (t := t.refill o) hL1 n'
    unfold Ref.MixTraps.transfer
    simp only [e1, e2]
    refine ⟨_, .inl (t.plain f dw n).2 ((t.refill o).plain f dw n').2.occ (h.plain f n'), ?_⟩
    change 0 ≤ t.total * L at k0
    change 4 * (t.total * L) ≤ 1 at hL
    have j := plain_lip hh h hf (by linarith) n n'
    change (1 - 4 * (t.total * L)) * |(t.plain f dw n).1 - ((t.refill o).plain f dw n').1| + _ ≤
      _ + 4 * (t.total * L) * |n - n'|
    have a1 := mul_nonneg k0 (abs_nonneg ((t.plain f dw n).1 - ((t.refill o).plain f dw n').1))
    have a2 := mul_nonneg k0 (abs_nonneg (n - n'))
    nlinarith
  | inr t o h =>
    have hh : t.Reg dw := ht
    unfold Ref.MixTraps.transfer
    simp only [Ref.Slow.transfer_eq]
    exact ⟨_, .inr (t.refill (t.second f dw n)) ((t.refill o).second f dw n') (h.step f n'), slow_lip hh h hf hL n n'⟩

theorem Ref.MixNear.total {g : ℝ} (h : Ref.MixNear dw t t' g) : t'.total = t.total := by
  cases h <;> rfl

end group

/-! ### all groups -/

/-- Number of traps of all groups. -/
noncomputable def Ref.mixTotal (ts : List Ref.MixTraps) : ℝ := (ts.map Ref.MixTraps.total).sum

/-- Electrons in all traps. -/
noncomputable def Ref.mixFilled (ts : List Ref.MixTraps) : ℝ := (ts.map Ref.MixTraps.filled).sum

/-- Well-behaved groups with `T` traps in all. -/
structure Ref.MixFew (dw T : ℝ) (ts : List Ref.MixTraps) : Prop where
  reg : ∀ t ∈ ts, t.Reg dw
  total : Ref.mixTotal ts = T

/-- The same groups, their fillings at distance `g`. -/
inductive Ref.MixTwins (dw : ℝ) : List Ref.MixTraps → List Ref.MixTraps → ℝ → Prop
  | nil : MixTwins dw [] [] 0
  | cons {t t' : Ref.MixTraps} {ts ts' : List Ref.MixTraps} {g g' : ℝ} (h : Ref.MixNear dw t t' g)
      (hs : MixTwins dw ts ts' g') : MixTwins dw (t :: ts) (t' :: ts') (g + g')

section groups
variable {dw L T : ℝ} {f : ℝ → ℝ} {ts ts' : List Ref.MixTraps}

theorem Ref.mixTotal_nonneg (h : ∀ t ∈ ts, t.Reg dw) : 0 ≤ Ref.mixTotal ts := by
  unfold Ref.mixTotal
  refine List.sum_nonneg fun x hx => ?_
  obtain ⟨t, ht, rfl⟩ := List.mem_map.1 hx
  exact (h t ht).total_nonneg

theorem Ref.mixStep_cons (f : ℝ → ℝ) (dw : ℝ) (t : Ref.MixTraps) (ts : List Ref.MixTraps) (n : ℝ) :
    Ref.mixStep f dw (t :: ts) n = ((Ref.MixTraps.transfer f dw t n).1 + (Ref.mixStep f dw ts n).1,
      (Ref.MixTraps.transfer f dw t n).2 :: (Ref.mixStep f dw ts n).2) := by
  unfold Ref.mixStep
  simp

theorem Ref.mixTotal_cons (t : Ref.MixTraps) (ts : List Ref.MixTraps) :
    Ref.mixTotal (t :: ts) = t.total + Ref.mixTotal ts := by simp [Ref.mixTotal]

theorem Ref.mixFilled_cons (t : Ref.MixTraps) (ts : List Ref.MixTraps) :
    Ref.mixFilled (t :: ts) = t.filled + Ref.mixFilled ts := by simp [Ref.mixFilled]

theorem Ref.MixFew.split {t : Ref.MixTraps} (h : Ref.MixFew dw T (t :: ts)) :
    t.Reg dw ∧ Ref.MixFew dw (Ref.mixTotal ts) ts ∧ t.total + Ref.mixTotal ts = T := by
  refine ⟨h.reg t List.mem_cons_self, ⟨fun x hx => h.reg x (List.mem_cons_of_mem _ hx), rfl⟩, ?_⟩
  rw [← Ref.mixTotal_cons]; exact h.total

theorem mix_step (hf : LipFill f L) (h : Ref.MixFew dw T ts) (hL : T * L ≤ 1) (n : ℝ) :
    Ref.MixFew dw T (Ref.mixStep f dw ts n).2 ∧
      (Ref.mixStep f dw ts n).1 = Ref.mixFilled ts - Ref.mixFilled (Ref.mixStep f dw ts n).2 ∧
      (0 ≤ n → -(T * L * n) ≤ (Ref.mixStep f dw ts n).1) := by
  induction ts generalizing T with
  | nil =>
    have hT : T = 0 := by rw [← h.total]; rfl
    refine ⟨h, by simp [Ref.mixStep, Ref.mixFilled], fun _ => by rw [hT]; simp [Ref.mixStep]⟩
  | cons t ts ih =>
    obtain ⟨h1, h2, h3⟩ := h.split
    have k1 := mul_nonneg h1.total_nonneg hf.nonneg_slope
    have k2 := mul_nonneg (Ref.mixTotal_nonneg h2.reg) hf.nonneg_slope
    rw [← h3, add_mul] at hL
    obtain ⟨i1, i2, i3⟩ := ih h2 (by linarith)
    obtain ⟨a1, a2, a3, a4⟩ := mix_transfer hf h1 (by linarith) n
    rw [Ref.mixStep_cons]
    refine ⟨⟨?_, ?_⟩, ?_, fun hn => ?_⟩
    · intro x hx
      rcases List.mem_cons.1 hx with rfl | hx
      · exact a1
      · exact i1.reg x hx
    · rw [Ref.mixTotal_cons, a2, i1.total, h3]
    · simp only [Ref.mixFilled_cons]
      rw [a3, i2]
      ring
    · have e1 := a4 hn
      have e2 := i3 hn
      rw [← h3]
      simp only
      nlinarith

theorem Ref.MixTwins.step {g : ℝ} (hf : LipFill f L) (h : Ref.MixTwins dw ts ts' g) (hts : Ref.MixFew dw T ts)
    (hL : 4 * (T * L) ≤ 1) (n n' : ℝ) :
    ∃ g1, Ref.MixTwins dw (Ref.mixStep f dw ts n).2 (Ref.mixStep f dw ts' n').2 g1 ∧
      (1 - 4 * (T * L)) * |(Ref.mixStep f dw ts n).1 - (Ref.mixStep f dw ts' n').1| + g1 ≤ g + 4 * (T * L) * |n - n'| := by
  induction h generalizing T with
  | nil =>
    have hT : T = 0 := by rw [← hts.total]; rfl
    exact ⟨0, .nil, by rw [hT]; simp [Ref.mixStep]⟩
  | @cons t t' ts ts' g g' h hs ih =>
    obtain ⟨h1, h2, h3⟩ := hts.split
    have k1 := mul_nonneg h1.total_nonneg hf.nonneg_slope
    have k2 := mul_nonneg (Ref.mixTotal_nonneg h2.reg) hf.nonneg_slope
    rw [← h3, add_mul] at hL
    obtain ⟨g1, i1, i2⟩ := ih h2 (by linarith)
    obtain ⟨g2, j1, j2⟩ := h.step hf h1 (by linarith) n n'
    rw [Ref.mixStep_cons, Ref.mixStep_cons]
    refine ⟨g2 + g1, .cons j1 i1, ?_⟩
    rw [← h3, add_mul]
    simp only
    have a2 := abs_add_le ((Ref.MixTraps.transfer f dw t n).1 - (Ref.MixTraps.transfer f dw t' n').1)
      ((Ref.mixStep f dw ts n).1 - (Ref.mixStep f dw ts' n').1)
    rw [show ∀ a b c d : ℝ, a - b + (c - d) = a + c - (b + d) by intros; ring] at a2
    have a3 := mul_le_mul_of_nonneg_left a2 (sub_nonneg.2 hL)
    have a4 := mul_nonneg k2 (abs_nonneg ((Ref.MixTraps.transfer f dw t n).1 - (Ref.MixTraps.transfer f dw t' n').1))
    have a5 := mul_nonneg k1 (abs_nonneg ((Ref.mixStep f dw ts n).1 - (Ref.mixStep f dw ts' n').1))
    nlinarith

/-- Few traps are gentle. -/
theorem mix_gentle (hf : LipFill f L) (hT : 0 ≤ T) (hL : 4 * (T * L) ≤ 1) :
    Gentle (Ref.mixStep f dw) (Ref.MixFew dw T) (Ref.MixTwins dw) Ref.mixFilled (4 * (T * L)) T := by
  have k := mul_nonneg hT hf.nonneg_slope
  have hL1 : T * L ≤ 1 := by linarith
  refine ⟨fun s n hs _ => (mix_step hf hs hL1 n).1, fun s hs => ?_, fun s s' g hs hn => ?_,
    fun s s' g n n' hs _ hn _ _ => hn.step hf hs hL n n', fun s n hs hn => ?_, fun s n hs => (mix_step hf hs hL1 n).2.1,
    fun s hs => ?_, fun s hs => ?_⟩
  · have h := hs.reg
    clear hs
    induction s with
    | nil => exact .nil
    | cons t s ih =>
      have := Ref.MixTwins.cons (Ref.MixNear.refl (h t List.mem_cons_self)) (ih fun x hx => h x (List.mem_cons_of_mem _ hx))
      simpa using this
  · have h := hs.reg
    clear hs
    induction hn with
    | nil => exact le_rfl
    | cons h1 hs ih =>
      exact add_nonneg (h1.nonneg (h _ List.mem_cons_self)) (ih fun x hx => h x (List.mem_cons_of_mem _ hx))
  · have := (mix_step hf hs hL1 n).2.2 hn
    have := mul_le_mul_of_nonneg_right hL1 hn
    linarith
  · unfold Ref.mixFilled
    refine List.sum_nonneg fun x hx => ?_
    obtain ⟨t, ht, rfl⟩ := List.mem_map.1 hx
    exact (hs.reg t ht).filled_nonneg
  · rw [← hs.total]
    exact List.sum_le_sum fun t ht => (hs.reg t ht).filled_le

end groups

end Arctic
