import Verif.Lemmas.ClockLip

/-!
# Groups of traps of all sorts together
-/

set_option linter.unusedSectionVars false
set_option linter.unusedVariables false

namespace Arctic

/-- Number of traps of a group. -/
noncomputable def Ref.FullTraps.total : Ref.FullTraps → ℝ
  | .inl t => Ref.MixTraps.total t
  | .inr t => t.total

/-- Electrons in the traps of a group. -/
noncomputable def Ref.FullTraps.filled : Ref.FullTraps → ℝ
  | .inl t => Ref.MixTraps.filled t
  | .inr t => held t.dens t.occ

/-- Densities, fractions and times that make sense. -/
def Ref.FullTraps.Reg (dw : ℝ) : Ref.FullTraps → Prop
  | .inl t => Ref.MixTraps.Reg dw t
  | .inr t => t.Reg ∧ 0 ≤ dw

/-- As `Reg`, no depth fuller than in equilibrium. -/
def Ref.FullTraps.Calm (dw : ℝ) : Ref.FullTraps → Prop
  | .inl t => Ref.MixTraps.Calm dw t
  | .inr t => t.Reg ∧ 0 ≤ dw

/-- The same traps, their fillings at distance `g`. -/
inductive Ref.FullNear (dw : ℝ) : Ref.FullTraps → Ref.FullTraps → ℝ → Prop
  | inl {t t' : Ref.MixTraps} {g : ℝ} (h : Ref.MixNear dw t t' g) : FullNear dw (.inl t) (.inl t') g
  | inr (t : Ref.Clocks) (a : ℝ → Fin t.s → Option ℝ) (h : (t.reage a).Reg) :
    FullNear dw (.inr t) (.inr (t.reage a)) (heldGap t.dens t.occ (t.reage a).occ)

/-- The same traps, fuller at every depth. -/
inductive Ref.FullBelow (dw : ℝ) : Ref.FullTraps → Ref.FullTraps → Prop
  | inl {t t' : Ref.MixTraps} (h : Ref.MixBelow dw t t') : FullBelow dw (.inl t) (.inl t')
  | inr (t : Ref.Clocks) (a : ℝ → Fin t.s → Option ℝ) (h : t.Younger a) : FullBelow dw (.inr t) (.inr (t.reage a))

section group
variable {dw L : ℝ} {f : ℝ → ℝ} {t t' : Ref.FullTraps}

theorem Ref.FullTraps.Reg.total_nonneg (h : t.Reg dw) : 0 ≤ t.total := by
  cases t with
  | inl t =>
    have hh : Ref.MixTraps.Reg dw t := h
    exact hh.total_nonneg
  | inr t => exact h.1.total_nonneg

theorem Ref.FullTraps.Reg.filled_nonneg (h : t.Reg dw) : 0 ≤ t.filled := by
  cases t with
  | inl t =>
    have hh : Ref.MixTraps.Reg dw t := h
    exact hh.filled_nonneg
  | inr t => exact held_nonneg h.1.dens h.1.occ

theorem Ref.FullTraps.Reg.filled_le (h : t.Reg dw) : t.filled ≤ t.total := by
  cases t with
  | inl t =>
    have hh : Ref.MixTraps.Reg dw t := h
    exact hh.filled_le
  | inr t => exact held_le h.1.dens h.1.occ

theorem Ref.FullTraps.transfer_inr (t : Ref.Clocks) (h : t.Reg) (hd : 0 ≤ dw) (hf : LipFill f L) (n : ℝ) :
    Ref.FullTraps.transfer f dw (.inr t) n = (held t.dens t.occ - held t.dens (t.next f dw n).occ, .inr (t.next f dw n)) := by
  unfold Ref.FullTraps.transfer
  simp only [h.pass_next hd hf]

/-- One transfer of one group. -/
theorem full_transfer (hf : LipFill f L) (h : t.Reg dw) (hL : t.total * L ≤ 1) (n : ℝ) :
    (Ref.FullTraps.transfer f dw t n).2.Reg dw ∧ (Ref.FullTraps.transfer f dw t n).2.total = t.total ∧
      (Ref.FullTraps.transfer f dw t n).1 = t.filled - (Ref.FullTraps.transfer f dw t n).2.filled ∧
      (0 ≤ n → -(t.total * L * n) ≤ (Ref.FullTraps.transfer f dw t n).1) := by
  cases t with
  | inl t => exact mix_transfer hf h hL n
  | inr t =>
    rw [Ref.FullTraps.transfer_inr t h.1 h.2 hf n]
    exact ⟨⟨h.1.next h.2 f n, h.2⟩, rfl, rfl, fun hn => (h.1.loss h.2 hf hL hn).1⟩

theorem Ref.FullNear.nonneg {g : ℝ} (h : Ref.FullNear dw t t' g) (ht : t.Reg dw) : 0 ≤ g := by
  cases h with
  | inl h => exact h.nonneg ht
  | inr t a h => exact heldGap_nonneg ht.1.dens _ _

theorem Ref.FullNear.refl (h : t.Reg dw) : Ref.FullNear dw t t 0 := by
  cases t with
  | inl t => exact .inl (Ref.MixNear.refl h)
  | inr t =>
    have := Ref.FullNear.inr (dw := dw) t t.age h.1
    have e : heldGap t.dens t.occ (t.reage t.age).occ = 0 := by
      change heldGap t.dens t.occ t.occ = 0
      simp [heldGap]
    rw [e] at this
    exact this

/-- Two transfers of one group. -/
theorem Ref.FullNear.step {g : ℝ} (hf : LipFill f L) (h : Ref.FullNear dw t t' g) (ht : t.Reg dw)
    (hL : 4 * (t.total * L) ≤ 1) (n n' : ℝ) :
    ∃ g1, Ref.FullNear dw (Ref.FullTraps.transfer f dw t n).2 (Ref.FullTraps.transfer f dw t' n').2 g1 ∧
      (1 - 4 * (t.total * L)) * |(Ref.FullTraps.transfer f dw t n).1 - (Ref.FullTraps.transfer f dw t' n').1| + g1 ≤
        g + 4 * (t.total * L) * |n - n'| := by
  cases h with
  | inl h =>
    obtain ⟨g1, a1, a2⟩ := h.step hf ht hL n n'
    exact ⟨g1, .inl a1, a2⟩
  | inr t a h =>
    rw [Ref.FullTraps.transfer_inr t ht.1 ht.2 hf n, Ref.FullTraps.transfer_inr (t.reage a) h ht.2 hf n']
    exact ⟨_, .inr (t.next f dw n) ((t.reage a).next f dw n').age (h.next ht.2 f n'), clock_lip ht.1 h ht.2 hf hL n n'⟩

theorem Ref.FullTraps.Calm.reg (h : t.Calm dw) : t.Reg dw := by
  cases t with
  | inl t =>
    have hh : Ref.MixTraps.Calm dw t := h
    exact hh.reg
  | inr t => exact h

theorem Ref.FullTraps.Calm.step (hf : LipFill f L) (h : t.Calm dw) (hL : t.total * L ≤ 1) (n : ℝ) :
    (Ref.FullTraps.transfer f dw t n).2.Calm dw := by
  cases t with
  | inl t =>
    have hh : Ref.MixTraps.Calm dw t := h
    exact hh.step hf hL n
  | inr t =>
    rw [Ref.FullTraps.transfer_inr t h.1 h.2 hf n]
    exact ⟨h.1.next h.2 f n, h.2⟩

theorem Ref.FullBelow.step (hf : LipFill f L) (hb : Ref.FullBelow dw t t') (h : t.Calm dw) (h' : t'.Calm dw)
    (hL : t.total * L ≤ 1) {n n' : ℝ} (hn : n ≤ n') :
    Ref.FullBelow dw (Ref.FullTraps.transfer f dw t n).2 (Ref.FullTraps.transfer f dw t' n').2 ∧
      -(2 * (t.total * L) * (n' - n)) ≤
        (Ref.FullTraps.transfer f dw t' n').1 - (Ref.FullTraps.transfer f dw t n).1 := by
  cases hb with
  | inl hb =>
    obtain ⟨a1, a2⟩ := hb.step hf h h' hL hn
    exact ⟨.inl a1, a2⟩
  | inr t a hy =>
    obtain ⟨-, j1, j2⟩ := clock_mono h.1 h'.1 h.2 hy hf hL hn
    rw [Ref.FullTraps.transfer_inr t h.1 h.2 hf n, Ref.FullTraps.transfer_inr (t.reage a) h'.1 h.2 hf n']
    refine ⟨.inr (t.next f dw n) ((t.reage a).next f dw n').age j1, le_trans ?_ j2⟩
    have := mul_nonneg (mul_nonneg h.1.total_nonneg hf.nonneg_slope) (sub_nonneg.2 hn)
    change -(2 * (t.total * L) * (n' - n)) ≤ _
    linarith

theorem Ref.FullBelow.refl (t : Ref.FullTraps) : Ref.FullBelow dw t t := by
  cases t with
  | inl t => exact .inl (Ref.MixBelow.refl t)
  | inr t => exact .inr t t.age fun d j a ha => ⟨a, ha, le_rfl⟩

theorem Ref.FullBelow.filled_le (hb : Ref.FullBelow dw t t') (h : t.Reg dw) (h' : t'.Reg dw) : t.filled ≤ t'.filled := by
  cases hb with
  | inl hb => exact hb.filled_le h h'
  | inr t a hy =>
    have h1 : ∀ d j, t.occ d j ≤ (t.reage a).occ d j := by
      intro d j
      change (t.age d j).elim 0 (t.law j) ≤ (a d j).elim 0 (t.law j)
      cases e : t.age d j with
      | none =>
        cases e' : a d j with
        | none => exact le_rfl
        | some b => exact (h.1.law j b (h'.1.age d j b e')).1
      | some x =>
        obtain ⟨b, hb, hbx⟩ := hy d j x e
        have e' : a d j = some b := hb
        rw [e']
        exact h.1.anti j b x (h'.1.age d j b e') hbx
    exact held_mono h.1.dens h.1.occ h'.1.occ h1

end group

/-! ### all groups -/

/-- Number of traps of all groups. -/
noncomputable def Ref.fullTotal (ts : List Ref.FullTraps) : ℝ := (ts.map Ref.FullTraps.total).sum

/-- Electrons in all traps. -/
noncomputable def Ref.fullFilled (ts : List Ref.FullTraps) : ℝ := (ts.map Ref.FullTraps.filled).sum

/-- Well-behaved groups with `T` traps in all. -/
structure Ref.FullFew (dw T : ℝ) (ts : List Ref.FullTraps) : Prop where
  reg : ∀ t ∈ ts, t.Reg dw
  total : Ref.fullTotal ts = T

/-- The same groups, their fillings at distance `g`. -/
inductive Ref.FullTwins (dw : ℝ) : List Ref.FullTraps → List Ref.FullTraps → ℝ → Prop
  | nil : FullTwins dw [] [] 0
  | cons {t t' : Ref.FullTraps} {ts ts' : List Ref.FullTraps} {g g' : ℝ} (h : Ref.FullNear dw t t' g)
      (hs : FullTwins dw ts ts' g') : FullTwins dw (t :: ts) (t' :: ts') (g + g')

section groups
variable {dw L T : ℝ} {f : ℝ → ℝ} {ts ts' : List Ref.FullTraps}

theorem Ref.fullTotal_nonneg (h : ∀ t ∈ ts, t.Reg dw) : 0 ≤ Ref.fullTotal ts := by
  unfold Ref.fullTotal
  refine List.sum_nonneg fun x hx => ?_
  obtain ⟨t, ht, rfl⟩ := List.mem_map.1 hx
  exact (h t ht).total_nonneg

theorem Ref.fullStep_cons (f : ℝ → ℝ) (dw : ℝ) (t : Ref.FullTraps) (ts : List Ref.FullTraps) (n : ℝ) :
    Ref.fullStep f dw (t :: ts) n = ((Ref.FullTraps.transfer f dw t n).1 + (Ref.fullStep f dw ts n).1,
      (Ref.FullTraps.transfer f dw t n).2 :: (Ref.fullStep f dw ts n).2) := by
  unfold Ref.fullStep
  simp

theorem Ref.fullTotal_cons (t : Ref.FullTraps) (ts : List Ref.FullTraps) :
    Ref.fullTotal (t :: ts) = t.total + Ref.fullTotal ts := by simp [Ref.fullTotal]

theorem Ref.fullFilled_cons (t : Ref.FullTraps) (ts : List Ref.FullTraps) :
    Ref.fullFilled (t :: ts) = t.filled + Ref.fullFilled ts := by simp [Ref.fullFilled]

theorem Ref.FullFew.split {t : Ref.FullTraps} (h : Ref.FullFew dw T (t :: ts)) :
    t.Reg dw ∧ Ref.FullFew dw (Ref.fullTotal ts) ts ∧ t.total + Ref.fullTotal ts = T := by
  refine ⟨h.reg t List.mem_cons_self, ⟨fun x hx => h.reg x (List.mem_cons_of_mem _ hx), rfl⟩, ?_⟩
  rw [← Ref.fullTotal_cons]; exact h.total

theorem full_step (hf : LipFill f L) (h : Ref.FullFew dw T ts) (hL : T * L ≤ 1) (n : ℝ) :
    Ref.FullFew dw T (Ref.fullStep f dw ts n).2 ∧
      (Ref.fullStep f dw ts n).1 = Ref.fullFilled ts - Ref.fullFilled (Ref.fullStep f dw ts n).2 ∧
      (0 ≤ n → -(T * L * n) ≤ (Ref.fullStep f dw ts n).1) := by
  induction ts generalizing T with
  | nil =>
    have hT : T = 0 := by rw [← h.total]; rfl
    refine ⟨h, by simp [Ref.fullStep, Ref.fullFilled], fun _ => by rw [hT]; simp [Ref.fullStep]⟩
  | cons t ts ih =>
    obtain ⟨h1, h2, h3⟩ := h.split
    have k1 := mul_nonneg h1.total_nonneg hf.nonneg_slope
    have k2 := mul_nonneg (Ref.fullTotal_nonneg h2.reg) hf.nonneg_slope
    rw [← h3, add_mul] at hL
    obtain ⟨i1, i2, i3⟩ := ih h2 (by linarith)
    obtain ⟨a1, a2, a3, a4⟩ := full_transfer hf h1 (by linarith) n
    rw [Ref.fullStep_cons]
    refine ⟨⟨?_, ?_⟩, ?_, fun hn => ?_⟩
    · intro x hx
      rcases List.mem_cons.1 hx with rfl | hx
      · exact a1
      · exact i1.reg x hx
    · rw [Ref.fullTotal_cons, a2, i1.total, h3]
    · simp only [Ref.fullFilled_cons]
      rw [a3, i2]
      ring
    · have e1 := a4 hn
      have e2 := i3 hn
      rw [← h3]
      simp only
      nlinarith

theorem Ref.FullTwins.step {g : ℝ} (hf : LipFill f L) (h : Ref.FullTwins dw ts ts' g) (hts : Ref.FullFew dw T ts)
    (hL : 4 * (T * L) ≤ 1) (n n' : ℝ) :
    ∃ g1, Ref.FullTwins dw (Ref.fullStep f dw ts n).2 (Ref.fullStep f dw ts' n').2 g1 ∧
      (1 - 4 * (T * L)) * |(Ref.fullStep f dw ts n).1 - (Ref.fullStep f dw ts' n').1| + g1 ≤ g + 4 * (T * L) * |n - n'| := by
  induction h generalizing T with
  | nil =>
    have hT : T = 0 := by rw [← hts.total]; rfl
    exact ⟨0, .nil, by rw [hT]; simp [Ref.fullStep]⟩
  | @cons t t' ts ts' g g' h hs ih =>
    obtain ⟨h1, h2, h3⟩ := hts.split
    have k1 := mul_nonneg h1.total_nonneg hf.nonneg_slope
    have k2 := mul_nonneg (Ref.fullTotal_nonneg h2.reg) hf.nonneg_slope
    rw [← h3, add_mul] at hL
    obtain ⟨g1, i1, i2⟩ := ih h2 (by linarith)
    obtain ⟨g2, j1, j2⟩ := h.step hf h1 (by linarith) n n'
    rw [Ref.fullStep_cons, Ref.fullStep_cons]
    refine ⟨g2 + g1, .cons j1 i1, ?_⟩
    rw [← h3, add_mul]
    simp only
    have a2 := abs_add_le ((Ref.FullTraps.transfer f dw t n).1 - (Ref.FullTraps.transfer f dw t' n').1)
      ((Ref.fullStep f dw ts n).1 - (Ref.fullStep f dw ts' n').1)
    rw [show ∀ a b c d : ℝ, a - b + (c - d) = a + c - (b + d) by intros; ring] at a2
    have a3 := mul_le_mul_of_nonneg_left a2 (sub_nonneg.2 hL)
    have a4 := mul_nonneg k2 (abs_nonneg ((Ref.FullTraps.transfer f dw t n).1 - (Ref.FullTraps.transfer f dw t' n').1))
    have a5 := mul_nonneg k1 (abs_nonneg ((Ref.fullStep f dw ts n).1 - (Ref.fullStep f dw ts' n').1))
    nlinarith

/-- Few traps are gentle. -/
theorem full_gentle (hf : LipFill f L) (hT : 0 ≤ T) (hL : 4 * (T * L) ≤ 1) :
    Gentle (Ref.fullStep f dw) (Ref.FullFew dw T) (Ref.FullTwins dw) Ref.fullFilled (4 * (T * L)) T := by
  have k := mul_nonneg hT hf.nonneg_slope
  have hL1 : T * L ≤ 1 := by linarith
  refine ⟨fun s n hs _ => (full_step hf hs hL1 n).1, fun s hs => ?_, fun s s' g hs hn => ?_,
    fun s s' g n n' hs _ hn _ _ => hn.step hf hs hL n n', fun s n hs hn => ?_, fun s n hs => (full_step hf hs hL1 n).2.1,
    fun s hs => ?_, fun s hs => ?_⟩
  · have h := hs.reg
    clear hs
    induction s with
    | nil => exact .nil
    | cons t s ih =>
      have := Ref.FullTwins.cons (Ref.FullNear.refl (h t List.mem_cons_self)) (ih fun x hx => h x (List.mem_cons_of_mem _ hx))
      simpa using this
  · have h := hs.reg
    clear hs
    induction hn with
    | nil => exact le_rfl
    | cons h1 hs ih =>
      exact add_nonneg (h1.nonneg (h _ List.mem_cons_self)) (ih fun x hx => h x (List.mem_cons_of_mem _ hx))
  · have := (full_step hf hs hL1 n).2.2 hn
    have := mul_le_mul_of_nonneg_right hL1 hn
    linarith
  · unfold Ref.fullFilled
    refine List.sum_nonneg fun x hx => ?_
    obtain ⟨t, ht, rfl⟩ := List.mem_map.1 hx
    exact (hs.reg t ht).filled_nonneg
  · rw [← hs.total]
    exact List.sum_le_sum fun t ht => (hs.reg t ht).filled_le

end groups

section groups
variable {dw L T : ℝ} {f : ℝ → ℝ} {ts ts' : List Ref.FullTraps}

/-- Groups with `T` traps in all, no depth fuller than in equilibrium. -/
structure Ref.FullCalm (dw T : ℝ) (ts : List Ref.FullTraps) : Prop where
  calm : ∀ t ∈ ts, t.Calm dw
  total : Ref.fullTotal ts = T

theorem Ref.FullCalm.few (h : Ref.FullCalm dw T ts) : Ref.FullFew dw T ts := ⟨fun t ht => (h.calm t ht).reg, h.total⟩

theorem Ref.FullCalm.split {t : Ref.FullTraps} (h : Ref.FullCalm dw T (t :: ts)) :
    t.Calm dw ∧ Ref.FullCalm dw (Ref.fullTotal ts) ts ∧ T = t.total + Ref.fullTotal ts :=
  ⟨h.calm t List.mem_cons_self, ⟨fun x hx => h.calm x (List.mem_cons_of_mem _ hx), rfl⟩,
    by rw [← h.total, Ref.fullTotal_cons]⟩

theorem Ref.FullCalm.each (h : Ref.FullCalm dw T ts) (hL : 0 ≤ L) (hT : T * L ≤ 1) : ∀ t ∈ ts, t.total * L ≤ 1 := by
  intro t ht
  refine le_trans (mul_le_mul_of_nonneg_right ?_ hL) hT
  rw [← h.total]
  unfold Ref.fullTotal
  refine List.single_le_sum (fun x hx => ?_) _ (List.mem_map_of_mem ht)
  obtain ⟨u, hu, rfl⟩ := List.mem_map.1 hx
  exact (h.calm u hu).reg.total_nonneg

theorem Ref.FullCalm.step (hf : LipFill f L) (h : Ref.FullCalm dw T ts) (hL : T * L ≤ 1) (n : ℝ) :
    Ref.FullCalm dw T (Ref.fullStep f dw ts n).2 := by
  have hs := full_step hf h.few hL n
  refine ⟨fun t ht => ?_, hs.1.total⟩
  obtain ⟨u, hu, rfl⟩ := List.mem_map.1 ht
  exact (h.calm u hu).step hf (h.each hf.nonneg_slope hL u hu) n

theorem full_below (hf : LipFill f L) (hb : List.Forall₂ (Ref.FullBelow dw) ts ts') {T : ℝ} (h : Ref.FullCalm dw T ts)
    (h' : ∀ t ∈ ts', t.Calm dw) (hL : T * L ≤ 1) {n n' : ℝ} (hn : n ≤ n') :
    List.Forall₂ (Ref.FullBelow dw) (Ref.fullStep f dw ts n).2 (Ref.fullStep f dw ts' n').2 ∧
      -(2 * (T * L) * (n' - n)) ≤ (Ref.fullStep f dw ts' n').1 - (Ref.fullStep f dw ts n).1 := by
  induction hb generalizing T with
  | nil =>
    have hT : T = 0 := by rw [← h.total]; rfl
    subst hT
    exact ⟨.nil, by simp [Ref.fullStep]⟩
  | @cons t t' ts ts' ht hts ih =>
    obtain ⟨h1, h2, h3⟩ := h.split
    have hl := h.each hf.nonneg_slope hL t List.mem_cons_self
    have k := mul_nonneg h1.reg.total_nonneg hf.nonneg_slope
    obtain ⟨i1, i2⟩ := ih h2 (fun x hx => h' x (List.mem_cons_of_mem _ hx)) (by rw [h3, add_mul] at hL; linarith)
    obtain ⟨j1, j2⟩ := ht.step hf h1 (h' t' List.mem_cons_self) hl hn
    rw [Ref.fullStep_cons, Ref.fullStep_cons]
    refine ⟨.cons j1 i1, ?_⟩
    rw [h3]
    simp only
    nlinarith

/-- All groups together. -/
theorem full_orderly (hf : LipFill f L) (hL : 2 * (T * L) ≤ 1) (hT : 0 ≤ T) :
    Orderly (Ref.fullStep f dw) (Ref.FullCalm dw T) (List.Forall₂ (Ref.FullBelow dw)) Ref.fullFilled where
  inv s n hs := hs.step hf (by have := mul_nonneg hT hf.nonneg_slope; linarith) n
  refl s := by
    induction s with
    | nil => exact .nil
    | cons t ts ih => exact .cons (Ref.FullBelow.refl t) ih
  order s s' n n' hs hs' hb hn := by
    have k := mul_nonneg hT hf.nonneg_slope
    obtain ⟨b1, b2⟩ := full_below hf hb hs hs'.calm (by linarith) hn
    refine ⟨b1, ?_⟩
    have := mul_le_mul_of_nonneg_right hL (sub_nonneg.2 hn)
    linarith
  gain s n hs := by
    have k := mul_nonneg hT hf.nonneg_slope
    have := (full_step hf hs.few (by linarith) n).2.1
    exact this
  mass_le s s' hs hs' hb := by
    have h1 := hs.calm
    have h2 := hs'.calm
    clear hs hs'
    induction hb with
    | nil => exact le_rfl
    | @cons t t' ts ts' ht hts ih =>
      rw [Ref.fullFilled_cons, Ref.fullFilled_cons]
      exact add_le_add (ht.filled_le (h1 t List.mem_cons_self).reg (h2 t' List.mem_cons_self).reg)
        (ih (fun x hx => h1 x (List.mem_cons_of_mem _ hx)) fun x hx => h2 x (List.mem_cons_of_mem _ hx))

end groups

end Arctic
