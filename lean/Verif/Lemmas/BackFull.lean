import Verif.Lemmas.StepColumnFrom
import Verif.Lemmas.RefLift

/-!
# Traps of all classes over a background

For clouds that never fall below `b` electrons, a filling law that is steep for small clouds only can be replaced by one
that is linear up to `b` electrons.
-/

set_option linter.unusedSectionVars false
set_option linter.unusedVariables false

namespace Arctic
open Ref (stepRow stepPass stepReadout)

/-! ### columns that stay above a background -/

section floor
variable {σ : Type} {step step' : σ → ℝ → ℝ × σ} {Inv : σ → Prop} {b κ : ℝ}

theorem passFloor (hs : ∀ s n, Inv s → b ≤ n → Inv (step s n).2 ∧ -(κ * n) ≤ (step s n).1) (h0 : 0 ≤ κ) (hb : 0 ≤ b) (R : ℕ)
    (l : List (ℕ × ℝ)) : ∀ (x : ℕ → ℝ) (s : σ), Inv s → (l.map Prod.fst).Nodup → (∀ p ∈ l, p.1 < R ∧ p.2 = 1) →
      (∀ p ∈ l, b ≤ x p.1) → (∀ r < R, 0 ≤ x r) → ∀ r < R, (1 - κ) * x r ≤ (l.foldl (stepRow step) (x, s)).1 r := by
  induction l with
  | nil =>
    intro x s _ _ _ _ h r hr
    have := mul_nonneg h0 (h r hr)
    simp only [List.foldl_nil]
    linarith
  | cons p l ih =>
    intro x s hi hnd hp hbx hx r hr
    rw [List.map_cons, List.nodup_cons] at hnd
    obtain ⟨p1, p2⟩ := hp p List.mem_cons_self
    obtain ⟨a1, a2⟩ := hs s _ hi (hbx p List.mem_cons_self)
    rw [List.foldl_cons]
    have hother : ∀ q ∈ l, (stepRow step (x, s) p).1 q.1 = x q.1 := fun q hq =>
      stepRow_other (x, s) p fun e => hnd.1 (e ▸ List.mem_map_of_mem hq)
    have hself : (stepRow step (x, s) p).1 p.1 = max 0 (x p.1 + (step s (x p.1)).1) := by
      unfold stepRow
      simp [p2]
    have hnn : ∀ r < R, 0 ≤ (stepRow step (x, s) p).1 r := by
      intro r hr
      by_cases e : r = p.1
      · rw [e, hself]; exact le_max_left _ _
      · rw [stepRow_other (x, s) p e]; exact hx r hr
    by_cases e : r = p.1
    · have hun : ∀ (l : List (ℕ × ℝ)) (st : (ℕ → ℝ) × σ), (∀ q ∈ l, r ≠ q.1) → (l.foldl (stepRow step) st).1 r = st.1 r := by
        intro l
        induction l with
        | nil => intro st _; rfl
        | cons q l ih =>
          intro st h
          rw [List.foldl_cons, ih _ fun q hq => h q (List.mem_cons_of_mem _ hq), stepRow_other st q (h q List.mem_cons_self)]
      rw [hun l _ fun q hq e' => hnd.1 (e ▸ e' ▸ List.mem_map_of_mem hq), e, hself]
      refine le_trans ?_ (le_max_right _ _)
      linarith
    · have := ih (stepRow step (x, s) p).1 (stepRow step (x, s) p).2 a1 hnd.2 (fun q hq => hp q (List.mem_cons_of_mem _ hq))
        (fun q hq => by rw [hother q hq]; exact hbx q (List.mem_cons_of_mem _ hq)) hnn r hr
      rwa [stepRow_other (x, s) p e] at this

/-- A column that is high enough at the beginning stays above the background. -/
theorem stays_of (hs : ∀ s n, Inv s → b ≤ n → Inv (step s n).2 ∧ -(κ * n) ≤ (step s n).1) (h0 : 0 ≤ κ) (h1 : κ ≤ 1)
    (hb : 0 ≤ b) (R : ℕ) {s : σ} (hi : Inv s) (passes : List (List (ℕ × ℝ))) :
    ∀ x : ℕ → ℝ, (∀ p ∈ passes, (p.map Prod.fst).Nodup) → (∀ p ∈ passes, ∀ q ∈ p, q.1 < R ∧ q.2 = 1) →
      (∀ r < R, b ≤ (1 - κ) ^ passes.length * x r) → (∀ r < R, 0 ≤ x r) →
      Stays step s b passes x ∧ ∀ r < R, (1 - κ) ^ passes.length * x r ≤ stepReadout step s passes x r := by
  induction passes with
  | nil => intro x _ _ _ _; exact ⟨trivial, fun r _ => by simp [stepReadout]⟩
  | cons p ps ih =>
    intro x hnd hp hbx hx
    have hle : ∀ r < R, b ≤ x r := by
      intro r hr
      refine (hbx r hr).trans ?_
      have := mul_le_mul_of_nonneg_right (pow_le_one₀ (n := (p :: ps).length) (sub_nonneg.2 h1) (by linarith)) (hx r hr)
      rwa [one_mul] at this
    have hpass := passFloor hs h0 hb R p x s hi (hnd p List.mem_cons_self) (hp p List.mem_cons_self)
      (fun q hq => hle _ (hp p List.mem_cons_self q hq).1) hx
    have hmul : ∀ r < R, (1 - κ) ^ (p :: ps).length * x r ≤ (1 - κ) ^ ps.length * stepPass step s x p r := by
      intro r hr
      rw [List.length_cons, pow_succ, mul_assoc]
      exact mul_le_mul_of_nonneg_left (hpass r hr) (pow_nonneg (sub_nonneg.2 h1) _)
    obtain ⟨g1, g2⟩ := ih (stepPass step s x p) (fun q hq => hnd q (List.mem_cons_of_mem _ hq))
      (fun q hq => hp q (List.mem_cons_of_mem _ hq)) (fun r hr => (hbx r hr).trans (hmul r hr))
      (fun r hr => (mul_nonneg (sub_nonneg.2 h1) (hx r hr)).trans (hpass r hr))
    exact ⟨⟨fun q hq => hle _ (hp p List.mem_cons_self q hq).1, g1⟩, fun r hr => (hmul r hr).trans (g2 r hr)⟩

theorem rows_congr_on (hs : ∀ s n, Inv s → b ≤ n → Inv (step s n).2 ∧ step s n = step' s n) (l : List (ℕ × ℝ)) :
    ∀ (x : ℕ → ℝ) (s : σ), Inv s → (l.map Prod.fst).Nodup → (∀ p ∈ l, b ≤ x p.1) →
      l.foldl (stepRow step) (x, s) = l.foldl (stepRow step') (x, s) := by
  induction l with
  | nil => intro x s _ _ _; rfl
  | cons p l ih =>
    intro x s hi hnd hbx
    rw [List.map_cons, List.nodup_cons] at hnd
    obtain ⟨a1, a2⟩ := hs s _ hi (hbx p List.mem_cons_self)
    have e : stepRow step (x, s) p = stepRow step' (x, s) p := by
      unfold stepRow
      simp only [a2]
    rw [List.foldl_cons, List.foldl_cons, ← e]
    refine ih (stepRow step (x, s) p).1 (stepRow step (x, s) p).2 a1 hnd.2 fun q hq => ?_
    rw [stepRow_other (x, s) p fun e => hnd.1 (e ▸ List.mem_map_of_mem hq)]
    exact hbx q (List.mem_cons_of_mem _ hq)

theorem stepReadout_congr_on (hs : ∀ s n, Inv s → b ≤ n → Inv (step s n).2 ∧ step s n = step' s n) {s : σ} (hi : Inv s)
    (passes : List (List (ℕ × ℝ))) : ∀ x : ℕ → ℝ, (∀ p ∈ passes, (p.map Prod.fst).Nodup) → Stays step s b passes x →
      stepReadout step s passes x = stepReadout step' s passes x := by
  induction passes with
  | nil => intro x _ _; rfl
  | cons p ps ih =>
    intro x hnd hst
    have e : stepPass step s x p = stepPass step' s x p := by
      unfold stepPass
      rw [rows_congr_on hs p x s hi (hnd p List.mem_cons_self) hst.1]
    have := ih _ (fun q hq => hnd q (List.mem_cons_of_mem _ hq)) hst.2
    unfold stepReadout at this ⊢
    rw [List.foldl_cons, List.foldl_cons, ← e]
    exact this

end floor

/-! ### a step function that carries more along -/

section proj
variable {σ ρ : Type} {step : σ → ℝ → ℝ × σ} {step' : ρ → ℝ → ℝ × ρ} {g : σ → ρ} {b : ℝ}

theorem stepRows_proj (h : ∀ s n, step' (g s) n = ((step s n).1, g (step s n).2)) (l : List (ℕ × ℝ)) :
    ∀ (x : ℕ → ℝ) (s : σ), l.foldl (stepRow step') (x, g s) =
      ((l.foldl (stepRow step) (x, s)).1, g (l.foldl (stepRow step) (x, s)).2) := by
  induction l with
  | nil => intro x s; rfl
  | cons p l ih =>
    intro x s
    have e : stepRow step' (x, g s) p = ((stepRow step (x, s) p).1, g (stepRow step (x, s) p).2) := by
      unfold stepRow
      simp only [h]
    rw [List.foldl_cons, List.foldl_cons, e, ih]

theorem stepPass_proj (h : ∀ s n, step' (g s) n = ((step s n).1, g (step s n).2)) (x : ℕ → ℝ) (s : σ) (l : List (ℕ × ℝ)) :
    stepPass step' (g s) x l = stepPass step s x l := by
  unfold stepPass
  rw [stepRows_proj h]

theorem stepReadout_proj (h : ∀ s n, step' (g s) n = ((step s n).1, g (step s n).2)) (s : σ) (ps : List (List (ℕ × ℝ))) :
    ∀ x, stepReadout step' (g s) ps x = stepReadout step s ps x := by
  induction ps with
  | nil => intro x; rfl
  | cons p ps ih =>
    intro x
    have := ih (stepPass step s x p)
    unfold stepReadout at this ⊢
    rw [List.foldl_cons, List.foldl_cons, stepPass_proj h]
    exact this

theorem stays_proj (h : ∀ s n, step' (g s) n = ((step s n).1, g (step s n).2)) (s : σ) (ps : List (List (ℕ × ℝ))) :
    ∀ x, Stays step' (g s) b ps x → Stays step s b ps x := by
  induction ps with
  | nil => intro x _; trivial
  | cons p ps ih =>
    intro x hx
    refine ⟨hx.1, ih _ ?_⟩
    rw [← stepPass_proj h]
    exact hx.2

end proj

/-! ### the law made linear below the background -/

theorem fullStep_congr {f g : ℝ → ℝ} {b dw n L : ℝ} {ts : List Ref.FullTraps} (hts : ∀ t ∈ ts, t.Reg dw)
    (hfg : ∀ z, b ≤ z → f z = g z) (hn : b ≤ n) : Ref.fullStep f dw ts n = Ref.fullStep g dw ts n := by
  have key : ∀ t ∈ ts, Ref.FullTraps.transfer f dw t n = Ref.FullTraps.transfer g dw t n := by
    intro t ht
    have h := hts t ht
    rcases t with (t | t) | t
    · have hh : t.Reg dw := h
      simp only [Ref.FullTraps.transfer, Ref.MixTraps.transfer, transfer_congr hh hfg hn]
    · have hh : t.Reg dw := h
      have e0 : f n = g n := hfg n hn
      have e1 : t.first f dw n = t.first g dw n := by unfold Ref.Slow.first; rw [e0]
      have e2 : t.cloud f dw n = t.cloud g dw n := by unfold Ref.Slow.cloud; rw [e1]
      have e3 : f (t.cloud f dw n) = g (t.cloud g dw n) := by
        rw [← e2]; exact hfg _ (hn.trans (hh.cloud_ge f n))
      have e4 : t.second f dw n = t.second g dw n := by unfold Ref.Slow.second; rw [e1, e3]
      simp only [Ref.FullTraps.transfer, Ref.MixTraps.transfer, Ref.Slow.transfer_eq, e4]
    · have hh : t.Reg ∧ 0 ≤ dw := h
      have e : f (n + (t.filled - (t.wait dw).filled)) = g (n + (t.filled - (t.wait dw).filled)) := by
        refine hfg _ (hn.trans ?_)
        have := hh.1.cloud_ge hh.2 n
        unfold Ref.Clocks.cloud at this
        have e1 : (t.wait dw).occ = t.later dw := by
          rw [← Ref.Clocks.later_zero, Ref.Clocks.later_wait, add_zero]
        have e2 : (t.wait dw).filled = held t.dens (t.later dw) := by rw [← e1]; rfl
        rw [e2]
        exact this
      simp only [Ref.FullTraps.transfer, Ref.Clocks.pass, e]
  unfold Ref.fullStep
  rw [List.map_congr_left fun t ht => congrArg Prod.fst (key t ht), List.map_congr_left fun t ht => congrArg Prod.snd (key t ht)]

/-- A law with which few traps take little from a cloud of at least `b` electrons. -/
structure LawFrom (f : ℝ → ℝ) (b L : ℝ) : Prop where
  background : 0 < b
  fill : FillModel f
  lip : LipFill (liftFill f b) L
  pos : ∀ n, 0 < n → 0 < liftFill f b n

section law
variable {f : ℝ → ℝ} {b L T dw : ℝ}

theorem LawFrom.step (h : LawFrom f b L) (hL : T * L ≤ 1) {ts : List Ref.FullTraps} (hts : Ref.FullFew dw T ts) {n : ℝ}
    (hn : b ≤ n) : Ref.fullStep f dw ts n = Ref.fullStep (liftFill f b) dw ts n ∧
      Ref.FullFew dw T (Ref.fullStep f dw ts n).2 ∧ -(T * L * n) ≤ (Ref.fullStep f dw ts n).1 := by
  have e := fullStep_congr (L := L) hts.reg (fun z hz => (liftFill_eq hz).symm) hn (f := f) (g := liftFill f b)
  have s := full_step h.lip hts hL n
  rw [e]
  exact ⟨rfl, s.1, s.2.2 (h.background.le.trans hn)⟩

/-- Managers beside the traps of the reference. -/
noncomputable def bothStep (f : ℝ → ℝ) (dw : ℝ) (s : List (Mgr ℝ) × List Ref.FullTraps) (n : ℝ) :
    ℝ × (List (Mgr ℝ) × List Ref.FullTraps) :=
  ((Ref.fullStep f dw s.2 n).1,
    ((match groupsStep n dw f s.1 with | .ok o => o.2 | .error _ => s.1), (Ref.fullStep f dw s.2 n).2))

/-- They agree. -/
def BothInv (T dw : ℝ) (M k : ℕ) (s : List (Mgr ℝ) × List Ref.FullTraps) : Prop :=
  List.Forall₂ (EveryRef T False M k) s.1 (s.2.map Ref.FullTraps.every) ∧ Ref.FullFew dw T s.2

theorem both_step (h : LawFrom f b L) (hT : 0 ≤ T) (hL : T * L ≤ 1) (hd : 0 < dw) {M k : ℕ} {s : List (Mgr ℝ) × List Ref.FullTraps}
    (hs : BothInv T dw M k s) (hk : k < M) {n : ℝ} (hn : b ≤ n) :
    ∃ ms, groupsStep n dw f s.1 = .ok ((Ref.fullStep f dw s.2 n).1, ms) ∧
      BothInv T dw M (k + 1) (ms, (Ref.fullStep f dw s.2 n).2) := by
  obtain ⟨h1, h2⟩ := hs
  have hn0 : 0 < n := h.background.trans_le hn
  have hfew : FewTraps (liftFill f b) T := by
    refine ⟨fun x y hxy => h.lip.mono hxy, fun x y _ hxy => ?_, h.pos⟩
    have e1 := mul_le_mul_of_nonneg_left (h.lip.lip x y hxy) hT
    have e3 := mul_le_mul_of_nonneg_right hL (sub_nonneg.2 hxy)
    linarith
  obtain ⟨e1, e2, -⟩ := h.step hL h2 hn
  rw [groupsStep_congr_fill h1 hk h.fill (fun z hz => (liftFill_eq (hn.trans hz)).symm) hn0 hd (g := liftFill f b)]
  rcases (everyRef_follows T False).groups hk h.lip.toFillModel hfew n dw hn0.le hd h1 with ⟨net, ms, ts, g1, g2, g3⟩ | ⟨hf, -, -⟩
  · rw [full_groups h.lip h2 hL hn0.le] at g2
    injection g2 with g2
    injection g2 with g4 g5
    subst g4 g5
    rw [e1] at e2 ⊢
    exact ⟨ms, g1, g3, e2⟩
  · exact hf.elim

theorem both_sys (fill : ℕ → ℝ → ℝ) (h : LawFrom (fill 0) b L) (hT : 0 ≤ T) (hL : T * L ≤ 1) (hd : 0 < dw) (M : ℕ) :
    StepSysFrom (plainSpec.sys fill) dw (fun s sv => (⟨[s.1], [sv.1]⟩ : SpecState (Mgr ℝ))) (bothStep (fill 0) dw)
      (fun s => (s.1.map Mgr.empty, s.2.map Ref.FullTraps.vacate)) (BothInv T dw M) M b where
  react k s sv n hs hk hn := by
    obtain ⟨ms, g1, -⟩ := both_step h hT hL hd hs hk hn
    simp only [TrapSpec.sys, List.getElem?_cons_zero, plainSpec_groups, g1, Except.map, List.set_cons_zero, bothStep]
  inv k s n hs hk hn := by
    obtain ⟨ms, g1, g2⟩ := both_step h hT hL hd hs hk hn
    simp only [bothStep, g1]
    exact g2
  restore s sv := rfl
  save s sv := rfl
  emptyAll s sv := rfl
  emp k s n hs hk hn := by
    obtain ⟨ms, g1, -⟩ := both_step h hT hL hd hs hk hn
    simp only [bothStep, g1, groupsStep_empty g1]
    congr 1
    unfold Ref.fullStep
    simp only [List.map_map]
    refine List.map_congr_left fun t _ => ?_
    rcases t with (t | t) | t
    · exact congrArg (fun t => Sum.inl (Sum.inl t)) (transfer_empty t _ _ _)
    · rfl
    · rfl

/-- The readout of a column that is high enough is that with the law made linear, and stays above the background. -/
theorem LawFrom.readout (h : LawFrom f b L) (hT : 0 ≤ T) (hL : T * L ≤ 1) {ts : List Ref.FullTraps}
    (hts : Ref.FullFew dw T ts) (n o : ℕ) (x : ℕ → ℝ) (hx : ∀ r < n, b ≤ (1 - T * L) ^ (n + o) * x r) (h0 : ∀ r < n, 0 ≤ x r) :
    Stays (Ref.fullStep f dw) ts b (Ref.allPasses n o) x ∧
      stepReadout (Ref.fullStep f dw) ts (Ref.allPasses n o) x =
        stepReadout (Ref.fullStep (liftFill f b) dw) ts (Ref.allPasses n o) x ∧
      ∀ r < n, (1 - T * L) ^ (n + o) * x r ≤ stepReadout (Ref.fullStep f dw) ts (Ref.allPasses n o) x r := by
  have st := stays_of (step := Ref.fullStep f dw) (Inv := Ref.FullFew dw T) (b := b) (κ := T * L)
    (fun s n hs hn => (h.step hL hs hn).2) (mul_nonneg hT h.lip.nonneg_slope) hL h.background.le n hts (Ref.allPasses n o) x
    (allPasses_good n o).nodup (allPasses_one n o) (by rw [allPasses_length]; exact hx) h0
  rw [allPasses_length] at st
  exact ⟨st.1, stepReadout_congr_on (step := Ref.fullStep f dw) (step' := Ref.fullStep (liftFill f b) dw)
    (Inv := Ref.FullFew dw T) (b := b) (fun s n hs hn => ⟨(h.step hL hs hn).2.1, (h.step hL hs hn).1⟩) hts _ x
    (allPasses_good n o).nodup st.1, st.2⟩

end law

end Arctic
