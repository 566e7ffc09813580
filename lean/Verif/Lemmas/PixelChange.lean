import Verif.Lemmas.RunCfg
import Verif.Lemmas.AddCti
import Mathlib.Algebra.Order.BigOperators.Group.List

/-!
# How much one pixel can change

Every visit of a pixel changes it by no more than the traps of the phase can take or give, times the multiplier.
-/

set_option linter.unusedSectionVars false
set_option linter.unusedVariables false

namespace Arctic
open Finset

variable {K : Type} [Field K] [LinearOrder K] [IsStrictOrderedRing K]

/-! ### managers -/

/-- All traps of a manager. -/
def Mgr.traps (m : Mgr K) : K := ∑ j, m.dens j

theorem MgrOk.nTrapped_le {T : K → Prop} {M k : ℕ} {m : Mgr K} (h : MgrOk T M k m) : m.nTrapped ≤ m.traps := by
  obtain ⟨hd, hkind, i, -, hi, hst⟩ := h
  obtain ⟨s, dens, kind, wm⟩ := m
  cases kind with
  | slow p => exact hst.elim
  | instant p =>
    simp only [Mgr.nTrapped, electrons_eq_cy]
    exact ((InstState.wellFormed hst).1.electrons_bounds dens hd).2
  | trackTime c =>
    simp only [Mgr.nTrapped]
    rw [toFillFractions_electrons dens c (1 + M) i wm hst (by omega)]
    exact ((TrackState.asFractions_wf hst c hkind.2.1).1.electrons_bounds dens hd).2

theorem Mgr.step_traps {m m' : Mgr K} {n t net : K} {f : K → K} (h : m.step n t f = .ok (net, m')) :
    m'.traps = m.traps := by
  obtain ⟨s, dens, kind, wm⟩ := m
  cases kind with
  | slow p =>
    rw [step_slow] at h
    cases hs : slowStep dens (p t) f n wm with
    | error e => rw [hs] at h; cases h
    | ok v => rw [hs] at h; injection h with h; injection h with h1 h2; subst h2; rfl
  | instant p =>
    rw [step_instant] at h
    cases hs : icStep (instantOps dens (p t)) f n wm with
    | error e => rw [hs] at h; cases h
    | ok v => rw [hs] at h; injection h with h; injection h with h1 h2; subst h2; rfl
  | trackTime c =>
    rw [step_track] at h
    cases hs : icStep (trackTimeOps dens c t) f n wm with
    | error e => rw [hs] at h; cases h
    | ok v => rw [hs] at h; injection h with h; injection h with h1 h2; subst h2; rfl

/-- What the groups of a phase release or capture is at most the number of their traps. -/
theorem groupsStep_net {M k : ℕ} (hk : k < M) {f : K → K} (hf : FillModel f) (n x : K) (hx : 0 < x) :
    ∀ (ms ms' : List (Mgr K)) (net : K), (∀ m ∈ ms, MgrOk (0 < ·) M k m) → groupsStep n x f ms = .ok (net, ms') →
      |net| ≤ (ms.map Mgr.traps).sum := by
  intro ms
  induction ms with
  | nil =>
    intro ms' net _ h
    unfold groupsStep at h
    injection h with h; injection h with h _
    rw [← h]; simp
  | cons m ms ih =>
    intro ms' net hm h
    unfold groupsStep at h
    obtain ⟨⟨net1, m1⟩, h1, h⟩ := bind_eq_ok h
    obtain ⟨⟨nets, ms1⟩, h2, h⟩ := bind_eq_ok h
    simp only at h
    injection h with h; injection h with h _
    have g0 := hm m List.mem_cons_self
    obtain ⟨g1, g2, -⟩ := (g0.step hk hf n x hx hx.le).ok h1
    simp only at g1 g2
    have ih := ih ms1 nets (fun m' hm' => hm m' (List.mem_cons_of_mem _ hm')) h2
    have : |net1| ≤ m.traps := by
      have a1 := g0.nTrapped_nonneg
      have a2 := g0.nTrapped_le
      have a3 := g1.nTrapped_nonneg
      have a4 := g1.nTrapped_le
      rw [Mgr.step_traps h1] at a4
      rw [g2, abs_le]
      constructor <;> linarith
    rw [← h, List.map_cons, List.sum_cons]
    exact (abs_add_le _ _).trans (add_le_add this ih)

/-- All traps of a phase. -/
def phaseTraps (d : List (List (Mgr K))) (ph : ℕ) : K := ((d[ph]?.getD []).map Mgr.traps).sum

theorem phaseTraps_emptied (d : List (List (Mgr K))) (ph : ℕ) : phaseTraps (emptied d) ph = phaseTraps d ph := by
  unfold phaseTraps emptied
  rw [List.getElem?_map]
  cases d[ph]? with
  | none => rfl
  | some ms =>
    simp only [Option.map_some, Option.getD_some, List.map_map]
    rfl

/-! ### a system with a limit on what may be released or captured -/

section limit
variable {S : Type}

/-- The system `A`, which fails if more than `B` is released or captured. -/
def limitSys (A : TrapSys K S) (B : ℕ → K) : TrapSys K S where
  restore := A.restore
  save := A.save
  emptyAll := A.emptyAll
  react s ph n dw := do
    let o ← A.react s ph n dw
    if |o.1| ≤ B ph then .ok o else .error .exception

theorem limitSys_net {A : TrapSys K S} {B : ℕ → K} {s s' : S} {ph : ℕ} {n dw net : K}
    (h : (limitSys A B).react s ph n dw = .ok (net, s')) : |net| ≤ B ph := by
  unfold limitSys at h
  obtain ⟨o, h1, h⟩ := bind_eq_ok h
  split at h
  · rename_i hb; injection h with h; subst h; exact hb
  · cases h

/-- The same result, or the limit was exceeded. -/
def Lim {α : Type} (x y : Except Err α) : Prop := y = x ∨ y = .error .exception

theorem Lim.refl {α : Type} (x : Except Err α) : Lim x x := Or.inl rfl

theorem Lim.bind {α β : Type} {x y : Except Err α} {f g : α → Except Err β} (h : Lim x y) (hf : ∀ a, Lim (f a) (g a)) :
    Lim (x >>= f) (y >>= g) := by
  rcases h with rfl | rfl
  · cases y with
    | error e => exact Or.inl rfl
    | ok a => exact hf a
  · exact Or.inr rfl

theorem foldlM_lim {α σ : Type} {f g : σ → α → Except Err σ} (l : List α) (h : ∀ s a, Lim (f s a) (g s a)) :
    ∀ s, Lim (l.foldlM f s) (l.foldlM g s) := by
  induction l with
  | nil => intro s; exact Lim.refl _
  | cons a l ih =>
    intro s
    rw [foldlM_cons, foldlM_cons]
    exact Lim.bind (h s a) ih

theorem columnBody_lim (A : TrapSys K S) (B : ℕ → K) (cfg : ClockCfg K) (c : ℕ) (st : Image K × S) :
    Lim (columnBody A cfg st c) (columnBody (limitSys A B) cfg st c) := by
  unfold columnBody
  refine Lim.bind (foldlM_lim _ (fun st k => ?_) st) fun st => Lim.refl _
  unfold expressBody
  refine foldlM_lim _ (fun st j => ?_) _
  unfold rowBody
  refine Lim.bind (foldlM_lim _ (fun st step => ?_) _) fun st => Lim.refl _
  unfold stepBody
  refine foldlM_lim _ (fun st phase => ?_) _
  unfold phaseBody
  split
  · refine Lim.bind (Lim.refl _) fun v => Lim.bind ?_ fun o => Lim.refl _
    change Lim _ (A.react _ _ _ _ >>= _)
    cases A.react st.2 phase _ _ with
    | error e => exact Lim.refl _
    | ok o =>
      change Lim _ (if _ then _ else _)
      split
      · exact Lim.refl _
      · exact Or.inr rfl
  · exact Lim.refl _

end limit

/-! ### the limit is never exceeded -/

/-- The invariant of a run, with the traps there are. -/
def TrapState (tr : Prop) (D0 : List (List (Mgr K))) (M D R C : ℕ) (u : ℕ → ℕ) (b : ℕ) (st : Image K × ATM K) : Prop :=
  OkState tr M D R C u b st ∧ emptied st.2.data = D0 ∧ emptied st.2.eff = D0

theorem trapState_inv {tr : Prop} {D0 : List (List (Mgr K))} {cfg : ClockCfg K} {fill : ℕ → K → K} {D R C N c : ℕ}
    (hcfg : RunCfg cfg fill D R) (hc : c < C) :
    BudgetInv (limitSys (atmSys fill) (phaseTraps D0)) cfg (fun e => tr ∧ e = .typeError) N c
      (TrapState tr D0 (N * cfg.steps.length) D R C) where
  phase k hk j hj step hs phase hp u b st hst hu := by
    obtain ⟨i, s⟩ := st
    obtain ⟨⟨h1, h2, h3, h4⟩, h5, h6⟩ := hst
    simp only at h1 h2 h3 h4 h5 h6
    obtain ⟨ph, dw, l1, l2, l3⟩ := hcfg.look step hs phase hp
    obtain ⟨w, l4⟩ := hcfg.rows k hk j hj
    obtain ⟨r1, r2⟩ := hcfg.range step phase ph l1 w (List.mem_of_getElem? l4)
    unfold phaseBody
    rw [l1, l2, l4]
    simp only
    unfold Image.read
    rw [if_pos ⟨r1.1, by rw [h1]; exact r1.2, by rw [h2]; exact hc⟩]
    refine Sat.bind (Q := fun _ => True) trivial fun v _ => ?_
    have hS : Sat (fun e => tr ∧ e = .typeError)
        (fun o : K × ATM K => (DataOk tr (N * cfg.steps.length) D (bump u phase) o.2.data ∧ o.2.eff = s.eff) ∧
          emptied o.2.data = D0)
        ((limitSys (atmSys fill) (phaseTraps D0)).react s phase (v * if ph.isHigh then 1 else 0) dw) := by
      change Sat _ _ (s.react phase (v * if ph.isHigh then 1 else 0) dw (fill phase) >>= _)
      have hr := h3.react (f := fill phase) (hcfg.phases phase hp) (hcfg.fillModel phase hp) hu
        (v * if ph.isHigh then 1 else 0) dw l3
      cases he : s.react phase (v * if ph.isHigh then 1 else 0) dw (fill phase) with
      | error e => exact hr.err he
      | ok o =>
        have g := hr.ok he
        have hb : |o.1| ≤ phaseTraps D0 phase := by
          obtain ⟨ms, ms', q1, q2, q3⟩ := ATM.react_data he
          rw [← h5, phaseTraps_emptied, phaseTraps, q1]
          exact groupsStep_net hu (hcfg.fillModel phase hp) _ dw l3 ms ms' o.1
            (fun m hm => (h3.2 phase ms q1 m hm).1) q2
        change Sat _ _ (if _ then _ else _)
        rw [if_pos hb]
        exact ⟨g, by rw [(ATM.react_emptied he).1]; exact h5⟩
    refine Sat.bind hS ?_
    rintro ⟨net, s'⟩ ⟨⟨g1, g2⟩, g3⟩
    simp only at g1 g2 g3 ⊢
    split
    · exact ⟨⟨h1, h2, g1, by simp only [g2]; exact h4⟩, g3, by simp only [g2]; exact h6⟩
    · obtain ⟨i', q1, q2, q3⟩ := writeAll_inRange (img := i) (row0 := w) (c := c) (net := net)
        (mult := cfg.expr.e k j) (rel := ph.release) (by rw [h2]; exact hc) (fun o ho => by rw [h1]; exact r2 o ho)
      rw [q1]
      exact ⟨⟨q2.trans h1, q3.trans h2, g1, by simp only [g2]; exact h4⟩, g3, by simp only [g2]; exact h6⟩
  save _ u b v st h hv := ⟨⟨h.1.1, h.1.2.1, h.1.2.2.1, by
    change DataOk _ _ _ _ st.2.save.eff
    rw [ATM.eff_save]; exact h.1.2.2.1.mono hv⟩, h.2.1, by
    change emptied st.2.save.eff = D0
    rw [ATM.eff_save]; exact h.2.1⟩
  restore u b st h := ⟨⟨h.1.1, h.1.2.1, h.1.2.2.2, by
    change DataOk _ _ _ _ st.2.restore.eff
    rw [ATM.eff_restore]; exact h.1.2.2.2⟩, h.2.2, by
    change emptied st.2.restore.eff = D0
    rw [ATM.eff_restore]; exact h.2.2⟩
  mono u u' b st h hu := ⟨⟨h.1.1, h.1.2.1, h.1.2.2.1.mono hu, h.1.2.2.2⟩, h.2⟩

/-- The passes over one column give the same with the limit. -/
theorem columnBody_limit {tr : Prop} {cfg : ClockCfg K} {fill : ℕ → K → K} {D R C N c : ℕ} {pos : ℕ → ℕ → ℕ}
    (hcfg : RunCfg cfg fill D R) (hsch : Schedule cfg N pos) (hc : c < C) (D0 : List (List (Mgr K)))
    (st : Image K × ATM K) (hst : TrapState tr D0 (N * cfg.steps.length) D R C (fun _ => 0) 0 st)
    {out : Image K × ATM K} (h : columnBody (atmSys fill) cfg st c = .ok out) :
    columnBody (limitSys (atmSys fill) (phaseTraps D0)) cfg st c = .ok out := by
  have hb := (trapState_inv (tr := tr) (D0 := D0) (N := N) hcfg hc).passes hcfg.nodup hsch st _ hst
  rcases columnBody_lim (atmSys fill) (phaseTraps D0) cfg c st with he | he
  · rw [he, h]
  · exfalso
    unfold columnBody at he
    cases hp : (List.range cfg.expr.nr).foldlM (expressBody (limitSys (atmSys fill) (phaseTraps D0)) cfg c) st with
    | error e =>
      rw [hp] at he
      obtain ⟨-, rfl⟩ := hb.err hp
      cases he
    | ok o => rw [hp] at he; cases he

/-! ### drift of one pixel -/

theorem foldlM_drift {α σ : Type} (P : σ → Prop) (v : σ → K) (f : σ → α → Except Err σ) (inc : α → K) (l : List α)
    (h : ∀ a ∈ l, ∀ s s', P s → f s a = .ok s' → P s' ∧ |v s' - v s| ≤ inc a) :
    ∀ s s', P s → l.foldlM f s = .ok s' → P s' ∧ |v s' - v s| ≤ (l.map inc).sum := by
  induction l with
  | nil =>
    intro s s' hs hr
    rw [foldlM_nil] at hr
    injection hr with hr
    subst hr
    exact ⟨hs, by simp⟩
  | cons a l ih =>
    intro s s' hs hr
    rw [foldlM_cons] at hr
    obtain ⟨s1, h1, h2⟩ := bind_eq_ok hr
    obtain ⟨g1, g2⟩ := h a List.mem_cons_self s s1 hs h1
    obtain ⟨g3, g4⟩ := ih (fun a ha => h a (List.mem_cons_of_mem _ ha)) s1 s' g1 h2
    refine ⟨g3, ?_⟩
    rw [List.map_cons, List.sum_cons]
    have : v s' - v s = (v s1 - v s) + (v s' - v s1) := by ring
    rw [this]
    exact (abs_add_le _ _).trans (add_le_add g2 g4)

/-- The fraction that a list of releases puts `d` rows away. -/
def shareOf (rel : List (ℤ × K)) (d : ℤ) : K := (rel.map fun x => if x.1 = d then |x.2| else 0).sum

theorem shareOf_nonneg (rel : List (ℤ × K)) (d : ℤ) : 0 ≤ shareOf rel d := by
  apply List.sum_nonneg
  intro x hx
  obtain ⟨y, -, rfl⟩ := List.mem_map.1 hx
  split
  · exact abs_nonneg _
  · exact le_rfl

theorem writeBack_drift {img img' : Image K} {row : ℤ} {c r : ℕ} {delta : K} (h0 : 0 ≤ img.px r c)
    (h : writeBack img row c delta = .ok img') :
    0 ≤ img'.px r c ∧ |img'.px r c - img.px r c| ≤ if row = r then |delta| else 0 := by
  unfold writeBack at h
  obtain ⟨old, h1, h⟩ := bind_eq_ok h
  injection h with h
  obtain ⟨g1, g2, g3, rfl⟩ := read_ok h1
  subst h
  simp only [Image.set]
  by_cases hr : row = r
  · subst hr
    simp only [Int.toNat_natCast, and_self, if_true]
    split
    · rename_i hlt
      refine ⟨le_rfl, ?_⟩
      rw [zero_sub, abs_neg, abs_of_nonneg h0]
      exact le_trans (by linarith) (neg_le_abs delta)
    · rename_i hlt
      refine ⟨not_lt.1 hlt, ?_⟩
      rw [add_sub_cancel_left]
  · have : ¬ (r = row.toNat ∧ True) := by
      rintro ⟨h, -⟩
      omega
    rw [if_neg hr, if_neg (by simpa using this), sub_self, abs_zero]
    exact ⟨h0, le_rfl⟩

theorem writeAll_drift {row0 : ℤ} {c r : ℕ} {net mult : K} (rel : List (ℤ × K)) :
    ∀ {img img' : Image K}, 0 ≤ img.px r c → writeAll img row0 c net mult rel = .ok img' →
      0 ≤ img'.px r c ∧ |img'.px r c - img.px r c| ≤ |net| * |mult| * shareOf rel (r - row0) := by
  induction rel with
  | nil =>
    intro img img' h0 h
    unfold writeAll at h
    injection h with h
    subst h
    exact ⟨h0, by simp [shareOf]⟩
  | cons x rel ih =>
    intro img img' h0 h
    obtain ⟨off, frac⟩ := x
    unfold writeAll at h
    obtain ⟨i1, h1, h2⟩ := bind_eq_ok h
    obtain ⟨g1, g2⟩ := writeBack_drift h0 h1
    obtain ⟨g3, g4⟩ := ih g1 h2
    refine ⟨g3, ?_⟩
    have e : img'.px r c - img.px r c = (i1.px r c - img.px r c) + (img'.px r c - i1.px r c) := by ring
    rw [e]
    refine (abs_add_le _ _).trans ?_
    unfold shareOf at g4 ⊢
    rw [List.map_cons, List.sum_cons, mul_add]
    refine add_le_add (g2.trans (le_of_eq ?_)) g4
    have : row0 + off = r ↔ off = r - row0 := by constructor <;> intro <;> omega
    simp only [this]
    split
    · rw [abs_mul, abs_mul]; ring
    · rw [mul_zero]

/-- What a phase of a step returns `d` rows away. -/
def shareAt (cfg : ClockCfg K) (step phase : ℕ) (d : ℤ) : K :=
  match cfg.clockSeq[step]?.bind fun l => l[phase]? with
  | some ph => shareOf ph.release d
  | none => 0

theorem shareAt_nonneg (cfg : ClockCfg K) (step phase : ℕ) (d : ℤ) : 0 ≤ shareAt cfg step phase d := by
  unfold shareAt
  split
  · exact shareOf_nonneg _ _
  · exact le_rfl

/-- The most that one row visit changes pixel `r` by, for multiplier 1. -/
def visit (cfg : ClockCfg K) (B : ℕ → K) (r j : ℕ) : K :=
  (cfg.steps.map fun step => (cfg.phases.map fun phase =>
    B phase * shareAt cfg step phase ((r : ℤ) - (cfg.rowWindow.getD j 0 : ℕ))).sum).sum

theorem visit_nonneg {cfg : ClockCfg K} {B : ℕ → K} (hB : ∀ ph, 0 ≤ B ph) (r j : ℕ) : 0 ≤ visit cfg B r j := by
  unfold visit
  apply List.sum_nonneg
  intro x hx
  obtain ⟨step, -, rfl⟩ := List.mem_map.1 hx
  apply List.sum_nonneg
  intro y hy
  obtain ⟨ph, -, rfl⟩ := List.mem_map.1 hy
  exact mul_nonneg (hB ph) (shareAt_nonneg _ _ _ _)

variable {S : Type}

theorem phaseBody_drift {A : TrapSys K S} {B : ℕ → K}
    (hA : ∀ s ph n dw net s', A.react s ph n dw = .ok (net, s') → |net| ≤ B ph) {cfg : ClockCfg K} {c r j : ℕ} {mult : K}
    {step phase : ℕ} {st st' : Image K × S} (h0 : 0 ≤ st.1.px r c)
    (h : phaseBody A cfg c j mult step st phase = .ok st') :
    0 ≤ st'.1.px r c ∧ |st'.1.px r c - st.1.px r c| ≤
      |mult| * (B phase * shareAt cfg step phase ((r : ℤ) - (cfg.rowWindow.getD j 0 : ℕ))) := by
  unfold phaseBody at h
  split at h
  · rename_i ph row0 dwell e1 e2 e3
    obtain ⟨v, h1, h⟩ := bind_eq_ok h
    obtain ⟨⟨net, s⟩, h2, h⟩ := bind_eq_ok h
    have hn := hA _ _ _ _ _ _ h2
    have hw : cfg.rowWindow.getD j 0 = row0 := by
      rw [List.getD_eq_getElem?_getD, e2]; rfl
    have hsh : shareAt cfg step phase ((r : ℤ) - (cfg.rowWindow.getD j 0 : ℕ)) = shareOf ph.release (r - row0) := by
      unfold shareAt
      rw [e1, hw]
    simp only at h
    have hB : 0 ≤ B phase := (abs_nonneg net).trans hn
    split at h
    · injection h with h
      subst h
      refine ⟨h0, ?_⟩
      rw [sub_self, abs_zero]
      exact mul_nonneg (abs_nonneg _) (mul_nonneg hB (shareAt_nonneg _ _ _ _))
    · obtain ⟨i1, h3, h⟩ := bind_eq_ok h
      injection h with h
      subst h
      obtain ⟨g1, g2⟩ := writeAll_drift ph.release h0 h3
      refine ⟨g1, g2.trans ?_⟩
      rw [hsh, mul_comm |net|, mul_assoc]
      exact mul_le_mul_of_nonneg_left (mul_le_mul_of_nonneg_right hn (shareOf_nonneg _ _)) (abs_nonneg _)
  · cases h

theorem sum_map_mul_left' {α : Type} (a : K) (f : α → K) (l : List α) : (l.map fun x => a * f x).sum = a * (l.map f).sum := by
  induction l with
  | nil => simp
  | cons x l ih => simp only [List.map_cons, List.sum_cons, ih, mul_add]

/-- The passes over one column. -/
theorem columnBody_drift {A : TrapSys K S} {B : ℕ → K}
    (hA : ∀ s ph n dw net s', A.react s ph n dw = .ok (net, s') → |net| ≤ B ph) {cfg : ClockCfg K} {c r : ℕ}
    {st st' : Image K × S} (h0 : 0 ≤ st.1.px r c) (h : columnBody A cfg st c = .ok st') :
    0 ≤ st'.1.px r c ∧ |st'.1.px r c - st.1.px r c| ≤
      ((List.range cfg.expr.nr).map fun k => ((monitoredRows cfg k).map fun j =>
        |cfg.expr.e k j| * visit cfg B r j).sum).sum := by
  unfold columnBody at h
  obtain ⟨st1, h1, h⟩ := bind_eq_ok h
  injection h with h
  subst h
  refine foldlM_drift (fun st : Image K × S => 0 ≤ st.1.px r c) (fun st => st.1.px r c) _ _ _
    (fun k _ s s' hs hk => ?_) st st1 h0 h1
  unfold expressBody at hk
  refine foldlM_drift (fun st : Image K × S => 0 ≤ st.1.px r c) (fun st => st.1.px r c) _ _ _
    (fun j _ s s' hs hj => ?_) (s.1, A.restore s.2) s' hs hk
  unfold rowBody at hj
  obtain ⟨st2, h2, hj⟩ := bind_eq_ok hj
  injection hj with hj
  have e : s'.1 = st2.1 := by rw [← hj]; split <;> rfl
  rw [e]
  have hv : |cfg.expr.e k j| * visit cfg B r j = (cfg.steps.map fun step => (cfg.phases.map fun phase =>
      |cfg.expr.e k j| * (B phase * shareAt cfg step phase ((r : ℤ) - (cfg.rowWindow.getD j 0 : ℕ)))).sum).sum := by
    unfold visit
    rw [← sum_map_mul_left']
    congr 1
    refine List.map_congr_left fun step _ => ?_
    rw [← sum_map_mul_left']
  rw [hv]
  refine foldlM_drift (fun st : Image K × S => 0 ≤ st.1.px r c) (fun st => st.1.px r c) _ _ _
    (fun step _ s s' hs hstep => ?_) s st2 hs h2
  unfold stepBody at hstep
  exact foldlM_drift (fun st : Image K × S => 0 ≤ st.1.px r c) (fun st => st.1.px r c) _ _ _
    (fun phase _ s s' hs hp => phaseBody_drift hA hs hp) s s' hs hstep

end Arctic
