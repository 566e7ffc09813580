import Verif.Lemmas.FloatShape
import Verif.Lemmas.Causal

/-!
# Columns and causality over an arbitrary arithmetic

The counterparts of `Verif.Lemmas.Columns` and `Verif.Lemmas.Causal` for the functions of `Verif.Model.Float`. The
results are equal as numbers of the machine: nothing is assumed about the operations, except where stated.
-/

set_option linter.unusedSectionVars false
set_option linter.unusedVariables false

namespace Arctic.Fp

open Arctic (bind_eq_ok foldlM_inv foldlM_cons ExRel Both)

variable {F : Type} {A : Arith F}

/-! ### states that cannot be told apart -/

theorem eff_of {a a' : ATM F} (h : a'.saved = a.saved) (he : emptied A a'.data = emptied A a.data) :
    eff A a' = eff A a := by
  cases hs : a.saved with
  | none => rw [eff_none hs, eff_none (h.trans hs), he]
  | some d => rw [eff_some hs, eff_some (h.trans hs)]

theorem eff_save (a : ATM F) : eff A (save A a) = a.data := eff_some rfl

theorem eff_restore (a : ATM F) : eff A (restore A a) = eff A a := by
  cases h : a.saved with
  | none =>
    rw [eff_none ((restore_saved a).trans h)]
    change emptied A (eff A a) = eff A a
    rw [eff_none h, emptied_emptied]
  | some d => rw [eff_some h, eff_some ((restore_saved a).trans h)]

/-- The same current and restored state. -/
def AtmRel (A : Arith F) (a b : ATM F) : Prop := a.data = b.data ∧ eff A a = eff A b

theorem react_rel {a b : ATM F} (h : AtmRel A a b) (ph : ℕ) (n t : F) (f : F → F) :
    ExRel (fun x y => x.1 = y.1 ∧ AtmRel A x.2 y.2) (react A a ph n t f) (react A b ph n t f) := by
  obtain ⟨h1, h2⟩ := h
  cases ha : react A a ph n t f with
  | error e =>
    have : react A b ph n t f = .error e := by
      unfold react at ha ⊢
      rw [← h1]
      split at ha
      · exact ha
      · rename_i ms hms
        cases hg : groupsStep A n t f A.zero ms with
        | error e2 => rw [hg] at ha; exact ha
        | ok v => rw [hg] at ha; cases ha
    rw [this]; rfl
  | ok v =>
    obtain ⟨net, a'⟩ := v
    obtain ⟨ms, ms', g1, g2, g3⟩ := react_data ha
    have hb : react A b ph n t f = .ok (net, { b with data := b.data.set ph ms' }) := by
      unfold react
      rw [← h1, g1]
      simp only [g2]
      rfl
    rw [hb]
    have e1 := react_emptied ha
    have e2 := react_emptied hb
    refine ⟨rfl, ?_, ?_⟩
    · rw [g3]; simp only [h1]
    · rw [eff_of e1.2 e1.1, h2, ← eff_of e2.2 e2.1]

theorem AtmRel.save {a b : ATM F} (h : AtmRel A a b) : AtmRel A (save A a) (save A b) :=
  ⟨h.1, by rw [eff_save, eff_save, h.1]⟩

theorem restore_rel {a b : ATM F} (h : eff A a = eff A b) : AtmRel A (restore A a) (restore A b) :=
  ⟨h, by rw [eff_restore, eff_restore, h]⟩

/-- A state in which every restore gives empty traps, of sizes `D`. -/
def Fresh (A : Arith F) (D : List (List (Mgr F))) (a : ATM F) : Prop :=
  emptied A a.data = D ∧ eff A a = D ∧ emptied A D = D

theorem fresh_new (groups : List (Arctic.Group F)) (fr : List F) (N : ℕ) :
    Fresh A (newATM A groups fr N).data (newATM A groups fr N) :=
  ⟨emptied_new _ _ _, (eff_none rfl).trans (emptied_new _ _ _), emptied_new _ _ _⟩

/-- Sizes of the current and the restored state. -/
def Sized (A : Arith F) (D : List (List (Mgr F))) (a : ATM F) : Prop :=
  emptied A a.data = D ∧ emptied A (eff A a) = D

theorem phaseBody_sized (fill : ℕ → F → F) (cfg : ClockCfg F) (c j : ℕ) (mult : F) (step phase : ℕ)
    {D : List (List (Mgr F))} {x x' : Image F × ATM F} (hx : Sized A D x.2)
    (h : phaseBody A (atmSys A fill) cfg c j mult step x phase = .ok x') : Sized A D x'.2 := by
  unfold phaseBody at h
  split at h
  · obtain ⟨v, h1, h⟩ := bind_eq_ok h
    obtain ⟨⟨net, s⟩, h2, h⟩ := bind_eq_ok h
    have e := react_emptied (A := A) h2
    have hs : Sized A D s := by
      unfold Sized
      rw [e.1, eff_of e.2 e.1]; exact hx
    simp only at h
    split at h
    · injection h with h; subst h; exact hs
    · obtain ⟨i1, h3, h⟩ := bind_eq_ok h
      injection h with h; subst h; exact hs
  · cases h

theorem passes_sized (fill : ℕ → F → F) (cfg : ClockCfg F) (c : ℕ) (ks : List ℕ)
    {D : List (List (Mgr F))} {x x' : Image F × ATM F} (hx : Sized A D x.2)
    (h : ks.foldlM (expressBody A (atmSys A fill) cfg c) x = .ok x') : Sized A D x'.2 := by
  refine foldlM_inv (fun s : Image F × ATM F => Sized A D s.2) _ _ (fun k _ s s' hs h => ?_) x x' hx h
  unfold expressBody at h
  refine foldlM_inv (fun s : Image F × ATM F => Sized A D s.2) _ _ (fun j _ s s' hs h => ?_)
    (s.1, restore A s.2) s' ?_ h
  · unfold rowBody at h
    obtain ⟨s2, h2, h⟩ := bind_eq_ok h
    have : Sized A D s2.2 := by
      refine foldlM_inv (fun s : Image F × ATM F => Sized A D s.2) _ _ (fun step _ s s' hs h => ?_) s s2 hs h2
      unfold stepBody at h
      exact foldlM_inv (fun s : Image F × ATM F => Sized A D s.2) _ _
        (fun ph _ s s' hs h => phaseBody_sized fill cfg c j _ step ph hs h) s s' hs h
    injection h with h
    subst h
    split
    · change Sized A D (save A s2.2)
      unfold Sized
      rw [eff_save]
      exact ⟨this.1, this.1⟩
    · exact this
  · change Sized A D (restore A s.2)
    unfold Sized
    rw [eff_restore]
    exact ⟨hs.2, hs.2⟩

theorem columnBody_fresh (fill : ℕ → F → F) (cfg : ClockCfg F) (hb : cfg.emptyBetween = true)
    {D : List (List (Mgr F))} {st st' : Image F × ATM F} {c : ℕ} (hs : Fresh A D st.2)
    (h : columnBody A (atmSys A fill) cfg st c = .ok st') : Fresh A D st'.2 := by
  unfold columnBody at h
  obtain ⟨st1, h1, h⟩ := bind_eq_ok h
  injection h with h
  subst h
  have := passes_sized fill cfg c _ (D := D) ⟨hs.1, by rw [hs.2.1, hs.2.2]⟩ h1
  simp only [hb, if_true]
  change Fresh A D (save A (emptyAll A st1.2))
  refine ⟨?_, ?_, hs.2.2⟩
  · change emptied A (emptied A st1.2.data) = D
    rw [emptied_emptied, this.1]
  · rw [eff_save]; exact this.1

/-! ### columns -/

/-- The same size, and the same values in column `c`. -/
def AgreeOn (c : ℕ) (i j : Image F) : Prop := i.nr = j.nr ∧ (c < i.nc ↔ c < j.nc) ∧ ∀ r, i.px r c = j.px r c

theorem AgreeOn.symm {c : ℕ} {i j : Image F} (h : AgreeOn c i j) : AgreeOn c j i :=
  ⟨h.1.symm, h.2.1.symm, fun r => (h.2.2 r).symm⟩

theorem AgreeOn.trans {c : ℕ} {i j k : Image F} (h : AgreeOn c i j) (h' : AgreeOn c j k) : AgreeOn c i k :=
  ⟨h.1.trans h'.1, h.2.1.trans h'.2.1, fun r => (h.2.2 r).trans (h'.2.2 r)⟩

theorem read_agreeOn {c : ℕ} {i j : Image F} (h : AgreeOn c i j) (r : ℤ) : read i r c = read j r c := by
  unfold read
  rw [h.1, h.2.2]
  simp only [h.2.1]

theorem writeAll_agreeOn {c : ℕ} (row0 : ℤ) (net mult : F) (rel : List (ℤ × F)) : ∀ {i j : Image F}, AgreeOn c i j →
    ExRel (AgreeOn c) (writeAll A i row0 c net mult rel) (writeAll A j row0 c net mult rel) := by
  induction rel with
  | nil => intro i j h; exact h
  | cons o rel ih =>
    intro i j h
    obtain ⟨off, frac⟩ := o
    unfold writeAll
    refine ExRel.bind (R := AgreeOn c) ?_ fun a b hab => ih hab
    unfold writeBack
    rw [read_agreeOn h]
    cases read j (row0 + off) c with
    | error e => rfl
    | ok v =>
      refine ⟨h.1, h.2.1, fun r => ?_⟩
      unfold set
      simp only
      split
      · rfl
      · exact h.2.2 r

theorem phaseBody_agreeOn (fill : ℕ → F → F) (cfg : ClockCfg F) (c j : ℕ) (mult : F) (step phase : ℕ)
    {x y : Image F × ATM F} (h : AgreeOn c x.1 y.1 ∧ AtmRel A x.2 y.2) :
    ExRel (fun x y => AgreeOn c x.1 y.1 ∧ AtmRel A x.2 y.2) (phaseBody A (atmSys A fill) cfg c j mult step x phase)
      (phaseBody A (atmSys A fill) cfg c j mult step y phase) := by
  unfold phaseBody
  split
  · rename_i ph row0 dwell e1 e2 e3
    rw [read_agreeOn h.1]
    refine ExRel.bind (R := Eq) (ExRel.refl (fun _ => rfl) _) ?_
    rintro v _ rfl
    refine ExRel.bind (react_rel h.2 phase _ dwell (fill phase)) ?_
    rintro ⟨net, s⟩ ⟨net', s'⟩ ⟨hn, hs⟩
    simp only at hn hs ⊢
    subst hn
    split
    · exact ⟨h.1, hs⟩
    · exact ExRel.bind (writeAll_agreeOn row0 net mult ph.release h.1) fun a b hab => ⟨hab, hs⟩
  · rfl

theorem columnBody_agreeOn (fill : ℕ → F → F) (cfg : ClockCfg F) {D : List (List (Mgr F))} {i j : Image F}
    {a b : ATM F} {c : ℕ} (hi : AgreeOn c i j) (ha : Fresh A D a) (hb : Fresh A D b) :
    ExRel (fun x y => AgreeOn c x.1 y.1) (columnBody A (atmSys A fill) cfg (i, a) c)
      (columnBody A (atmSys A fill) cfg (j, b) c) := by
  unfold columnBody
  refine ExRel.bind (R := fun x y : Image F × ATM F => AgreeOn c x.1 y.1 ∧ eff A x.2 = eff A y.2) ?_
    fun x y h => h.1
  refine foldlM_rel (fun x y : Image F × ATM F => AgreeOn c x.1 y.1 ∧ eff A x.2 = eff A y.2) _ _ _ ?_ _ _
    ⟨hi, ha.2.1.trans hb.2.1.symm⟩
  intro k _ x y h
  unfold expressBody
  refine ExRel.mono (R := fun x y : Image F × ATM F => AgreeOn c x.1 y.1 ∧ AtmRel A x.2 y.2)
    (fun _ _ h => ⟨h.1, h.2.2⟩) ?_
  refine foldlM_rel (fun x y : Image F × ATM F => AgreeOn c x.1 y.1 ∧ AtmRel A x.2 y.2) _ _ _ ?_
    (x.1, restore A x.2) (y.1, restore A y.2) ⟨h.1, restore_rel h.2⟩
  intro r _ x y h
  unfold rowBody
  refine ExRel.bind (R := fun x y : Image F × ATM F => AgreeOn c x.1 y.1 ∧ AtmRel A x.2 y.2)
    (foldlM_rel _ _ _ _ (fun step _ x y h => ?_) _ _ h) ?_
  · unfold stepBody
    exact foldlM_rel (fun x y : Image F × ATM F => AgreeOn c x.1 y.1 ∧ AtmRel A x.2 y.2) _ _ _
      (fun ph _ x y h => phaseBody_agreeOn fill cfg c r _ step ph h) _ _ h
  · intro x y h
    split
    · exact ⟨h.1, h.2.save⟩
    · exact h

/-- Only the pixels of the column are written. -/
theorem columnBody_frame {S : Type} (sys : TrapSys F S) (cfg : ClockCfg F) {st st' : Image F × S} {c c' : ℕ}
    (hc : c' ≠ c) (h : columnBody A sys cfg st c = .ok st') : AgreeOn c' st'.1 st.1 := by
  refine columnBody_kept (A := A) sys cfg c (P := fun i => AgreeOn c' i st.1) ?_ st st' ⟨rfl, Iff.rfl, fun _ => rfl⟩ h
  intro i hi r old delta _ _ _
  refine ⟨hi.1, hi.2.1, fun r' => ?_⟩
  unfold set
  simp only [hc, and_false, if_false]
  exact hi.2.2 r'

theorem clockLoops_frame {S : Type} (sys : TrapSys F S) (cfg : ClockCfg F) {st st' : Image F × S} {columns : List ℕ}
    {c' : ℕ} (hc : c' ∉ columns) (h : clockLoops A sys cfg columns st = .ok st') : AgreeOn c' st'.1 st.1 := by
  refine clockLoops_kept (A := A) sys cfg columns (P := fun i => AgreeOn c' i st.1) ?_ st st'
    ⟨rfl, Iff.rfl, fun _ => rfl⟩ h
  intro c hcc i hi r old delta _ _ _
  have hne : c' ≠ c := fun h => hc (h ▸ hcc)
  refine ⟨hi.1, hi.2.1, fun r' => ?_⟩
  unfold set
  simp only [hne, and_false, if_false]
  exact hi.2.2 r'

theorem clockLoops_cons {S : Type} (sys : TrapSys F S) (cfg : ClockCfg F) (c : ℕ) (cs : List ℕ) (st : Image F × S) :
    clockLoops A sys cfg (c :: cs) st = columnBody A sys cfg st c >>= fun st' => clockLoops A sys cfg cs st' :=
  foldlM_cons _ _ _ _

theorem clockLoops_single {S : Type} (sys : TrapSys F S) (cfg : ClockCfg F) (c : ℕ) (st : Image F × S) :
    clockLoops A sys cfg [c] st = columnBody A sys cfg st c := by
  rw [clockLoops_cons]
  cases columnBody A sys cfg st c <;> rfl

/-- Each column gets what it gets alone, whatever the other columns contain. -/
theorem columns_split (fill : ℕ → F → F) (cfg : ClockCfg F) (hb : cfg.emptyBetween = true)
    {D : List (List (Mgr F))} {columns : List ℕ} (hnd : columns.Nodup) :
    ∀ {img img' : Image F} {a : ATM F} {out : Image F × ATM F}, Fresh A D a →
      clockLoops A (atmSys A fill) cfg columns (img, a) = .ok out → ∀ {b : ATM F}, Fresh A D b → ∀ c ∈ columns,
      AgreeOn c img img' →
      ∃ o, clockLoops A (atmSys A fill) cfg [c] (img', b) = .ok o ∧ AgreeOn c o.1 out.1 := by
  induction columns with
  | nil => intro img img' a out _ _ b _ c hc; cases hc
  | cons c0 cs ih =>
    intro img img' a out ha h b hbf c hc hag
    rw [clockLoops_cons] at h
    obtain ⟨st1, h1, h2⟩ := bind_eq_ok h
    obtain ⟨hn1, hn2⟩ := List.nodup_cons.1 hnd
    have hf := columnBody_fresh fill cfg hb (st := (img, a)) ha h1
    rcases List.mem_cons.1 hc with rfl | hc
    · obtain ⟨o, g1, g2⟩ := (columnBody_agreeOn fill cfg hag ha hbf).ok_left h1
      exact ⟨o, by rw [clockLoops_single]; exact g1, g2.symm.trans (clockLoops_frame _ cfg hn1 h2).symm⟩
    · have hne : c ≠ c0 := fun h => hn1 (h ▸ hc)
      exact ih hn2 hf h2 hbf c hc ((columnBody_frame _ cfg hne h1).trans hag)

theorem columns_join (fill : ℕ → F → F) (cfg : ClockCfg F) (hb : cfg.emptyBetween = true)
    {D : List (List (Mgr F))} {columns : List ℕ} (hnd : columns.Nodup) :
    ∀ {img : Image F} {a b : ATM F}, Fresh A D a → Fresh A D b →
      (∀ c ∈ columns, ∃ o, clockLoops A (atmSys A fill) cfg [c] (img, b) = .ok o) →
      ∃ out, clockLoops A (atmSys A fill) cfg columns (img, a) = .ok out := by
  induction columns with
  | nil => intro img a b _ _ _; exact ⟨_, rfl⟩
  | cons c0 cs ih =>
    intro img a b ha hbf h
    obtain ⟨hn1, hn2⟩ := List.nodup_cons.1 hnd
    obtain ⟨o0, h0⟩ := h c0 List.mem_cons_self
    rw [clockLoops_single] at h0
    obtain ⟨st1, h1, -⟩ := (columnBody_agreeOn fill cfg (i := img) (j := img) (c := c0)
      ⟨rfl, Iff.rfl, fun _ => rfl⟩ ha hbf).ok_right h0
    have hf := columnBody_fresh fill cfg hb (st := (img, a)) ha h1
    obtain ⟨out, h2⟩ := ih hn2 (img := st1.1) (a := st1.2) (b := b) hf hbf (by
      intro c hc
      obtain ⟨o, g⟩ := h c (List.mem_cons_of_mem _ hc)
      rw [clockLoops_single] at g
      have hne : c ≠ c0 := fun h => hn1 (h ▸ hc)
      obtain ⟨o', g3, -⟩ := (columnBody_agreeOn fill cfg (columnBody_frame _ cfg hne h1) hbf hbf).ok_right g
      exact ⟨o', by rw [clockLoops_single]; exact g3⟩)
    refine ⟨out, ?_⟩
    rw [clockLoops_cons, h1]
    exact h2

/-! ### rows -/

/-- Agreement up to row `R`. -/
def AgreeTo (R : ℕ) (i j : Image F) : Prop := ∀ r ≤ R, ∀ c, i.px r c = j.px r c

/-- Nothing is released towards the readout, and no phase lets a row see the rows behind it: it reads its own row or
one nearer to the readout, or it is low and a product with zero does not depend on the other factor. -/
def Forward (A : Arith F) (seq : List (List (Phase F))) : Prop :=
  ∀ (step phase : ℕ) (ph : Phase F), (seq[step]?.bind fun l => l[phase]?) = some ph →
    (ph.captureFrom ≤ 0 ∨ (ph.isHigh = false ∧ ∀ u v, A.mul u A.zero = A.mul v A.zero)) ∧ ∀ o ∈ ph.release, 0 ≤ o.1

theorem writeBack_agreeTo {R : ℕ} {i j : Image F} (h : AgreeTo R i j) (r : ℤ) (c : ℕ) (d : F) :
    Both (AgreeTo R) (writeBack A i r c d) (writeBack A j r c d) := by
  unfold writeBack
  refine Both.bind (R := fun u v => u = i.px r.toNat c ∧ v = j.px r.toNat c ∧ 0 ≤ r) ?_ ?_
  · intro a b ha hb
    obtain ⟨h1, -, -, h2⟩ := read_ok ha
    obtain ⟨-, -, -, h3⟩ := read_ok hb
    exact ⟨h2, h3, h1⟩
  · rintro a b ⟨rfl, rfl, h0⟩ u v hu hv
    injection hu with hu
    injection hv with hv
    subst hu hv
    intro r' hr' c'
    unfold set
    simp only
    by_cases hc : r' = r.toNat ∧ c' = c
    · rw [if_pos hc, if_pos hc, ← hc.1, h r' hr' c]
    · rw [if_neg hc, if_neg hc, h r' hr' c']

theorem writeAll_agreeTo {R : ℕ} (row0 : ℤ) (c : ℕ) (net mult : F) (rel : List (ℤ × F)) :
    ∀ {i j : Image F}, AgreeTo R i j →
    Both (AgreeTo R) (writeAll A i row0 c net mult rel) (writeAll A j row0 c net mult rel) := by
  induction rel with
  | nil => intro i j h a b ha hb; injection ha with ha; injection hb with hb; subst ha hb; exact h
  | cons o rel ih =>
    intro i j h
    obtain ⟨off, frac⟩ := o
    unfold writeAll
    exact Both.bind (writeBack_agreeTo h _ _ _) fun a b hab => ih hab

/-- Writing at rows beyond `R`. -/
theorem writeAll_beyond {R : ℕ} {row0 : ℤ} (h0 : (R : ℤ) < row0) (c : ℕ) (net mult : F) (rel : List (ℤ × F))
    (hrel : ∀ o ∈ rel, 0 ≤ o.1) : ∀ {i i' : Image F}, writeAll A i row0 c net mult rel = .ok i' → AgreeTo R i' i := by
  induction rel with
  | nil => intro i i' h; injection h with h; subst h; exact fun _ _ _ => rfl
  | cons o rel ih =>
    intro i i' h
    obtain ⟨off, frac⟩ := o
    unfold writeAll at h
    obtain ⟨i1, h1, h2⟩ := bind_eq_ok h
    have g := ih (fun o ho => hrel o (List.mem_cons_of_mem _ ho)) h2
    unfold writeBack at h1
    obtain ⟨old, h3, h4⟩ := bind_eq_ok h1
    injection h4 with h4
    subst h4
    have hoff : 0 ≤ off := hrel _ List.mem_cons_self
    intro r hr c'
    rw [g r hr c']
    unfold set
    simp only
    rw [if_neg]
    rintro ⟨h5, -⟩
    omega

theorem react_both {a b : ATM F} (h : AtmRel A a b) (ph : ℕ) (n t : F) (f : F → F) :
    Both (fun x y => x.1 = y.1 ∧ AtmRel A x.2 y.2) (react A a ph n t f) (react A b ph n t f) := by
  rintro ⟨net, a'⟩ ⟨net', b'⟩ ha hb
  have := react_rel h ph n t f
  rw [ha, hb] at this
  exact this

/-- A row up to `R`. -/
theorem phaseBody_low (fill : ℕ → F → F) (cfg : ClockCfg F) (hF : Forward A cfg.clockSeq) (R c j : ℕ) (mult : F)
    (step phase : ℕ) (hlow : ∀ w, cfg.rowWindow[j]? = some w → w ≤ R) (x y : Image F × ATM F)
    (h : AgreeTo R x.1 y.1 ∧ AtmRel A x.2 y.2) :
    Both (fun x y => AgreeTo R x.1 y.1 ∧ AtmRel A x.2 y.2) (phaseBody A (atmSys A fill) cfg c j mult step x phase)
      (phaseBody A (atmSys A fill) cfg c j mult step y phase) := by
  unfold phaseBody
  split
  · rename_i ph row0 dwell e1 e2 e3
    obtain ⟨hF1, hF2⟩ := hF step phase ph e1
    have hr := hlow row0 e2
    refine Both.bind (R := fun u v => A.mul u (if ph.isHigh then A.one else A.zero) =
      A.mul v (if ph.isHigh then A.one else A.zero)) ?_ ?_
    · intro a b ha hb
      obtain ⟨p1, -, -, h2⟩ := read_ok ha
      obtain ⟨-, -, -, h3⟩ := read_ok hb
      rcases hF1 with hF1 | ⟨hh, hz⟩
      · rw [h2, h3, h.1 _ (by omega) c]
      · rw [hh]; exact hz _ _
    · intro u v huv
      simp only [huv]
      refine Both.bind (react_both h.2 phase _ dwell (fill phase)) ?_
      rintro ⟨net, s⟩ ⟨net', s'⟩ ⟨hn, hs⟩
      simp only at hn hs ⊢
      subst hn
      split
      · intro a b ha hb; injection ha with ha; injection hb with hb; subst ha hb; exact ⟨h.1, hs⟩
      · refine Both.bind (writeAll_agreeTo row0 c net mult ph.release h.1) ?_
        intro i i' hi a b ha hb
        injection ha with ha; injection hb with hb; subst ha hb
        exact ⟨hi, hs⟩
  · intro a b ha; cases ha

/-- A row beyond `R`, one run. -/
theorem phaseBody_high (fill : ℕ → F → F) (cfg : ClockCfg F) (hF : Forward A cfg.clockSeq) (R c j : ℕ) (mult : F)
    (step phase : ℕ) (hhigh : ∀ w, cfg.rowWindow[j]? = some w → R < w) (x x' : Image F × ATM F)
    (h : phaseBody A (atmSys A fill) cfg c j mult step x phase = .ok x') :
    AgreeTo R x'.1 x.1 ∧ emptied A x'.2.data = emptied A x.2.data ∧ eff A x'.2 = eff A x.2 := by
  unfold phaseBody at h
  split at h
  · rename_i ph row0 dwell e1 e2 e3
    obtain ⟨hF1, hF2⟩ := hF step phase ph e1
    have hr := hhigh row0 e2
    obtain ⟨v, h1, h⟩ := bind_eq_ok h
    obtain ⟨⟨net, s⟩, h2, h⟩ := bind_eq_ok h
    have e := react_emptied h2
    have hs : emptied A s.data = emptied A x.2.data ∧ eff A s = eff A x.2 := ⟨e.1, eff_of e.2 e.1⟩
    simp only at h
    split at h
    · injection h with h; subst h; exact ⟨fun _ _ _ => rfl, hs⟩
    · obtain ⟨i1, h3, h⟩ := bind_eq_ok h
      injection h with h; subst h
      exact ⟨writeAll_beyond (by exact_mod_cast hr) c net mult ph.release hF2 h3, hs⟩
  · cases h

theorem rowBody_low (fill : ℕ → F → F) (cfg : ClockCfg F) (hF : Forward A cfg.clockSeq) (R c k j : ℕ)
    (hlow : ∀ w, cfg.rowWindow[j]? = some w → w ≤ R) (x y : Image F × ATM F)
    (h : AgreeTo R x.1 y.1 ∧ AtmRel A x.2 y.2) :
    Both (fun x y => AgreeTo R x.1 y.1 ∧ AtmRel A x.2 y.2) (rowBody A (atmSys A fill) cfg c k x j)
      (rowBody A (atmSys A fill) cfg c k y j) := by
  unfold rowBody
  refine Both.bind (R := fun x y : Image F × ATM F => AgreeTo R x.1 y.1 ∧ AtmRel A x.2 y.2)
    (Both.fold' _ _ _ _ (fun step _ x y h => ?_) x y h) ?_
  · unfold stepBody
    exact Both.fold' _ _ _ _ (fun ph _ x y h => phaseBody_low fill cfg hF R c j _ step ph hlow x y h) x y h
  · intro x y h a b ha hb
    injection ha with ha; injection hb with hb
    subst ha hb
    split
    · exact ⟨h.1, h.2.save⟩
    · exact h

theorem rowBody_high (fill : ℕ → F → F) (cfg : ClockCfg F) (hF : Forward A cfg.clockSeq) (R c k j : ℕ)
    (hhigh : ∀ w, cfg.rowWindow[j]? = some w → R < w) (x x' : Image F × ATM F)
    (h : rowBody A (atmSys A fill) cfg c k x j = .ok x') :
    AgreeTo R x'.1 x.1 ∧ emptied A x'.2.data = emptied A x.2.data ∧ (cfg.saveMat.e k j = false → eff A x'.2 = eff A x.2) := by
  unfold rowBody at h
  obtain ⟨st, h1, h⟩ := bind_eq_ok h
  have key := foldlM_inv (fun s : Image F × ATM F => AgreeTo R s.1 x.1 ∧ emptied A s.2.data = emptied A x.2.data ∧
    eff A s.2 = eff A x.2) _ _ (fun step _ s s' hs h => by
      unfold stepBody at h
      exact foldlM_inv (fun s : Image F × ATM F => AgreeTo R s.1 x.1 ∧ emptied A s.2.data = emptied A x.2.data ∧
        eff A s.2 = eff A x.2) _ _ (fun ph _ s s' hs h => by
          obtain ⟨g1, g2, g3⟩ := phaseBody_high fill cfg hF R c j _ step ph hhigh s s' h
          exact ⟨fun r hr c' => (g1 r hr c').trans (hs.1 r hr c'), g2.trans hs.2.1, g3.trans hs.2.2⟩) s s' hs h)
    x st ⟨fun _ _ _ => rfl, rfl, rfl⟩ h1
  injection h with h
  subst h
  split
  · rename_i hsv
    exact ⟨key.1, key.2.1, fun h => by rw [hsv] at h; cases h⟩
  · exact ⟨key.1, key.2.1, fun _ => key.2.2⟩

/-- A trap state is never saved at a row behind one that a later pass starts from. -/
def SaveSound (cfg : ClockCfg F) : Prop :=
  ∀ k j, cfg.saveMat.e k j = true → ∀ k', k < k' → k' < cfg.expr.nr → ∀ j' ∈ monitoredRows cfg k', j ≤ j'

/-- All rows monitored from pass `k` on are beyond `R`. -/
def AllBeyond (cfg : ClockCfg F) (R k : ℕ) : Prop :=
  ∀ k', k ≤ k' → k' < cfg.expr.nr → ∀ j ∈ monitoredRows cfg k', ∀ w, cfg.rowWindow[j]? = some w → R < w

theorem monitoredRows_sorted (cfg : ClockCfg F) (k : ℕ) : (monitoredRows cfg k).Pairwise (· < ·) := by
  unfold monitoredRows
  exact List.Pairwise.filter _ List.pairwise_lt_range

/-- One express pass of two runs. -/
theorem expressBody_causal (fill : ℕ → F → F) (cfg : ClockCfg F) (hF : Forward A cfg.clockSeq)
    (hw : cfg.rowWindow.Pairwise (· < ·)) (hS : SaveSound cfg) (R c k : ℕ) (hk : k < cfg.expr.nr)
    (x y : Image F × ATM F)
    (h : AgreeTo R x.1 y.1 ∧ (eff A x.2 = eff A y.2 ∨ AllBeyond cfg R k)) :
    Both (fun x y => AgreeTo R x.1 y.1 ∧ (eff A x.2 = eff A y.2 ∨ AllBeyond cfg R (k + 1)))
      (expressBody A (atmSys A fill) cfg c x k) (expressBody A (atmSys A fill) cfg c y k) := by
  unfold expressBody
  -- rows beyond `R` of the remaining list
  let P : List ℕ → Image F × ATM F → Image F × ATM F → Prop := fun l x y =>
    AgreeTo R x.1 y.1 ∧ (AtmRel A x.2 y.2 ∨
      ((∀ j ∈ l, ∀ w, cfg.rowWindow[j]? = some w → R < w) ∧
        (eff A x.2 = eff A y.2 ∨ AllBeyond cfg R (k + 1))))
  have hmono : ∀ j j' : ℕ, j ≤ j' → (∀ w, cfg.rowWindow[j]? = some w → R < w) → j < cfg.rowWindow.length →
      ∀ w, cfg.rowWindow[j']? = some w → R < w := by
    intro j j' hjj h1 hj w hw'
    obtain ⟨l1, l2⟩ := List.getElem?_eq_some_iff.1 hw'
    have h2 := h1 cfg.rowWindow[j] (List.getElem?_eq_getElem hj)
    rcases Nat.lt_or_eq_of_le hjj with hlt | rfl
    · have := List.pairwise_iff_getElem.1 hw j j' hj l1 hlt
      omega
    · omega
  have main : Both (P []) ((monitoredRows cfg k).foldlM (rowBody A (atmSys A fill) cfg c k) (x.1, restore A x.2))
      ((monitoredRows cfg k).foldlM (rowBody A (atmSys A fill) cfg c k) (y.1, restore A y.2)) := by
    refine Both.fold P _ _ (monitoredRows cfg k) ?_ _ _ ?_
    · rintro j l s t hsuf ⟨h1, h2⟩ s' t' hs' ht'
      by_cases hlow : ∃ w, cfg.rowWindow[j]? = some w ∧ w ≤ R
      · obtain ⟨w, hw1, hw2⟩ := hlow
        have hrel : AtmRel A s.2 t.2 := by
          rcases h2 with h2 | h2
          · exact h2
          · have := h2.1 j List.mem_cons_self w hw1; omega
        have := rowBody_low fill cfg hF R c k j (fun w' hw' => by
          rw [hw1] at hw'; injection hw' with hw'; omega) s t ⟨h1, hrel⟩ s' t' hs' ht'
        exact ⟨this.1, Or.inl this.2⟩
      · have hhigh : ∀ w, cfg.rowWindow[j]? = some w → R < w := by
          intro w hw'
          by_contra hc
          exact hlow ⟨w, hw', not_lt.1 hc⟩
        obtain ⟨a1, a2, a3⟩ := rowBody_high fill cfg hF R c k j hhigh s s' hs'
        obtain ⟨b1, b2, b3⟩ := rowBody_high fill cfg hF R c k j hhigh t t' ht'
        refine ⟨fun r hr c' => by rw [a1 r hr c', b1 r hr c', h1 r hr c'], Or.inr ?_⟩
        have hsort : ((j :: l : List ℕ)).Pairwise (· < ·) := (monitoredRows_sorted cfg k).sublist hsuf.sublist
        have hrest : ∀ j' ∈ l, ∀ w, cfg.rowWindow[j']? = some w → R < w := by
          intro j' hj' w hw'
          have hlt := List.rel_of_pairwise_cons hsort hj'
          have hl : j < cfg.rowWindow.length := by
            have := (List.getElem?_eq_some_iff.1 hw').1; omega
          exact hmono j j' hlt.le hhigh hl w hw'
        refine ⟨hrest, ?_⟩
        · cases hsv : cfg.saveMat.e k j with
          | false =>
            rw [a3 hsv, b3 hsv]
            rcases h2 with h2 | h2
            · exact Or.inl h2.2
            · exact h2.2
          | true =>
            right
            intro k' hk' hk'' j' hj' w hw'
            have hle := hS k j hsv k' hk' hk'' j' hj'
            have hl : j < cfg.rowWindow.length := by
              have := (List.getElem?_eq_some_iff.1 hw').1; omega
            exact hmono j j' hle hhigh hl w hw'
    · refine ⟨h.1, ?_⟩
      rcases h.2 with h2 | h2
      · left
        exact ⟨h2, by rw [eff_restore, eff_restore, h2]⟩
      · right
        exact ⟨fun j hj w hw' => h2 k le_rfl hk j hj w hw', Or.inr fun k' hk' => h2 k' (by omega)⟩
  intro a b ha hb
  obtain ⟨h1, h2⟩ := main a b ha hb
  refine ⟨h1, ?_⟩
  rcases h2 with h2 | h2
  · exact Or.inl h2.2
  · exact h2.2

/-- All passes over a column. -/
theorem columnBody_causal (fill : ℕ → F → F) (cfg : ClockCfg F) (hF : Forward A cfg.clockSeq)
    (hw : cfg.rowWindow.Pairwise (· < ·)) (hS : SaveSound cfg) (R c : ℕ)
    (x y : Image F × ATM F) (h : AgreeTo R x.1 y.1 ∧ eff A x.2 = eff A y.2) :
    Both (fun x y => AgreeTo R x.1 y.1) (columnBody A (atmSys A fill) cfg x c) (columnBody A (atmSys A fill) cfg y c) := by
  unfold columnBody
  refine Both.bind (R := fun x y : Image F × ATM F => AgreeTo R x.1 y.1) ?_ ?_
  · let P : List ℕ → Image F × ATM F → Image F × ATM F → Prop := fun l x y =>
      AgreeTo R x.1 y.1 ∧ (eff A x.2 = eff A y.2 ∨ AllBeyond cfg R (cfg.expr.nr - l.length))
    have main : Both (P []) ((List.range cfg.expr.nr).foldlM (expressBody A (atmSys A fill) cfg c) x)
        ((List.range cfg.expr.nr).foldlM (expressBody A (atmSys A fill) cfg c) y) := by
      refine Both.fold P _ _ _ ?_ x y ⟨h.1, Or.inl h.2⟩
      intro k l s t hsuf hP
      have hk : k + 1 + l.length = cfg.expr.nr := by
        obtain ⟨pre, hpre⟩ := hsuf
        have h1 : pre.length + (l.length + 1) = cfg.expr.nr := by
          have := congrArg List.length hpre
          simpa using this
        have h2 : (List.range cfg.expr.nr)[pre.length]? = some k := by
          rw [← hpre]; simp
        rw [List.getElem?_range (by omega)] at h2
        injection h2 with h2
        omega
      have e1 : cfg.expr.nr - (k :: l).length = k := by rw [List.length_cons]; omega
      have e2 : cfg.expr.nr - l.length = k + 1 := by omega
      simp only [P, e1, e2] at hP ⊢
      exact expressBody_causal fill cfg hF hw hS R c k (by omega) s t hP
    intro a b ha hb
    exact (main a b ha hb).1
  · intro x y h a b ha hb
    injection ha with ha; injection hb with hb
    subst ha hb
    exact h

/-- All columns. -/
theorem clockLoops_causal (fill : ℕ → F → F) (cfg : ClockCfg F) (hb : cfg.emptyBetween = true)
    (hF : Forward A cfg.clockSeq) (hw : cfg.rowWindow.Pairwise (· < ·)) (hS : SaveSound cfg) (R : ℕ)
    (columns : List ℕ) {D : List (List (Mgr F))} (x y : Image F × ATM F)
    (h : AgreeTo R x.1 y.1) (hx : Fresh A D x.2) (hy : Fresh A D y.2) :
    Both (fun x y => AgreeTo R x.1 y.1) (clockLoops A (atmSys A fill) cfg columns x)
      (clockLoops A (atmSys A fill) cfg columns y) := by
  unfold clockLoops
  have := Both.fold' (fun x y : Image F × ATM F => AgreeTo R x.1 y.1 ∧ Fresh A D x.2 ∧ Fresh A D y.2)
    (columnBody A (atmSys A fill) cfg) (columnBody A (atmSys A fill) cfg) columns (fun c _ x y h a b ha hb' =>
      ⟨columnBody_causal fill cfg hF hw hS R c x y ⟨h.1, h.2.1.2.1.trans h.2.2.2.1.symm⟩ a b ha hb',
        columnBody_fresh fill cfg hb h.2.1 ha, columnBody_fresh fill cfg hb h.2.2 hb'⟩) x y ⟨h, hx, hy⟩
  exact fun a b ha hb => (this a b ha hb).1

end Arctic.Fp
