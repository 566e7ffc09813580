import Verif.Lemmas.RefClock
import Verif.Spec.TrapSpec

/-!
# The clocking loops on managers and on a description of the traps
-/

set_option linter.unusedSectionVars false
set_option linter.unusedVariables false

namespace Arctic

section proj
variable {K : Type} [Field K] [LinearOrder K] {S S' : Type}

/-- `y` succeeds like `x`, and fails like `x` if the error is one of `Q`. -/
def Proj {σ τ : Type} (Q : Err → Prop) (g : σ → τ) (x : Except Err σ) (y : Except Err τ) : Prop :=
  match x with
  | .ok s => y = .ok (g s)
  | .error e => Q e → y = .error e

theorem Proj.bind {σ τ α β : Type} {Q : Err → Prop} {g : σ → τ} {g' : α → β} {x : Except Err σ} {y : Except Err τ}
    (h : Proj Q g x y) {f : σ → Except Err α} {f' : τ → Except Err β} (hf : ∀ s, Proj Q g' (f s) (f' (g s))) :
    Proj Q g' (x >>= f) (y >>= f') := by
  cases x with
  | ok s => simp only [Proj] at h; subst h; exact hf s
  | error e => intro hq; simp only [Proj] at h; rw [h hq]; rfl

theorem Proj.refl {σ : Type} (Q : Err → Prop) (x : Except Err σ) : Proj Q id x x := by
  cases x with
  | ok s => rfl
  | error e => intro _; rfl

theorem Proj.fold {α σ τ : Type} {Q : Err → Prop} (g : σ → τ) (f : σ → α → Except Err σ) (f' : τ → α → Except Err τ)
    (l : List α) (h : ∀ a s, Proj Q g (f s a) (f' (g s) a)) : ∀ s, Proj Q g (l.foldlM f s) (l.foldlM f' (g s)) := by
  induction l with
  | nil => intro s; rfl
  | cons a l ih =>
    intro s
    rw [foldlM_cons, foldlM_cons]
    exact (h a s).bind ih

structure SysProj (Q : Err → Prop) (sys : TrapSys K S) (sys' : TrapSys K S') (g : S → S') : Prop where
  react : ∀ s ph n dw, Proj Q (fun o : K × S => (o.1, g o.2)) (sys.react s ph n dw) (sys'.react (g s) ph n dw)
  save : ∀ s, sys'.save (g s) = g (sys.save s)
  restore : ∀ s, sys'.restore (g s) = g (sys.restore s)
  emptyAll : ∀ s, sys'.emptyAll (g s) = g (sys.emptyAll s)

variable {Q : Err → Prop} {sys : TrapSys K S} {sys' : TrapSys K S'} {g : S → S'}

theorem SysProj.clockLoops (h : SysProj Q sys sys' g) (cfg : ClockCfg K) (columns : List ℕ) (st : Image K × S) :
    Proj Q (fun x : Image K × S => (x.1, g x.2)) (clockLoops sys cfg columns st)
      (Arctic.clockLoops sys' cfg columns (st.1, g st.2)) := by
  unfold Arctic.clockLoops
  refine Proj.fold (fun x : Image K × S => (x.1, g x.2)) _ _ _ (fun c st => ?_) st
  unfold columnBody
  refine Proj.bind (Proj.fold (fun x : Image K × S => (x.1, g x.2)) _ _ _ (fun k st => ?_) st) ?_
  · unfold expressBody
    have := Proj.fold (Q := Q) (fun x : Image K × S => (x.1, g x.2)) (rowBody sys cfg c k) (rowBody sys' cfg c k)
      (monitoredRows cfg k) (fun j st => ?_) (st.1, sys.restore st.2)
    · simp only [← h.restore] at this; exact this
    unfold rowBody
    refine Proj.bind (Proj.fold (fun x : Image K × S => (x.1, g x.2)) _ _ _ (fun step st => ?_) st) ?_
    · unfold stepBody
      refine Proj.fold (fun x : Image K × S => (x.1, g x.2)) _ _ _ (fun phase st => ?_) st
      unfold phaseBody
      split
      · refine Proj.bind (Proj.refl Q _) fun v => ?_
        refine Proj.bind (h.react _ _ _ _) ?_
        rintro ⟨net, s⟩
        simp only
        split
        · rfl
        · refine Proj.bind (Proj.refl Q _) fun i => ?_
          rfl
      · intro _; rfl
    · intro st
      split
      · simp only [h.save]; rfl
      · rfl
  · intro st
    cases cfg.emptyBetween with
    | true => simp only [if_true, h.emptyAll, h.save]; rfl
    | false => simp only [Bool.false_eq_true, if_false, h.save]; rfl

/-- Two systems side by side. With `strict` they have to fail together, otherwise the first one may fail alone. -/
def pairSys' (strict : Bool) (A : TrapSys K S) (B : TrapSys K S') : TrapSys K (S × S') where
  restore s := (A.restore s.1, B.restore s.2)
  save s := (A.save s.1, B.save s.2)
  emptyAll s := (A.emptyAll s.1, B.emptyAll s.2)
  react s ph n dw :=
    match A.react s.1 ph n dw, B.react s.2 ph n dw with
    | .ok x, .ok y => if x.1 = y.1 then .ok (x.1, (x.2, y.2)) else .error .exception
    | .error e, .error e' => if strict = false ∨ e = e' then .error e else .error .exception
    | .error e, .ok _ => if strict then .error .exception else .error e
    | .ok _, .error _ => .error .exception

theorem pairSys'_fst (strict : Bool) (A : TrapSys K S) (B : TrapSys K S') :
    SysProj (· ≠ .exception) (pairSys' strict A B) A Prod.fst where
  react s ph n dw := by
    unfold pairSys'
    simp only
    cases hA : A.react s.1 ph n dw with
    | ok x =>
      cases hB : B.react s.2 ph n dw with
      | ok y =>
        simp only
        split
        · rfl
        · intro h; exact absurd rfl h
      | error e' => intro h; exact absurd rfl h
    | error e =>
      cases hB : B.react s.2 ph n dw with
      | ok y =>
        simp only
        split
        · intro h; exact absurd rfl h
        · intro _; rfl
      | error e' =>
        simp only
        split
        · intro _; rfl
        · intro h; exact absurd rfl h
  save _ := rfl
  restore _ := rfl
  emptyAll _ := rfl

theorem pairSys'_snd (strict : Bool) (A : TrapSys K S) (B : TrapSys K S') :
    SysProj (fun e => strict = true ∧ e ≠ .exception) (pairSys' strict A B) B Prod.snd where
  react s ph n dw := by
    unfold pairSys'
    simp only
    cases hA : A.react s.1 ph n dw with
    | ok x =>
      cases hB : B.react s.2 ph n dw with
      | ok y =>
        simp only
        split
        · rename_i he
          simp only [Proj, he]
        · intro h; exact absurd rfl h.2
      | error e' => intro h; exact absurd rfl h.2
    | error e =>
      cases hB : B.react s.2 ph n dw with
      | ok y =>
        simp only
        split
        · intro h; exact absurd rfl h.2
        · rename_i hs
          intro h; exact absurd h.1 hs
      | error e' =>
        simp only
        split
        · rename_i hs
          intro h
          rcases hs with hs | hs
          · rw [hs] at h; exact absurd h.1 (by decide)
          · rw [hs]
        · intro h; exact absurd rfl h.2
  save _ := rfl
  restore _ := rfl
  emptyAll _ := rfl

end proj

section tracks
variable {K τ : Type} [Field K] [LinearOrder K] [IsStrictOrderedRing K]

/-- The description `sp` follows managers related by `R M k` (`k` transfers from empty, arrays for `M` transfers), for
clouds satisfying `P` and filling functions satisfying `F`. Transfers may fail if `fails`. -/
structure Follows (sp : TrapSpec K τ) (strict : Bool) (fails : Prop) (F : (K → K) → Prop) (P : K → Prop)
    (R : ℕ → ℕ → Mgr K → τ → Prop) : Prop where
  step : ∀ M k m t, R M k m t → k < M → ∀ f, FillModel f → F f → ∀ n x, P n → 0 < x →
    (∃ net m' t', m.step n x f = .ok (net, m') ∧ sp.step t n x f = .ok (net, t') ∧ R M (k + 1) m' t') ∨
      fails ∧ m.step n x f = .error .typeError ∧ (strict = true → sp.step t n x f = .error .typeError)
  empty : ∀ M k m t, R M k m t → R M 0 m.empty (sp.empty t)
  mono : ∀ M k k' m t, R M k m t → k ≤ k' → R M k' m t
  wide : ∀ n, 0 ≤ n → P n

variable {sp : TrapSpec K τ} {strict : Bool} {fails : Prop} {F : (K → K) → Prop} {P : K → Prop} {R : ℕ → ℕ → Mgr K → τ → Prop}

theorem Follows.groups (h : Follows sp strict fails F P R) {M k : ℕ} (hk : k < M) {f : K → K} (hf : FillModel f) (hF : F f)
    (n x : K) (hn : P n) (hx : 0 < x) {ms : List (Mgr K)} {ts : List τ} (hms : List.Forall₂ (R M k) ms ts) :
    (∃ net ms' ts', groupsStep n x f ms = .ok (net, ms') ∧ sp.groups n x f ts = .ok (net, ts') ∧
        List.Forall₂ (R M (k + 1)) ms' ts') ∨
      fails ∧ groupsStep n x f ms = .error .typeError ∧ (strict = true → sp.groups n x f ts = .error .typeError) := by
  induction hms with
  | nil => exact Or.inl ⟨0, [], [], rfl, rfl, .nil⟩
  | cons hm _ ih =>
    unfold groupsStep TrapSpec.groups
    rcases h.step M k _ _ hm hk f hf hF n x hn hx with ⟨net, m', t', h1, h2, h3⟩ | ⟨hfl, h1, h2⟩
    · rw [h1, h2]
      simp only [bind, Except.bind]
      rcases ih with ⟨nets, ms', ts', g1, g2, g3⟩ | ⟨hfl, g1, g2⟩
      · rw [g1, g2]
        exact Or.inl ⟨_, _, _, rfl, rfl, .cons h3 g3⟩
      · rw [g1]
        exact Or.inr ⟨hfl, rfl, fun hs => by rw [g2 hs]⟩
    · rw [h1]
      exact Or.inr ⟨hfl, rfl, fun hs => by rw [h2 hs]; rfl⟩

def DataFol (R : ℕ → ℕ → Mgr K → τ → Prop) (M : ℕ) (u : ℕ → ℕ) (d : List (List (Mgr K))) (d' : List (List τ)) : Prop :=
  d.length = d'.length ∧ ∀ ph ms ts, d[ph]? = some ms → d'[ph]? = some ts → List.Forall₂ (R M (u ph)) ms ts

theorem Follows.dataMono (h : Follows sp strict fails F P R) {M : ℕ} {u u' : ℕ → ℕ} {d : List (List (Mgr K))} {d' : List (List τ)}
    (hd : DataFol R M u d d') (hu : ∀ ph, u ph ≤ u' ph) : DataFol R M u' d d' :=
  ⟨hd.1, fun ph ms ts h1 h2 => (hd.2 ph ms ts h1 h2).imp fun _ _ h' => h.mono _ _ _ _ _ h' (hu ph)⟩

theorem Follows.dataEmptied (h : Follows sp strict fails F P R) {M : ℕ} {u : ℕ → ℕ} {d : List (List (Mgr K))} {d' : List (List τ)}
    (hd : DataFol R M u d d') : DataFol R M (fun _ => 0) (Arctic.emptied d) (d'.map fun ts => ts.map sp.empty) := by
  refine ⟨by simp [Arctic.emptied, hd.1], fun ph ms ts h1 h2 => ?_⟩
  unfold Arctic.emptied at h1
  rw [List.getElem?_map, Option.map_eq_some_iff] at h1 h2
  obtain ⟨ms0, h3, rfl⟩ := h1
  obtain ⟨ts0, h4, rfl⟩ := h2
  rw [List.forall₂_map_left_iff, List.forall₂_map_right_iff]
  exact (hd.2 ph ms0 ts0 h3 h4).imp fun _ _ h' => h.empty _ _ _ _ h'

/-- Current and saved states agree. -/
def StateFol (R : ℕ → ℕ → Mgr K → τ → Prop) (M D : ℕ) (u : ℕ → ℕ) (b : ℕ) (s : ATM K × SpecState τ) : Prop :=
  s.1.data.length = D ∧ DataFol R M u s.1.data s.2.data ∧ DataFol R M (fun _ => b) s.1.eff s.2.saved ∧ s.1.eff.length = D

theorem Follows.react (h : Follows sp strict fails F P R) {M D : ℕ} {u : ℕ → ℕ} {b : ℕ} {s : ATM K × SpecState τ}
    (hs : StateFol R M D u b s) {fill : ℕ → K → K} {phase : ℕ} (hphase : phase < D) (hf : FillModel (fill phase))
    (hF : F (fill phase)) (hu : u phase < M) (n x : K) (hn : P n) (hx : 0 < x) :
    Sat (fun e => fails ∧ e = .typeError) (fun o => StateFol R M D (bump u phase) b o.2)
      ((pairSys' strict (atmSys fill) (sp.sys fill)).react s phase n x) := by
  obtain ⟨a, r⟩ := s
  obtain ⟨h1, ⟨h2, h3⟩, h4, h5⟩ := hs
  simp only at h1 h2 h3 h4 h5
  have q1 : a.data[phase]? = some (a.data[phase]'(by omega)) := List.getElem?_eq_getElem _
  have q2 : r.data[phase]? = some (r.data[phase]'(by omega)) := List.getElem?_eq_getElem _
  have eA : (atmSys fill).react a phase n x =
      (groupsStep n x (fill phase) (a.data[phase]'(by omega))).map fun o => (o.1, { a with data := a.data.set phase o.2 }) := by
    change a.react phase n x (fill phase) = _
    unfold ATM.react
    rw [q1]
    simp only
    cases groupsStep n x (fill phase) (a.data[phase]'(by omega)) <;> rfl
  have eB : (sp.sys fill).react r phase n x =
      (sp.groups n x (fill phase) (r.data[phase]'(by omega))).map fun o => (o.1, { r with data := r.data.set phase o.2 }) := by
    simp only [TrapSpec.sys]
    rw [q2]
  unfold pairSys'
  simp only
  rcases h.groups hu hf hF n x hn hx (h3 phase _ _ q1 q2) with ⟨net, ms', ts', g1, g2, g3⟩ | ⟨hfl, g1, g2⟩
  · rw [g1] at eA
    rw [g2] at eB
    rw [eA, eB]
    simp only [Except.map, if_true]
    have e := ATM.react_emptied (a := a) (ph := phase) (f := fill phase) (n := n) (t := x) eA
    refine ⟨by simpa using h1, ⟨by simpa using h2, ?_⟩, ?_, ?_⟩
    · intro ph ms ts e1 e2
      simp only at e1 e2
      rw [List.getElem?_set] at e1 e2
      unfold bump
      by_cases hp : phase = ph
      · subst hp
        rw [if_pos rfl, if_pos (by omega)] at e1 e2
        injection e1 with e1
        injection e2 with e2
        subst e1 e2
        rw [if_pos rfl]
        exact g3
      · rw [if_neg hp] at e1 e2
        rw [if_neg (fun h => hp h.symm)]
        exact h3 ph ms ts e1 e2
    · simp only
      rw [ATM.eff_of e.2 e.1]; exact h4
    · simp only
      rw [ATM.eff_of e.2 e.1]; exact h5
  · rw [g1] at eA
    rw [eA]
    simp only [Except.map]
    cases strict with
    | true =>
      rw [g2 rfl] at eB
      rw [eB]
      simp only [Except.map, or_true, if_true]
      exact ⟨hfl, rfl⟩
    | false =>
      cases (sp.sys fill).react r phase n x with
      | error e' => simp only [true_or, if_true]; exact ⟨hfl, rfl⟩
      | ok y => simp only [Bool.false_eq_true, if_false]; exact ⟨hfl, rfl⟩

theorem Follows.stateSave (h : Follows sp strict fails F P R) {M D : ℕ} {fill : ℕ → K → K} {u : ℕ → ℕ} {b v : ℕ}
    {s : ATM K × SpecState τ} (hs : StateFol R M D u b s) (hv : ∀ ph, u ph ≤ v) :
    StateFol R M D u v ((pairSys' strict (atmSys fill) (sp.sys fill)).save s) := by
  obtain ⟨a, r⟩ := s
  obtain ⟨h1, h2, h3, h4⟩ := hs
  change StateFol R M D u v (a.save, { r with saved := r.data })
  refine ⟨h1, h2, ?_, ?_⟩
  · simp only [ATM.eff_save]; exact h.dataMono h2 hv
  · simp only [ATM.eff_save]; exact h1

theorem Follows.stateRestore (h : Follows sp strict fails F P R) {M D : ℕ} {fill : ℕ → K → K} {u : ℕ → ℕ} {b : ℕ}
    {s : ATM K × SpecState τ} (hs : StateFol R M D u b s) :
    StateFol R M D (fun _ => b) b ((pairSys' strict (atmSys fill) (sp.sys fill)).restore s) := by
  obtain ⟨a, r⟩ := s
  obtain ⟨h1, h2, h3, h4⟩ := hs
  change StateFol R M D _ b (a.restore, { r with data := r.saved })
  refine ⟨h4, h3, ?_, ?_⟩
  · simp only [ATM.eff_restore]; exact h3
  · simp only [ATM.eff_restore]; exact h4

theorem Follows.stateEmptyAll (h : Follows sp strict fails F P R) {M D : ℕ} {fill : ℕ → K → K} {u : ℕ → ℕ} {b : ℕ}
    {s : ATM K × SpecState τ} (hs : StateFol R M D u b s) :
    StateFol R M D (fun _ => 0) b ((pairSys' strict (atmSys fill) (sp.sys fill)).emptyAll s) := by
  obtain ⟨a, r⟩ := s
  obtain ⟨h1, h2, h3, h4⟩ := hs
  change StateFol R M D _ b (a.emptyAll, { r with data := r.data.map fun ts => ts.map sp.empty })
  have he : a.emptyAll.eff = a.eff := ATM.eff_of rfl (by rw [ATM.emptied_emptyAll, emptied_emptied])
  refine ⟨by simpa [ATM.emptyAll] using h1, ?_, ?_, ?_⟩
  · simp only [ATM.emptied_emptyAll]; exact h.dataEmptied h2
  · simp only [he]; exact h3
  · simp only [he]; exact h4

theorem writeAll_values {img i : Image K} {row0 : ℤ} {c : ℕ} {net mult : K} {rel : List (ℤ × K)}
    (h : writeAll img row0 c net mult rel = .ok i) (a b : ℕ) : i.px a b = img.px a b ∨ 0 ≤ i.px a b := by
  induction rel generalizing img with
  | nil => injection h with h; rw [h]; exact Or.inl rfl
  | cons o rel ih =>
    obtain ⟨off, frac⟩ := o
    unfold writeAll writeBack at h
    obtain ⟨img1, h1, h2⟩ := bind_eq_ok h
    obtain ⟨old, -, h3⟩ := bind_eq_ok h1
    injection h3 with h3
    rcases ih h2 with e | e
    · rw [e, ← h3]
      simp only [Image.set]
      split
      · right
        split
        · exact le_rfl
        · linarith
      · exact Or.inl rfl
    · exact Or.inr e

theorem Follows.pad_ok (h : Follows sp strict fails F P R) {img : Image K} (hP : ∀ r < img.nr, ∀ c < img.nc, P (img.px r c))
    (n : ℕ) : ∀ i < (img.pad n).nr, ∀ j < img.nc, P ((img.pad n).px i j) := by
  intro i hi j hj
  simp only [Image.pad]
  split
  · rename_i hr; exact hP i hr j hj
  · exact h.wide _ le_rfl

/-- The invariant of both runs. -/
def BothFol (P : K → Prop) (R : ℕ → ℕ → Mgr K → τ → Prop) (M D r C : ℕ) (u : ℕ → ℕ) (b : ℕ) (st : Image K × (ATM K × SpecState τ)) : Prop :=
  st.1.nr = r ∧ st.1.nc = C ∧ (∀ i < r, ∀ j < C, P (st.1.px i j)) ∧ StateFol R M D u b st.2

theorem Follows.inv (h : Follows sp strict fails F P R) {cfg : ClockCfg K} {fill : ℕ → K → K} {D r C N c : ℕ}
    (hcfg : RunCfg cfg fill D r) (hF : ∀ ph ∈ cfg.phases, F (fill ph)) (hc : c < C) :
    BudgetInv (pairSys' strict (atmSys fill) (sp.sys fill)) cfg (fun e => fails ∧ e = .typeError) N c
      (BothFol P R (N * cfg.steps.length) D r C) where
  phase k hk j hj step hs phase hp u b st hst hu := by
    obtain ⟨i, s⟩ := st
    obtain ⟨h1, h2, hP, h3⟩ := hst
    simp only at h1 h2 hP h3
    obtain ⟨ph, dw, l1, l2, l3⟩ := hcfg.look step hs phase hp
    obtain ⟨w, l4⟩ := hcfg.rows k hk j hj
    obtain ⟨r1, r2⟩ := hcfg.range step phase ph l1 w (List.mem_of_getElem? l4)
    unfold phaseBody
    rw [l1, l2, l4]
    simp only
    unfold Image.read
    rw [if_pos ⟨r1.1, by rw [h1]; exact r1.2, by rw [h2]; exact hc⟩]
    refine Sat.bind (Q := P) (hP _ (by have := r1.2; omega) _ hc) fun v hv => ?_
    have hn : P (v * if ph.isHigh then 1 else 0) := by
      split
      · rw [mul_one]; exact hv
      · rw [mul_zero]; exact h.wide _ le_rfl
    refine Sat.bind (h.react h3 (hcfg.phases phase hp) (hcfg.fillModel phase hp) (hF phase hp) hu _ dw hn l3) ?_
    rintro ⟨net, s'⟩ g2
    simp only at g2 ⊢
    split
    · exact ⟨h1, h2, hP, g2⟩
    · obtain ⟨i', q1, q2, q3⟩ := writeAll_inRange (img := i) (row0 := w) (c := c) (net := net)
        (mult := cfg.expr.e k j) (rel := ph.release) (by rw [h2]; exact hc) (fun o ho => by rw [h1]; exact r2 o ho)
      rw [q1]
      refine ⟨q2.trans h1, q3.trans h2, fun a ha b hb => ?_, g2⟩
      rcases writeAll_values q1 a b with e | e
      · simp only [e]; exact hP a ha b hb
      · exact h.wide _ e
  save _ u b v st hst hv := ⟨hst.1, hst.2.1, hst.2.2.1, h.stateSave hst.2.2.2 hv⟩
  restore u b st hst := ⟨hst.1, hst.2.1, hst.2.2.1, h.stateRestore hst.2.2.2⟩
  mono u u' b st hst hu :=
    ⟨hst.1, hst.2.1, hst.2.2.1, hst.2.2.2.1, h.dataMono hst.2.2.2.2.1 hu, hst.2.2.2.2.2⟩

theorem Follows.loops (h : Follows sp strict fails F P R) {cfg : ClockCfg K} {fill : ℕ → K → K} {D r C N : ℕ} {pos : ℕ → ℕ → ℕ}
    (hcfg : RunCfg cfg fill D r) (hF : ∀ ph ∈ cfg.phases, F (fill ph)) (hsch : Schedule cfg N pos)
    (heb : cfg.emptyBetween = true) (columns : List ℕ) (hcols : ∀ c ∈ columns, c < C)
    (st : Image K × (ATM K × SpecState τ)) (hst : BothFol P R (N * cfg.steps.length) D r C (fun _ => 0) 0 st) :
    (∃ out a b, clockLoops (atmSys fill) cfg columns (st.1, st.2.1) = .ok (out, a) ∧
      clockLoops (sp.sys fill) cfg columns (st.1, st.2.2) = .ok (out, b)) ∨
    fails ∧ clockLoops (atmSys fill) cfg columns (st.1, st.2.1) = .error .typeError ∧
      (strict = true → clockLoops (sp.sys fill) cfg columns (st.1, st.2.2) = .error .typeError) := by
  have key : Sat (fun e => fails ∧ e = .typeError) (BothFol P R (N * cfg.steps.length) D r C (fun _ => 0) 0)
      (clockLoops (pairSys' strict (atmSys fill) (sp.sys fill)) cfg columns st) := by
    unfold clockLoops
    refine Sat.fold' _ _ _ (fun c hc st hst => ?_) st hst
    unfold columnBody
    refine Sat.bind ((h.inv (N := N) hcfg hF (hcols c hc)).passes hcfg.nodup hsch st _ hst) ?_
    rintro st' ⟨u', b', h1, h2, hP, h3⟩
    rw [heb, if_pos rfl]
    exact ⟨h1, h2, hP, h.stateSave (h.stateEmptyAll h3) fun _ => le_rfl⟩
  have p1 := (pairSys'_fst strict (atmSys fill) (sp.sys fill)).clockLoops cfg columns st
  have p2 := (pairSys'_snd strict (atmSys fill) (sp.sys fill)).clockLoops cfg columns st
  cases hx : clockLoops (pairSys' strict (atmSys fill) (sp.sys fill)) cfg columns st with
  | ok s =>
    rw [hx] at p1 p2
    exact Or.inl ⟨s.1, s.2.1, s.2.2, p1, p2⟩
  | error e =>
    rw [hx] at p1 p2
    obtain ⟨hfl, rfl⟩ := key.err hx
    exact Or.inr ⟨hfl, p1 (by decide), fun hs => p2 ⟨hs, by decide⟩⟩

theorem Follows.state_new {α : Type} {M : ℕ} (new : α → K → τ) (group : α → Group K) (l : List α) (fractions : List K)
    (hR : ∀ a ∈ l, ∀ x ∈ fractions, R M 0 (Mgr.new (fun j => (group a).dens j * x) (group a).kind M) (new a x)) :
    StateFol R M fractions.length (fun _ => 0) 0
      (ATM.new (l.map group) fractions M, SpecState.new new l fractions) := by
  have hE := (fresh_new (l.map group) fractions M).2.1
  have h0 : DataFol R M (fun _ => 0) (ATM.new (l.map group) fractions M).data
      (fractions.map fun frac => l.map fun t => new t frac) := by
    refine ⟨by simp [ATM.new], fun ph ms ts h1 h2 => ?_⟩
    unfold ATM.new at h1
    simp only at h1
    rw [List.getElem?_map, Option.map_eq_some_iff] at h1 h2
    obtain ⟨x, h3, rfl⟩ := h1
    obtain ⟨y, h4, rfl⟩ := h2
    rw [h3] at h4
    injection h4 with h4
    subst h4
    rw [List.map_map, List.forall₂_map_left_iff, List.forall₂_map_right_iff, List.forall₂_same]
    intro t ht
    exact hR t ht x (List.mem_of_getElem? h3)
  refine ⟨by simp [ATM.new], h0, ?_, ?_⟩
  · simp only [hE]; exact h0
  · simp only [hE]; simp [ATM.new]

/-- One direction of clocking. -/
theorem Follows.clock (h : Follows sp strict fails F P R) {α : Type} (new : α → K → τ) (group : α → Group K) (l : List α)
    (img : Image K) (ccd : CcdView K) (roe : Roe K) (e o : ℕ) (rows columns : List ℕ) (tw : Option (List ℕ))
    (hR : ∀ M, ∀ a ∈ l, ∀ x ∈ ccd.fractions,
      R M 0 (Mgr.new (fun j => (group a).dens j * x) (group a).kind M) (new a x))
    (hk : NoSaves roe ∨ roe.isPumping = true ∨ (e = 0 ∧ FullReadout o rows tw roe)) (hb : roe.emptyBetween = true)
    (hr : RowsFound rows roe) (hrows : ∀ w ∈ rows, w < img.nr) (hcols : ∀ c ∈ columns, c < img.nc)
    (hlow : ∀ w ∈ rows, ∀ z ∈ roe.accessed, 0 ≤ (w : ℤ) + z) (hlen : ccd.fractions.length ≤ roe.nPhases)
    (hfill : ∀ ph < ccd.fractions.length, FillModel (ccd.fill ph)) (hF : ∀ ph < ccd.fractions.length, F (ccd.fill ph))
    (hP : ∀ r < img.nr, ∀ c < img.nc, P (img.px r c)) :
    (∃ x, clockCharge img ccd roe (l.map group) e o rows columns tw = .ok x ∧
      sp.clock img ccd roe (SpecState.new new l ccd.fractions) e o rows columns tw = .ok x) ∨
    ∃ err, clockCharge img ccd roe (l.map group) e o rows columns tw = .error err ∧
      ((∃ x, clockCfg roe ccd e o rows tw = .ok x) → fails) ∧
      ((strict = true ∨ err ≠ .typeError) →
        sp.clock img ccd roe (SpecState.new new l ccd.fractions) e o rows columns tw = .error err) := by
  unfold clockCharge TrapSpec.clock
  cases hm : clockCfg roe ccd e o rows tw with
  | error err => exact Or.inr ⟨err, rfl, fun h => (by obtain ⟨x, h⟩ := h; cases h), fun _ => rfl⟩
  | ok x =>
    obtain ⟨cfg, roe'⟩ := x
    obtain ⟨N, pos, h1, h2⟩ := schedule_of hm hk
    have h3 := runCfg_of hm hfill hlen hr img.nr hrows hlow
    have h4 : cfg.emptyBetween = true := (clockCfg_fields hm).2.2.2.2.2.2.2.trans hb
    simp only [bind, Except.bind]
    rw [h2]
    rcases h.loops (C := img.nc) h3 (fun ph hp => hF ph (h3.phases ph hp)) h1 h4 columns hcols
      (img.pad (nPadding roe.accessed), (ATM.new (l.map group) ccd.fractions (N * cfg.steps.length),
        SpecState.new new l ccd.fractions)) ⟨rfl, rfl, h.pad_ok hP _,
        Follows.state_new new group l ccd.fractions (hR _)⟩ with
      ⟨out, a, b, g1, g2⟩ | ⟨hfl, g1, g2⟩
    · simp only at g1 g2
      rw [g1, g2]
      exact Or.inl ⟨_, rfl, rfl⟩
    · simp only at g1 g2
      rw [g1]
      refine Or.inr ⟨.typeError, rfl, fun _ => hfl, fun hs => ?_⟩
      rcases hs with hs | hs
      · rw [g2 hs]
      · exact absurd rfl hs

end tracks

end Arctic
