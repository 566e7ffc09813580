import Verif.Lemmas.RefStep
import Verif.Lemmas.RunCfg
import Verif.Spec.RefSystem

/-!
# The clocking loops on watermarks and on reference traps
-/

set_option linter.unusedSectionVars false
set_option linter.unusedVariables false

namespace Arctic

/-! ### projections of trap systems -/

section hom
variable {K : Type} [Field K] [LinearOrder K] {S S' : Type}

/-- What succeeds in one system succeeds in the other with the projected state. -/
structure SysHom (sys : TrapSys K S) (sys' : TrapSys K S') (g : S → S') : Prop where
  react : ∀ s ph n dw net s1, sys.react s ph n dw = .ok (net, s1) → sys'.react (g s) ph n dw = .ok (net, g s1)
  save : ∀ s, sys'.save (g s) = g (sys.save s)
  restore : ∀ s, sys'.restore (g s) = g (sys.restore s)
  emptyAll : ∀ s, sys'.emptyAll (g s) = g (sys.emptyAll s)

theorem foldlM_hom {α σ τ : Type} (g : σ → τ) (f : σ → α → Except Err σ) (f' : τ → α → Except Err τ) (l : List α)
    (h : ∀ a s s', f s a = .ok s' → f' (g s) a = .ok (g s')) :
    ∀ s s', l.foldlM f s = .ok s' → l.foldlM f' (g s) = .ok (g s') := by
  induction l with
  | nil => intro s s' h; rw [foldlM_nil] at h ⊢; injection h with h; rw [h]
  | cons a l ih =>
    intro s s' h'
    rw [foldlM_cons] at h' ⊢
    obtain ⟨s1, h1, h2⟩ := bind_eq_ok h'
    rw [h a s s1 h1]
    exact ih s1 s' h2

variable {sys : TrapSys K S} {sys' : TrapSys K S'} {g : S → S'}

theorem SysHom.clockLoops (h : SysHom sys sys' g) (cfg : ClockCfg K) (columns : List ℕ) (st st' : Image K × S)
    (hr : clockLoops sys cfg columns st = .ok st') :
    Arctic.clockLoops sys' cfg columns (st.1, g st.2) = .ok (st'.1, g st'.2) := by
  unfold Arctic.clockLoops at hr ⊢
  refine foldlM_hom (fun x : Image K × S => (x.1, g x.2)) _ _ _ (fun c st st' hc => ?_) st st' hr
  unfold columnBody at hc ⊢
  obtain ⟨st1, h1, hc⟩ := bind_eq_ok hc
  injection hc with hc
  subst hc
  have := foldlM_hom (fun x : Image K × S => (x.1, g x.2)) (expressBody sys cfg c) (expressBody sys' cfg c)
    (List.range cfg.expr.nr) (fun k st st' hk => ?_) st st1 h1
  · rw [this]
    cases cfg.emptyBetween with
    | true => simp only [bind, Except.bind, if_true, h.emptyAll, h.save]
    | false => simp only [bind, Except.bind, h.save, Bool.false_eq_true, if_false]
  unfold expressBody at hk ⊢
  have := foldlM_hom (fun x : Image K × S => (x.1, g x.2)) (rowBody sys cfg c k) (rowBody sys' cfg c k)
    (monitoredRows cfg k) (fun j st st' hj => ?_) _ st' hk
  · simp only [h.restore]; exact this
  unfold rowBody at hj ⊢
  obtain ⟨st1, h2, hj⟩ := bind_eq_ok hj
  injection hj with hj
  have := foldlM_hom (fun x : Image K × S => (x.1, g x.2)) (stepBody sys cfg c j (cfg.expr.e k j))
    (stepBody sys' cfg c j (cfg.expr.e k j)) cfg.steps (fun step st st' hs => ?_) st st1 h2
  · rw [this]
    change Except.ok _ = _
    congr 1
    rw [← hj]
    split
    · simp only [h.save]
    · rfl
  unfold stepBody at hs ⊢
  refine foldlM_hom (fun x : Image K × S => (x.1, g x.2)) _ _ _ (fun phase st st' hp => ?_) st st' hs
  unfold phaseBody at hp ⊢
  split at hp
  · rename_i ph row0 dwell e1 e2 e3
    obtain ⟨v, h3, hp⟩ := bind_eq_ok hp
    obtain ⟨⟨net, s1⟩, h4, hp⟩ := bind_eq_ok hp
    rw [h3]
    simp only [bind, Except.bind]
    rw [h.react _ _ _ _ _ _ h4]
    simp only at hp ⊢
    split at hp
    · rename_i h0
      rw [if_pos h0]
      injection hp with hp
      rw [← hp]
    · rename_i h0
      rw [if_neg h0]
      obtain ⟨i, h5, hp⟩ := bind_eq_ok hp
      injection hp with hp
      rw [h5, ← hp]
  · cases hp

/-- Two systems side by side; they have to agree on what is released. -/
def pairSys (A : TrapSys K S) (B : TrapSys K S') : TrapSys K (S × S') where
  restore s := (A.restore s.1, B.restore s.2)
  save s := (A.save s.1, B.save s.2)
  emptyAll s := (A.emptyAll s.1, B.emptyAll s.2)
  react s ph n dw := do
    let (x, a) ← A.react s.1 ph n dw
    let (y, b) ← B.react s.2 ph n dw
    if x = y then .ok (x, (a, b)) else .error .exception

theorem pairSys_react {A : TrapSys K S} {B : TrapSys K S'} {s : S × S'} {ph : ℕ} {n dw x : K} {a : S} {b : S'}
    (ha : A.react s.1 ph n dw = .ok (x, a)) (hb : B.react s.2 ph n dw = .ok (x, b)) :
    (pairSys A B).react s ph n dw = .ok (x, (a, b)) := by
  unfold pairSys
  simp only [bind, Except.bind]
  rw [ha]
  simp only
  rw [hb]
  simp only [if_true]

theorem pairSys_fst (A : TrapSys K S) (B : TrapSys K S') : SysHom (pairSys A B) A Prod.fst where
  react s ph n dw net s1 h := by
    unfold pairSys at h
    obtain ⟨⟨x, a⟩, h1, h⟩ := bind_eq_ok h
    obtain ⟨⟨y, b⟩, h2, h⟩ := bind_eq_ok h
    simp only at h
    split at h
    · injection h with h; injection h with h3 h4; subst h3 h4; exact h1
    · cases h
  save _ := rfl
  restore _ := rfl
  emptyAll _ := rfl

theorem pairSys_snd (A : TrapSys K S) (B : TrapSys K S') : SysHom (pairSys A B) B Prod.snd where
  react s ph n dw net s1 h := by
    unfold pairSys at h
    obtain ⟨⟨x, a⟩, h1, h⟩ := bind_eq_ok h
    obtain ⟨⟨y, b⟩, h2, h⟩ := bind_eq_ok h
    simp only at h
    split at h
    · rename_i he; injection h with h; injection h with h3 h4; subst h3 h4; rw [he]; exact h2
    · cases h
  save _ := rfl
  restore _ := rfl
  emptyAll _ := rfl

end hom

/-! ### states -/

theorem groupsStep_ref {T : ℝ → Prop} {M k : ℕ} (hk : k < M) {f : ℝ → ℝ} (hf : FillModel f)
    (hpos : ∀ n, 0 < n → 0 < f n) (n x : ℝ) (hx : T x) {ms : List (Mgr ℝ)} {ts : List Ref.Traps}
    (h : List.Forall₂ (MgrRef T M k) ms ts) :
    ∃ ms', groupsStep n x f ms = .ok (((ts.map fun t => t.transfer f x n).map Prod.fst).sum, ms') ∧
      List.Forall₂ (MgrRef T M (k + 1)) ms' ((ts.map fun t => t.transfer f x n).map Prod.snd) := by
  induction h with
  | nil => exact ⟨[], by simp [groupsStep], by simp⟩
  | cons h _ ih =>
    obtain ⟨m', g1, g2⟩ := h.step hk hf hpos n x hx
    obtain ⟨ms', g3, g4⟩ := ih
    refine ⟨m' :: ms', ?_, ?_⟩
    · unfold groupsStep
      rw [g1, g3]
      simp [bind, Except.bind]
    · exact List.Forall₂.cons g2 g4

/-- The same state phase by phase; `u` bounds the transfers. -/
def DataRef (T : ℝ → Prop) (M : ℕ) (u : ℕ → ℕ) (d : List (List (Mgr ℝ))) (d' : List (List Ref.Traps)) : Prop :=
  d.length = d'.length ∧ ∀ ph ms ts, d[ph]? = some ms → d'[ph]? = some ts → List.Forall₂ (MgrRef T M (u ph)) ms ts

theorem DataRef.mono {T : ℝ → Prop} {M : ℕ} {u u' : ℕ → ℕ} {d : List (List (Mgr ℝ))} {d' : List (List Ref.Traps)}
    (h : DataRef T M u d d') (hu : ∀ ph, u ph ≤ u' ph) : DataRef T M u' d d' :=
  ⟨h.1, fun ph ms ts h1 h2 => (h.2 ph ms ts h1 h2).imp fun _ _ h => h.mono (hu ph)⟩

theorem DataRef.emptied {T : ℝ → Prop} {M : ℕ} {u : ℕ → ℕ} {d : List (List (Mgr ℝ))} {d' : List (List Ref.Traps)}
    (h : DataRef T M u d d') : DataRef T M (fun _ => 0) (Arctic.emptied d) (d'.map fun ts => ts.map Ref.Traps.empty) := by
  refine ⟨by simp [Arctic.emptied, h.1], fun ph ms ts h1 h2 => ?_⟩
  unfold Arctic.emptied at h1
  rw [List.getElem?_map, Option.map_eq_some_iff] at h1 h2
  obtain ⟨ms0, h3, rfl⟩ := h1
  obtain ⟨ts0, h4, rfl⟩ := h2
  rw [List.forall₂_map_left_iff, List.forall₂_map_right_iff]
  exact (h.2 ph ms0 ts0 h3 h4).imp fun _ _ h => h.emptied

/-- Current and saved state agree. -/
def StateRef (T : ℝ → Prop) (M D : ℕ) (u : ℕ → ℕ) (b : ℕ) (s : ATM ℝ × RefState) : Prop :=
  s.1.data.length = D ∧ DataRef T M u s.1.data s.2.data ∧ DataRef T M (fun _ => b) s.1.eff s.2.saved ∧ s.1.eff.length = D

theorem StateRef.react {T : ℝ → Prop} {M D : ℕ} {u : ℕ → ℕ} {b : ℕ} {s : ATM ℝ × RefState} (h : StateRef T M D u b s)
    {fill : ℕ → ℝ → ℝ} {phase : ℕ} (hphase : phase < D) (hf : FillModel (fill phase))
    (hpos : ∀ n, 0 < n → 0 < fill phase n) (hu : u phase < M) (n x : ℝ) (hx : T x) :
    ∃ net s', (pairSys (atmSys fill) (refSys fill)).react s phase n x = .ok (net, s') ∧
      StateRef T M D (bump u phase) b s' := by
  obtain ⟨a, r⟩ := s
  obtain ⟨h1, ⟨h2, h3⟩, h4, h5⟩ := h
  simp only at h1 h2 h3 h4 h5
  have q1 : a.data[phase]? = some (a.data[phase]'(by omega)) := List.getElem?_eq_getElem _
  have q2 : r.data[phase]? = some (r.data[phase]'(by omega)) := List.getElem?_eq_getElem _
  obtain ⟨ms', g1, g2⟩ := groupsStep_ref hu hf hpos n x hx (h3 phase _ _ q1 q2)
  have ha : (atmSys fill).react a phase n x = .ok
      ((((r.data[phase]'(by omega)).map fun t => t.transfer (fill phase) x n).map Prod.fst).sum,
        { a with data := a.data.set phase ms' }) := by
    change a.react phase n x (fill phase) = _
    unfold ATM.react
    rw [q1]
    simp only
    rw [g1]
    rfl
  have hb : (refSys fill).react r phase n x = .ok
      ((((r.data[phase]'(by omega)).map fun t => t.transfer (fill phase) x n).map Prod.fst).sum,
        { r with data := r.data.set phase (((r.data[phase]'(by omega)).map fun t => t.transfer (fill phase) x n).map
          Prod.snd) }) := by
    simp only [refSys]
    rw [q2]
  refine ⟨_, _, pairSys_react (s := (a, r)) ha hb, ?_⟩
  · have e := ATM.react_emptied ha
    refine ⟨by simpa using h1, ⟨by simpa using h2, ?_⟩, ?_, ?_⟩
    · intro ph ms ts e1 e2
      simp only at e1 e2
      rw [List.getElem?_set] at e1 e2
      unfold bump
      by_cases hp : phase = ph
      · subst hp
        rw [if_pos rfl, if_pos (by omega)] at e1 e2
        injection e1 with e1
        injection e2 with e2
        subst e1 e2
        rw [if_pos rfl]
        exact g2
      · rw [if_neg hp] at e1 e2
        rw [if_neg (fun h => hp h.symm)]
        exact h3 ph ms ts e1 e2
    · simp only
      rw [ATM.eff_of e.2 e.1]; exact h4
    · simp only
      rw [ATM.eff_of e.2 e.1]; exact h5

theorem stateRef_save {T : ℝ → Prop} {M D : ℕ} {fill : ℕ → ℝ → ℝ} {u : ℕ → ℕ} {b v : ℕ} {s : ATM ℝ × RefState} (h : StateRef T M D u b s)
    (hv : ∀ ph, u ph ≤ v) : StateRef T M D u v ((pairSys (atmSys fill) (refSys fill)).save s) := by
  obtain ⟨a, r⟩ := s
  obtain ⟨h1, h2, h3, h4⟩ := h
  change StateRef T M D u v (a.save, { r with saved := r.data })
  refine ⟨h1, h2, ?_, ?_⟩
  · simp only [ATM.eff_save]; exact h2.mono hv
  · simp only [ATM.eff_save]; exact h1

theorem stateRef_restore {T : ℝ → Prop} {M D : ℕ} {fill : ℕ → ℝ → ℝ} {u : ℕ → ℕ} {b : ℕ} {s : ATM ℝ × RefState} (h : StateRef T M D u b s) :
    StateRef T M D (fun _ => b) b ((pairSys (atmSys fill) (refSys fill)).restore s) := by
  obtain ⟨a, r⟩ := s
  obtain ⟨h1, h2, h3, h4⟩ := h
  change StateRef T M D _ b (a.restore, { r with data := r.saved })
  refine ⟨h4, h3, ?_, ?_⟩
  · simp only [ATM.eff_restore]; exact h3
  · simp only [ATM.eff_restore]; exact h4

theorem stateRef_emptyAll {T : ℝ → Prop} {M D : ℕ} {fill : ℕ → ℝ → ℝ} {u : ℕ → ℕ} {b : ℕ} {s : ATM ℝ × RefState} (h : StateRef T M D u b s) :
    StateRef T M D (fun _ => 0) b ((pairSys (atmSys fill) (refSys fill)).emptyAll s) := by
  obtain ⟨a, r⟩ := s
  obtain ⟨h1, h2, h3, h4⟩ := h
  change StateRef T M D _ b (a.emptyAll, { r with data := r.data.map fun ts => ts.map Ref.Traps.empty })
  have he : a.emptyAll.eff = a.eff := ATM.eff_of rfl (by rw [ATM.emptied_emptyAll, emptied_emptied])
  refine ⟨by simpa [ATM.emptyAll] using h1, ?_, ?_, ?_⟩
  · simp only [ATM.emptied_emptyAll]; exact h2.emptied
  · simp only [he]; exact h3
  · simp only [he]; exact h4

/-- The invariant of both runs. -/
def BothRef (T : ℝ → Prop) (M D R C : ℕ) (u : ℕ → ℕ) (b : ℕ) (st : Image ℝ × (ATM ℝ × RefState)) : Prop :=
  st.1.nr = R ∧ st.1.nc = C ∧ StateRef T M D u b st.2

theorem bothRef_inv {cfg : ClockCfg ℝ} {fill : ℕ → ℝ → ℝ} {D R C N c : ℕ} (hcfg : RunCfg cfg fill D R)
    (hpos : ∀ ph ∈ cfg.phases, ∀ n, 0 < n → 0 < fill ph n) (hc : c < C) : BudgetInv (pairSys (atmSys fill) (refSys fill)) cfg (fun _ => False) N c
      (BothRef (0 < ·) (N * cfg.steps.length) D R C) where
  phase k hk j hj step hs phase hp u b st hst hu := by
    obtain ⟨i, s⟩ := st
    obtain ⟨h1, h2, h3⟩ := hst
    simp only at h1 h2 h3
    obtain ⟨ph, dw, l1, l2, l3⟩ := hcfg.look step hs phase hp
    obtain ⟨w, l4⟩ := hcfg.rows k hk j hj
    obtain ⟨r1, r2⟩ := hcfg.range step phase ph l1 w (List.mem_of_getElem? l4)
    unfold phaseBody
    rw [l1, l2, l4]
    simp only
    unfold Image.read
    rw [if_pos ⟨r1.1, by rw [h1]; exact r1.2, by rw [h2]; exact hc⟩]
    simp only [bind, Except.bind]
    obtain ⟨net, s', g1, g2⟩ := h3.react (hcfg.phases phase hp) (hcfg.fillModel phase hp) (hpos phase hp) hu
      (i.px ((w : ℤ) + ph.captureFrom).toNat c * if ph.isHigh then 1 else 0) dw l3
    rw [g1]
    simp only
    split
    · exact ⟨h1, h2, g2⟩
    · obtain ⟨i', q1, q2, q3⟩ := writeAll_inRange (img := i) (row0 := w) (c := c) (net := net)
        (mult := cfg.expr.e k j) (rel := ph.release) (by rw [h2]; exact hc) (fun o ho => by rw [h1]; exact r2 o ho)
      rw [q1]
      exact ⟨q2.trans h1, q3.trans h2, g2⟩
  save _ u b v st h hv := ⟨h.1, h.2.1, stateRef_save h.2.2 hv⟩
  restore u b st h := ⟨h.1, h.2.1, stateRef_restore h.2.2⟩
  mono u u' b st h hu := ⟨h.1, h.2.1, h.2.2.1, h.2.2.2.1.mono hu, h.2.2.2.2⟩

theorem bothRef_loops {cfg : ClockCfg ℝ} {fill : ℕ → ℝ → ℝ} {D R C N : ℕ} {pos : ℕ → ℕ → ℕ}
    (hcfg : RunCfg cfg fill D R) (hpos : ∀ ph ∈ cfg.phases, ∀ n, 0 < n → 0 < fill ph n) (hsch : Schedule cfg N pos) (heb : cfg.emptyBetween = true) (columns : List ℕ)
    (hcols : ∀ c ∈ columns, c < C) (st : Image ℝ × (ATM ℝ × RefState))
    (hst : BothRef (0 < ·) (N * cfg.steps.length) D R C (fun _ => 0) 0 st) :
    ∃ out a r, clockLoops (atmSys fill) cfg columns (st.1, st.2.1) = .ok (out, a) ∧
      clockLoops (refSys fill) cfg columns (st.1, st.2.2) = .ok (out, r) ∧ out.nr = R ∧ out.nc = C := by
  have key : Sat (fun _ => False) (BothRef (0 < ·) (N * cfg.steps.length) D R C (fun _ => 0) 0)
      (clockLoops (pairSys (atmSys fill) (refSys fill)) cfg columns st) := by
    unfold clockLoops
    refine Sat.fold' _ _ _ (fun c hc st hst => ?_) st hst
    unfold columnBody
    refine Sat.bind ((bothRef_inv (N := N) hcfg hpos (hcols c hc)).passes hcfg.nodup hsch st _ hst) ?_
    rintro st' ⟨u', b', h1, h2, h3⟩
    rw [heb, if_pos rfl]
    exact ⟨h1, h2, stateRef_save (stateRef_emptyAll h3) fun _ => le_rfl⟩
  obtain ⟨st', h1, h2⟩ := key.total
  exact ⟨st'.1, st'.2.1, st'.2.2, (pairSys_fst _ _).clockLoops cfg columns st st' h1,
    (pairSys_snd _ _).clockLoops cfg columns st st' h1, h2.1, h2.2.1⟩

theorem stateRef_new {T : ℝ → Prop} {M : ℕ} (traps : List Ref.Traps) (fractions : List ℝ)
    (hfr : ∀ x ∈ fractions, 0 ≤ x) (hd : ∀ t ∈ traps, ∀ j, 0 ≤ t.dens j)
    (hk : ∀ t ∈ traps, ∀ x, T x → ∀ j, 0 ≤ t.keep x j ∧ t.keep x j < 1) :
    StateRef T M fractions.length (fun _ => 0) 0
      (ATM.new (traps.map Ref.Traps.group) fractions M, RefState.new traps fractions) := by
  have hF := (fresh_new (traps.map Ref.Traps.group) fractions M).2.1
  have h0 : DataRef T M (fun _ => 0) (ATM.new (traps.map Ref.Traps.group) fractions M).data
      (fractions.map fun frac => traps.map fun t => t.inPhase frac) := by
    refine ⟨by simp [ATM.new], fun ph ms ts h1 h2 => ?_⟩
    unfold ATM.new at h1
    simp only at h1
    rw [List.getElem?_map, Option.map_eq_some_iff] at h1 h2
    obtain ⟨x, h3, rfl⟩ := h1
    obtain ⟨y, h4, rfl⟩ := h2
    rw [h3] at h4
    injection h4 with h4
    subst h4
    have hx := hfr x (List.mem_of_getElem? h3)
    rw [List.map_map, List.forall₂_map_left_iff, List.forall₂_map_right_iff, List.forall₂_same]
    intro t ht
    exact mgrRef_new (fun j => t.dens j * x) t.keep M (fun j => mul_nonneg (hd t ht j) hx) (hk t ht)
  refine ⟨by simp [ATM.new], h0, ?_, ?_⟩
  · simp only [hF]; exact h0
  · simp only [hF]; simp [ATM.new]

end Arctic
