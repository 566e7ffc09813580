import Verif.Lemmas.AddCti
import Verif.Lemmas.NoCharge

/-!
# Phases without traps can be skipped
-/

set_option linter.unusedSectionVars false
set_option linter.unusedVariables false

namespace Arctic

variable {K : Type} [Field K] [LinearOrder K] [IsStrictOrderedRing K]

/-- Whenever the first computation returns, so does the second, with a related result. -/
def ExSim {α β : Type} (R : α → β → Prop) (x : Except Err α) (y : Except Err β) : Prop :=
  ∀ a, x = .ok a → ∃ b, y = .ok b ∧ R a b

theorem ExSim.bind {α β α' β' : Type} {R : α → β → Prop} {R' : α' → β' → Prop} {x : Except Err α}
    {y : Except Err β} {f : α → Except Err α'} {g : β → Except Err β'} (h : ExSim R x y)
    (hfg : ∀ a b, R a b → ExSim R' (f a) (g b)) : ExSim R' (x >>= f) (y >>= g) := by
  intro a' ha'
  obtain ⟨a, h1, h2⟩ := bind_eq_ok ha'
  obtain ⟨b, h3, h4⟩ := h a h1
  obtain ⟨b', h5, h6⟩ := hfg a b h4 a' h2
  exact ⟨b', by rw [h3]; exact h5, h6⟩

/-- Two folds, the second over a sublist given by a filter. -/
theorem foldlM_sim {α σ τ : Type} (R : σ → τ → Prop) (f : σ → α → Except Err σ) (g : τ → α → Except Err τ)
    (p : α → Bool) (l : List α) (hp : ∀ a ∈ l, p a = true → ∀ s t, R s t → ExSim R (f s a) (g t a))
    (hn : ∀ a ∈ l, p a = false → ∀ s t s', R s t → f s a = .ok s' → R s' t) :
    ∀ s t, R s t → ExSim R (l.foldlM f s) ((l.filter p).foldlM g t) := by
  induction l with
  | nil => intro s t h a ha; injection ha with ha; exact ⟨t, rfl, ha ▸ h⟩
  | cons a l ih =>
    intro s t h
    have ih' := ih (fun b hb => hp b (List.mem_cons_of_mem _ hb)) (fun b hb => hn b (List.mem_cons_of_mem _ hb))
    rw [foldlM_cons]
    cases hpa : p a with
    | true =>
      rw [List.filter_cons_of_pos hpa, foldlM_cons]
      exact ExSim.bind (hp a List.mem_cons_self hpa s t h) ih'
    | false =>
      rw [List.filter_cons_of_neg (by simp [hpa])]
      intro s2 h2
      obtain ⟨s1, h3, h4⟩ := bind_eq_ok h2
      exact ih' s1 t (hn a List.mem_cons_self hpa s t s1 h h3) s2 h4

theorem foldlM_sim' {α σ τ : Type} (R : σ → τ → Prop) (f : σ → α → Except Err σ) (g : τ → α → Except Err τ)
    (l : List α) (hp : ∀ a ∈ l, ∀ s t, R s t → ExSim R (f s a) (g t a)) :
    ∀ s t, R s t → ExSim R (l.foldlM f s) (l.foldlM g t) := by
  intro s t h
  have := foldlM_sim R f g (fun _ => true) l (fun a ha _ => hp a ha) (fun _ _ h => by cases h) s t h
  rwa [List.filter_true] at this

/-- All traps of this phase have density zero. -/
def ZeroDens (ms : Option (List (Mgr K))) : Prop := ∀ l, ms = some l → ∀ m ∈ l, ∀ j, m.dens j = 0

/-- The states agree in the phases selected by `p`; the other phases have no traps. -/
structure SkipRel (p : ℕ → Bool) (a b : ATM K) : Prop where
  data : ∀ ph, p ph = true → a.data[ph]? = b.data[ph]?
  eff : ∀ ph, p ph = true → a.eff[ph]? = b.eff[ph]?
  zero : ∀ ph, p ph = false → ZeroDens a.data[ph]?
  zeroEff : ∀ ph, p ph = false → ZeroDens a.eff[ph]?

theorem emptied_getElem? (d : List (List (Mgr K))) (ph : ℕ) :
    (emptied d)[ph]? = d[ph]?.map fun ms => ms.map Mgr.empty := by
  unfold emptied; rw [List.getElem?_map]

theorem ZeroDens.empty {x : Option (List (Mgr K))} (h : ZeroDens x) :
    ZeroDens (x.map fun ms => ms.map Mgr.empty) := by
  intro l hl m hm j
  cases x with
  | none => cases hl
  | some y =>
    injection hl with hl
    subst hl
    rw [List.mem_map] at hm
    obtain ⟨m0, h0, rfl⟩ := hm
    exact h y rfl m0 h0 j

theorem groupsStep_dens {n t net : K} {f : K → K} {ms ms' : List (Mgr K)} (hz : ∀ m ∈ ms, ∀ j, m.dens j = 0)
    (h : groupsStep n t f ms = .ok (net, ms')) : ∀ m ∈ ms', ∀ j, m.dens j = 0 := by
  induction ms generalizing ms' net with
  | nil =>
    intro m hm
    unfold groupsStep at h; injection h with h; injection h with _ h
    rw [← h] at hm; cases hm
  | cons m0 ms ih =>
    intro m hm
    unfold groupsStep at h
    obtain ⟨⟨net1, m1⟩, h1, h⟩ := bind_eq_ok h
    obtain ⟨⟨net2, ms2⟩, h2, h⟩ := bind_eq_ok h
    injection h with h; injection h with _ h4
    rw [← h4] at hm
    rcases List.mem_cons.1 hm with rfl | hm
    · obtain ⟨wm, rfl, -⟩ := Mgr.step_shape h1
      exact hz m0 List.mem_cons_self
    · exact ih (fun m hm => hz m (List.mem_cons_of_mem _ hm)) h2 m hm

/-- A reaction in a phase that is not skipped. -/
theorem SkipRel.react_pos {p : ℕ → Bool} {a b : ATM K} (h : SkipRel p a b) {ph : ℕ} (hp : p ph = true) (n t : K)
    (f : K → K) : ExSim (fun x y => x.1 = y.1 ∧ SkipRel p x.2 y.2) (a.react ph n t f) (b.react ph n t f) := by
  rintro ⟨net, a'⟩ ha
  have ea := ATM.react_emptied ha
  obtain ⟨ms, ms', g1, g2, g3⟩ := ATM.react_data ha
  have hb : b.react ph n t f = .ok (net, { b with data := b.data.set ph ms' }) := by
    unfold ATM.react
    rw [← h.data ph hp, g1]
    simp only [g2]
    rfl
  have eb := ATM.react_emptied hb
  refine ⟨_, hb, rfl, ?_, ?_, ?_, ?_⟩
  · intro q hq
    rw [g3]
    simp only
    by_cases hqp : ph = q
    · subst hqp
      have l1 : ph < a.data.length := (List.getElem?_eq_some_iff.1 g1).1
      have l2 : ph < b.data.length := by
        have := g1; rw [h.data ph hp] at this
        exact (List.getElem?_eq_some_iff.1 this).1
      rw [List.getElem?_set_self l1, List.getElem?_set_self l2]
    · rw [List.getElem?_set_ne hqp, List.getElem?_set_ne hqp]; exact h.data q hq
  · intro q hq
    rw [ATM.eff_of ea.2 ea.1, ATM.eff_of eb.2 eb.1]; exact h.eff q hq
  · intro q hq
    rw [g3]
    simp only
    have hqp : ph ≠ q := by rintro rfl; rw [hp] at hq; cases hq
    rw [List.getElem?_set_ne hqp]; exact h.zero q hq
  · intro q hq
    rw [ATM.eff_of ea.2 ea.1]; exact h.zeroEff q hq

/-- A reaction in a skipped phase. -/
theorem SkipRel.react_neg {p : ℕ → Bool} {a b a' : ATM K} (h : SkipRel p a b) {ph : ℕ} (hp : p ph = false) {n t net : K}
    {f : K → K} (ha : a.react ph n t f = .ok (net, a')) : net = 0 ∧ SkipRel p a' b := by
  have ea := ATM.react_emptied ha
  obtain ⟨ms, ms', g1, g2, g3⟩ := ATM.react_data ha
  have hz := h.zero ph hp ms g1
  refine ⟨groupsStep_zero_dens hz g2, ?_, ?_, ?_, ?_⟩
  · intro q hq
    have hqp : ph ≠ q := by rintro rfl; rw [hp] at hq; cases hq
    rw [g3]
    simp only
    rw [List.getElem?_set_ne hqp]; exact h.data q hq
  · intro q hq
    rw [ATM.eff_of ea.2 ea.1]; exact h.eff q hq
  · intro q hq
    rw [g3]
    simp only
    by_cases hqp : ph = q
    · subst hqp
      rw [List.getElem?_set_self (List.getElem?_eq_some_iff.1 g1).1]
      intro l hl
      injection hl with hl
      subst hl
      exact groupsStep_dens hz g2
    · rw [List.getElem?_set_ne hqp]; exact h.zero q hq
  · intro q hq
    rw [ATM.eff_of ea.2 ea.1]; exact h.zeroEff q hq

theorem SkipRel.save {p : ℕ → Bool} {a b : ATM K} (h : SkipRel p a b) : SkipRel p a.save b.save := by
  refine ⟨h.data, fun q hq => ?_, h.zero, fun q hq => ?_⟩
  · rw [ATM.eff_save, ATM.eff_save]; exact h.data q hq
  · rw [ATM.eff_save]; exact h.zero q hq

theorem SkipRel.restore {p : ℕ → Bool} {a b : ATM K} (h : SkipRel p a b) : SkipRel p a.restore b.restore := by
  refine ⟨h.eff, fun q hq => ?_, h.zeroEff, fun q hq => ?_⟩
  · rw [ATM.eff_restore, ATM.eff_restore]; exact h.eff q hq
  · rw [ATM.eff_restore]; exact h.zeroEff q hq

theorem ATM.eff_emptyAll (a : ATM K) : a.emptyAll.eff = a.eff :=
  ATM.eff_of (a := a) (a' := a.emptyAll) rfl (by rw [ATM.emptied_emptyAll, emptied_emptied])

theorem SkipRel.emptyAll {p : ℕ → Bool} {a b : ATM K} (h : SkipRel p a b) : SkipRel p a.emptyAll b.emptyAll := by
  refine ⟨fun q hq => ?_, fun q hq => ?_, fun q hq => ?_, fun q hq => ?_⟩
  · rw [ATM.emptied_emptyAll, ATM.emptied_emptyAll, emptied_getElem?, emptied_getElem?, h.data q hq]
  · rw [ATM.eff_emptyAll, ATM.eff_emptyAll]; exact h.eff q hq
  · rw [ATM.emptied_emptyAll, emptied_getElem?]; exact (h.zero q hq).empty
  · rw [ATM.eff_emptyAll]; exact h.zeroEff q hq

/-- Related loop states: the same non-negative image. -/
def SkipSt (p : ℕ → Bool) (x y : Image K × ATM K) : Prop :=
  x.1 = y.1 ∧ (∀ r c, 0 ≤ x.1.px r c) ∧ SkipRel p x.2 y.2

theorem writeAll_nonneg {img img' : Image K} (h0 : ∀ r c, 0 ≤ img.px r c) {row0 : ℤ} {c : ℕ} {net mult : K}
    {rel : List (ℤ × K)} (h : writeAll img row0 c net mult rel = .ok img') : ∀ r c, 0 ≤ img'.px r c := by
  induction rel generalizing img with
  | nil => unfold writeAll at h; injection h with h; exact h ▸ h0
  | cons o rel ih =>
    obtain ⟨off, frac⟩ := o
    unfold writeAll at h
    obtain ⟨i1, h1, h⟩ := bind_eq_ok h
    refine ih ?_ h
    unfold writeBack at h1
    obtain ⟨old, h2, h3⟩ := bind_eq_ok h1
    injection h3 with h3
    subst h3
    intro r c'
    unfold Image.set
    simp only
    split
    · split
      · exact le_rfl
      · linarith
    · exact h0 r c'

theorem phaseBody_skip_neg (fill : ℕ → K → K) (cfg : ClockCfg K) (p : ℕ → Bool) (c j : ℕ) (mult : K) (step ph : ℕ)
    (hp : p ph = false) (x y x' : Image K × ATM K) (h : SkipSt p x y)
    (hx : phaseBody (atmSys fill) cfg c j mult step x ph = .ok x') : SkipSt p x' y := by
  obtain ⟨h1, h2, h3⟩ := h
  unfold phaseBody at hx
  split at hx
  · obtain ⟨v, g1, hx⟩ := bind_eq_ok hx
    obtain ⟨⟨net, s⟩, g2, hx⟩ := bind_eq_ok hx
    obtain ⟨hnet, hs⟩ := h3.react_neg hp (a' := s) g2
    simp only at hx
    split at hx
    · injection hx with hx; subst hx; exact ⟨h1, h2, hs⟩
    · obtain ⟨i1, g3, hx⟩ := bind_eq_ok hx
      injection hx with hx; subst hx
      rw [writeAll_zero h2 hnet g3]
      exact ⟨h1, h2, hs⟩
  · cases hx

theorem phaseBody_skip_pos (fill : ℕ → K → K) (cfg cfg' : ClockCfg K) (hcfg : cfg'.clockSeq = cfg.clockSeq ∧
      cfg'.rowWindow = cfg.rowWindow ∧ cfg'.dwell = cfg.dwell) (p : ℕ → Bool) (c j : ℕ) (mult : K) (step ph : ℕ)
    (hp : p ph = true) (x y : Image K × ATM K) (h : SkipSt p x y) :
    ExSim (SkipSt p) (phaseBody (atmSys fill) cfg c j mult step x ph)
      (phaseBody (atmSys fill) cfg' c j mult step y ph) := by
  obtain ⟨h1, h2, h3⟩ := h
  unfold phaseBody
  rw [hcfg.1, hcfg.2.1, hcfg.2.2]
  split
  · rename_i e
    rw [h1]
    refine ExSim.bind (R := fun u v => u = v) (fun a ha => ⟨a, ha, rfl⟩) ?_
    rintro v _ rfl
    refine ExSim.bind (h3.react_pos hp _ _ _) ?_
    rintro ⟨net, s⟩ ⟨net', s'⟩ ⟨hn, hs⟩
    simp only at hn hs ⊢
    subst hn
    split
    · rintro a ha; injection ha with ha; subst ha
      exact ⟨_, rfl, rfl, h1 ▸ h2, hs⟩
    · intro a ha
      obtain ⟨i1, g3, hx⟩ := bind_eq_ok ha
      injection hx with hx; subst hx
      exact ⟨(i1, s'), by rw [g3]; rfl, rfl, writeAll_nonneg (h1 ▸ h2) g3, hs⟩
  · intro a ha; cases ha

/-- Processing the phases selected by `p` only gives the same image. -/
theorem clockLoops_skip (fill : ℕ → K → K) (cfg : ClockCfg K) (p : ℕ → Bool) (columns : List ℕ)
    (x y : Image K × ATM K) (h : SkipSt p x y) :
    ExSim (SkipSt p) (clockLoops (atmSys fill) cfg columns x)
      (clockLoops (atmSys fill) { cfg with phases := cfg.phases.filter p } columns y) := by
  unfold clockLoops
  refine foldlM_sim' _ _ _ _ (fun c _ x y h => ?_) x y h
  unfold columnBody
  refine ExSim.bind (R := SkipSt p) (foldlM_sim' _ _ _ _ (fun k _ x y h => ?_) x y h) ?_
  · unfold expressBody
    refine foldlM_sim' _ _ _ _ (fun j _ x y h => ?_) _ _ ⟨h.1, h.2.1, h.2.2.restore⟩
    unfold rowBody
    refine ExSim.bind (R := SkipSt p) (foldlM_sim' _ _ _ _ (fun step _ x y h => ?_) x y h) ?_
    · unfold stepBody
      exact foldlM_sim (SkipSt p) _ _ p cfg.phases
        (fun ph _ hp x y h => phaseBody_skip_pos fill cfg _ ⟨rfl, rfl, rfl⟩ p c j _ step ph hp x y h)
        (fun ph _ hp x y x' h hx => phaseBody_skip_neg fill cfg p c j _ step ph hp x y x' h hx) x y h
    · intro x y h a ha
      injection ha with ha
      subst ha
      refine ⟨_, rfl, ?_⟩
      simp only
      split
      · exact ⟨h.1, h.2.1, h.2.2.save⟩
      · exact h
  · intro x y h a ha
    injection ha with ha
    subst ha
    refine ⟨_, rfl, h.1, h.2.1, ?_⟩
    simp only
    change SkipRel p (ATM.save _) (ATM.save _)
    refine SkipRel.save ?_
    split
    · exact h.2.2.emptyAll
    · exact h.2.2

end Arctic
