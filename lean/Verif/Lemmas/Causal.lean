import Verif.Lemmas.ClockCongr
import Verif.Lemmas.SkipPhases

/-!
# Two runs on images that agree up to a row
-/

set_option linter.unusedSectionVars false
set_option linter.unusedVariables false

namespace Arctic

variable {K : Type} [Field K] [LinearOrder K] [IsStrictOrderedRing K]

/-- If both computations return, the results are related. -/
def Both {α β : Type} (R : α → β → Prop) (x : Except Err α) (y : Except Err β) : Prop :=
  ∀ a b, x = .ok a → y = .ok b → R a b

theorem Both.bind {α β α' β' : Type} {R : α → β → Prop} {R' : α' → β' → Prop} {x : Except Err α}
    {y : Except Err β} {f : α → Except Err α'} {g : β → Except Err β'} (h : Both R x y)
    (hfg : ∀ a b, R a b → Both R' (f a) (g b)) : Both R' (x >>= f) (y >>= g) := by
  intro a' b' ha' hb'
  obtain ⟨a, h1, h2⟩ := bind_eq_ok ha'
  obtain ⟨b, h3, h4⟩ := bind_eq_ok hb'
  exact hfg a b (h a b h1 h3) a' b' h2 h4

theorem Both.fold {α σ τ : Type} (P : List α → σ → τ → Prop) (f : σ → α → Except Err σ) (g : τ → α → Except Err τ) :
    ∀ (l : List α), (∀ a l' s t, (a :: l') <:+ l → P (a :: l') s t → Both (P l') (f s a) (g t a)) → ∀ s t, P l s t →
      Both (P []) (l.foldlM f s) (l.foldlM g t) := by
  intro l
  induction l with
  | nil => intro _ s t h a b ha hb; injection ha with ha; injection hb with hb; subst ha hb; exact h
  | cons a l ih =>
    intro hf s t h
    rw [foldlM_cons, foldlM_cons]
    exact Both.bind (hf a l s t (List.suffix_refl _) h)
      (ih fun a' l' s t hs hp => hf a' l' s t (hs.trans (List.suffix_cons _ _)) hp)

theorem Both.fold' {α σ τ : Type} (P : σ → τ → Prop) (f : σ → α → Except Err σ) (g : τ → α → Except Err τ) (l : List α)
    (hf : ∀ a ∈ l, ∀ s t, P s t → Both P (f s a) (g t a)) (s : σ) (t : τ) (h : P s t) :
    Both P (l.foldlM f s) (l.foldlM g t) :=
  Both.fold (fun _ => P) f g l (fun a l' s t hs hp => hf a (hs.subset List.mem_cons_self) s t hp) s t h

/-- Agreement up to row `R`. -/
def AgreeTo (R : ℕ) (i j : Image K) : Prop := ∀ r ≤ R, ∀ c, i.px r c = j.px r c

/-- What forced release guarantees about a clock sequence: high phases capture from their own pixel, and nothing
is released towards the readout. -/
def Forward (seq : List (List (Phase K))) : Prop :=
  ∀ (step phase : ℕ) (ph : Phase K), (seq[step]?.bind fun l => l[phase]?) = some ph →
    (ph.isHigh = true → ph.captureFrom = 0) ∧ ∀ o ∈ ph.release, 0 ≤ o.1

theorem writeBack_agreeTo {R : ℕ} {i j : Image K} (h : AgreeTo R i j) (r : ℤ) (c : ℕ) (d : K) :
    Both (AgreeTo R) (writeBack i r c d) (writeBack j r c d) := by
  unfold writeBack
  refine Both.bind (R := fun u v => u = i.px r.toNat c ∧ v = j.px r.toNat c ∧ 0 ≤ r) ?_ ?_
  · intro a b ha hb
    obtain ⟨h1, -, -, h2⟩ := read_ok ha
    obtain ⟨-, -, -, h3⟩ := read_ok hb
    exact ⟨h2, h3, h1⟩
  · rintro a b ⟨rfl, rfl, h0⟩ u v hu hv
    injection hu with hu
    injection hv with hv
    subst hu hv
    intro r' hr' c'
    unfold Image.set
    simp only
    by_cases hc : r' = r.toNat ∧ c' = c
    · rw [if_pos hc, if_pos hc, ← hc.1, h r' hr' c]
    · rw [if_neg hc, if_neg hc, h r' hr' c']

theorem writeAll_agreeTo {R : ℕ} (row0 : ℤ) (c : ℕ) (net mult : K) (rel : List (ℤ × K)) :
    ∀ {i j : Image K}, AgreeTo R i j →
    Both (AgreeTo R) (writeAll i row0 c net mult rel) (writeAll j row0 c net mult rel) := by
  induction rel with
  | nil => intro i j h a b ha hb; injection ha with ha; injection hb with hb; subst ha hb; exact h
  | cons o rel ih =>
    intro i j h
    obtain ⟨off, frac⟩ := o
    unfold writeAll
    exact Both.bind (writeBack_agreeTo h _ _ _) fun a b hab => ih hab

/-- Writing at rows beyond `R`. -/
theorem writeAll_beyond {R : ℕ} {row0 : ℤ} (h0 : (R : ℤ) < row0) (c : ℕ) (net mult : K) (rel : List (ℤ × K))
    (hrel : ∀ o ∈ rel, 0 ≤ o.1) : ∀ {i i' : Image K}, writeAll i row0 c net mult rel = .ok i' → AgreeTo R i' i := by
  induction rel with
  | nil => intro i i' h; injection h with h; subst h; exact fun _ _ _ => rfl
  | cons o rel ih =>
    intro i i' h
    obtain ⟨off, frac⟩ := o
    unfold writeAll at h
    obtain ⟨i1, h1, h2⟩ := bind_eq_ok h
    have g := ih (fun o ho => hrel o (List.mem_cons_of_mem _ ho)) h2
    unfold writeBack at h1
    obtain ⟨old, h3, h4⟩ := bind_eq_ok h1
    injection h4 with h4
    subst h4
    have hoff : 0 ≤ off := hrel _ List.mem_cons_self
    intro r hr c'
    rw [g r hr c']
    unfold Image.set
    simp only
    rw [if_neg]
    rintro ⟨h5, -⟩
    omega

/-- A reaction is determined by the current state. -/
theorem react_both {a b : ATM K} (h : AtmRel a b) (ph : ℕ) (n t : K) (f : K → K) :
    Both (fun x y => x.1 = y.1 ∧ AtmRel x.2 y.2) (a.react ph n t f) (b.react ph n t f) := by
  rintro ⟨net, a'⟩ ⟨net', b'⟩ ha hb
  have := (atmSysRel (K := K) (fun _ => f)).react a b h ph n t
  change ExRel _ (a.react ph n t f) (b.react ph n t f) at this
  rw [ha, hb] at this
  exact this

/-- A row up to `R`. -/
theorem phaseBody_low (fill : ℕ → K → K) (cfg : ClockCfg K) (hF : Forward cfg.clockSeq) (R c j : ℕ) (mult : K)
    (step phase : ℕ) (hlow : ∀ w, cfg.rowWindow[j]? = some w → w ≤ R) (x y : Image K × ATM K)
    (h : AgreeTo R x.1 y.1 ∧ AtmRel x.2 y.2) :
    Both (fun x y => AgreeTo R x.1 y.1 ∧ AtmRel x.2 y.2) (phaseBody (atmSys fill) cfg c j mult step x phase)
      (phaseBody (atmSys fill) cfg c j mult step y phase) := by
  unfold phaseBody
  split
  · rename_i ph row0 dwell e1 e2 e3
    obtain ⟨hF1, hF2⟩ := hF step phase ph e1
    have hr := hlow row0 e2
    refine Both.bind (R := fun u v => u * (if ph.isHigh then 1 else 0) = v * (if ph.isHigh then 1 else 0)) ?_ ?_
    · intro a b ha hb
      obtain ⟨-, -, -, h2⟩ := read_ok ha
      obtain ⟨-, -, -, h3⟩ := read_ok hb
      cases hh : ph.isHigh with
      | false => simp
      | true =>
        rw [h2, h3, hF1 hh, add_zero, Int.toNat_natCast, h.1 row0 hr c]
    · intro u v huv
      simp only [huv]
      refine Both.bind (react_both h.2 phase _ dwell (fill phase)) ?_
      rintro ⟨net, s⟩ ⟨net', s'⟩ ⟨hn, hs⟩
      simp only at hn hs ⊢
      subst hn
      split
      · intro a b ha hb; injection ha with ha; injection hb with hb; subst ha hb; exact ⟨h.1, hs⟩
      · refine Both.bind (writeAll_agreeTo row0 c net mult ph.release h.1) ?_
        intro i i' hi a b ha hb
        injection ha with ha; injection hb with hb; subst ha hb
        exact ⟨hi, hs⟩
  · intro a b ha; cases ha

/-- A row beyond `R`, one run. -/
theorem phaseBody_high (fill : ℕ → K → K) (cfg : ClockCfg K) (hF : Forward cfg.clockSeq) (R c j : ℕ) (mult : K)
    (step phase : ℕ) (hhigh : ∀ w, cfg.rowWindow[j]? = some w → R < w) (x x' : Image K × ATM K)
    (h : phaseBody (atmSys fill) cfg c j mult step x phase = .ok x') :
    AgreeTo R x'.1 x.1 ∧ emptied x'.2.data = emptied x.2.data ∧ x'.2.eff = x.2.eff := by
  unfold phaseBody at h
  split at h
  · rename_i ph row0 dwell e1 e2 e3
    obtain ⟨hF1, hF2⟩ := hF step phase ph e1
    have hr := hhigh row0 e2
    obtain ⟨v, h1, h⟩ := bind_eq_ok h
    obtain ⟨⟨net, s⟩, h2, h⟩ := bind_eq_ok h
    have e := ATM.react_emptied h2
    have hs : emptied s.data = emptied x.2.data ∧ s.eff = x.2.eff := ⟨e.1, ATM.eff_of e.2 e.1⟩
    simp only at h
    split at h
    · injection h with h; subst h; exact ⟨fun _ _ _ => rfl, hs⟩
    · obtain ⟨i1, h3, h⟩ := bind_eq_ok h
      injection h with h; subst h
      exact ⟨writeAll_beyond (by exact_mod_cast hr) c net mult ph.release hF2 h3, hs⟩
  · cases h

theorem rowBody_low (fill : ℕ → K → K) (cfg : ClockCfg K) (hF : Forward cfg.clockSeq) (R c k j : ℕ)
    (hlow : ∀ w, cfg.rowWindow[j]? = some w → w ≤ R) (x y : Image K × ATM K)
    (h : AgreeTo R x.1 y.1 ∧ AtmRel x.2 y.2) :
    Both (fun x y => AgreeTo R x.1 y.1 ∧ AtmRel x.2 y.2) (rowBody (atmSys fill) cfg c k x j)
      (rowBody (atmSys fill) cfg c k y j) := by
  unfold rowBody
  refine Both.bind (R := fun x y : Image K × ATM K => AgreeTo R x.1 y.1 ∧ AtmRel x.2 y.2)
    (Both.fold' _ _ _ _ (fun step _ x y h => ?_) x y h) ?_
  · unfold stepBody
    exact Both.fold' _ _ _ _ (fun ph _ x y h => phaseBody_low fill cfg hF R c j _ step ph hlow x y h) x y h
  · intro x y h a b ha hb
    injection ha with ha; injection hb with hb
    subst ha hb
    split
    · exact ⟨h.1, (atmSysRel fill).save _ _ h.2⟩
    · exact h

theorem rowBody_high (fill : ℕ → K → K) (cfg : ClockCfg K) (hF : Forward cfg.clockSeq) (R c k j : ℕ)
    (hhigh : ∀ w, cfg.rowWindow[j]? = some w → R < w) (x x' : Image K × ATM K)
    (h : rowBody (atmSys fill) cfg c k x j = .ok x') :
    AgreeTo R x'.1 x.1 ∧ emptied x'.2.data = emptied x.2.data ∧ (cfg.saveMat.e k j = false → x'.2.eff = x.2.eff) := by
  unfold rowBody at h
  obtain ⟨st, h1, h⟩ := bind_eq_ok h
  have key := foldlM_inv (fun s : Image K × ATM K => AgreeTo R s.1 x.1 ∧ emptied s.2.data = emptied x.2.data ∧
    s.2.eff = x.2.eff) _ _ (fun step _ s s' hs h => by
      unfold stepBody at h
      exact foldlM_inv (fun s : Image K × ATM K => AgreeTo R s.1 x.1 ∧ emptied s.2.data = emptied x.2.data ∧
        s.2.eff = x.2.eff) _ _ (fun ph _ s s' hs h => by
          obtain ⟨g1, g2, g3⟩ := phaseBody_high fill cfg hF R c j _ step ph hhigh s s' h
          exact ⟨fun r hr c' => (g1 r hr c').trans (hs.1 r hr c'), g2.trans hs.2.1, g3.trans hs.2.2⟩) s s' hs h)
    x st ⟨fun _ _ _ => rfl, rfl, rfl⟩ h1
  injection h with h
  subst h
  split
  · rename_i hsv
    exact ⟨key.1, key.2.1, fun h => by rw [hsv] at h; cases h⟩
  · exact ⟨key.1, key.2.1, fun _ => key.2.2⟩

/-- A trap state is never saved at a row behind one that a later pass starts from. -/
def SaveSound (cfg : ClockCfg K) : Prop :=
  ∀ k j, cfg.saveMat.e k j = true → ∀ k', k < k' → k' < cfg.expr.nr → ∀ j' ∈ monitoredRows cfg k', j ≤ j'

/-- All rows monitored from pass `k` on are beyond `R`. -/
def AllBeyond (cfg : ClockCfg K) (R k : ℕ) : Prop :=
  ∀ k', k ≤ k' → k' < cfg.expr.nr → ∀ j ∈ monitoredRows cfg k', ∀ w, cfg.rowWindow[j]? = some w → R < w

theorem monitoredRows_sorted (cfg : ClockCfg K) (k : ℕ) : (monitoredRows cfg k).Pairwise (· < ·) := by
  unfold monitoredRows
  exact List.Pairwise.filter _ List.pairwise_lt_range

/-- One express pass of two runs. -/
theorem expressBody_causal (fill : ℕ → K → K) (cfg : ClockCfg K) (hF : Forward cfg.clockSeq)
    (hw : cfg.rowWindow.Pairwise (· < ·)) (hS : SaveSound cfg) (R c k : ℕ) (hk : k < cfg.expr.nr)
    (x y : Image K × ATM K)
    (h : AgreeTo R x.1 y.1 ∧ (x.2.eff = y.2.eff ∨ AllBeyond cfg R k)) :
    Both (fun x y => AgreeTo R x.1 y.1 ∧ (x.2.eff = y.2.eff ∨ AllBeyond cfg R (k + 1)))
      (expressBody (atmSys fill) cfg c x k) (expressBody (atmSys fill) cfg c y k) := by
  unfold expressBody
  -- rows beyond `R` of the remaining list
  let P : List ℕ → Image K × ATM K → Image K × ATM K → Prop := fun l x y =>
    AgreeTo R x.1 y.1 ∧ (AtmRel x.2 y.2 ∨
      ((∀ j ∈ l, ∀ w, cfg.rowWindow[j]? = some w → R < w) ∧
        (x.2.eff = y.2.eff ∨ AllBeyond cfg R (k + 1))))
  have hmono : ∀ j j' : ℕ, j ≤ j' → (∀ w, cfg.rowWindow[j]? = some w → R < w) → j < cfg.rowWindow.length →
      ∀ w, cfg.rowWindow[j']? = some w → R < w := by
    intro j j' hjj h1 hj w hw'
    obtain ⟨l1, l2⟩ := List.getElem?_eq_some_iff.1 hw'
    have h2 := h1 cfg.rowWindow[j] (List.getElem?_eq_getElem hj)
    rcases Nat.lt_or_eq_of_le hjj with hlt | rfl
    · have := List.pairwise_iff_getElem.1 hw j j' hj l1 hlt
      omega
    · omega
  have main : Both (P []) ((monitoredRows cfg k).foldlM (rowBody (atmSys fill) cfg c k) (x.1, x.2.restore))
      ((monitoredRows cfg k).foldlM (rowBody (atmSys fill) cfg c k) (y.1, y.2.restore)) := by
    refine Both.fold P _ _ (monitoredRows cfg k) ?_ _ _ ?_
    · rintro j l s t hsuf ⟨h1, h2⟩ s' t' hs' ht'
      by_cases hlow : ∃ w, cfg.rowWindow[j]? = some w ∧ w ≤ R
      · obtain ⟨w, hw1, hw2⟩ := hlow
        have hrel : AtmRel s.2 t.2 := by
          rcases h2 with h2 | h2
          · exact h2
          · have := h2.1 j List.mem_cons_self w hw1; omega
        have := rowBody_low fill cfg hF R c k j (fun w' hw' => by
          rw [hw1] at hw'; injection hw' with hw'; omega) s t ⟨h1, hrel⟩ s' t' hs' ht'
        exact ⟨this.1, Or.inl this.2⟩
      · have hhigh : ∀ w, cfg.rowWindow[j]? = some w → R < w := by
          intro w hw'
          by_contra hc
          exact hlow ⟨w, hw', not_lt.1 hc⟩
        obtain ⟨a1, a2, a3⟩ := rowBody_high fill cfg hF R c k j hhigh s s' hs'
        obtain ⟨b1, b2, b3⟩ := rowBody_high fill cfg hF R c k j hhigh t t' ht'
        refine ⟨fun r hr c' => by rw [a1 r hr c', b1 r hr c', h1 r hr c'], Or.inr ?_⟩
        have hsort : ((j :: l : List ℕ)).Pairwise (· < ·) := (monitoredRows_sorted cfg k).sublist hsuf.sublist
        have hrest : ∀ j' ∈ l, ∀ w, cfg.rowWindow[j']? = some w → R < w := by
          intro j' hj' w hw'
          have hlt := List.rel_of_pairwise_cons hsort hj'
          have hl : j < cfg.rowWindow.length := by
            have := (List.getElem?_eq_some_iff.1 hw').1; omega
          exact hmono j j' hlt.le hhigh hl w hw'
        refine ⟨hrest, ?_⟩
        · cases hsv : cfg.saveMat.e k j with
          | false =>
            rw [a3 hsv, b3 hsv]
            rcases h2 with h2 | h2
            · exact Or.inl h2.2
            · exact h2.2
          | true =>
            right
            intro k' hk' hk'' j' hj' w hw'
            have hle := hS k j hsv k' hk' hk'' j' hj'
            have hl : j < cfg.rowWindow.length := by
              have := (List.getElem?_eq_some_iff.1 hw').1; omega
            exact hmono j j' hle hhigh hl w hw'
    · refine ⟨h.1, ?_⟩
      rcases h.2 with h2 | h2
      · left
        exact ⟨h2, by rw [ATM.eff_restore, ATM.eff_restore, h2]⟩
      · right
        exact ⟨fun j hj w hw' => h2 k le_rfl hk j hj w hw', Or.inr fun k' hk' => h2 k' (by omega)⟩
  intro a b ha hb
  obtain ⟨h1, h2⟩ := main a b ha hb
  refine ⟨h1, ?_⟩
  rcases h2 with h2 | h2
  · exact Or.inl h2.2
  · exact h2.2

/-- All passes over a column. -/
theorem columnBody_causal (fill : ℕ → K → K) (cfg : ClockCfg K) (hF : Forward cfg.clockSeq)
    (hw : cfg.rowWindow.Pairwise (· < ·)) (hS : SaveSound cfg) (R c : ℕ)
    (x y : Image K × ATM K) (h : AgreeTo R x.1 y.1 ∧ x.2.eff = y.2.eff) :
    Both (fun x y => AgreeTo R x.1 y.1) (columnBody (atmSys fill) cfg x c) (columnBody (atmSys fill) cfg y c) := by
  unfold columnBody
  refine Both.bind (R := fun x y : Image K × ATM K => AgreeTo R x.1 y.1) ?_ ?_
  · let P : List ℕ → Image K × ATM K → Image K × ATM K → Prop := fun l x y =>
      AgreeTo R x.1 y.1 ∧ (x.2.eff = y.2.eff ∨ AllBeyond cfg R (cfg.expr.nr - l.length))
    have main : Both (P []) ((List.range cfg.expr.nr).foldlM (expressBody (atmSys fill) cfg c) x)
        ((List.range cfg.expr.nr).foldlM (expressBody (atmSys fill) cfg c) y) := by
      refine Both.fold P _ _ _ ?_ x y ⟨h.1, Or.inl h.2⟩
      intro k l s t hsuf hP
      have hk : k + 1 + l.length = cfg.expr.nr := by
        obtain ⟨pre, hpre⟩ := hsuf
        have h1 : pre.length + (l.length + 1) = cfg.expr.nr := by
          have := congrArg List.length hpre
          simpa using this
        have h2 : (List.range cfg.expr.nr)[pre.length]? = some k := by
          rw [← hpre]; simp
        rw [List.getElem?_range (by omega)] at h2
        injection h2 with h2
        omega
      have e1 : cfg.expr.nr - (k :: l).length = k := by rw [List.length_cons]; omega
      have e2 : cfg.expr.nr - l.length = k + 1 := by omega
      simp only [P, e1, e2] at hP ⊢
      exact expressBody_causal fill cfg hF hw hS R c k (by omega) s t hP
    intro a b ha hb
    exact (main a b ha hb).1
  · intro x y h a b ha hb
    injection ha with ha; injection hb with hb
    subst ha hb
    exact h

/-- All columns. -/
theorem clockLoops_causal (fill : ℕ → K → K) (cfg : ClockCfg K) (hb : cfg.emptyBetween = true)
    (hF : Forward cfg.clockSeq) (hw : cfg.rowWindow.Pairwise (· < ·)) (hS : SaveSound cfg) (R : ℕ)
    (columns : List ℕ) {D : List (List (Mgr K))} (x y : Image K × ATM K)
    (h : AgreeTo R x.1 y.1) (hx : Fresh D x.2) (hy : Fresh D y.2) :
    Both (fun x y => AgreeTo R x.1 y.1) (clockLoops (atmSys fill) cfg columns x)
      (clockLoops (atmSys fill) cfg columns y) := by
  unfold clockLoops
  have := Both.fold' (fun x y : Image K × ATM K => AgreeTo R x.1 y.1 ∧ Fresh D x.2 ∧ Fresh D y.2)
    (columnBody (atmSys fill) cfg) (columnBody (atmSys fill) cfg) columns (fun c _ x y h a b ha hb' =>
      ⟨columnBody_causal fill cfg hF hw hS R c x y ⟨h.1, h.2.1.2.1.trans h.2.2.2.1.symm⟩ a b ha hb',
        columnBody_fresh fill cfg hb h.2.1 ha, columnBody_fresh fill cfg hb h.2.2 hb'⟩) x y ⟨h, hx, hy⟩
  exact fun a b ha hb => (this a b ha hb).1

end Arctic
