import Verif.Model.Clock

/-!
# Monadic folds in `Except Err`
-/

set_option linter.unusedSectionVars false
set_option linter.unusedVariables false

namespace Arctic

variable {α β σ τ : Type}

/-- Two computations end with the same exception or with related values. -/
def ExRel (R : α → β → Prop) : Except Err α → Except Err β → Prop
  | .ok a, .ok b => R a b
  | .error e, .error e' => e = e'
  | _, _ => False

theorem ExRel.bind {α' β' : Type} {R : α → β → Prop} {R' : α' → β' → Prop} {x : Except Err α}
    {y : Except Err β} {f : α → Except Err α'} {g : β → Except Err β'} (h : ExRel R x y)
    (hfg : ∀ a b, R a b → ExRel R' (f a) (g b)) : ExRel R' (x >>= f) (y >>= g) := by
  cases x <;> cases y
  · exact h
  · exact h.elim
  · exact h.elim
  · exact hfg _ _ h

theorem ExRel.mono {R R' : α → β → Prop} (hR : ∀ a b, R a b → R' a b) {x : Except Err α} {y : Except Err β}
    (h : ExRel R x y) : ExRel R' x y := by
  cases x <;> cases y
  · exact h
  · exact h.elim
  · exact h.elim
  · exact hR _ _ h

theorem ExRel.ok_left {R : α → β → Prop} {x : Except Err α} {y : Except Err β} (h : ExRel R x y) {a : α}
    (hx : x = .ok a) : ∃ b, y = .ok b ∧ R a b := by
  subst hx
  cases y
  · exact h.elim
  · exact ⟨_, rfl, h⟩

theorem ExRel.ok_right {R : α → β → Prop} {x : Except Err α} {y : Except Err β} (h : ExRel R x y) {b : β}
    (hy : y = .ok b) : ∃ a, x = .ok a ∧ R a b := by
  subst hy
  cases x
  · exact h.elim
  · exact ⟨_, rfl, h⟩

theorem ExRel.refl {R : α → α → Prop} (hR : ∀ a, R a a) (x : Except Err α) : ExRel R x x := by
  cases x
  · rfl
  · exact hR _

theorem foldlM_nil (f : σ → α → Except Err σ) (s : σ) : List.foldlM f s [] = .ok s := rfl

theorem foldlM_cons (f : σ → α → Except Err σ) (s : σ) (a : α) (l : List α) :
    List.foldlM f s (a :: l) = f s a >>= fun s' => List.foldlM f s' l := by
  rw [List.foldlM_cons]

/-- Split a successful bind. -/
theorem bind_eq_ok {x : Except Err α} {f : α → Except Err β} {b : β} (h : (x >>= f) = .ok b) :
    ∃ a, x = .ok a ∧ f a = .ok b := by
  cases x with
  | error e => cases h
  | ok a => exact ⟨a, rfl, h⟩

/-- An invariant of a successful fold. -/
theorem foldlM_inv (P : σ → Prop) (f : σ → α → Except Err σ) (l : List α)
    (h : ∀ a ∈ l, ∀ s s', P s → f s a = .ok s' → P s') : ∀ s s', P s → l.foldlM f s = .ok s' → P s' := by
  induction l with
  | nil => intro s s' hs h; rw [foldlM_nil] at h; injection h with h; exact h ▸ hs
  | cons a l ih =>
    intro s s' hs h'
    rw [foldlM_cons] at h'
    obtain ⟨s1, h1, h2⟩ := bind_eq_ok h'
    exact ih (fun b hb => h b (List.mem_cons_of_mem _ hb)) s1 s' (h a List.mem_cons_self s s1 hs h1) h2

/-- An invariant that knows how many elements have been processed. -/
theorem foldlM_inv_idx (P : ℕ → σ → Prop) (f : σ → α → Except Err σ) (l : List α)
    (h : ∀ i (hi : i < l.length), ∀ s s', P i s → f s l[i] = .ok s' → P (i + 1) s') :
    ∀ s s', P 0 s → l.foldlM f s = .ok s' → P l.length s' := by
  induction l generalizing P with
  | nil => intro s s' hs h; rw [foldlM_nil] at h; injection h with h; exact h ▸ hs
  | cons a l ih =>
    intro s s' hs h'
    rw [foldlM_cons] at h'
    obtain ⟨s1, h1, h2⟩ := bind_eq_ok h'
    refine ih (fun i => P (i + 1)) (fun i hi s s' hp he => ?_) s1 s' (h 0 (by simp) s s1 hs h1) h2
    exact h (i + 1) (by simpa using hi) s s' hp he

/-- Total correctness with a count. -/
theorem foldlM_total_idx (P : ℕ → σ → Prop) (f : σ → α → Except Err σ) (l : List α)
    (h : ∀ i (hi : i < l.length), ∀ s, P i s → ∃ s', f s l[i] = .ok s' ∧ P (i + 1) s') :
    ∀ s, P 0 s → ∃ s', l.foldlM f s = .ok s' ∧ P l.length s' := by
  induction l generalizing P with
  | nil => intro s hs; exact ⟨s, rfl, hs⟩
  | cons a l ih =>
    intro s hs
    obtain ⟨s1, h1, h2⟩ := h 0 (by simp) s hs
    obtain ⟨s2, h3, h4⟩ := ih (fun i => P (i + 1)) (fun i hi s hp => h (i + 1) (by simpa using hi) s hp) s1 h2
    refine ⟨s2, ?_, h4⟩
    rw [foldlM_cons]
    rw [show f s a = .ok s1 from h1]
    exact h3

/-- Total correctness. -/
theorem foldlM_total (P : σ → Prop) (f : σ → α → Except Err σ) (l : List α)
    (h : ∀ a ∈ l, ∀ s, P s → ∃ s', f s a = .ok s' ∧ P s') : ∀ s, P s → ∃ s', l.foldlM f s = .ok s' ∧ P s' :=
  foldlM_total_idx (fun _ => P) f l fun i hi s hs => h _ (List.getElem_mem hi) s hs

/-- Two folds over the same list. -/
theorem foldlM_rel (R : σ → τ → Prop) (f : σ → α → Except Err σ) (g : τ → α → Except Err τ) (l : List α)
    (h : ∀ a ∈ l, ∀ s t, R s t → ExRel R (f s a) (g t a)) :
    ∀ s t, R s t → ExRel R (l.foldlM f s) (l.foldlM g t) := by
  induction l with
  | nil => intro s t hR; exact hR
  | cons a l ih =>
    intro s t hR
    rw [foldlM_cons, foldlM_cons]
    exact (h a List.mem_cons_self s t hR).bind fun s' t' hR' =>
      ih (fun b hb => h b (List.mem_cons_of_mem _ hb)) s' t' hR'

theorem foldlM_append (f : σ → α → Except Err σ) (l l' : List α) (s : σ) :
    List.foldlM f s (l ++ l') = List.foldlM f s l >>= fun s' => List.foldlM f s' l' := by
  rw [List.foldlM_append]

/-- The errors a fold can end with are errors of its steps. -/
theorem foldlM_error (P : σ → Prop) (E : Err → Prop) (f : σ → α → Except Err σ) (l : List α)
    (h : ∀ a ∈ l, ∀ s, P s → (∀ s', f s a = .ok s' → P s') ∧ (∀ e, f s a = .error e → E e)) :
    ∀ s, P s → (∀ s', l.foldlM f s = .ok s' → P s') ∧ (∀ e, l.foldlM f s = .error e → E e) := by
  induction l with
  | nil =>
    intro s hs
    refine ⟨fun s' h => ?_, fun e h => by cases h⟩
    rw [foldlM_nil] at h; injection h with h; exact h ▸ hs
  | cons a l ih =>
    intro s hs
    have h0 := h a List.mem_cons_self s hs
    have ih := ih (fun b hb => h b (List.mem_cons_of_mem _ hb))
    rw [foldlM_cons]
    cases hf : f s a with
    | error e =>
      refine ⟨fun s' h => (by cases h), fun e' h => ?_⟩
      have : e = e' := by injection h
      exact this ▸ h0.2 e hf
    | ok s1 => exact ih s1 (h0.1 s1 hf)

/-! ### outcomes: a postcondition for values and a set of permitted exceptions -/

/-- `x` ends with a value satisfying `Q` or with an exception permitted by `E`. -/
def Sat (E : Err → Prop) (Q : α → Prop) : Except Err α → Prop
  | .ok a => Q a
  | .error e => E e

theorem Sat.ok {E : Err → Prop} {Q : α → Prop} {x : Except Err α} (h : Sat E Q x) {a : α} (hx : x = .ok a) : Q a := by
  subst hx; exact h

theorem Sat.err {E : Err → Prop} {Q : α → Prop} {x : Except Err α} (h : Sat E Q x) {e : Err} (hx : x = .error e) :
    E e := by
  subst hx; exact h

theorem Sat.total {Q : α → Prop} {x : Except Err α} (h : Sat (fun _ => False) Q x) : ∃ a, x = .ok a ∧ Q a := by
  cases x with
  | error e => exact h.elim
  | ok a => exact ⟨a, rfl, h⟩

theorem sat_of_ok {Q : α → Prop} {x : Except Err α} (h : ∀ a, x = .ok a → Q a) : Sat (fun _ => True) Q x := by
  cases x with
  | error e => trivial
  | ok a => exact h a rfl

theorem Sat.mono {E : Err → Prop} {Q Q' : α → Prop} {x : Except Err α} (h : Sat E Q x) (hQ : ∀ a, Q a → Q' a) :
    Sat E Q' x := by
  cases x with
  | error e => exact h
  | ok a => exact hQ a h

theorem Sat.and {E : Err → Prop} {Q Q' : α → Prop} {x : Except Err α} (h : Sat E Q x)
    (h' : ∀ a, x = .ok a → Q' a) : Sat E (fun a => Q a ∧ Q' a) x := by
  cases x with
  | error e => exact h
  | ok a => exact ⟨h, h' a rfl⟩

theorem Sat.bind {E : Err → Prop} {Q : α → Prop} {Q' : β → Prop} {x : Except Err α} {f : α → Except Err β}
    (h : Sat E Q x) (hf : ∀ a, Q a → Sat E Q' (f a)) : Sat E Q' (x >>= f) := by
  cases x with
  | error e => exact h
  | ok a => exact hf a h

/-- A fold, with an invariant that knows the elements still to come. -/
theorem Sat.fold {E : Err → Prop} (P : List α → σ → Prop) (f : σ → α → Except Err σ) :
    ∀ (l : List α), (∀ a l' s, (a :: l') <:+ l → P (a :: l') s → Sat E (P l') (f s a)) → ∀ s, P l s →
      Sat E (P []) (l.foldlM f s) := by
  intro l
  induction l with
  | nil => intro _ s h; exact h
  | cons a l ih =>
    intro hf s hs
    rw [foldlM_cons]
    refine Sat.bind (hf a l s (List.suffix_refl _) hs) fun s' hs' => ?_
    exact ih (fun b l' s h hp => hf b l' s (h.trans (List.suffix_cons _ _)) hp) s' hs'

/-- A fold with a plain invariant. -/
theorem Sat.fold' {E : Err → Prop} (P : σ → Prop) (f : σ → α → Except Err σ) (l : List α)
    (hf : ∀ a ∈ l, ∀ s, P s → Sat E P (f s a)) (s : σ) (hs : P s) : Sat E P (l.foldlM f s) :=
  Sat.fold (fun _ => P) f l (fun a l' s h hp => hf a (h.subset List.mem_cons_self) s hp) s hs

/-- Every element of the list of a successful fold was processed from some state. -/
theorem foldlM_ok_mem {f : σ → α → Except Err σ} {l : List α} {s s' : σ} (h : l.foldlM f s = .ok s') :
    ∀ a ∈ l, ∃ s1 s2, f s1 a = .ok s2 := by
  induction l generalizing s with
  | nil => intro a ha; cases ha
  | cons b l ih =>
    intro a ha
    rw [foldlM_cons] at h
    obtain ⟨s1, h1, h2⟩ := bind_eq_ok h
    rcases List.mem_cons.1 ha with rfl | ha
    · exact ⟨s, s1, h1⟩
    · exact ih h2 a ha

end Arctic
