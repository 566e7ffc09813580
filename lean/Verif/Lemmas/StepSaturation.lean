import Verif.Lemmas.StepExpress

/-!
# What a readout can change, and clouds above the full well, for traps of any sort
-/

set_option linter.unusedSectionVars false
set_option linter.unusedVariables false

namespace Arctic
open Ref (stepRow stepPass stepReadout)
open Finset (range)

/-- Traps that give or take at most `T` electrons in a transfer, and that cannot tell clouds of `F` electrons and more from
each other. -/
structure Limited {σ : Type} (step : σ → ℝ → ℝ × σ) (Inv : σ → Prop) (T F : ℝ) : Prop where
  inv : ∀ s n, Inv s → 0 ≤ n → Inv (step s n).2
  gain : ∀ s n, Inv s → 0 ≤ n → |(step s n).1| ≤ T
  full : ∀ s n n', Inv s → F ≤ n → F ≤ n' → step s n = step s n'
  nonneg : 0 ≤ T
  level : 0 ≤ F

/-- Multipliers of row `r` in a pass, added up. -/
noncomputable def visitsOf (todo : List (ℕ × ℝ)) (r : ℕ) : ℝ := (todo.map fun p => if p.1 = r then p.2 else 0).sum

theorem visitsOf_cons (p : ℕ × ℝ) (todo : List (ℕ × ℝ)) (r : ℕ) :
    visitsOf (p :: todo) r = (if p.1 = r then p.2 else 0) + visitsOf todo r := by simp [visitsOf]

theorem visitsOf_nonneg {todo : List (ℕ × ℝ)} (h : ∀ p ∈ todo, 0 ≤ p.2) (r : ℕ) : 0 ≤ visitsOf todo r := by
  refine List.sum_nonneg fun x hx => ?_
  obtain ⟨p, hp, rfl⟩ := List.mem_map.1 hx
  split
  · exact h p hp
  · exact le_rfl

/-- Two columns that differ by `D`, and only in rows with `F` electrons and `T` for each visit in both. -/
def ApartBy (R : ℕ) (F T : ℝ) (D w x x' : ℕ → ℝ) : Prop :=
  ∀ r < R, 0 ≤ x r ∧ x' r = x r + D r ∧ (D r = 0 ∨ (F + T * w r ≤ x r ∧ F + T * w r ≤ x' r))

section limited
variable {σ : Type} {step : σ → ℝ → ℝ × σ} {Inv : σ → Prop} {T F : ℝ}

/-- One row of two columns. -/
theorem Limited.row (h : Limited step Inv T F) {s : σ} (hs : Inv s) {R : ℕ} {p : ℕ × ℝ} (hp : p.1 < R) (hm : 0 ≤ p.2)
    {D w x x' : ℕ → ℝ} (hw : ∀ r < R, 0 ≤ w r)
    (hx : ApartBy R F T D (fun r => (if p.1 = r then p.2 else 0) + w r) x x') :
    ApartBy R F T D w (stepRow step (x, s) p).1 (stepRow step (x', s) p).1 ∧
      (stepRow step (x', s) p).2 = (stepRow step (x, s) p).2 ∧ Inv (stepRow step (x, s) p).2 ∧
      ∀ r < R, |(stepRow step (x, s) p).1 r - x r| ≤ T * (if p.1 = r then p.2 else 0) := by
  obtain ⟨q, m⟩ := p
  simp only at hp hm hx ⊢
  have hq := hx q hp
  simp only [if_true] at hq
  have hT := h.nonneg
  have hF := h.level
  have hwq := mul_nonneg hT (hw q hp)
  have hmT := mul_nonneg hT hm
  have e : step s (x' q) = step s (x q) := by
    rcases hq.2.2 with d | ⟨a, b⟩
    · rw [hq.2.1, d, add_zero]
    · rw [mul_add] at a b
      exact h.full s _ _ hs (by linarith) (by linarith)
  have hi := h.inv s (x q) hs hq.1
  have hg := abs_le.1 (h.gain s (x q) hs hq.1)
  have low : ∀ r < R, 0 ≤ T * (if q = r then m else 0) := fun r _ => by split <;> simp [hmT]
  unfold stepRow
  simp only
  rw [e]
  by_cases hm0 : m = 0
  · simp only [hm0, if_true]
    refine ⟨fun r hr => ?_, trivial, hi, fun r hr => by simp⟩
    have := hx r hr
    simp only [hm0, ite_self, zero_add] at this
    exact this
  · simp only [hm0, if_false]
    set g := (step s (x q)).1 with hgd
    have g1 : -(T * m) ≤ g * m := by nlinarith [hg.1]
    have g2 : g * m ≤ T * m := mul_le_mul_of_nonneg_right hg.2 hm
    refine ⟨fun r hr => ?_, trivial, hi, fun r hr => ?_⟩
    · by_cases hr' : r = q
      · subst hr'
        simp only [Function.update_self]
        refine ⟨le_max_left _ _, ?_, ?_⟩
        · rcases hq.2.2 with d | ⟨a, b⟩
          · rw [hq.2.1, d, add_zero, add_zero]
          · rw [mul_add] at a b
            rw [max_eq_right (by linarith), max_eq_right (by linarith), hq.2.1]
            ring
        · rcases hq.2.2 with d | ⟨a, b⟩
          · exact Or.inl d
          · rw [mul_add] at a b
            exact Or.inr ⟨le_max_of_le_right (by linarith), le_max_of_le_right (by linarith)⟩
      · have := hx r hr
        simp only [if_neg (Ne.symm hr'), zero_add] at this
        simp only [Function.update_of_ne hr']
        exact this
    · by_cases hr' : r = q
      · subst hr'
        simp only [Function.update_self, if_true]
        have hx0 := hq.1
        rw [abs_le]
        constructor
        · have := le_max_right (0 : ℝ) (x r + g * m)
          linarith
        · have : max 0 (x r + g * m) ≤ x r + T * m := max_le (by linarith) (by linarith)
          linarith
      · simp only [Function.update_of_ne hr', sub_self, abs_zero]
        exact low r hr

/-- One pass over two columns. -/
theorem Limited.fold (h : Limited step Inv T F) (R : ℕ) (todo : List (ℕ × ℝ)) :
    ∀ (s : σ) (D w x x' : ℕ → ℝ), Inv s → (∀ p ∈ todo, p.1 < R ∧ 0 ≤ p.2) → (∀ r < R, 0 ≤ w r) →
      ApartBy R F T D (fun r => visitsOf todo r + w r) x x' →
      ApartBy R F T D w (todo.foldl (stepRow step) (x, s)).1 (todo.foldl (stepRow step) (x', s)).1 ∧
      ∀ r < R, |(todo.foldl (stepRow step) (x, s)).1 r - x r| ≤ T * visitsOf todo r := by
  induction todo with
  | nil =>
    intro s D w x x' _ _ _ hx
    refine ⟨?_, fun r _ => by simp [visitsOf]⟩
    intro r hr
    have := hx r hr
    simp only [visitsOf, List.map_nil, List.sum_nil, zero_add] at this
    exact this
  | cons p todo ih =>
    intro s D w x x' hs ht hw hx
    have ht' : ∀ q ∈ todo, q.1 < R ∧ 0 ≤ q.2 := fun q hq => ht q (List.mem_cons_of_mem _ hq)
    obtain ⟨a1, a2, a3, a4⟩ := h.row hs (ht p List.mem_cons_self).1 (ht p List.mem_cons_self).2
      (D := D) (w := fun r => visitsOf todo r + w r) (x := x) (x' := x')
      (fun r hr => add_nonneg (visitsOf_nonneg (fun q hq => (ht' q hq).2) r) (hw r hr)) (by
        intro r hr
        have := hx r hr
        simp only [visitsOf_cons, add_assoc] at this
        exact this)
    have e : stepRow step (x', s) p = ((stepRow step (x', s) p).1, (stepRow step (x, s) p).2) := by rw [← a2]
    obtain ⟨b1, b2⟩ := ih (stepRow step (x, s) p).2 D w _ _ a3 ht' hw a1
    rw [List.foldl_cons, List.foldl_cons, e]
    refine ⟨b1, fun r hr => ?_⟩
    have c1 := a4 r hr
    have c2 := b2 r hr
    rw [visitsOf_cons, mul_add]
    have := abs_sub_le ((todo.foldl (stepRow step) (stepRow step (x, s) p)).1 r) ((stepRow step (x, s) p).1 r) (x r)
    exact this.trans (by linarith)

/-- All passes over two columns. -/
theorem Limited.readout (h : Limited step Inv T F) (R : ℕ) {s : σ} (hs : Inv s) (passes : List (List (ℕ × ℝ))) :
    ∀ (D w x x' : ℕ → ℝ), (∀ todo ∈ passes, ∀ p ∈ todo, p.1 < R ∧ 0 ≤ p.2) → (∀ r < R, 0 ≤ w r) →
      ApartBy R F T D (fun r => (passes.map fun t => visitsOf t r).sum + w r) x x' →
      ApartBy R F T D w (stepReadout step s passes x) (stepReadout step s passes x') ∧
      ∀ r < R, |stepReadout step s passes x r - x r| ≤ T * (passes.map fun t => visitsOf t r).sum := by
  induction passes with
  | nil =>
    intro D w x x' _ _ hx
    refine ⟨?_, fun r _ => by simp [stepReadout]⟩
    intro r hr
    have := hx r hr
    simp only [List.map_nil, List.sum_nil, zero_add] at this
    exact this
  | cons todo passes ih =>
    intro D w x x' ht hw hx
    have ht' : ∀ t ∈ passes, ∀ p ∈ t, p.1 < R ∧ 0 ≤ p.2 := fun t hq => ht t (List.mem_cons_of_mem _ hq)
    obtain ⟨a1, a4⟩ := h.fold R todo s D (fun r => (passes.map fun t => visitsOf t r).sum + w r) x x' hs
      (ht todo List.mem_cons_self)
      (fun r hr => add_nonneg (List.sum_nonneg fun y hy => by
        obtain ⟨t, htm, rfl⟩ := List.mem_map.1 hy
        exact visitsOf_nonneg (fun q hq => (ht' t htm q hq).2) r) (hw r hr)) (by
        intro r hr
        have := hx r hr
        simp only [List.map_cons, List.sum_cons, add_assoc] at this
        exact this)
    obtain ⟨b1, b2⟩ := ih D w _ _ ht' hw a1
    change ApartBy R F T D w (stepReadout step s passes (todo.foldl (stepRow step) (x, s)).1)
        (stepReadout step s passes (todo.foldl (stepRow step) (x', s)).1) ∧
      ∀ r < R, |stepReadout step s passes (todo.foldl (stepRow step) (x, s)).1 r - x r| ≤ _
    refine ⟨b1, fun r hr => ?_⟩
    have c1 := a4 r hr
    have c2 := b2 r hr
    rw [List.map_cons, List.sum_cons, mul_add]
    have := abs_sub_le (stepReadout step s passes (todo.foldl (stepRow step) (x, s)).1 r)
      ((todo.foldl (stepRow step) (x, s)).1 r) (x r)
    exact this.trans (by linarith)

theorem visitsOf_matTodo {M : Mat ℝ} {n o k r : ℕ} (hr : r < n) (h : 0 ≤ M.e k (r + o)) :
    visitsOf (matTodo M n o k) r = M.e k (r + o) := by
  unfold visitsOf matTodo
  rw [List.map_map]
  change (((List.range n).filter fun r => M.e k (r + o) > 0).map fun q => if q = r then M.e k (q + o) else 0).sum = _
  rw [← List.sum_toFinset _ (List.Nodup.filter _ List.nodup_range), Finset.sum_ite_eq']
  by_cases h0 : M.e k (r + o) > 0
  · rw [if_pos (by rw [List.mem_toFinset, List.mem_filter, List.mem_range]; exact ⟨hr, by simpa using h0⟩)]
  · rw [if_neg (by
      rw [List.mem_toFinset, List.mem_filter]
      rintro ⟨-, q⟩
      exact h0 (by simpa using q))]
    linarith

/-- A readout with `express`: what it changes, and what it makes of two columns that differ above the full well. -/
theorem Limited.express (h : Limited step Inv T F) {s : σ} (hs : Inv s) (i : Bool) (n e o : ℕ) (hn : 0 < n)
    (hne : effectiveExpress e (n + o) + 1 ≠ n) (D w x x' : ℕ → ℝ) (hw : ∀ r < n, 0 ≤ w r)
    (hx : ApartBy n F T D (fun r => ((r + o + 1 : ℕ) : ℝ) + w r) x x') :
    ApartBy n F T D w (Ref.stepExpress step s i n e o x) (Ref.stepExpress step s i n e o x') ∧
    ∀ r < n, |Ref.stepExpress step s i n e o x r - x r| ≤ T * ((r + o + 1 : ℕ) : ℝ) := by
  have hv : ∀ r < n, (((List.range (expressFull (K := ℝ) true i n e o).nr).map
      (matTodo (expressFull true i n e o) n o)).map fun t => visitsOf t r).sum = ((r + o + 1 : ℕ) : ℝ) := by
    intro r hr
    rw [List.map_map]
    have e1 : (List.range (expressFull (K := ℝ) true i n e o).nr).map
        ((fun t => visitsOf t r) ∘ matTodo (expressFull true i n e o) n o) =
        (List.range (expressFull (K := ℝ) true i n e o).nr).map fun k => (expressFull (K := ℝ) true i n e o).e k (r + o) :=
      List.map_congr_left fun k _ => visitsOf_matTodo hr
        (expressFull_nonneg true i n e o k (r + o) hn (by omega) (by rintro ⟨-, h⟩; exact hne h))
    have e2 := sum_expressFull (K := ℝ) true i n e o (r + o) hn (by omega) (by rintro ⟨-, h⟩; exact hne h)
    rw [e1, ← List.sum_toFinset _ List.nodup_range, List.toFinset_range, e2]
    push_cast
    ring
  have key := h.readout n hs ((List.range (expressFull (K := ℝ) true i n e o).nr).map
      (matTodo (expressFull true i n e o) n o)) D w x x' (by
    intro t ht p hp
    obtain ⟨k, -, rfl⟩ := List.mem_map.1 ht
    obtain ⟨j, hj, rfl⟩ := List.mem_map.1 hp
    rw [List.mem_filter, List.mem_range] at hj
    exact ⟨hj.1, le_of_lt (by simpa using hj.2)⟩) hw (by
    intro r hr
    simp only
    rw [hv r hr]
    exact hx r hr)
  refine ⟨key.1, fun r hr => ?_⟩
  have := key.2 r hr
  rw [hv r hr] at this
  exact this

end limited

end Arctic
