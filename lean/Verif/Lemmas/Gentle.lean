import Verif.Lemmas.Invert
import Verif.Spec.RefMixed

/-!
# Readouts with traps whose transfers are Lipschitz
-/

set_option linter.unusedSectionVars false
set_option linter.unusedVariables false

namespace Arctic
open Ref (stepRow stepPass stepReadout)

/-- Traps that hold at most `T` electrons, conserve charge, do not take more than there is, and whose transfers change by
little more than `l` times a change of the cloud, apart from what differences in their filling account for. -/
structure Gentle {σ : Type} (step : σ → ℝ → ℝ × σ) (Inv : σ → Prop) (near : σ → σ → ℝ → Prop) (mass : σ → ℝ)
    (l T : ℝ) : Prop where
  inv : ∀ s n, Inv s → 0 ≤ n → Inv (step s n).2
  near_refl : ∀ s, Inv s → near s s 0
  near_nonneg : ∀ s s' g, Inv s → near s s' g → 0 ≤ g
  near_step : ∀ s s' g n n', Inv s → Inv s' → near s s' g → 0 ≤ n → 0 ≤ n' →
    ∃ g1, near (step s n).2 (step s' n').2 g1 ∧ (1 - l) * |(step s n).1 - (step s' n').1| + g1 ≤ g + l * |n - n'|
  floor : ∀ s n, Inv s → 0 ≤ n → 0 ≤ n + (step s n).1
  gain : ∀ s n, Inv s → (step s n).1 = mass s - mass (step s n).2
  mass_nonneg : ∀ s, Inv s → 0 ≤ mass s
  mass_le : ∀ s, Inv s → mass s ≤ T

section gentle
variable {σ : Type} {step : σ → ℝ → ℝ × σ} {Inv : σ → Prop} {near : σ → σ → ℝ → Prop} {mass : σ → ℝ} {l T : ℝ}

theorem Gentle.row (h : Gentle step Inv near mass l T) {s : σ} (hs : Inv s) (x : ℕ → ℝ) {p : ℕ × ℝ} (hx : 0 ≤ x p.1)
    (hp : p.2 = 1) : stepRow step (x, s) p =
      (Function.update x p.1 (x p.1 + (step s (x p.1)).1), (step s (x p.1)).2) := by
  unfold stepRow
  simp only [hp, one_ne_zero, if_false, mul_one, max_eq_right (h.floor s _ hs hx)]

theorem Gentle.update_nonneg (h : Gentle step Inv near mass l T) {s : σ} (hs : Inv s) {R : ℕ} {x : ℕ → ℝ}
    (hx : ∀ r < R, 0 ≤ x r) {q : ℕ} (hq : q < R) :
    ∀ r < R, 0 ≤ Function.update x q (x q + (step s (x q)).1) r := by
  intro r hr
  by_cases e : r = q
  · subst e; rw [Function.update_self]; exact h.floor s _ hs (hx r hr)
  · rw [Function.update_of_ne e]; exact hx r hr

theorem Gentle.pass (h : Gentle step Inv near mass l T) (hl : 0 ≤ l) (hl1 : l ≤ 1) (R : ℕ) (todo : List (ℕ × ℝ)) :
    ∀ (x y : ℕ → ℝ) (s s' : σ) (g : ℝ), Inv s → Inv s' → near s s' g → (todo.map Prod.fst).Nodup →
      (∀ p ∈ todo, p.1 < R ∧ p.2 = 1) → (∀ r < R, 0 ≤ x r) → (∀ r < R, 0 ≤ y r) →
      (∀ r < R, 0 ≤ (todo.foldl (stepRow step) (x, s)).1 r) ∧
      (1 - l) * ∑ r ∈ Finset.range R, |((todo.foldl (stepRow step) (x, s)).1 r - x r) -
          ((todo.foldl (stepRow step) (y, s')).1 r - y r)| ≤
        g + l * (todo.map fun p => |x p.1 - y p.1|).sum := by
  induction todo with
  | nil =>
    intro x y s s' g hs hs' hn _ _ hx hy
    refine ⟨hx, ?_⟩
    simp only [List.foldl_nil, sub_self, abs_zero, Finset.sum_const_zero, List.map_nil, List.sum_nil, mul_zero, add_zero]
    exact h.near_nonneg s s' g hs hn
  | cons p todo ih =>
    intro x y s s' g hs hs' hn hnd hp hx hy
    obtain ⟨p1, p2⟩ := hp p List.mem_cons_self
    have ex := h.row hs x (hx _ p1) p2
    have ey := h.row hs' y (hy _ p1) p2
    obtain ⟨g1, n1, hg1⟩ := h.near_step s s' g (x p.1) (y p.1) hs hs' hn (hx _ p1) (hy _ p1)
    rw [List.map_cons, List.nodup_cons] at hnd
    rw [List.foldl_cons, List.foldl_cons, ex, ey]
    have hu0 := h.update_nonneg hs hx p1
    have hv0 := h.update_nonneg hs' hy p1
    set u := Function.update x p.1 (x p.1 + (step s (x p.1)).1) with hu
    set v := Function.update y p.1 (y p.1 + (step s' (y p.1)).1) with hv
    obtain ⟨i1, i2⟩ := ih u v _ _ g1 (h.inv s _ hs (hx _ p1)) (h.inv s' _ hs' (hy _ p1)) n1 hnd.2
      (fun q hq => hp q (List.mem_cons_of_mem _ hq)) hu0 hv0
    refine ⟨i1, ?_⟩
    have e1 : (todo.map fun q => |u q.1 - v q.1|) = todo.map fun q => |x q.1 - y q.1| := by
      refine List.map_congr_left fun q hq => ?_
      have : q.1 ≠ p.1 := fun h => hnd.1 (h ▸ List.mem_map_of_mem hq)
      rw [hu, hv, Function.update_of_ne this, Function.update_of_ne this]
    rw [e1] at i2
    have e2 : ∑ r ∈ Finset.range R, |(u r - x r) - (v r - y r)| = |(step s (x p.1)).1 - (step s' (y p.1)).1| := by
      rw [Finset.sum_eq_single p.1]
      · rw [hu, hv, Function.update_self, Function.update_self, add_sub_cancel_left, add_sub_cancel_left]
      · intro r _ h
        rw [hu, hv, Function.update_of_ne h, Function.update_of_ne h]; simp
      · intro h; exact absurd (Finset.mem_range.2 p1) h
    have e3 : ∀ X Y : ℕ → ℝ, ∑ r ∈ Finset.range R, |(X r - x r) - (Y r - y r)| ≤
        ∑ r ∈ Finset.range R, |(X r - u r) - (Y r - v r)| + ∑ r ∈ Finset.range R, |(u r - x r) - (v r - y r)| := by
      intro X Y
      rw [← Finset.sum_add_distrib]
      refine Finset.sum_le_sum fun r _ => ?_
      rw [show (X r - x r) - (Y r - y r) = ((X r - u r) - (Y r - v r)) + ((u r - x r) - (v r - y r)) by ring]
      exact abs_add_le _ _
    refine (mul_le_mul_of_nonneg_left (e3 _ _) (sub_nonneg.2 hl1)).trans ?_
    rw [e2, mul_add, List.map_cons, List.sum_cons, mul_add]
    linarith

theorem Gentle.readout (h : Gentle step Inv near mass l T) (hl : 0 ≤ l) (hl1 : l < 1) (R : ℕ) {s : σ} (hs : Inv s)
    (passes : List (List (ℕ × ℝ))) (hnd : ∀ todo ∈ passes, (todo.map Prod.fst).Nodup) (hp : OnePasses R passes) :
    ∀ x y : ℕ → ℝ, (∀ r < R, 0 ≤ x r) → (∀ r < R, 0 ≤ y r) →
    (∀ r < R, 0 ≤ stepReadout step s passes x r) ∧
    ∑ r ∈ Finset.range R, |(stepReadout step s passes x r - x r) - (stepReadout step s passes y r - y r)| ≤
      lossSlope l passes.length * colDist R x y := by
  induction passes with
  | nil =>
    intro x y hx hy
    refine ⟨hx, ?_⟩
    simp [stepReadout, lossSlope]
  | cons todo passes ih =>
    intro x y hx hy
    have n1 := hnd todo List.mem_cons_self
    have p1 := hp todo List.mem_cons_self
    obtain ⟨a1, a2⟩ := h.pass hl hl1.le R todo x y s s 0 hs hs (h.near_refl s hs) n1 p1 hx hy
    obtain ⟨b1, -⟩ := h.pass hl hl1.le R todo y x s s 0 hs hs (h.near_refl s hs) n1 p1 hy hx
    have hD : 0 ≤ colDist R x y := Finset.sum_nonneg fun _ _ => abs_nonneg _
    have hT := todo_sum_le x y todo n1 fun p hp => (p1 p hp).1
    obtain ⟨i1, i2⟩ := ih (fun t ht => hnd t (List.mem_cons_of_mem _ ht)) (fun t ht => hp t (List.mem_cons_of_mem _ ht))
      (stepPass step s x todo) (stepPass step s y todo) a1 b1
    refine ⟨i1, ?_⟩
    change ∑ r ∈ Finset.range R, |(stepReadout step s passes (stepPass step s x todo) r - x r) -
      (stepReadout step s passes (stepPass step s y todo) r - y r)| ≤ _
    change (1 - l) * ∑ r ∈ Finset.range R, |(stepPass step s x todo r - x r) - (stepPass step s y todo r - y r)| ≤ _ at a2
    set u := stepPass step s x todo
    set v := stepPass step s y todo
    have hc : 0 < 1 - l := by linarith
    have a3 : ∑ r ∈ Finset.range R, |(u r - x r) - (v r - y r)| ≤ (1 / (1 - l) - 1) * colDist R x y := by
      have e : (1 / (1 - l) - 1) * colDist R x y = l * colDist R x y / (1 - l) := by field_simp; ring
      rw [e, le_div_iff₀ hc, mul_comm]
      have := mul_le_mul_of_nonneg_left hT hl
      linarith
    have d1 : colDist R u v ≤ 1 / (1 - l) * colDist R x y := by
      have : colDist R u v ≤ ∑ r ∈ Finset.range R, |(u r - x r) - (v r - y r)| + colDist R x y := by
        unfold colDist
        rw [← Finset.sum_add_distrib]
        refine Finset.sum_le_sum fun r _ => ?_
        rw [show u r - v r = ((u r - x r) - (v r - y r)) + (x r - y r) by ring]
        exact abs_add_le _ _
      linarith
    have d2 : ∑ r ∈ Finset.range R, |(stepReadout step s passes u r - x r) - (stepReadout step s passes v r - y r)| ≤
        ∑ r ∈ Finset.range R, |(stepReadout step s passes u r - u r) - (stepReadout step s passes v r - v r)| +
          ∑ r ∈ Finset.range R, |(u r - x r) - (v r - y r)| := by
      rw [← Finset.sum_add_distrib]
      refine Finset.sum_le_sum fun r _ => ?_
      rw [show (stepReadout step s passes u r - x r) - (stepReadout step s passes v r - y r) =
        ((stepReadout step s passes u r - u r) - (stepReadout step s passes v r - v r)) +
          ((u r - x r) - (v r - y r)) by ring]
      exact abs_add_le _ _
    have d3 := mul_le_mul_of_nonneg_left d1 (lossSlope_nonneg hl hl1 passes.length)
    have e : lossSlope l (todo :: passes).length * colDist R x y =
        lossSlope l passes.length * (1 / (1 - l) * colDist R x y) + (1 / (1 - l) - 1) * colDist R x y := by
      unfold lossSlope
      rw [List.length_cons, pow_succ]
      ring
    rw [e]
    linarith

theorem Gentle.rise_pass (h : Gentle step Inv near mass l T) (R : ℕ) (todo : List (ℕ × ℝ)) :
    ∀ (x : ℕ → ℝ) (s : σ), Inv s → (todo.map Prod.fst).Nodup → (∀ p ∈ todo, p.1 < R ∧ p.2 = 1) → (∀ r < R, 0 ≤ x r) →
      (∀ r < R, 0 ≤ (todo.foldl (stepRow step) (x, s)).1 r) ∧
      ∀ r < R, (todo.foldl (stepRow step) (x, s)).1 r ≤ x r + if r ∈ todo.map Prod.fst then T else 0 := by
  induction todo with
  | nil => intro x s _ _ _ hx; exact ⟨hx, fun r hr => by simp⟩
  | cons p todo ih =>
    intro x s hs hnd hp hx
    obtain ⟨p1, p2⟩ := hp p List.mem_cons_self
    rw [List.map_cons, List.nodup_cons] at hnd
    rw [List.foldl_cons, h.row hs x (hx _ p1) p2]
    have i := h.inv s _ hs (hx _ p1)
    have hg : (step s (x p.1)).1 ≤ T := by
      rw [h.gain s _ hs]
      linarith [h.mass_nonneg _ i, h.mass_le s hs]
    obtain ⟨i1, i2⟩ := ih _ _ i hnd.2 (fun q hq => hp q (List.mem_cons_of_mem _ hq)) (h.update_nonneg hs hx p1)
    refine ⟨i1, fun r hr => (i2 r hr).trans ?_⟩
    by_cases e : r = p.1
    · subst e
      rw [Function.update_self, if_neg hnd.1, if_pos (by simp), add_zero]
      linarith
    · rw [Function.update_of_ne e]
      simp only [List.map_cons, List.mem_cons, e, false_or]
      exact le_rfl

theorem Gentle.rise (h : Gentle step Inv near mass l T) (R : ℕ) {s : σ} (hs : Inv s) (passes : List (List (ℕ × ℝ)))
    (hnd : ∀ todo ∈ passes, (todo.map Prod.fst).Nodup) (hp : OnePasses R passes) (x : ℕ → ℝ) (hx : ∀ r < R, 0 ≤ x r) :
    ∀ r < R, stepReadout step s passes x r ≤ x r + T * passCount passes r := by
  induction passes generalizing x with
  | nil => intro r _; simp [stepReadout, passCount]
  | cons todo passes ih =>
    intro r hr
    obtain ⟨a1, a2⟩ := h.rise_pass R todo x s hs (hnd todo List.mem_cons_self) (hp todo List.mem_cons_self) hx
    have i := ih (fun t ht => hnd t (List.mem_cons_of_mem _ ht)) (fun t ht => hp t (List.mem_cons_of_mem _ ht)) _ a1 r hr
    unfold stepReadout at *
    rw [List.foldl_cons]
    refine i.trans ?_
    have := a2 r hr
    unfold passCount
    rw [List.countP_cons]
    by_cases hm : r ∈ todo.map Prod.fst
    · rw [if_pos hm] at this
      simp only [hm, decide_true, if_true]
      push_cast
      linarith
    · rw [if_neg hm] at this
      simp only [hm, decide_false]
      push_cast
      simp only [Bool.false_eq_true, if_false, add_zero]
      linarith

/-- No charge, no change. -/
theorem Gentle.zero (h : Gentle step Inv near mass l T) (R : ℕ) {s : σ} (hs : Inv s) (hm : mass s = 0)
    (passes : List (List (ℕ × ℝ))) (hp : OnePasses R passes) :
    stepReadout step s passes (fun _ => 0) = fun _ => 0 := by
  have key : ∀ (todo : List (ℕ × ℝ)) (u : σ), Inv u → mass u = 0 → (∀ p ∈ todo, p.1 < R ∧ p.2 = 1) →
      (todo.foldl (stepRow step) (fun _ => 0, u)).1 = fun _ => 0 := by
    intro todo
    induction todo with
    | nil => intro u _ _ _; rfl
    | cons p todo ih =>
      intro u hu hmu hp
      obtain ⟨p1, p2⟩ := hp p List.mem_cons_self
      have i := h.inv u 0 hu le_rfl
      have g := h.gain u 0 hu
      have f := h.floor u 0 hu le_rfl
      have n := h.mass_nonneg _ i
      have z : (step u 0).1 = 0 := by linarith
      rw [List.foldl_cons, h.row hu (fun _ => 0) le_rfl p2]
      simp only [z, add_zero]
      rw [Function.update_eq_self p.1 (fun _ => (0 : ℝ))]
      exact ih _ i (by linarith) fun q hq => hp q (List.mem_cons_of_mem _ hq)
  induction passes with
  | nil => rfl
  | cons todo passes ih =>
    have e : stepPass step s (fun _ => 0) todo = fun _ => 0 := key todo s hs hm (hp todo List.mem_cons_self)
    unfold stepReadout at ih ⊢
    rw [List.foldl_cons, e]
    exact ih fun t ht => hp t (List.mem_cons_of_mem _ ht)

/-- Readout of `n` rows with offset `o`, beginning with empty traps. -/
theorem Gentle.mild (h : Gentle step Inv near mass l T) (hl : 0 ≤ l) (hl1 : l < 1) {s : σ} (hs : Inv s) (hm : mass s = 0)
    (n o : ℕ) : Mild n 0 0 (lossSlope l (n + o)) (stepReadout step s (Ref.allPasses n o)) := by
  have key := h.readout hl hl1 n hs _ (allPasses_good n o).nodup (allPasses_one n o)
  rw [allPasses_length] at key
  have zero := h.zero n hs hm _ (allPasses_one n o)
  refine ⟨fun x hx => (key x x hx hx).1, fun x hx => ?_, fun x y hx hy => (key x y hx hy).2⟩
  have := (key x (fun _ => 0) hx fun _ _ => le_rfl).2
  rw [zero] at this
  simpa only [sub_zero, colDist_zero hx] using this

end gentle

end Arctic
