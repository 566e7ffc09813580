import Verif.Lemmas.Gentle
import Verif.Lemmas.Superpose

/-!
# The changes made by two sets of traps whose transfers are Lipschitz
-/

set_option linter.unusedSectionVars false
set_option linter.unusedVariables false

namespace Arctic
open Ref (stepRow stepPass stepReadout)

/-- Traps that consist of two sets which see the same clouds. -/
structure Joined {σ : Type} (step : σ → ℝ → ℝ × σ) (join : σ → σ → σ) : Prop where
  gain : ∀ a b n, (step (join a b) n).1 = (step a n).1 + (step b n).1
  after : ∀ a b n, (step (join a b) n).2 = join (step a n).2 (step b n).2

section joined
variable {σ : Type} {step : σ → ℝ → ℝ × σ} {join : σ → σ → σ} {Inv Inv₁ Inv₂ : σ → Prop} {near : σ → σ → ℝ → Prop}
  {mass : σ → ℝ} {l l₁ l₂ T T₁ T₂ : ℝ}

/-- In one pass the traps of one set see the same clouds whether the others are there or not. -/
theorem Joined.pass (hj : Joined step join) (h : Gentle step Inv near mass l T) (h₁ : Gentle step Inv₁ near mass l₁ T₁)
    (h₂ : Gentle step Inv₂ near mass l₂ T₂) (x : ℕ → ℝ) (todo : List (ℕ × ℝ)) :
    ∀ (z u v : ℕ → ℝ) (a b : σ), Inv (join a b) → Inv₁ a → Inv₂ b → (todo.map Prod.fst).Nodup →
      (∀ p ∈ todo, p.2 = 1 ∧ 0 ≤ x p.1 ∧ z p.1 = x p.1 ∧ u p.1 = x p.1 ∧ v p.1 = x p.1) →
      (∀ r, z r - x r = (u r - x r) + (v r - x r)) →
      ∀ r, (todo.foldl (stepRow step) (z, join a b)).1 r - x r =
        ((todo.foldl (stepRow step) (u, a)).1 r - x r) + ((todo.foldl (stepRow step) (v, b)).1 r - x r) := by
  induction todo with
  | nil => intro z u v a b _ _ _ _ _ h; exact h
  | cons p todo ih =>
    intro z u v a b hs ha hb hnd hx hzuv
    obtain ⟨p2, x0, ez, eu, ev⟩ := hx p List.mem_cons_self
    rw [List.map_cons, List.nodup_cons] at hnd
    rw [List.foldl_cons, List.foldl_cons, List.foldl_cons, h.row hs z (by rw [ez]; exact x0) p2,
      h₁.row ha u (by rw [eu]; exact x0) p2, h₂.row hb v (by rw [ev]; exact x0) p2, ez, eu, ev, hj.after, hj.gain]
    refine ih _ _ _ _ _ ?_ (h₁.inv a _ ha x0) (h₂.inv b _ hb x0) hnd.2 ?_ ?_
    · rw [← hj.after]; exact h.inv _ _ hs x0
    · intro q hq
      have : q.1 ≠ p.1 := fun h => hnd.1 (h ▸ List.mem_map_of_mem hq)
      rw [Function.update_of_ne this, Function.update_of_ne this, Function.update_of_ne this]
      exact hx q (List.mem_cons_of_mem _ hq)
    · intro r
      by_cases hr : r = p.1
      · subst hr
        rw [Function.update_self, Function.update_self, Function.update_self]
        ring
      · rw [Function.update_of_ne hr, Function.update_of_ne hr, Function.update_of_ne hr]
        exact hzuv r

theorem stepReadout_append (s : σ) (passes : List (List (ℕ × ℝ))) (todo : List (ℕ × ℝ)) (x : ℕ → ℝ) :
    stepReadout step s (passes ++ [todo]) x = stepPass step s (stepReadout step s passes x) todo := by
  unfold Ref.stepReadout
  rw [List.foldl_append]
  rfl

theorem lossSlope_pow {l : ℝ} (hl1 : l < 1) (N : ℕ) : lossSlope l N = (1 + l / (1 - l)) ^ N - 1 := by
  unfold lossSlope
  have : 1 - l ≠ 0 := by linarith
  congr 2
  field_simp
  ring

/-- The change made by two sets of traps is the sum of the two changes, up to second order. -/
theorem Joined.readout (hj : Joined step join) (h : Gentle step Inv near mass l T) (h₁ : Gentle step Inv₁ near mass l₁ T₁)
    (h₂ : Gentle step Inv₂ near mass l₂ T₂) (hl : 0 ≤ l) (hl1 : l < 1) (k₁ : 0 ≤ l₁) (k₂ : 0 ≤ l₂) (m₁ : l₁ < 1) (m₂ : l₂ < 1)
    (R : ℕ) {a b : σ} (hs : Inv (join a b)) (ha : Inv₁ a) (hb : Inv₂ b) (ea : mass a = 0) (eb : mass b = 0)
    (passes : List (List (ℕ × ℝ))) (x : ℕ → ℝ) (hx : ∀ r < R, 0 ≤ x r) :
    (∀ todo ∈ passes, (todo.map Prod.fst).Nodup) → OnePasses R passes →
    ∑ r ∈ Finset.range R, |(stepReadout step (join a b) passes x r - x r) - ((stepReadout step a passes x r - x r) +
        (stepReadout step b passes x r - x r))| ≤
      crossSlope (l₁ / (1 - l₁)) (l₂ / (1 - l₂)) passes.length * ∑ r ∈ Finset.range R, x r := by
  have s1 : 0 ≤ l₁ / (1 - l₁) := div_nonneg k₁ (by linarith)
  have s2 : 0 ≤ l₂ / (1 - l₂) := div_nonneg k₂ (by linarith)
  have hS : 0 ≤ ∑ r ∈ Finset.range R, x r := Finset.sum_nonneg fun r hr => hx r (Finset.mem_range.1 hr)
  induction passes using List.reverseRecOn with
  | nil =>
    intro _ _
    have : crossSlope (l₁ / (1 - l₁)) (l₂ / (1 - l₂)) 0 = 0 := by simp [crossSlope]
    simp [Ref.stepReadout, this]
  | append_singleton passes todo ih =>
    intro hnd hp
    have hnd' : ∀ t ∈ passes, (t.map Prod.fst).Nodup := fun t ht => hnd t (List.mem_append_left _ ht)
    have hp' : OnePasses R passes := fun t ht => hp t (List.mem_append_left _ ht)
    have nd1 : (todo.map Prod.fst).Nodup := hnd todo (by simp)
    have hp1 : ∀ p ∈ todo, p.1 < R ∧ p.2 = 1 := hp todo (by simp)
    have ndl : ∀ t ∈ [todo], (t.map Prod.fst).Nodup := fun t ht => by rw [List.mem_singleton.1 ht]; exact nd1
    have hpl : OnePasses R [todo] := fun t ht => by rw [List.mem_singleton.1 ht]; exact hp1
    have hi := ih hnd' hp'
    have z0 := (h.readout hl hl1 R hs passes hnd' hp' x x hx hx).1
    obtain ⟨u0, u1⟩ := h₁.readout k₁ m₁ R ha passes hnd' hp' x (fun _ => 0) hx fun _ _ => le_rfl
    obtain ⟨v0, v1⟩ := h₂.readout k₂ m₂ R hb passes hnd' hp' x (fun _ => 0) hx fun _ _ => le_rfl
    rw [h₁.zero R ha ea passes hp', colDist_zero hx, lossSlope_pow m₁] at u1
    rw [h₂.zero R hb eb passes hp', colDist_zero hx, lossSlope_pow m₂] at v1
    simp only [sub_zero] at u1 v1
    rw [stepReadout_append, stepReadout_append, stepReadout_append, List.length_append, List.length_singleton,
      crossSlope_succ]
    set z := stepReadout step (join a b) passes x
    set u := stepReadout step a passes x
    set v := stepReadout step b passes x
    have hsum : ∀ r, stepPass step (join a b) z todo r - z r =
        (stepPass step a z todo r - z r) + (stepPass step b z todo r - z r) :=
      hj.pass h h₁ h₂ z todo z z z a b hs ha hb nd1 (fun p hp => ⟨(hp1 p hp).2, z0 _ (hp1 p hp).1, rfl, rfl, rfl⟩)
        (fun r => by ring)
    have q1 := (h₁.readout k₁ m₁ R ha [todo] ndl hpl z u z0 u0).2
    have q2 := (h₂.readout k₂ m₂ R hb [todo] ndl hpl z v z0 v0).2
    change ∑ r ∈ Finset.range R, |(stepPass step a z todo r - z r) - (stepPass step a u todo r - u r)| ≤ _ at q1
    change ∑ r ∈ Finset.range R, |(stepPass step b z todo r - z r) - (stepPass step b v todo r - v r)| ≤ _ at q2
    rw [lossSlope_pow m₁] at q1
    rw [lossSlope_pow m₂] at q2
    simp only [List.length_singleton, pow_one, add_sub_cancel_left] at q1 q2
    set α := l₁ / (1 - l₁)
    set β := l₂ / (1 - l₂)
    set D := ∑ r ∈ Finset.range R, |(z r - x r) - ((u r - x r) + (v r - x r))|
    have c1 : colDist R z u ≤ D + ∑ r ∈ Finset.range R, |v r - x r| := by
      refine le_trans (le_of_eq ?_) (sum_abs_add (fun r => (z r - x r) - ((u r - x r) + (v r - x r))) fun r => v r - x r)
      exact Finset.sum_congr rfl fun r _ => by congr 1; ring
    have c2 : colDist R z v ≤ D + ∑ r ∈ Finset.range R, |u r - x r| := by
      refine le_trans (le_of_eq ?_) (sum_abs_add (fun r => (z r - x r) - ((u r - x r) + (v r - x r))) fun r => u r - x r)
      exact Finset.sum_congr rfl fun r _ => by congr 1; ring
    have step' : ∑ r ∈ Finset.range R, |(stepPass step (join a b) z todo r - x r) - ((stepPass step a u todo r - x r) +
        (stepPass step b v todo r - x r))| ≤ D +
          (∑ r ∈ Finset.range R, |(stepPass step a z todo r - z r) - (stepPass step a u todo r - u r)| +
          ∑ r ∈ Finset.range R, |(stepPass step b z todo r - z r) - (stepPass step b v todo r - v r)|) := by
      refine le_trans (le_of_eq ?_) ((sum_abs_add (fun r => (z r - x r) - ((u r - x r) + (v r - x r))) fun r =>
        ((stepPass step a z todo r - z r) - (stepPass step a u todo r - u r)) +
          ((stepPass step b z todo r - z r) - (stepPass step b v todo r - v r))).trans
          (add_le_add le_rfl (sum_abs_add _ _)))
      refine Finset.sum_congr rfl fun r _ => ?_
      have := hsum r
      congr 1
      linarith
    have m1 := mul_le_mul_of_nonneg_left (c1.trans (add_le_add hi v1)) s1
    have m2 := mul_le_mul_of_nonneg_left (c2.trans (add_le_add hi u1)) s2
    have := step'.trans (add_le_add hi (add_le_add (q1.trans m1) (q2.trans m2)))
    refine this.trans (le_of_eq ?_)
    ring

end joined

end Arctic
