import Verif.Lemmas.Gentle

/-!
# Readouts with slightly different traps
-/

set_option linter.unusedSectionVars false
set_option linter.unusedVariables false

namespace Arctic
open Ref (stepRow stepPass stepReadout)

/-- Two families of traps whose transfers differ, apart from what differences of the cloud and of their filling account for, by a
fraction `e` of the electrons that the second ones release or capture. -/
structure Drift {σ : Type} (step : σ → ℝ → ℝ × σ) (Inv Inv' : σ → Prop) (kin : σ → σ → ℝ → Prop) (mass : σ → ℝ)
    (l e : ℝ) : Prop where
  nonneg : ∀ s s' g, Inv s → kin s s' g → 0 ≤ g
  step : ∀ s s' g n n', Inv s → Inv' s' → kin s s' g → 0 ≤ n → 0 ≤ n' →
    ∃ g1, kin (step s n).2 (step s' n').2 g1 ∧ (1 - l) * |(step s n).1 - (step s' n').1| + g1 ≤
      g + l * |n - n'| + e * (3 * (mass s' - mass (step s' n').2) + l * n')

section drift
variable {σ : Type} {step : σ → ℝ → ℝ × σ} {Inv Inv' : σ → Prop} {near kin : σ → σ → ℝ → Prop} {mass : σ → ℝ}
  {l e l₁ l₂ T T' : ℝ}

theorem Drift.pass (D : Drift step Inv Inv' kin mass l e) (h : Gentle step Inv near mass l₁ T)
    (h' : Gentle step Inv' near mass l₂ T') (hl1 : l ≤ 1) (he : 0 ≤ e) (R : ℕ) (todo : List (ℕ × ℝ)) :
    ∀ (x y : ℕ → ℝ) (s s' : σ) (g : ℝ), Inv s → Inv' s' → kin s s' g → (todo.map Prod.fst).Nodup →
      (∀ p ∈ todo, p.1 < R ∧ p.2 = 1) → (∀ r < R, 0 ≤ x r) → (∀ r < R, 0 ≤ y r) →
      (1 - l) * ∑ r ∈ Finset.range R, |((todo.foldl (stepRow step) (x, s)).1 r - x r) -
          ((todo.foldl (stepRow step) (y, s')).1 r - y r)| ≤
        g + l * (todo.map fun p => |x p.1 - y p.1|).sum + e * (3 * mass s' + l * (todo.map fun p => y p.1).sum) := by
  induction todo with
  | nil =>
    intro x y s s' g hs hs' hn _ _ hx hy
    simp only [List.foldl_nil, sub_self, abs_zero, Finset.sum_const_zero, List.map_nil, List.sum_nil, mul_zero, add_zero]
    have := D.nonneg s s' g hs hn
    have := mul_nonneg he (by linarith [h'.mass_nonneg s' hs'] : 0 ≤ 3 * mass s')
    linarith
  | cons p todo ih =>
    intro x y s s' g hs hs' hn hnd hp hx hy
    obtain ⟨p1, p2⟩ := hp p List.mem_cons_self
    have ex := h.row hs x (hx _ p1) p2
    have ey := h'.row hs' y (hy _ p1) p2
    obtain ⟨g1, n1, hg1⟩ := D.step s s' g (x p.1) (y p.1) hs hs' hn (hx _ p1) (hy _ p1)
    rw [List.map_cons, List.nodup_cons] at hnd
    rw [List.foldl_cons, List.foldl_cons, ex, ey]
    have hu0 := h.update_nonneg hs hx p1
    have hv0 := h'.update_nonneg hs' hy p1
    set u := Function.update x p.1 (x p.1 + (step s (x p.1)).1) with hu
    set v := Function.update y p.1 (y p.1 + (step s' (y p.1)).1) with hv
    have i2 := ih u v _ _ g1 (h.inv s _ hs (hx _ p1)) (h'.inv s' _ hs' (hy _ p1)) n1 hnd.2
      (fun q hq => hp q (List.mem_cons_of_mem _ hq)) hu0 hv0
    have hne : ∀ q ∈ todo, q.1 ≠ p.1 := fun q hq h => hnd.1 (h ▸ List.mem_map_of_mem hq)
    have e1 : (todo.map fun q => |u q.1 - v q.1|) = todo.map fun q => |x q.1 - y q.1| :=
      List.map_congr_left fun q hq => by
        rw [hu, hv, Function.update_of_ne (hne q hq), Function.update_of_ne (hne q hq)]
    have e1' : (todo.map fun q => v q.1) = todo.map fun q => y q.1 :=
      List.map_congr_left fun q hq => by rw [hv, Function.update_of_ne (hne q hq)]
    rw [e1, e1'] at i2
    have e2 : ∑ r ∈ Finset.range R, |(u r - x r) - (v r - y r)| = |(step s (x p.1)).1 - (step s' (y p.1)).1| := by
      rw [Finset.sum_eq_single p.1]
      · rw [hu, hv, Function.update_self, Function.update_self, add_sub_cancel_left, add_sub_cancel_left]
      · intro r _ h
        rw [hu, hv, Function.update_of_ne h, Function.update_of_ne h]; simp
      · intro h; exact absurd (Finset.mem_range.2 p1) h
    have e3 : ∀ X Y : ℕ → ℝ, ∑ r ∈ Finset.range R, |(X r - x r) - (Y r - y r)| ≤
        ∑ r ∈ Finset.range R, |(X r - u r) - (Y r - v r)| + ∑ r ∈ Finset.range R, |(u r - x r) - (v r - y r)| := by
      intro X Y
      rw [← Finset.sum_add_distrib]
      refine Finset.sum_le_sum fun r _ => ?_
      rw [show (X r - x r) - (Y r - y r) = ((X r - u r) - (Y r - v r)) + ((u r - x r) - (v r - y r)) by ring]
      exact abs_add_le _ _
    refine (mul_le_mul_of_nonneg_left (e3 _ _) (sub_nonneg.2 hl1)).trans ?_
    rw [e2, mul_add, List.map_cons, List.sum_cons, List.map_cons, List.sum_cons]
    linarith

/-- Charge does not grow in a pass. -/
theorem Drift.pass_total (h : Gentle step Inv near mass l T) (R : ℕ) (todo : List (ℕ × ℝ)) :
    ∀ (y : ℕ → ℝ) (s : σ), Inv s → (∀ p ∈ todo, p.1 < R ∧ p.2 = 1) → (∀ r < R, 0 ≤ y r) →
      (∀ r < R, 0 ≤ (todo.foldl (stepRow step) (y, s)).1 r) ∧
      ∑ r ∈ Finset.range R, (todo.foldl (stepRow step) (y, s)).1 r ≤ ∑ r ∈ Finset.range R, y r + mass s := by
  induction todo with
  | nil =>
    intro y s hs _ hy
    exact ⟨hy, by have := h.mass_nonneg s hs; simp only [List.foldl_nil]; linarith⟩
  | cons p todo ih =>
    intro y s hs hp hy
    obtain ⟨p1, p2⟩ := hp p List.mem_cons_self
    rw [List.foldl_cons, h.row hs y (hy _ p1) p2]
    have hv0 := h.update_nonneg hs hy p1
    obtain ⟨i1, i2⟩ := ih _ _ (h.inv s _ hs (hy _ p1)) (fun q hq => hp q (List.mem_cons_of_mem _ hq)) hv0
    refine ⟨i1, i2.trans ?_⟩
    have e : ∑ r ∈ Finset.range R, Function.update y p.1 (y p.1 + (step s (y p.1)).1) r -
        ∑ r ∈ Finset.range R, y r = (step s (y p.1)).1 := by
      rw [← Finset.sum_sub_distrib, Finset.sum_eq_single p.1]
      · rw [Function.update_self]; ring
      · intro r _ h; rw [Function.update_of_ne h, sub_self]
      · intro h; exact absurd (Finset.mem_range.2 p1) h
    have := h.gain s (y p.1) hs
    linarith

/-- Readouts of two columns with slightly different traps, none of them filled before. -/
theorem Drift.readout (D : Drift step Inv Inv' kin mass l e) (h : Gentle step Inv near mass l₁ T)
    (h' : Gentle step Inv' near mass l₂ T') (hl : 0 ≤ l) (hl1 : l < 1) (he : 0 ≤ e) (R : ℕ) {s s' : σ} (hs : Inv s)
    (hs' : Inv' s') (hk : kin s s' 0) (hm : mass s' = 0) (passes : List (List (ℕ × ℝ)))
    (hnd : ∀ todo ∈ passes, (todo.map Prod.fst).Nodup) (hp : OnePasses R passes) :
    ∀ x y : ℕ → ℝ, (∀ r < R, 0 ≤ x r) → (∀ r < R, 0 ≤ y r) →
    ∑ r ∈ Finset.range R, stepReadout step s' passes y r ≤ ∑ r ∈ Finset.range R, y r ∧
    colDist R (stepReadout step s passes x) (stepReadout step s' passes y) ≤
      (1 + lossSlope l passes.length) * colDist R x y + e * lossSlope l passes.length * ∑ r ∈ Finset.range R, y r := by
  set c := 1 / (1 - l) with hc
  have hcl : c * (1 - l) = 1 := by rw [hc]; exact one_div_mul_cancel (by linarith)
  have hc1 : 1 ≤ c := by rw [hc, one_le_div (by linarith)]; linarith
  induction passes with
  | nil =>
    intro x y hx hy
    simp [stepReadout, lossSlope]
  | cons todo passes ih =>
    intro x y hx hy
    have hnd0 := hnd todo List.mem_cons_self
    have hp0 := hp todo List.mem_cons_self
    have E0 := D.pass h h' hl1.le he R todo x y s s' 0 hs hs' hk hnd0 hp0 hx hy
    obtain ⟨x0, -⟩ := Drift.pass_total h R todo x s hs hp0 hx
    obtain ⟨y0, yt⟩ := Drift.pass_total h' R todo y s' hs' hp0 hy
    rw [hm, add_zero] at yt
    rw [hm, mul_zero, zero_add, zero_add] at E0
    have hT := todo_sum_le x y todo hnd0 fun p hp => (hp0 p hp).1
    have hY : (todo.map fun p => y p.1).sum ≤ ∑ r ∈ Finset.range R, y r := by
      have e : (todo.map fun p => y p.1) = (todo.map Prod.fst).map fun r => y r := by rw [List.map_map]; rfl
      rw [e, ← List.sum_toFinset _ hnd0]
      refine Finset.sum_le_sum_of_subset_of_nonneg (fun r hr => ?_) fun r hr _ => hy r (Finset.mem_range.1 hr)
      rw [List.mem_toFinset] at hr
      obtain ⟨q, hq, rfl⟩ := List.mem_map.1 hr
      exact Finset.mem_range.2 (hp0 q hq).1
    set u := stepPass step s x todo with hu
    set v := stepPass step s' y todo with hv
    have eu : (todo.foldl (stepRow step) (x, s)).1 = u := rfl
    have ev : (todo.foldl (stepRow step) (y, s')).1 = v := rfl
    rw [eu] at x0 E0
    rw [ev] at y0 yt E0
    obtain ⟨i1, i2⟩ := ih (fun t ht => hnd t (List.mem_cons_of_mem _ ht)) (fun t ht => hp t (List.mem_cons_of_mem _ ht)) u v x0 y0
    have r1 : stepReadout step s (todo :: passes) x = stepReadout step s passes u := rfl
    have r2 : stepReadout step s' (todo :: passes) y = stepReadout step s' passes v := rfl
    rw [r1, r2]
    refine ⟨i1.trans yt, i2.trans ?_⟩
    set D := colDist R x y with hD
    set Y := ∑ r ∈ Finset.range R, y r with hYd
    have hD0 : 0 ≤ D := Finset.sum_nonneg fun _ _ => abs_nonneg _
    have hY0 : 0 ≤ Y := Finset.sum_nonneg fun r hr => hy r (Finset.mem_range.1 hr)
    set E := ∑ r ∈ Finset.range R, |(u r - x r) - (v r - y r)| with hE
    have duv : colDist R u v ≤ E + D := by
      unfold colDist at hD ⊢
      rw [hE, hD, ← Finset.sum_add_distrib]
      refine Finset.sum_le_sum fun r _ => ?_
      rw [show u r - v r = ((u r - x r) - (v r - y r)) + (x r - y r) by ring]
      exact abs_add_le _ _
    have step : (1 - l) * E ≤ l * D + e * (l * Y) := by
      have s2 := mul_le_mul_of_nonneg_left hT hl
      have s3 := mul_le_mul_of_nonneg_left (mul_le_mul_of_nonneg_left hY hl) he
      linarith
    have hEc : E ≤ (c - 1) * D + e * ((c - 1) * Y) := by
      have := mul_le_mul_of_nonneg_left step (by linarith : 0 ≤ c)
      have cl : c * l = c - 1 := by linarith
      have w1 : c * ((1 - l) * E) = E := by rw [← mul_assoc, hcl, one_mul]
      have w2 : c * (l * D + e * (l * Y)) = (c * l) * D + e * ((c * l) * Y) := by ring
      rw [w1, w2, cl] at this
      exact this
    unfold lossSlope
    rw [← hc, List.length_cons, pow_succ]
    set q := c ^ passes.length with hq
    have hq1 : 1 ≤ q := one_le_pow₀ hc1
    have t1 := mul_le_mul_of_nonneg_left (duv.trans (add_le_add_left hEc D)) (by linarith : 0 ≤ q)
    have t2 : e * (q - 1) * ∑ r ∈ Finset.range R, v r ≤ e * (q - 1) * Y :=
      mul_le_mul_of_nonneg_left yt (mul_nonneg he (by linarith))
    nlinarith

end drift

end Arctic
