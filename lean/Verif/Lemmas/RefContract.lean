import Verif.Lemmas.RefError
import Verif.Lemmas.RefLift

/-!
# Readouts that represent every transfer once do not move columns apart
-/

set_option linter.unusedSectionVars false
set_option linter.unusedVariables false

namespace Arctic

/-- Traps that are fuller at every depth hold more. -/
theorem Ref.Below.filling_le {dw : ℝ} {ts ts' : List Ref.Traps} (h : ∀ t ∈ ts, t.Reg dw) (hb : Ref.Below dw ts ts') :
    Ref.filling ts ≤ Ref.filling ts' := by
  induction hb with
  | nil => exact le_rfl
  | @cons t t' ts ts' ht hts ih =>
    obtain ⟨o, rfl, hr, hle⟩ := ht
    have h1 := h t List.mem_cons_self
    have i := ih fun x hx => h x (List.mem_cons_of_mem _ hx)
    unfold Ref.filling at i ⊢
    rw [List.map_cons, List.map_cons, List.sum_cons, List.sum_cons]
    refine add_le_add ?_ i
    unfold Ref.Traps.filled
    refine Finset.sum_le_sum fun j _ => mul_le_mul_of_nonneg_left ?_ (h1.dens j)
    refine intervalIntegral.integral_mono_on zero_le_one ?_ ?_ fun d _ => hle d j
    · exact integrable_bdd 1 (h1.meas j) (fun d => by rw [abs_of_nonneg (h1.frac d j).1]; exact (h1.frac d j).2) _ _
    · exact integrable_bdd 1 (hr.meas j) (fun d => by rw [abs_of_nonneg (hr.frac d j).1]; exact (hr.frac d j).2) _ _

/-- Passes in which every transfer stands for itself. -/
def OnePasses (R : ℕ) (passes : List (List (ℕ × ℝ))) : Prop := ∀ todo ∈ passes, ∀ p ∈ todo, p.1 < R ∧ p.2 = 1

theorem allPasses_one (n o : ℕ) : OnePasses n (Ref.allPasses n o) := by
  intro todo ht p hp
  obtain ⟨k, -, rfl⟩ := List.mem_map.1 ht
  obtain ⟨r, hr, rfl⟩ := List.mem_map.1 hp
  exact ⟨List.mem_range.1 (List.mem_filter.1 hr).1, rfl⟩

theorem sum_update_sub {R : ℕ} (x : ℕ → ℝ) {p : ℕ} (hp : p < R) (v : ℝ) :
    ∑ r ∈ Finset.range R, Function.update x p v r = ∑ r ∈ Finset.range R, x r + (v - x p) := by
  rw [Finset.sum_update_of_mem (Finset.mem_range.2 hp), ← Finset.add_sum_erase _ _ (Finset.mem_range.2 hp),
    Finset.sdiff_singleton_eq_erase]
  ring

/-- One pass over two columns, one of them brighter: the surplus, together with the surplus in the traps, does not
grow. -/
theorem pass_surplus {dw L : ℝ} {f : ℝ → ℝ} (hf : LipFill f L) (R : ℕ) (todo : List (ℕ × ℝ)) :
    ∀ (x y : ℕ → ℝ) (ts ts' : List Ref.Traps), Ref.Few dw L ts → Ref.Few dw L ts' → Ref.Below dw ts ts' →
      (∀ p ∈ todo, p.1 < R ∧ p.2 = 1) → (∀ r < R, x r ≤ y r) →
      (∀ r < R, (todo.foldl (Ref.row f dw) (x, ts)).1 r ≤ (todo.foldl (Ref.row f dw) (y, ts')).1 r) ∧
      ∑ r ∈ Finset.range R, (todo.foldl (Ref.row f dw) (y, ts')).1 r -
        ∑ r ∈ Finset.range R, (todo.foldl (Ref.row f dw) (x, ts)).1 r ≤
      (∑ r ∈ Finset.range R, y r - ∑ r ∈ Finset.range R, x r) + (Ref.filling ts' - Ref.filling ts) := by
  induction todo with
  | nil =>
    intro x y ts ts' h h' hb _ hxy
    refine ⟨hxy, ?_⟩
    simp only [List.foldl_nil]
    linarith [hb.filling_le h.reg]
  | cons p todo ih =>
    intro x y ts ts' hts hts' hb hp hxy
    obtain ⟨p1, p2⟩ := hp p List.mem_cons_self
    obtain ⟨b1, b2⟩ := hb.step hf hts (hxy p.1 p1)
    obtain ⟨a1, a2⟩ := hts.after hf (x p.1)
    obtain ⟨a1', a2'⟩ := hts'.after hf (y p.1)
    have g := hts.gain_eq hf (x p.1)
    have g' := hts'.gain_eq hf (y p.1)
    rw [List.foldl_cons, List.foldl_cons, Ref.row_eq, Ref.row_eq, if_neg (by rw [p2]; norm_num),
      if_neg (by rw [p2]; norm_num), p2, mul_one, mul_one]
    have hle : x p.1 + Ref.gain f dw ts (x p.1) ≤ y p.1 + Ref.gain f dw ts' (y p.1) := by
      have := mul_le_mul_of_nonneg_right hts.few (sub_nonneg.2 (hxy p.1 p1))
      linarith
    obtain ⟨i1, i2⟩ := ih _ _ a1 a1' b1 (fun q hq => hp q (List.mem_cons_of_mem _ hq))
      (x := Function.update x p.1 (max 0 (x p.1 + Ref.gain f dw ts (x p.1))))
      (y := Function.update y p.1 (max 0 (y p.1 + Ref.gain f dw ts' (y p.1)))) (fun r hr => by
        by_cases hrp : r = p.1
        · subst hrp
          rw [Function.update_self, Function.update_self]
          exact max_le_max le_rfl hle
        · rw [Function.update_of_ne hrp, Function.update_of_ne hrp]
          exact hxy r hr)
    refine ⟨i1, i2.trans ?_⟩
    rw [sum_update_sub x p1, sum_update_sub y p1]
    have hm : max 0 (y p.1 + Ref.gain f dw ts' (y p.1)) - max 0 (x p.1 + Ref.gain f dw ts (x p.1)) ≤
        (y p.1 + Ref.gain f dw ts' (y p.1)) - (x p.1 + Ref.gain f dw ts (x p.1)) := by
      rcases le_total 0 (x p.1 + Ref.gain f dw ts (x p.1)) with h | h
      · rw [max_eq_right h, max_eq_right (h.trans hle)]
      · rw [max_eq_left h]
        rcases le_total 0 (y p.1 + Ref.gain f dw ts' (y p.1)) with h' | h'
        · rw [max_eq_right h']; linarith
        · rw [max_eq_left h']; linarith
    linarith

/-- A readout: brighter columns stay brighter, and their surplus does not grow. -/
theorem readout_surplus {dw L : ℝ} {f : ℝ → ℝ} (hf : LipFill f L) (R : ℕ) (ts : List Ref.Traps) (hts : Ref.Few dw L ts)
    (passes : List (List (ℕ × ℝ))) (hp : OnePasses R passes) (x y : ℕ → ℝ) (hxy : ∀ r < R, x r ≤ y r) :
    (∀ r < R, Ref.readout f dw ts passes x r ≤ Ref.readout f dw ts passes y r) ∧
      ∑ r ∈ Finset.range R, Ref.readout f dw ts passes y r - ∑ r ∈ Finset.range R, Ref.readout f dw ts passes x r ≤
        ∑ r ∈ Finset.range R, y r - ∑ r ∈ Finset.range R, x r := by
  induction passes generalizing x y with
  | nil => exact ⟨hxy, le_rfl⟩
  | cons todo passes ih =>
    obtain ⟨a1, a2⟩ := pass_surplus hf R todo x y ts ts hts hts (Ref.Below.refl hts.reg) (hp todo List.mem_cons_self) hxy
    unfold Ref.readout at *
    rw [List.foldl_cons, List.foldl_cons]
    obtain ⟨i1, i2⟩ := ih (fun t ht => hp t (List.mem_cons_of_mem _ ht)) _ _ a1
    refine ⟨i1, i2.trans ?_⟩
    rw [sub_self, add_zero] at a2
    exact a2

theorem colDist_le_of_surplus {R : ℕ} {A : (ℕ → ℝ) → ℕ → ℝ} {x y : ℕ → ℝ}
    (hx : (∀ r < R, A x r ≤ A (fun r => max (x r) (y r)) r) ∧
      ∑ r ∈ Finset.range R, A (fun r => max (x r) (y r)) r - ∑ r ∈ Finset.range R, A x r ≤
        ∑ r ∈ Finset.range R, max (x r) (y r) - ∑ r ∈ Finset.range R, x r)
    (hy : (∀ r < R, A y r ≤ A (fun r => max (x r) (y r)) r) ∧
      ∑ r ∈ Finset.range R, A (fun r => max (x r) (y r)) r - ∑ r ∈ Finset.range R, A y r ≤
        ∑ r ∈ Finset.range R, max (x r) (y r) - ∑ r ∈ Finset.range R, y r) :
    colDist R (A x) (A y) ≤ colDist R x y := by
  set z : ℕ → ℝ := fun r => max (x r) (y r) with hz
  obtain ⟨x1, x2⟩ := hx
  obtain ⟨y1, y2⟩ := hy
  rw [← Finset.sum_sub_distrib, ← Finset.sum_sub_distrib] at x2 y2
  have e : colDist R x y = ∑ r ∈ Finset.range R, (z r - x r) + ∑ r ∈ Finset.range R, (z r - y r) := by
    unfold colDist
    rw [← Finset.sum_add_distrib]
    refine Finset.sum_congr rfl fun r _ => ?_
    rcases le_total (x r) (y r) with h | h
    · rw [abs_sub_comm, abs_of_nonneg (sub_nonneg.2 h), hz]; simp only [max_eq_right h]; ring
    · rw [abs_of_nonneg (sub_nonneg.2 h), hz]; simp only [max_eq_left h]; ring
  rw [e]
  refine le_trans ?_ (add_le_add x2 y2)
  unfold colDist
  rw [← Finset.sum_add_distrib]
  refine Finset.sum_le_sum fun r hr => ?_
  have h1 := x1 r (Finset.mem_range.1 hr)
  have h2 := y1 r (Finset.mem_range.1 hr)
  rw [abs_le]
  constructor <;> linarith

/-- A readout does not move columns apart. -/
theorem readout_contract {dw L : ℝ} {f : ℝ → ℝ} (hf : LipFill f L) (R : ℕ) (ts : List Ref.Traps) (hts : Ref.Few dw L ts)
    (passes : List (List (ℕ × ℝ))) (hp : OnePasses R passes) (x y : ℕ → ℝ) :
    colDist R (Ref.readout f dw ts passes x) (Ref.readout f dw ts passes y) ≤ colDist R x y :=
  colDist_le_of_surplus (readout_surplus hf R ts hts passes hp x _ fun r _ => le_max_left _ _)
    (readout_surplus hf R ts hts passes hp y _ fun r _ => le_max_right _ _)

end Arctic
