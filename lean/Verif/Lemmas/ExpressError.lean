import Verif.Lemmas.RefError
import Mathlib.Analysis.Complex.ExponentialBounds

/-!
# How far readouts with multipliers are apart

A readout with multipliers is compared with the sum of what its passes would do to the unchanged column (its frozen form). Both
the full readout and express readouts are close to their frozen forms, and the frozen forms are close to each other.
-/

set_option linter.unusedSectionVars false
set_option linter.unusedVariables false

namespace Arctic

/-! ### slots -/

/-- What passes over the pixel do: `G k x r` is the gain of row `r` in the pass of the rows from number `k` on. -/
structure Rates (n o : ℕ) (s : ℝ) (G : ℕ → (ℕ → ℝ) → ℕ → ℝ) : Prop where
  slope : 0 ≤ s
  lip : ∀ k x y, (∀ r < n, 0 ≤ x r) → (∀ r < n, 0 ≤ y r) →
    ∑ r ∈ Finset.range n, |G k x r - G k y r| ≤ s * ∑ r ∈ Finset.range n, |x r - y r|
  small : ∀ k x, (∀ r < n, 0 ≤ x r) → ∑ r ∈ Finset.range n, |G k x r| ≤ s * ∑ r ∈ Finset.range n, x r
  front : ∀ k' k x, k' ≤ k → (∀ r < n, 0 ≤ x r) →
    ∑ r ∈ Finset.range n, (if k ≤ r + o then |G k x r - G k' x r| else 0) ≤
      s / 2 * ∑ r ∈ Finset.range n, if k' ≤ r + o ∧ r + o < k then x r else 0
  low : ∀ k x, (∀ r < n, 0 ≤ x r) → ∀ r < n, -(s / 2 * x r) ≤ G k x r

/-- One pass with multipliers. -/
structure Slot where
  k : ℕ
  top : ℝ
  mult : ℕ → ℝ

/-- Multipliers between zero and `top`, which leave pixels non-negative. -/
structure Slot.Ok (n : ℕ) (s : ℝ) (p : Slot) : Prop where
  nonneg : ∀ r < n, 0 ≤ p.mult r
  le : ∀ r < n, p.mult r ≤ p.top
  top : 0 ≤ p.top
  few : p.top * (s / 2) ≤ 1

noncomputable def Slot.run (G : ℕ → (ℕ → ℝ) → ℕ → ℝ) (x : ℕ → ℝ) (p : Slot) : ℕ → ℝ := fun r => x r + p.mult r * G p.k x r

noncomputable def runSlots (G : ℕ → (ℕ → ℝ) → ℕ → ℝ) (ps : List Slot) (x : ℕ → ℝ) : ℕ → ℝ := ps.foldl (Slot.run G) x

/-- All passes see the column as it was in the beginning. -/
noncomputable def frozen (G : ℕ → (ℕ → ℝ) → ℕ → ℝ) (ps : List Slot) (x : ℕ → ℝ) (r : ℕ) : ℝ :=
  (ps.map fun p => p.mult r * G p.k x r).sum

noncomputable def slotLoad (s : ℝ) (ps : List Slot) : ℝ := (ps.map fun p => p.top * s).sum

variable {n o : ℕ} {s : ℝ} {G : ℕ → (ℕ → ℝ) → ℕ → ℝ}

theorem Slot.Ok.sum_le {p : Slot} (hp : p.Ok n s) (g : ℕ → ℝ) :
    ∑ r ∈ Finset.range n, |p.mult r * g r| ≤ p.top * ∑ r ∈ Finset.range n, |g r| := by
  rw [Finset.mul_sum]
  refine Finset.sum_le_sum fun r hr => ?_
  have hr' := Finset.mem_range.1 hr
  rw [abs_mul, abs_of_nonneg (hp.nonneg r hr')]
  exact mul_le_mul_of_nonneg_right (hp.le r hr') (abs_nonneg _)

theorem slotLoad_nonneg (hs : 0 ≤ s) (ps : List Slot) (hp : ∀ p ∈ ps, p.Ok n s) : 0 ≤ slotLoad s ps := by
  refine List.sum_nonneg fun x hx => ?_
  obtain ⟨p, h, rfl⟩ := List.mem_map.1 hx
  exact mul_nonneg (hp p h).top hs

theorem frozen_lip (hG : Rates n o s G) (ps : List Slot) (hp : ∀ p ∈ ps, p.Ok n s) (x y : ℕ → ℝ) (hx : ∀ r < n, 0 ≤ x r)
    (hy : ∀ r < n, 0 ≤ y r) : ∑ r ∈ Finset.range n, |frozen G ps x r - frozen G ps y r| ≤
      slotLoad s ps * ∑ r ∈ Finset.range n, |x r - y r| := by
  induction ps with
  | nil => simp [frozen, slotLoad]
  | cons p ps ih =>
    have h1 := ih fun q hq => hp q (List.mem_cons_of_mem _ hq)
    have h2 := (hp p List.mem_cons_self).sum_le fun r => G p.k x r - G p.k y r
    have h3 := mul_le_mul_of_nonneg_left (hG.lip p.k x y hx hy) (hp p List.mem_cons_self).top
    have e : slotLoad s (p :: ps) = p.top * s + slotLoad s ps := by simp [slotLoad]
    have h4 : ∑ r ∈ Finset.range n, |frozen G (p :: ps) x r - frozen G (p :: ps) y r| ≤
        ∑ r ∈ Finset.range n, |p.mult r * (G p.k x r - G p.k y r)| +
          ∑ r ∈ Finset.range n, |frozen G ps x r - frozen G ps y r| := by
      rw [← Finset.sum_add_distrib]
      refine Finset.sum_le_sum fun r _ => ?_
      have : frozen G (p :: ps) x r - frozen G (p :: ps) y r =
          p.mult r * (G p.k x r - G p.k y r) + (frozen G ps x r - frozen G ps y r) := by
        simp only [frozen, List.map_cons, List.sum_cons]; ring
      rw [this]
      exact abs_add_le _ _
    rw [e]
    linarith

theorem Slot.Ok.run_nonneg (hG : Rates n o s G) {p : Slot} (hp : p.Ok n s) (x : ℕ → ℝ) (hx : ∀ r < n, 0 ≤ x r) :
    ∀ r < n, 0 ≤ p.run G x r := by
  intro r hr
  have h1 := hG.low p.k x hx r hr
  have h2 := mul_le_mul_of_nonneg_left h1 (hp.nonneg r hr)
  have h3 : p.mult r * (s / 2) ≤ 1 := (mul_le_mul_of_nonneg_right (hp.le r hr) (by linarith [hG.slope])).trans hp.few
  have h4 := mul_le_mul_of_nonneg_right h3 (hx r hr)
  unfold Slot.run
  nlinarith

theorem Slot.Ok.run_total (hG : Rates n o s G) {p : Slot} (hp : p.Ok n s) (x : ℕ → ℝ) (hx : ∀ r < n, 0 ≤ x r) :
    ∑ r ∈ Finset.range n, |p.run G x r - x r| ≤ p.top * s * ∑ r ∈ Finset.range n, x r ∧
      ∑ r ∈ Finset.range n, p.run G x r ≤ (1 + p.top * s) * ∑ r ∈ Finset.range n, x r := by
  have h1 := hp.sum_le (G p.k x)
  have h2 := mul_le_mul_of_nonneg_left (hG.small p.k x hx) hp.top
  have h3 : ∑ r ∈ Finset.range n, |p.run G x r - x r| ≤ p.top * s * ∑ r ∈ Finset.range n, x r := by
    simp only [Slot.run, add_sub_cancel_left]
    linarith
  refine ⟨h3, ?_⟩
  have h4 : ∑ r ∈ Finset.range n, p.run G x r ≤ ∑ r ∈ Finset.range n, |p.run G x r - x r| + ∑ r ∈ Finset.range n, x r := by
    rw [← Finset.sum_add_distrib]
    exact Finset.sum_le_sum fun r _ => by linarith [le_abs_self (p.run G x r - x r)]
  linarith

/-- A readout is close to its frozen form. -/
theorem run_frozen (hG : Rates n o s G) (ps : List Slot) (hp : ∀ p ∈ ps, p.Ok n s) (x : ℕ → ℝ) (hx : ∀ r < n, 0 ≤ x r) :
    ∑ r ∈ Finset.range n, |runSlots G ps x r - x r - frozen G ps x r| ≤
      (Real.exp (slotLoad s ps) - 1 - slotLoad s ps) * ∑ r ∈ Finset.range n, x r := by
  induction ps generalizing x with
  | nil => simp [runSlots, frozen, slotLoad]
  | cons p ps ih =>
    have hp1 := hp p List.mem_cons_self
    have hp' : ∀ q ∈ ps, q.Ok n s := fun q hq => hp q (List.mem_cons_of_mem _ hq)
    have y0 := hp1.run_nonneg hG x hx
    obtain ⟨y1, y2⟩ := hp1.run_total hG x hx
    set y := p.run G x with hy
    have h1 := ih hp' y y0
    have h2 := frozen_lip hG ps hp' y x y0 hx
    have hX : 0 ≤ ∑ r ∈ Finset.range n, x r := Finset.sum_nonneg fun r hr => hx r (Finset.mem_range.1 hr)
    have e : slotLoad s (p :: ps) = p.top * s + slotLoad s ps := by simp [slotLoad]
    have hl := slotLoad_nonneg hG.slope ps hp'
    have ha : 0 ≤ p.top * s := mul_nonneg hp1.top hG.slope
    have h3 : ∑ r ∈ Finset.range n, |runSlots G (p :: ps) x r - x r - frozen G (p :: ps) x r| ≤
        ∑ r ∈ Finset.range n, |runSlots G ps y r - y r - frozen G ps y r| +
          ∑ r ∈ Finset.range n, |frozen G ps y r - frozen G ps x r| := by
      rw [← Finset.sum_add_distrib]
      refine Finset.sum_le_sum fun r _ => ?_
      have : runSlots G (p :: ps) x r - x r - frozen G (p :: ps) x r =
          (runSlots G ps y r - y r - frozen G ps y r) + (frozen G ps y r - frozen G ps x r) := by
        simp only [frozen, List.map_cons, List.sum_cons, runSlots, List.foldl_cons, ← hy]
        rw [hy]
        simp only [Slot.run]
        ring
      rw [this]
      exact abs_add_le _ _
    have hE : 0 ≤ Real.exp (slotLoad s ps) - 1 - slotLoad s ps := by
      have := Real.add_one_le_exp (slotLoad s ps)
      linarith
    have h4 := mul_le_mul_of_nonneg_left y2 hE
    have h5 := mul_le_mul_of_nonneg_left y1 hl
    refine (h3.trans (add_le_add h1 h2)).trans ((add_le_add h4 h5).trans ?_)
    rw [e, Real.exp_add]
    have h6 := mul_le_mul_of_nonneg_right (Real.add_one_le_exp (p.top * s)) (Real.exp_pos (slotLoad s ps)).le
    have h7 := mul_le_mul_of_nonneg_right h6 hX
    nlinarith

theorem run_frozen_sq (hG : Rates n o s G) (ps : List Slot) (hp : ∀ p ∈ ps, p.Ok n s) (x : ℕ → ℝ) (hx : ∀ r < n, 0 ≤ x r)
    {σ : ℝ} (h : slotLoad s ps ≤ σ) (h1 : σ ≤ 1) :
    ∑ r ∈ Finset.range n, |runSlots G ps x r - x r - frozen G ps x r| ≤ σ ^ 2 * ∑ r ∈ Finset.range n, x r := by
  have h0 := slotLoad_nonneg hG.slope ps hp
  refine (run_frozen hG ps hp x hx).trans (mul_le_mul_of_nonneg_right ?_
    (Finset.sum_nonneg fun r hr => hx r (Finset.mem_range.1 hr)))
  have h2 := Real.abs_exp_sub_one_sub_id_le (x := slotLoad s ps) (by rw [abs_of_nonneg h0]; linarith)
  have h3 := (abs_le.1 h2).2
  have h4 : slotLoad s ps ^ 2 ≤ σ ^ 2 := pow_le_pow_left₀ h0 h 2
  linarith

/-! ### frozen forms -/

/-- The part of `t` transfers that is between number `j M` and number `(j + 1) M`. -/
noncomputable def share (M : ℝ) (j : ℕ) (t : ℝ) : ℝ := min t ((j + 1) * M) - min t (j * M)

theorem share_sum (M : ℝ) (e : ℕ) (t : ℝ) : ∑ j ∈ Finset.range e, share M j t = min t (e * M) - min t 0 := by
  have := Finset.sum_range_sub (fun j : ℕ => min t ((j : ℝ) * M)) e
  simp only [Nat.cast_add, Nat.cast_one, Nat.cast_zero, zero_mul] at this
  exact this

theorem share_zero {M : ℝ} (hM : 0 ≤ M) (j : ℕ) : share M j 0 = 0 := by
  have h1 : 0 ≤ (j : ℝ) * M := by positivity
  have h2 : 0 ≤ ((j : ℝ) + 1) * M := by positivity
  rw [share, min_eq_left h1, min_eq_left h2, sub_zero]

theorem share_steps {M : ℝ} (hM : 0 ≤ M) (j u : ℕ) :
    share M j u = ∑ k ∈ Finset.range u, (share M j (k + 1) - share M j k) := by
  have := Finset.sum_range_sub (fun k : ℕ => share M j (k : ℝ)) u
  simp only [Nat.cast_add, Nat.cast_one, Nat.cast_zero] at this
  rw [this, share_zero hM, sub_zero]

theorem share_mono {M : ℝ} (hM : 0 ≤ M) (j : ℕ) {t t' : ℝ} (h : t ≤ t') : share M j t ≤ share M j t' := by
  unfold share
  have : (j : ℝ) * M ≤ (j + 1) * M := by nlinarith
  rcases le_total t (j * M) with h1 | h1 <;> rcases le_total t' (j * M) with h2 | h2 <;>
    rcases le_total t ((j + 1) * M) with h3 | h3 <;> rcases le_total t' ((j + 1) * M) with h4 | h4 <;>
    simp only [min_eq_left, min_eq_right, h1, h2, h3, h4] <;> linarith

theorem share_le {M : ℝ} (hM : 0 ≤ M) (j : ℕ) (t : ℝ) : 0 ≤ share M j t ∧ share M j t ≤ M := by
  unfold share
  have : (j : ℝ) * M ≤ (j + 1) * M := by nlinarith
  rcases le_total t (j * M) with h1 | h1 <;> rcases le_total t ((j + 1) * M) with h3 | h3 <;>
    simp only [min_eq_left, min_eq_right, h1, h3] <;> constructor <;> nlinarith

/-- A transfer belongs only to the pass whose share it overlaps. -/
theorem share_step_zero {M : ℝ} (hM : 0 ≤ M) (j k : ℕ) (h : (k : ℝ) + 1 ≤ j * M ∨ ((j : ℝ) + 1) * M ≤ k) :
    share M j (k + 1) - share M j k = 0 := by
  unfold share
  have h0 : (j : ℝ) * M ≤ (j + 1) * M := by nlinarith
  rcases h with h | h
  · rw [min_eq_left (by linarith), min_eq_left h, min_eq_left (by linarith), min_eq_left (by linarith)]; ring
  · rw [min_eq_right (by linarith), min_eq_right (by linarith), min_eq_right h, min_eq_right (by linarith)]; ring

/-- Passes that stand for `M` transfers each, at the first of these, against all transfers. -/
theorem frozen_gap (hG : Rates n o s G) {M : ℝ} (hM : 0 ≤ M) (e K W : ℕ) (hK : (K : ℝ) ≤ e * M)
    (hW : ∀ j p k : ℕ, ⌊(j : ℝ) * M⌋₊ ≤ p → p < k → (k : ℝ) < (j + 1) * M → k ≤ p + W) (u : ℕ → ℕ)
    (hu : ∀ r < n, u r ≤ r + o + 1 ∧ u r ≤ K) (x : ℕ → ℝ) (hx : ∀ r < n, 0 ≤ x r) :
    ∑ r ∈ Finset.range n, |∑ k ∈ Finset.range (u r), G k x r -
        ∑ j ∈ Finset.range e, share M j (u r) * G ⌊(j : ℝ) * M⌋₊ x r| ≤ s / 2 * W * ∑ r ∈ Finset.range n, x r := by
  have hs := hG.slope
  set w : ℕ → ℕ → ℝ := fun j k => share M j (k + 1) - share M j k with hw
  have w0 : ∀ j k, 0 ≤ w j k := fun j k => sub_nonneg.2 (share_mono hM j (by linarith))
  have w1 : ∀ k < K, ∑ j ∈ Finset.range e, w j k = 1 := by
    intro k hk
    have hk' : (k : ℝ) + 1 ≤ K := by exact_mod_cast hk
    have hk0 : (0 : ℝ) ≤ k := by positivity
    simp only [hw]
    rw [Finset.sum_sub_distrib, share_sum, share_sum, min_eq_left (a := (k : ℝ) + 1) (b := e * M) (by linarith),
      min_eq_left (a := (k : ℝ)) (b := e * M) (by linarith), min_eq_right (a := (k : ℝ) + 1) (b := 0) (by linarith),
      min_eq_right (a := (k : ℝ)) (b := 0) (by linarith)]
    ring
  set A : ℕ → ℕ → ℕ → ℝ := fun r k j => if k ≤ r + o then |G k x r - G ⌊(j : ℝ) * M⌋₊ x r| else 0 with hA
  have A0 : ∀ r k j, 0 ≤ A r k j := by
    intro r k j
    simp only [hA]
    split
    · exact abs_nonneg _
    · exact le_rfl
  have step1 : ∀ r < n, |∑ k ∈ Finset.range (u r), G k x r -
        ∑ j ∈ Finset.range e, share M j (u r) * G ⌊(j : ℝ) * M⌋₊ x r| ≤
      ∑ k ∈ Finset.range K, ∑ j ∈ Finset.range e, w j k * A r k j := by
    intro r hr
    obtain ⟨u1, u2⟩ := hu r hr
    have e1 : ∑ k ∈ Finset.range (u r), G k x r - ∑ j ∈ Finset.range e, share M j (u r) * G ⌊(j : ℝ) * M⌋₊ x r =
        ∑ k ∈ Finset.range (u r), ∑ j ∈ Finset.range e, w j k * (G k x r - G ⌊(j : ℝ) * M⌋₊ x r) := by
      have f1 : ∑ k ∈ Finset.range (u r), G k x r =
          ∑ k ∈ Finset.range (u r), ∑ j ∈ Finset.range e, w j k * G k x r := by
        refine Finset.sum_congr rfl fun k hk => ?_
        rw [← Finset.sum_mul, w1 k (lt_of_lt_of_le (Finset.mem_range.1 hk) u2), one_mul]
      have f2 : ∑ j ∈ Finset.range e, share M j (u r) * G ⌊(j : ℝ) * M⌋₊ x r =
          ∑ k ∈ Finset.range (u r), ∑ j ∈ Finset.range e, w j k * G ⌊(j : ℝ) * M⌋₊ x r := by
        rw [Finset.sum_comm]
        refine Finset.sum_congr rfl fun j _ => ?_
        rw [share_steps hM, Finset.sum_mul]
      rw [f1, f2, ← Finset.sum_sub_distrib]
      refine Finset.sum_congr rfl fun k _ => ?_
      rw [← Finset.sum_sub_distrib]
      exact Finset.sum_congr rfl fun j _ => by ring
    rw [e1]
    refine (Finset.abs_sum_le_sum_abs _ _).trans ?_
    refine le_trans (Finset.sum_le_sum (g := fun k => ∑ j ∈ Finset.range e, w j k * A r k j) fun k hk => ?_)
      (Finset.sum_le_sum_of_subset_of_nonneg (Finset.range_mono u2) fun k _ _ => Finset.sum_nonneg fun j _ =>
        mul_nonneg (w0 j k) (A0 r k j))
    refine (Finset.abs_sum_le_sum_abs _ _).trans (Finset.sum_le_sum fun j _ => le_of_eq ?_)
    have hk' : k ≤ r + o := by have := Finset.mem_range.1 hk; omega
    rw [abs_mul, abs_of_nonneg (w0 j k)]
    simp only [hA]
    rw [if_pos hk']
  set B : ℕ → ℝ := fun k => ∑ r ∈ Finset.range n, if r + o < k ∧ k ≤ r + o + W then x r else 0 with hB
  have step2 : ∀ k < K, ∀ j, w j k * ∑ r ∈ Finset.range n, A r k j ≤ w j k * (s / 2 * B k) := by
    intro k hk j
    by_cases hz : (k : ℝ) + 1 ≤ j * M ∨ ((j : ℝ) + 1) * M ≤ k
    · have : w j k = 0 := share_step_zero hM j k hz
      rw [this, zero_mul, zero_mul]
    · rw [not_or, not_le, not_le] at hz
      refine mul_le_mul_of_nonneg_left ?_ (w0 j k)
      have hq : ⌊(j : ℝ) * M⌋₊ ≤ k := by
        have : ⌊(j : ℝ) * M⌋₊ < k + 1 := (Nat.floor_lt (by positivity)).2 (by push_cast; exact hz.1)
        omega
      refine (hG.front _ k x hq hx).trans (mul_le_mul_of_nonneg_left ?_ (by linarith))
      refine Finset.sum_le_sum fun r hr => ?_
      have hxr := hx r (Finset.mem_range.1 hr)
      split
      · rename_i h
        rw [if_pos ⟨h.2, hW j (r + o) k h.1 h.2 hz.2⟩]
      · split
        · exact hxr
        · exact le_rfl
  calc ∑ r ∈ Finset.range n, |∑ k ∈ Finset.range (u r), G k x r -
        ∑ j ∈ Finset.range e, share M j (u r) * G ⌊(j : ℝ) * M⌋₊ x r|
      ≤ ∑ r ∈ Finset.range n, ∑ k ∈ Finset.range K, ∑ j ∈ Finset.range e, w j k * A r k j :=
        Finset.sum_le_sum fun r hr => step1 r (Finset.mem_range.1 hr)
    _ = ∑ k ∈ Finset.range K, ∑ j ∈ Finset.range e, w j k * ∑ r ∈ Finset.range n, A r k j := by
        rw [Finset.sum_comm]
        refine Finset.sum_congr rfl fun k _ => ?_
        rw [Finset.sum_comm]
        exact Finset.sum_congr rfl fun j _ => by rw [Finset.mul_sum]
    _ ≤ ∑ k ∈ Finset.range K, ∑ j ∈ Finset.range e, w j k * (s / 2 * B k) :=
        Finset.sum_le_sum fun k hk => Finset.sum_le_sum fun j _ => step2 k (Finset.mem_range.1 hk) j
    _ = s / 2 * ∑ k ∈ Finset.range K, B k := by
        rw [Finset.mul_sum]
        refine Finset.sum_congr rfl fun k hk => ?_
        rw [← Finset.sum_mul, w1 k (Finset.mem_range.1 hk), one_mul]
    _ ≤ s / 2 * (W * ∑ r ∈ Finset.range n, x r) := by
        refine mul_le_mul_of_nonneg_left ?_ (by linarith)
        simp only [hB]
        rw [Finset.sum_comm, Finset.mul_sum]
        refine Finset.sum_le_sum fun r hr => ?_
        rw [← Finset.sum_filter, Finset.sum_const, nsmul_eq_mul]
        refine mul_le_mul_of_nonneg_right ?_ (hx r (Finset.mem_range.1 hr))
        have : ((Finset.range K).filter fun k => r + o < k ∧ k ≤ r + o + W) ⊆ Finset.Ioc (r + o) (r + o + W) := by
          intro k hk
          exact Finset.mem_Ioc.2 (Finset.mem_filter.1 hk).2
        have h := Finset.card_le_card this
        rw [Nat.card_Ioc] at h
        have h' : ((Finset.range K).filter fun k => r + o < k ∧ k ≤ r + o + W).card ≤ W := by omega
        exact_mod_cast h'
    _ = s / 2 * W * ∑ r ∈ Finset.range n, x r := by ring

/-- Multipliers that need not be whole numbers. -/
theorem width_ceil {M : ℝ} (hM : 0 ≤ M) (j p k : ℕ) (h : ⌊(j : ℝ) * M⌋₊ ≤ p) (hk : p < k) (h2 : (k : ℝ) < (j + 1) * M) :
    k ≤ p + ⌈M⌉₊ := by
  have h1 : (j : ℝ) * M < p + 1 := (Nat.lt_floor_add_one _).trans_le (by exact_mod_cast Nat.add_le_add_right h 1)
  have h3 : (k : ℝ) < p + 1 + ⌈M⌉₊ := by nlinarith [Nat.le_ceil M]
  have : k < p + 1 + ⌈M⌉₊ := by exact_mod_cast h3
  omega

/-- Whole multipliers. -/
theorem width_nat (M : ℕ) (j p k : ℕ) (h : ⌊(j : ℝ) * (M : ℝ)⌋₊ ≤ p) (hk : p < k) (h2 : (k : ℝ) < (j + 1) * (M : ℝ)) :
    k ≤ p + (M - 1) := by
  have e : ⌊(j : ℝ) * (M : ℝ)⌋₊ = j * M := by
    rw [← Nat.cast_mul, Nat.floor_natCast]
  rw [e] at h
  have h2' : k < (j + 1) * M := by exact_mod_cast h2
  have e2 : (j + 1) * M = j * M + M := by ring
  omega

/-! ### gains of the rows in a pass -/

/-- Gains of the rows of a list that pass one after the other. -/
noncomputable def Ref.gains (f : ℝ → ℝ) (dw : ℝ) : List ℕ → (ℕ → ℝ) → List Ref.Traps → ℕ → ℝ
  | [], _, _, _ => 0
  | p :: R, x, ts, r => if r = p then Ref.gain f dw ts (x p) else Ref.gains f dw R x (Ref.after f dw ts (x p)) r

/-- The traps after these rows. -/
noncomputable def Ref.afters (f : ℝ → ℝ) (dw : ℝ) (R : List ℕ) (x : ℕ → ℝ) (ts : List Ref.Traps) : List Ref.Traps :=
  R.foldl (fun ts r => Ref.after f dw ts (x r)) ts

section Gains

variable {dw L : ℝ} {f : ℝ → ℝ}

theorem gains_out (R : List ℕ) (x : ℕ → ℝ) (ts : List Ref.Traps) {r : ℕ} (h : r ∉ R) : Ref.gains f dw R x ts r = 0 := by
  induction R generalizing ts with
  | nil => rfl
  | cons p R ih =>
    rw [List.mem_cons, not_or] at h
    rw [Ref.gains, if_neg h.1]
    exact ih _ h.2

theorem gains_congr (R : List ℕ) (x y : ℕ → ℝ) (ts : List Ref.Traps) (h : ∀ r ∈ R, x r = y r) :
    Ref.gains f dw R x ts = Ref.gains f dw R y ts := by
  induction R generalizing ts with
  | nil => rfl
  | cons p R ih =>
    funext r
    rw [Ref.gains, Ref.gains, h p List.mem_cons_self, ih _ fun q hq => h q (List.mem_cons_of_mem _ hq)]

theorem gains_append (A B : List ℕ) (x : ℕ → ℝ) (ts : List Ref.Traps) (r : ℕ) :
    Ref.gains f dw (A ++ B) x ts r =
      if r ∈ A then Ref.gains f dw A x ts r else Ref.gains f dw B x (Ref.afters f dw A x ts) r := by
  induction A generalizing ts with
  | nil => simp [Ref.afters]
  | cons p A ih =>
    rw [List.cons_append, Ref.gains, ih]
    by_cases h : r = p
    · simp [h, Ref.gains]
    · simp [h, Ref.gains, Ref.afters]

/-- A pass with multipliers adds to every row its multiplier times its gain in the pass without. -/
theorem fold_gains (hf : LipFill f L) (m : ℕ → ℝ) (R : List ℕ) :
    ∀ (x : ℕ → ℝ) (ts : List Ref.Traps), Ref.Few dw L ts → R.Nodup →
      (∀ r ∈ R, 0 ≤ x r ∧ 0 ≤ m r ∧ m r * (Ref.totals ts * L) ≤ 1) → ∀ r,
      ((R.map fun r => (r, m r)).foldl (Ref.row f dw) (x, ts)).1 r =
        x r + if r ∈ R then m r * Ref.gains f dw R x ts r else 0 := by
  induction R with
  | nil => intro x ts _ _ _ r; simp
  | cons p R ih =>
    intro x ts hts hnd h r
    obtain ⟨h1, h2, h3⟩ := h p List.mem_cons_self
    obtain ⟨a1, a2⟩ := hts.after hf (x p)
    obtain ⟨e, -⟩ := row_plain hf hts x (p, m p) h1 h2 h3
    rw [List.nodup_cons] at hnd
    have ne : ∀ q ∈ R, q ≠ p := fun q hq h => hnd.1 (h ▸ hq)
    rw [List.map_cons, List.foldl_cons, e, ih _ _ a1 hnd.2 fun q hq => by
      rw [a2, Function.update_of_ne (ne q hq)]
      exact h q (List.mem_cons_of_mem _ hq)]
    rw [gains_congr R _ x _ fun q hq => by rw [Function.update_of_ne (ne q hq)]]
    by_cases hr : r = p
    · subst hr
      rw [Function.update_self, if_neg hnd.1, if_pos List.mem_cons_self, Ref.gains, if_pos rfl]
      ring
    · rw [Function.update_of_ne hr]
      simp only [List.mem_cons, hr, false_or, Ref.gains, if_false]

theorem gains_low (hf : LipFill f L) (R : List ℕ) (x : ℕ → ℝ) (ts : List Ref.Traps) (hts : Ref.Few dw L ts) {r : ℕ}
    (hx : 0 ≤ x r) : -(Ref.totals ts * L * x r) ≤ Ref.gains f dw R x ts r := by
  induction R generalizing ts with
  | nil =>
    have := mul_nonneg (mul_nonneg (Ref.totals_nonneg hts.reg) hts.slope) hx
    simp only [Ref.gains]
    linarith
  | cons p R ih =>
    rw [Ref.gains]
    split
    · rename_i h
      subst h
      exact hts.gain_ge hf hx
    · obtain ⟨a1, a2⟩ := hts.after hf (x p)
      have := ih _ a1
      rwa [a2] at this

theorem gains_small (hf : LipFill f L) (R : List ℕ) (x : ℕ → ℝ) (ts : List Ref.Traps) (hts : Ref.Few dw L ts) (hnd : R.Nodup)
    (hx : ∀ r ∈ R, 0 ≤ x r) :
    (R.map fun r => |Ref.gains f dw R x ts r|).sum ≤ Ref.filling ts + 2 * (Ref.totals ts * L) * (R.map x).sum := by
  induction R generalizing ts with
  | nil => simpa using hts.filling_nonneg
  | cons p R ih =>
    obtain ⟨a1, a2⟩ := hts.after hf (x p)
    rw [List.nodup_cons] at hnd
    have i := ih _ a1 hnd.2 fun r hr => hx r (List.mem_cons_of_mem _ hr)
    have e : (R.map fun r => |Ref.gains f dw (p :: R) x ts r|) =
        R.map fun r => |Ref.gains f dw R x (Ref.after f dw ts (x p)) r| := by
      refine List.map_congr_left fun q hq => ?_
      have : q ≠ p := fun h => hnd.1 (h ▸ hq)
      rw [Ref.gains, if_neg this]
    rw [List.map_cons, List.sum_cons, e, List.map_cons, List.sum_cons, Ref.gains, if_pos rfl]
    rw [a2] at i
    have g1 := hts.gain_eq hf (x p)
    have g2 := hts.gain_ge hf (hx p List.mem_cons_self)
    have g3 := mul_nonneg (mul_nonneg (Ref.totals_nonneg hts.reg) hts.slope) (hx p List.mem_cons_self)
    rcases abs_cases (Ref.gain f dw ts (x p)) with ⟨h, -⟩ | ⟨h, -⟩ <;> rw [h] <;> nlinarith

theorem gains_lip (hf : LipFill f L) (R : List ℕ) (x y : ℕ → ℝ) (ts ts' : List Ref.Traps) (g : ℝ) (hts : Ref.Few dw L ts)
    (htw : Ref.Twins dw ts ts' g) (hl : 2 * (Ref.totals ts * L) ≤ 1) (hnd : R.Nodup) :
    (1 - 2 * (Ref.totals ts * L)) * (R.map fun r => |Ref.gains f dw R x ts r - Ref.gains f dw R y ts' r|).sum ≤
      g + 2 * (Ref.totals ts * L) * (R.map fun r => |x r - y r|).sum := by
  induction R generalizing ts ts' g with
  | nil => simpa using htw.nonneg hts.reg
  | cons p R ih =>
    obtain ⟨a1, a2⟩ := hts.after hf (x p)
    obtain ⟨g1, t1, t2⟩ := htw.step hf hts hl (x p) (y p)
    rw [List.nodup_cons] at hnd
    have i := ih _ _ g1 a1 t1 (by rw [a2]; exact hl) hnd.2
    have e : (R.map fun r => |Ref.gains f dw (p :: R) x ts r - Ref.gains f dw (p :: R) y ts' r|) =
        R.map fun r => |Ref.gains f dw R x (Ref.after f dw ts (x p)) r - Ref.gains f dw R y (Ref.after f dw ts' (y p)) r| := by
      refine List.map_congr_left fun q hq => ?_
      have : q ≠ p := fun h => hnd.1 (h ▸ hq)
      rw [Ref.gains, if_neg this, Ref.gains, if_neg this]
    rw [List.map_cons, List.sum_cons, e, List.map_cons, List.sum_cons, Ref.gains, if_pos rfl, Ref.gains, if_pos rfl]
    rw [a2] at i
    nlinarith

/-- The same traps, empty. -/
def Ref.Spent (dw : ℝ) : List Ref.Traps → List Ref.Traps → Prop :=
  List.Forall₂ fun t t0 => t0 = t.empty ∧ t0.Reg dw

theorem Ref.Spent.after (hf : LipFill f L) {ts ts0 : List Ref.Traps} (h : Ref.Spent dw ts ts0) (hts : Ref.Few dw L ts)
    (n : ℝ) : Ref.Spent dw (Ref.after f dw ts n) ts0 := by
  induction h with
  | nil => exact .nil
  | @cons t t0 ts ts0 h hs ih =>
    obtain ⟨h1, h2, h3, -⟩ := hts.cons
    unfold Ref.after
    rw [List.map_cons, h1.transfer_plain hf h2]
    exact .cons ⟨h.1, h.2⟩ (ih h3)

theorem Ref.Spent.twins {ts ts0 : List Ref.Traps} (h : Ref.Spent dw ts ts0) (hts : ∀ t ∈ ts, t.Reg dw) :
    Ref.Twins dw ts ts0 (Ref.filling ts) := by
  induction h with
  | nil => exact .nil
  | @cons t t0 ts ts0 h hs ih =>
    obtain ⟨rfl, h2⟩ := h
    have := Ref.Twins.cons t (fun _ _ => 0) h2 (ih fun x hx => hts x (List.mem_cons_of_mem _ hx))
    have e : t.gap (fun _ _ => 0) = t.filled := by
      unfold Ref.Traps.gap Ref.Traps.filled
      refine Finset.sum_congr rfl fun j _ => ?_
      congr 1
      refine intervalIntegral.integral_congr fun d _ => ?_
      simp only [sub_zero]
      exact abs_of_nonneg ((hts t List.mem_cons_self).frac d j).1
    rw [e] at this
    exact this

theorem afters_facts (hf : LipFill f L) (A : List ℕ) (x : ℕ → ℝ) (ts ts0 : List Ref.Traps) (hts : Ref.Few dw L ts)
    (hs : Ref.Spent dw ts ts0) (hx : ∀ r ∈ A, 0 ≤ x r) :
    Ref.Few dw L (Ref.afters f dw A x ts) ∧ Ref.totals (Ref.afters f dw A x ts) = Ref.totals ts ∧
      Ref.Spent dw (Ref.afters f dw A x ts) ts0 ∧
      Ref.filling (Ref.afters f dw A x ts) ≤ Ref.filling ts + Ref.totals ts * L * (A.map x).sum := by
  induction A generalizing ts with
  | nil => exact ⟨hts, rfl, hs, by simp [Ref.afters]⟩
  | cons p A ih =>
    obtain ⟨a1, a2⟩ := hts.after hf (x p)
    obtain ⟨i1, i2, i3, i4⟩ := ih _ a1 (hs.after hf hts (x p)) fun r hr => hx r (List.mem_cons_of_mem _ hr)
    have e : Ref.afters f dw (p :: A) x ts = Ref.afters f dw A x (Ref.after f dw ts (x p)) := rfl
    rw [e]
    refine ⟨i1, i2.trans a2, i3, ?_⟩
    have g1 := hts.gain_eq hf (x p)
    have g2 := hts.gain_ge hf (hx p List.mem_cons_self)
    rw [a2] at i4
    rw [List.map_cons, List.sum_cons]
    nlinarith

/-! ### rows of a column -/

/-- The rows of a column that make the transfer over pixel number `k` from the far end. -/
def Ref.rowsFrom (n o k : ℕ) : List ℕ := (List.range n).filter fun r => k ≤ r + o

theorem rowsFrom_nodup (n o k : ℕ) : (Ref.rowsFrom n o k).Nodup := List.nodup_range.filter _

theorem mem_rowsFrom {n o k r : ℕ} : r ∈ Ref.rowsFrom n o k ↔ r < n ∧ k ≤ r + o := by
  simp [Ref.rowsFrom]

theorem filter_sum (n : ℕ) (p : ℕ → Bool) (g : ℕ → ℝ) :
    (((List.range n).filter p).map g).sum = ∑ r ∈ Finset.range n, if p r then g r else 0 := by
  induction n with
  | zero => simp
  | succ n ih =>
    rw [List.range_succ, List.filter_append, List.map_append, List.sum_append, ih, Finset.sum_range_succ]
    congr 1
    by_cases h : p n <;> simp [h]

theorem rowsFrom_split {o k' k : ℕ} (h : k' ≤ k) (n : ℕ) : Ref.rowsFrom n o k' =
    ((List.range n).filter fun r => k' ≤ r + o ∧ r + o < k) ++ Ref.rowsFrom n o k := by
  unfold Ref.rowsFrom
  induction n with
  | zero => rfl
  | succ n ih =>
    rw [List.range_succ, List.filter_append, List.filter_append, List.filter_append, ih]
    by_cases h1 : k ≤ n + o
    · have h2 : k' ≤ n + o := by omega
      have h3 : ¬(n + o < k) := by omega
      simp [h1, h2, h3]
    · have h4 : ((List.range n).filter fun r => decide (k ≤ r + o)) = [] := by
        rw [List.filter_eq_nil_iff]
        intro r hr
        have := List.mem_range.1 hr
        simp only [decide_eq_true_eq]
        omega
      by_cases h2 : k' ≤ n + o
      · have h5 : n + o < k := by omega
        simp [h1, h2, h4, h5]
      · simp [h1, h2, h4]

/-- Gains of the rows in a pass of all rows from number `k` on, without multipliers. -/
noncomputable def Ref.unitPass (f : ℝ → ℝ) (dw : ℝ) (ts : List Ref.Traps) (n o k : ℕ) (x : ℕ → ℝ) (r : ℕ) : ℝ :=
  Ref.gains f dw (Ref.rowsFrom n o k) x ts r

theorem unitPass_rates (hf : LipFill f L) (ts : List Ref.Traps) (hts : Ref.Few dw L ts) (hs : Ref.Spent dw ts ts)
    (h0 : Ref.filling ts = 0) (hl : 2 * (Ref.totals ts * L) < 1) (n o : ℕ) :
    Rates n o (passSlope 1 (2 * (Ref.totals ts * L))) (Ref.unitPass f dw ts n o) := by
  have hk : 0 ≤ Ref.totals ts * L := mul_nonneg (Ref.totals_nonneg hts.reg) hts.slope
  set κ := Ref.totals ts * L with hκ
  have hpos : 0 < 1 - 2 * κ := by linarith
  have hsl : 2 * κ ≤ passSlope 1 (2 * κ) := by
    unfold passSlope
    rw [one_mul, le_div_iff₀ hpos]
    nlinarith
  have out : ∀ k x r, ¬(k ≤ r + o) → Ref.unitPass f dw ts n o k x r = 0 := fun k x r h =>
    gains_out _ _ _ fun h' => h (mem_rowsFrom.1 h').2
  have conv : ∀ (k : ℕ) (g : ℕ → ℝ), (∀ r, ¬(k ≤ r + o) → g r = 0) →
      ∑ r ∈ Finset.range n, g r = ((Ref.rowsFrom n o k).map g).sum := by
    intro k g hg
    unfold Ref.rowsFrom
    rw [filter_sum]
    refine Finset.sum_congr rfl fun r _ => ?_
    by_cases h : k ≤ r + o
    · simp [h]
    · simp [h, hg r h]
  have le : ∀ (k : ℕ) (g : ℕ → ℝ), (∀ r < n, 0 ≤ g r) → ((Ref.rowsFrom n o k).map g).sum ≤ ∑ r ∈ Finset.range n, g r := by
    intro k g hg
    unfold Ref.rowsFrom
    rw [filter_sum]
    refine Finset.sum_le_sum fun r hr => ?_
    split
    · exact le_rfl
    · exact hg r (Finset.mem_range.1 hr)
  refine ⟨by linarith, ?_, ?_, ?_, ?_⟩
  · intro k x y hx hy
    rw [conv k _ fun r h => by rw [out k x r h, out k y r h]; simp]
    have := gains_lip hf (Ref.rowsFrom n o k) x y ts ts 0 hts (Ref.Twins.refl hts.reg) hl.le (rowsFrom_nodup n o k)
    have h2 := mul_le_mul_of_nonneg_left (le k (fun r => |x r - y r|) fun _ _ => abs_nonneg _) (by linarith : 0 ≤ 2 * κ)
    unfold passSlope
    rw [div_mul_eq_mul_div, le_div_iff₀ hpos, mul_comm, one_mul]
    refine le_trans this ?_
    rw [zero_add]
    exact h2
  · intro k x hx
    rw [conv k _ fun r h => by rw [out k x r h]; simp]
    have := gains_small hf (Ref.rowsFrom n o k) x ts hts (rowsFrom_nodup n o k) fun r hr => hx r (mem_rowsFrom.1 hr).1
    rw [h0, zero_add] at this
    refine le_trans this ?_
    refine mul_le_mul hsl (le k x hx) ?_ (by linarith)
    refine List.sum_nonneg fun z hz => ?_
    obtain ⟨r, hr, rfl⟩ := List.mem_map.1 hz
    exact hx r (mem_rowsFrom.1 hr).1
  · intro k' k x hkk hx
    set A := (List.range n).filter fun r => k' ≤ r + o ∧ r + o < k with hA
    have hAx : ∀ r ∈ A, 0 ≤ x r := fun r hr => hx r (List.mem_range.1 (List.mem_filter.1 hr).1)
    obtain ⟨a1, a2, a3, a4⟩ := afters_facts hf A x ts ts hts hs hAx
    rw [conv k _ fun r h => by rw [if_neg h]]
    have e : ((Ref.rowsFrom n o k).map fun r => if k ≤ r + o then
        |Ref.unitPass f dw ts n o k x r - Ref.unitPass f dw ts n o k' x r| else 0) =
        (Ref.rowsFrom n o k).map fun r => |Ref.gains f dw (Ref.rowsFrom n o k) x (Ref.afters f dw A x ts) r -
          Ref.gains f dw (Ref.rowsFrom n o k) x ts r| := by
      refine List.map_congr_left fun r hr => ?_
      have hr' := mem_rowsFrom.1 hr
      have hrA : r ∉ A := by
        rw [hA, List.mem_filter]
        rintro ⟨-, h⟩
        simp only [decide_eq_true_eq] at h
        omega
      rw [if_pos hr'.2, abs_sub_comm]
      unfold Ref.unitPass
      rw [rowsFrom_split hkk, gains_append, if_neg hrA]
    rw [e]
    have := gains_lip hf (Ref.rowsFrom n o k) x x _ ts _ a1 (a3.twins a1.reg) (by rw [a2]; exact hl.le) (rowsFrom_nodup n o k)
    rw [a2] at this
    simp only [sub_self, abs_zero, List.map_const', List.sum_replicate, smul_zero, mul_zero, add_zero] at this
    have e2 : (A.map x).sum = ∑ r ∈ Finset.range n, if k' ≤ r + o ∧ r + o < k then x r else 0 := by
      rw [hA, filter_sum]
      refine Finset.sum_congr rfl fun r _ => ?_
      simp only [decide_eq_true_eq]
    rw [h0, zero_add, e2] at a4
    unfold passSlope
    rw [div_div, div_mul_eq_mul_div, le_div_iff₀ (by linarith), mul_comm]
    nlinarith
  · intro k x hx r hr
    have := gains_low hf (Ref.rowsFrom n o k) x ts hts (hx r hr)
    have h2 := mul_le_mul_of_nonneg_right hsl (hx r hr)
    unfold Ref.unitPass
    linarith

end Gains

end Arctic
