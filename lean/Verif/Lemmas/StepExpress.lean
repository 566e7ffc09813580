import Verif.Lemmas.Gentle
import Verif.Props.InvertExpress

/-!
# Express readouts with traps whose transfers are Lipschitz
-/

set_option linter.unusedSectionVars false
set_option linter.unusedVariables false

namespace Arctic
open Ref (stepRow stepPass stepReadout)
open Finset (range)

/-- Traps that begin as `s0` and can be told from it only by the electrons they hold, and that take at most the fraction
`κ` of a cloud. -/
structure EmptyStart {σ : Type} (step : σ → ℝ → ℝ × σ) (Inv : σ → Prop) (near : σ → σ → ℝ → Prop) (mass : σ → ℝ) (κ : ℝ)
    (s0 : σ) (Sp : σ → Prop) : Prop where
  inv : Inv s0
  empty : mass s0 = 0
  start : Sp s0
  after : ∀ s n, Inv s → 0 ≤ n → Sp s → Sp (step s n).2
  near : ∀ s, Inv s → Sp s → near s s0 (mass s)
  slope : 0 ≤ κ
  low : ∀ s n, Inv s → 0 ≤ n → -(κ * n) ≤ (step s n).1

/-- Gains of the rows of a list that pass one after the other. -/
noncomputable def Ref.stepGains {σ : Type} (step : σ → ℝ → ℝ × σ) : List ℕ → (ℕ → ℝ) → σ → ℕ → ℝ
  | [], _, _, _ => 0
  | p :: R, x, s, r => if r = p then (step s (x p)).1 else Ref.stepGains step R x (step s (x p)).2 r

/-- The traps after these rows. -/
noncomputable def Ref.stepAfters {σ : Type} (step : σ → ℝ → ℝ × σ) (R : List ℕ) (x : ℕ → ℝ) (s : σ) : σ :=
  R.foldl (fun s r => (step s (x r)).2) s

/-- Gains of the rows in a pass of all rows from number `k` on, without multipliers. -/
noncomputable def Ref.stepUnit {σ : Type} (step : σ → ℝ → ℝ × σ) (s : σ) (n o k : ℕ) (x : ℕ → ℝ) (r : ℕ) : ℝ :=
  Ref.stepGains step (Ref.rowsFrom n o k) x s r

section gains
variable {σ : Type} {step : σ → ℝ → ℝ × σ} {Inv : σ → Prop} {near : σ → σ → ℝ → Prop} {mass : σ → ℝ} {l T κ : ℝ}
  {s0 : σ} {Sp : σ → Prop}

theorem stepGains_out (R : List ℕ) (x : ℕ → ℝ) (s : σ) {r : ℕ} (h : r ∉ R) : Ref.stepGains step R x s r = 0 := by
  induction R generalizing s with
  | nil => rfl
  | cons p R ih =>
    rw [List.mem_cons, not_or] at h
    rw [Ref.stepGains, if_neg h.1]
    exact ih _ h.2

theorem stepGains_congr (R : List ℕ) (x y : ℕ → ℝ) (s : σ) (h : ∀ r ∈ R, x r = y r) :
    Ref.stepGains step R x s = Ref.stepGains step R y s := by
  induction R generalizing s with
  | nil => rfl
  | cons p R ih =>
    funext r
    rw [Ref.stepGains, Ref.stepGains, h p List.mem_cons_self, ih _ fun q hq => h q (List.mem_cons_of_mem _ hq)]

theorem stepGains_append (A B : List ℕ) (x : ℕ → ℝ) (s : σ) (r : ℕ) :
    Ref.stepGains step (A ++ B) x s r =
      if r ∈ A then Ref.stepGains step A x s r else Ref.stepGains step B x (Ref.stepAfters step A x s) r := by
  induction A generalizing s with
  | nil => simp [Ref.stepAfters]
  | cons p A ih =>
    rw [List.cons_append, Ref.stepGains, ih]
    by_cases h : r = p
    · simp [h, Ref.stepGains]
    · simp [h, Ref.stepGains, Ref.stepAfters]

theorem EmptyStart.row (hF : EmptyStart step Inv near mass κ s0 Sp) {s : σ} (hs : Inv s) (x : ℕ → ℝ) (p : ℕ) {m : ℝ} (hx : 0 ≤ x p)
    (hm : 0 ≤ m) (hk : m * κ ≤ 1) :
    stepRow step (x, s) (p, m) = (Function.update x p (x p + m * (step s (x p)).1), (step s (x p)).2) := by
  unfold stepRow
  by_cases h0 : m = 0
  · simp [h0]
  · have h1 := mul_le_mul_of_nonneg_left (hF.low s _ hs hx) hm
    have h2 := mul_le_mul_of_nonneg_right hk hx
    have : 0 ≤ x p + (step s (x p)).1 * m := by nlinarith
    simp only [if_neg h0, max_eq_right this, mul_comm m]

/-- A pass with multipliers adds to every row its multiplier times its gain in the pass without. -/
theorem EmptyStart.fold (hF : EmptyStart step Inv near mass κ s0 Sp) (hG : Gentle step Inv near mass l T) (m : ℕ → ℝ) (R : List ℕ) :
    ∀ (x : ℕ → ℝ) (s : σ), Inv s → R.Nodup → (∀ r ∈ R, 0 ≤ x r ∧ 0 ≤ m r ∧ m r * κ ≤ 1) → ∀ r,
      ((R.map fun r => (r, m r)).foldl (stepRow step) (x, s)).1 r =
        x r + if r ∈ R then m r * Ref.stepGains step R x s r else 0 := by
  induction R with
  | nil => intro x s _ _ _ r; simp
  | cons p R ih =>
    intro x s hs hnd h r
    obtain ⟨h1, h2, h3⟩ := h p List.mem_cons_self
    rw [List.nodup_cons] at hnd
    have ne : ∀ q ∈ R, q ≠ p := fun q hq h => hnd.1 (h ▸ hq)
    rw [List.map_cons, List.foldl_cons, hF.row hs x p h1 h2 h3, ih _ _ (hG.inv s _ hs h1) hnd.2 fun q hq => by
      rw [Function.update_of_ne (ne q hq)]
      exact h q (List.mem_cons_of_mem _ hq)]
    rw [stepGains_congr R _ x _ fun q hq => by rw [Function.update_of_ne (ne q hq)]]
    by_cases hr : r = p
    · subst hr
      rw [Function.update_self, if_neg hnd.1, if_pos List.mem_cons_self, Ref.stepGains, if_pos rfl]
      ring
    · rw [Function.update_of_ne hr]
      simp only [List.mem_cons, hr, false_or, Ref.stepGains, if_false]

theorem EmptyStart.gains_low (hF : EmptyStart step Inv near mass κ s0 Sp) (hG : Gentle step Inv near mass l T) (R : List ℕ)
    (x : ℕ → ℝ) (s : σ) (hs : Inv s) (hR : ∀ r ∈ R, 0 ≤ x r) {r : ℕ} (hx : 0 ≤ x r) :
    -(κ * x r) ≤ Ref.stepGains step R x s r := by
  induction R generalizing s with
  | nil =>
    have := mul_nonneg hF.slope hx
    simp only [Ref.stepGains]
    linarith
  | cons p R ih =>
    rw [Ref.stepGains]
    split
    · rename_i h
      subst h
      exact hF.low s _ hs hx
    · exact ih _ (hG.inv s _ hs (hR p List.mem_cons_self)) fun q hq => hR q (List.mem_cons_of_mem _ hq)

theorem Gentle.gains_high (hG : Gentle step Inv near mass l T) (hT : 0 ≤ T) (R : List ℕ) (x : ℕ → ℝ) (s : σ) (hs : Inv s)
    (hR : ∀ r ∈ R, 0 ≤ x r) (r : ℕ) : Ref.stepGains step R x s r ≤ T := by
  induction R generalizing s with
  | nil => exact hT
  | cons p R ih =>
    have i := hG.inv s _ hs (hR p List.mem_cons_self)
    rw [Ref.stepGains]
    split
    · rw [hG.gain s _ hs]
      linarith [hG.mass_nonneg _ i, hG.mass_le s hs]
    · exact ih _ i fun q hq => hR q (List.mem_cons_of_mem _ hq)

theorem EmptyStart.gains_small (hF : EmptyStart step Inv near mass κ s0 Sp) (hG : Gentle step Inv near mass l T) (R : List ℕ)
    (x : ℕ → ℝ) (s : σ) (hs : Inv s) (hnd : R.Nodup) (hx : ∀ r ∈ R, 0 ≤ x r) :
    (R.map fun r => |Ref.stepGains step R x s r|).sum ≤ mass s + 2 * κ * (R.map x).sum := by
  induction R generalizing s with
  | nil => simpa using hG.mass_nonneg s hs
  | cons p R ih =>
    rw [List.nodup_cons] at hnd
    have hp := hx p List.mem_cons_self
    have i := ih _ (hG.inv s _ hs hp) hnd.2 fun r hr => hx r (List.mem_cons_of_mem _ hr)
    have e : (R.map fun r => |Ref.stepGains step (p :: R) x s r|) =
        R.map fun r => |Ref.stepGains step R x (step s (x p)).2 r| := by
      refine List.map_congr_left fun q hq => ?_
      have : q ≠ p := fun h => hnd.1 (h ▸ hq)
      rw [Ref.stepGains, if_neg this]
    rw [List.map_cons, List.sum_cons, e, List.map_cons, List.sum_cons, Ref.stepGains, if_pos rfl]
    have g1 := hG.gain s (x p) hs
    have g2 := hF.low s _ hs hp
    have g3 := mul_nonneg hF.slope hp
    rcases abs_cases (step s (x p)).1 with ⟨h, -⟩ | ⟨h, -⟩ <;> rw [h] <;> nlinarith

theorem Gentle.gains_lip (hG : Gentle step Inv near mass l T) (R : List ℕ) (x y : ℕ → ℝ) (s s' : σ) (g : ℝ) (hs : Inv s)
    (hs' : Inv s') (hn : near s s' g) (hl : l ≤ 1) (hnd : R.Nodup) (hx : ∀ r ∈ R, 0 ≤ x r) (hy : ∀ r ∈ R, 0 ≤ y r) :
    (1 - l) * (R.map fun r => |Ref.stepGains step R x s r - Ref.stepGains step R y s' r|).sum ≤
      g + l * (R.map fun r => |x r - y r|).sum := by
  induction R generalizing s s' g with
  | nil => simpa using hG.near_nonneg s s' g hs hn
  | cons p R ih =>
    have px := hx p List.mem_cons_self
    have py := hy p List.mem_cons_self
    obtain ⟨g1, t1, t2⟩ := hG.near_step s s' g (x p) (y p) hs hs' hn px py
    rw [List.nodup_cons] at hnd
    have i := ih _ _ g1 (hG.inv s _ hs px) (hG.inv s' _ hs' py) t1 hnd.2 (fun r hr => hx r (List.mem_cons_of_mem _ hr))
      (fun r hr => hy r (List.mem_cons_of_mem _ hr))
    have e : (R.map fun r => |Ref.stepGains step (p :: R) x s r - Ref.stepGains step (p :: R) y s' r|) =
        R.map fun r => |Ref.stepGains step R x (step s (x p)).2 r - Ref.stepGains step R y (step s' (y p)).2 r| := by
      refine List.map_congr_left fun q hq => ?_
      have : q ≠ p := fun h => hnd.1 (h ▸ hq)
      rw [Ref.stepGains, if_neg this, Ref.stepGains, if_neg this]
    rw [List.map_cons, List.sum_cons, e, List.map_cons, List.sum_cons, Ref.stepGains, if_pos rfl, Ref.stepGains, if_pos rfl]
    nlinarith

theorem EmptyStart.afters (hF : EmptyStart step Inv near mass κ s0 Sp) (hG : Gentle step Inv near mass l T) (A : List ℕ)
    (x : ℕ → ℝ) (s : σ) (hs : Inv s) (hsp : Sp s) (hx : ∀ r ∈ A, 0 ≤ x r) :
    Inv (Ref.stepAfters step A x s) ∧ Sp (Ref.stepAfters step A x s) ∧
      mass (Ref.stepAfters step A x s) ≤ mass s + κ * (A.map x).sum := by
  induction A generalizing s with
  | nil => exact ⟨hs, hsp, by simp [Ref.stepAfters]⟩
  | cons p A ih =>
    have hp := hx p List.mem_cons_self
    obtain ⟨i1, i2, i3⟩ := ih (step s (x p)).2 (hG.inv s _ hs hp) (hF.after s _ hs hp hsp)
      fun r hr => hx r (List.mem_cons_of_mem _ hr)
    have e : Ref.stepAfters step (p :: A) x s = Ref.stepAfters step A x (step s (x p)).2 := rfl
    rw [e]
    refine ⟨i1, i2, ?_⟩
    have g1 := hG.gain s (x p) hs
    have g2 := hF.low s _ hs hp
    rw [List.map_cons, List.sum_cons]
    nlinarith

theorem EmptyStart.rates (hF : EmptyStart step Inv near mass κ s0 Sp) (hG : Gentle step Inv near mass l T) (hk : 2 * κ ≤ l)
    (hl : l < 1) (n o : ℕ) : Rates n o (l / (1 - l)) (Ref.stepUnit step s0 n o) := by
  have hk0 := hF.slope
  have hpos : 0 < 1 - l := by linarith
  have hsl : l ≤ l / (1 - l) := by
    rw [le_div_iff₀ hpos]
    nlinarith
  have out : ∀ k x r, ¬(k ≤ r + o) → Ref.stepUnit step s0 n o k x r = 0 := fun k x r h =>
    stepGains_out _ _ _ fun h' => h (mem_rowsFrom.1 h').2
  have conv : ∀ (k : ℕ) (g : ℕ → ℝ), (∀ r, ¬(k ≤ r + o) → g r = 0) →
      ∑ r ∈ range n, g r = ((Ref.rowsFrom n o k).map g).sum := by
    intro k g hg
    unfold Ref.rowsFrom
    rw [filter_sum]
    refine Finset.sum_congr rfl fun r _ => ?_
    by_cases h : k ≤ r + o
    · simp [h]
    · simp [h, hg r h]
  have le : ∀ (k : ℕ) (g : ℕ → ℝ), (∀ r < n, 0 ≤ g r) → ((Ref.rowsFrom n o k).map g).sum ≤ ∑ r ∈ range n, g r := by
    intro k g hg
    unfold Ref.rowsFrom
    rw [filter_sum]
    refine Finset.sum_le_sum fun r hr => ?_
    split
    · exact le_rfl
    · exact hg r (Finset.mem_range.1 hr)
  have rows : ∀ (k : ℕ) (x : ℕ → ℝ), (∀ r < n, 0 ≤ x r) → ∀ r ∈ Ref.rowsFrom n o k, 0 ≤ x r := fun k x hx r hr =>
    hx r (mem_rowsFrom.1 hr).1
  refine ⟨by linarith, ?_, ?_, ?_, ?_⟩
  · intro k x y hx hy
    rw [conv k _ fun r h => by rw [out k x r h, out k y r h]; simp]
    have := hG.gains_lip (Ref.rowsFrom n o k) x y s0 s0 0 hF.inv hF.inv (hG.near_refl s0 hF.inv) hl.le (rowsFrom_nodup n o k)
      (rows k x hx) (rows k y hy)
    have h2 := mul_le_mul_of_nonneg_left (le k (fun r => |x r - y r|) fun _ _ => abs_nonneg _) (by linarith : 0 ≤ l)
    rw [div_mul_eq_mul_div, le_div_iff₀ hpos, mul_comm]
    refine le_trans this ?_
    rw [zero_add]
    exact h2
  · intro k x hx
    rw [conv k _ fun r h => by rw [out k x r h]; simp]
    have := hF.gains_small hG (Ref.rowsFrom n o k) x s0 hF.inv (rowsFrom_nodup n o k) (rows k x hx)
    rw [hF.empty, zero_add] at this
    refine le_trans this ?_
    refine mul_le_mul (hk.trans hsl) (le k x hx) ?_ (by linarith)
    refine List.sum_nonneg fun z hz => ?_
    obtain ⟨r, hr, rfl⟩ := List.mem_map.1 hz
    exact hx r (mem_rowsFrom.1 hr).1
  · intro k' k x hkk hx
    set A := (List.range n).filter fun r => k' ≤ r + o ∧ r + o < k with hA
    have hAx : ∀ r ∈ A, 0 ≤ x r := fun r hr => hx r (List.mem_range.1 (List.mem_filter.1 hr).1)
    obtain ⟨a1, a3, a4⟩ := hF.afters hG A x s0 hF.inv hF.start hAx
    rw [conv k _ fun r h => by rw [if_neg h]]
    have e : ((Ref.rowsFrom n o k).map fun r => if k ≤ r + o then
        |Ref.stepUnit step s0 n o k x r - Ref.stepUnit step s0 n o k' x r| else 0) =
        (Ref.rowsFrom n o k).map fun r => |Ref.stepGains step (Ref.rowsFrom n o k) x (Ref.stepAfters step A x s0) r -
          Ref.stepGains step (Ref.rowsFrom n o k) x s0 r| := by
      refine List.map_congr_left fun r hr => ?_
      have hr' := mem_rowsFrom.1 hr
      have hrA : r ∉ A := by
        rw [hA, List.mem_filter]
        rintro ⟨-, h⟩
        simp only [decide_eq_true_eq] at h
        omega
      rw [if_pos hr'.2, abs_sub_comm]
      unfold Ref.stepUnit
      rw [rowsFrom_split hkk, stepGains_append, if_neg hrA]
    rw [e]
    have := hG.gains_lip (Ref.rowsFrom n o k) x x _ s0 _ a1 hF.inv (hF.near _ a1 a3) hl.le (rowsFrom_nodup n o k)
      (rows k x hx) (rows k x hx)
    simp only [sub_self, abs_zero, List.map_const', List.sum_replicate, smul_zero, mul_zero, add_zero] at this
    have e2 : (A.map x).sum = ∑ r ∈ range n, if k' ≤ r + o ∧ r + o < k then x r else 0 := by
      rw [hA, filter_sum]
      refine Finset.sum_congr rfl fun r _ => ?_
      simp only [decide_eq_true_eq]
    rw [hF.empty, zero_add, e2] at a4
    have hX : 0 ≤ ∑ r ∈ range n, if k' ≤ r + o ∧ r + o < k then x r else 0 :=
      Finset.sum_nonneg fun r hr => by
        split
        · exact hx r (Finset.mem_range.1 hr)
        · exact le_rfl
    rw [div_div, div_mul_eq_mul_div, le_div_iff₀ (by linarith), mul_comm]
    nlinarith
  · intro k x hx r hr
    have := hF.gains_low hG (Ref.rowsFrom n o k) x s0 hF.inv (rows k x hx) (hx r hr)
    have h2 := mul_le_mul_of_nonneg_right (hk.trans hsl) (hx r hr)
    unfold Ref.stepUnit
    linarith

/-! ### passes of express matrices -/

theorem Fits.stepPass (hF : EmptyStart step Inv near mass κ s0 Sp) (hG : Gentle step Inv near mass l T) {s : ℝ} (hs : 2 * κ ≤ s)
    {n o : ℕ} {todo : List (ℕ × ℝ)} {p : Slot} (h : Fits n o todo p) (hp : p.Ok n s) (x : ℕ → ℝ) (hx : ∀ r < n, 0 ≤ x r) :
    stepPass step s0 x todo = p.run (Ref.stepUnit step s0 n o) x := by
  obtain ⟨P, rfl, h1, h2⟩ := h
  have hk := hF.slope
  have mem : ∀ r, r ∈ (List.range n).filter P ↔ r < n ∧ P r = true := fun r => by simp
  funext r
  unfold Ref.stepPass
  rw [hF.fold hG p.mult _ x s0 hF.inv (List.nodup_range.filter _) fun r hr => by
    have hr' := ((mem r).1 hr).1
    refine ⟨hx r hr', hp.nonneg r hr', ?_⟩
    have a1 := mul_le_mul_of_nonneg_right (hp.le r hr') hk
    have a2 := mul_le_mul_of_nonneg_left hs hp.top
    have a3 := hp.few
    linarith]
  unfold Slot.run
  congr 1
  by_cases hr : r < n ∧ P r = true
  · rw [if_pos ((mem r).2 hr)]
    congr 1
    unfold Ref.stepUnit
    rcases h2 with h2 | h2
    · have : (List.range n).filter P = Ref.rowsFrom n o p.k := by
        refine List.filter_congr fun q hq => ?_
        rw [Bool.eq_iff_iff, decide_eq_true_eq]
        exact h2 q (List.mem_range.1 hq)
      rw [this]
    · have : (List.range n).filter P = (List.range n).filter fun q => p.k ≤ q + o ∧ q + o < p.k + 1 := by
        refine List.filter_congr fun q hq => ?_
        rw [Bool.eq_iff_iff, decide_eq_true_eq, h2 q (List.mem_range.1 hq)]
        omega
      rw [rowsFrom_split (Nat.le_succ p.k), stepGains_append, ← this, if_pos ((mem r).2 hr)]
  · rw [if_neg fun h => hr ((mem r).1 h)]
    by_cases hn : r < n
    · rw [h1 r hn fun h => hr ⟨hn, h⟩, zero_mul]
    · unfold Ref.stepUnit
      rw [stepGains_out _ _ _ fun h => hn (mem_rowsFrom.1 h).1, mul_zero]

theorem EmptyStart.readout_slots (hF : EmptyStart step Inv near mass κ s0 Sp) (hG : Gentle step Inv near mass l T) {s : ℝ}
    (hs : 2 * κ ≤ s) {n o : ℕ} (hR : Rates n o s (Ref.stepUnit step s0 n o)) (ks : List ℕ)
    (todo : ℕ → List (ℕ × ℝ)) (slot : ℕ → Slot) (h : ∀ k ∈ ks, Fits n o (todo k) (slot k) ∧ (slot k).Ok n s) (x : ℕ → ℝ)
    (hx : ∀ r < n, 0 ≤ x r) :
    stepReadout step s0 (ks.map todo) x = runSlots (Ref.stepUnit step s0 n o) (ks.map slot) x := by
  induction ks generalizing x with
  | nil => rfl
  | cons k ks ih =>
    obtain ⟨h1, h2⟩ := h k List.mem_cons_self
    unfold Ref.stepReadout runSlots at *
    rw [List.map_cons, List.map_cons, List.foldl_cons, List.foldl_cons, h1.stepPass hF hG hs h2 x hx]
    exact ih (fun q hq => h q (List.mem_cons_of_mem _ hq)) _ (h2.run_nonneg hR x hx)

/-- A pass without multipliers gains no more charge than the traps held. -/
theorem Gentle.pass_total (h : Gentle step Inv near mass l T) (R : ℕ) (todo : List (ℕ × ℝ)) :
    ∀ (x : ℕ → ℝ) (s : σ), Inv s → (∀ p ∈ todo, p.1 < R ∧ p.2 = 1) → (∀ r < R, 0 ≤ x r) →
      (∀ r < R, 0 ≤ (todo.foldl (stepRow step) (x, s)).1 r) ∧
      ∑ r ∈ range R, (todo.foldl (stepRow step) (x, s)).1 r ≤ ∑ r ∈ range R, x r + mass s := by
  induction todo with
  | nil => intro x s hs _ hx; exact ⟨hx, by simpa using h.mass_nonneg s hs⟩
  | cons p todo ih =>
    intro x s hs hp hx
    obtain ⟨p1, p2⟩ := hp p List.mem_cons_self
    rw [List.foldl_cons, h.row hs x (hx _ p1) p2]
    obtain ⟨i1, i2⟩ := ih _ _ (h.inv s _ hs (hx _ p1)) (fun q hq => hp q (List.mem_cons_of_mem _ hq)) (h.update_nonneg hs hx p1)
    refine ⟨i1, i2.trans ?_⟩
    rw [Finset.sum_update_of_mem (Finset.mem_range.2 p1), h.gain s _ hs,
      ← Finset.add_sum_erase _ _ (Finset.mem_range.2 p1), Finset.sdiff_singleton_eq_erase]
    linarith

theorem Gentle.readout_total (h : Gentle step Inv near mass l T) (R : ℕ) {s : σ} (hs : Inv s) (h0 : mass s = 0)
    (passes : List (List (ℕ × ℝ))) (hp : OnePasses R passes) (x : ℕ → ℝ) (hx : ∀ r < R, 0 ≤ x r) :
    ∑ r ∈ range R, stepReadout step s passes x r ≤ ∑ r ∈ range R, x r := by
  induction passes generalizing x with
  | nil => exact le_rfl
  | cons todo passes ih =>
    obtain ⟨a1, a2⟩ := h.pass_total R todo x s hs (hp todo List.mem_cons_self) hx
    have := ih (fun t ht => hp t (List.mem_cons_of_mem _ ht)) _ a1
    rw [h0, add_zero] at a2
    exact this.trans a2

/-- The readout of a column with an express matrix. -/
noncomputable def Ref.stepExpress (step : σ → ℝ → ℝ × σ) (s : σ) (i : Bool) (n e o : ℕ) : (ℕ → ℝ) → ℕ → ℝ :=
  Ref.stepReadout step s ((List.range (expressFull (K := ℝ) true i n e o).nr).map (matTodo (expressFull true i n e o) n o))

theorem EmptyStart.mild_express (hF : EmptyStart step Inv near mass κ s0 Sp) (hG : Gentle step Inv near mass l T) (hT : 0 ≤ T)
    (hk : 2 * κ ≤ l) (hl : l < 1) (i : Bool) (n e o : ℕ) (hn : 0 < n) (hne : effectiveExpress e (n + o) + 1 ≠ n)
    (h3 : 3 * ((n + o : ℕ) * (l / (1 - l))) ≤ 1) :
    Mild n 0 0 (Real.exp (3 * ((n + o : ℕ) * (l / (1 - l)))) - 1) (Ref.stepExpress step s0 i n e o) ∧
    ∀ x, (∀ r < n, 0 ≤ x r) → ∀ r < n, Ref.stepExpress step s0 i n e o x r ≤ x r + T * ((r + o + 1 : ℕ) : ℝ) := by
  have hR := hF.rates hG hk hl n o
  have hk0 := hF.slope
  have hs2 : 2 * κ ≤ l / (1 - l) := by
    refine hk.trans ?_
    rw [le_div_iff₀ (by linarith)]
    nlinarith
  set s := l / (1 - l) with hs
  set G := Ref.stepUnit step s0 n o with hGdef
  have hs0 := hR.slope
  obtain ⟨slot, c1, c2, -⟩ := express_slots i n e o hn hne hs0 h3
  have hcol : ∀ r < n, ((List.range (expressFull (K := ℝ) true i n e o).nr).map fun k => (slot k).mult r).sum =
      ((r + o + 1 : ℕ) : ℝ) := by
    intro r hr
    have e1 : ((List.range (expressFull (K := ℝ) true i n e o).nr).map fun k => (slot k).mult r) =
        (List.range (expressFull (K := ℝ) true i n e o).nr).map fun k => (expressFull (K := ℝ) true i n e o).e k (r + o) :=
      List.map_congr_left fun k hk => (c1 k hk).1.mult_eq hr
        (expressFull_nonneg true i n e o k (r + o) hn (by omega) (by rintro ⟨-, h⟩; exact hne h))
    have e2 := sum_expressFull (K := ℝ) true i n e o (r + o) hn (by omega) (by rintro ⟨-, h⟩; exact hne h)
    rw [e1, ← List.sum_toFinset _ List.nodup_range, List.toFinset_range, e2]
    push_cast
    ring
  unfold Ref.stepExpress
  set F := expressFull (K := ℝ) true i n e o with hF'
  have expOk' : ∀ p ∈ (List.range F.nr).map slot, p.Ok n s := by
    intro p hp
    obtain ⟨k, hk, rfl⟩ := List.mem_map.1 hp
    exact (c1 k hk).2
  have eA : ∀ x : ℕ → ℝ, (∀ r < n, 0 ≤ x r) → stepReadout step s0 ((List.range F.nr).map (matTodo F n o)) x =
      runSlots G ((List.range F.nr).map slot) x := fun x hx => hF.readout_slots hG hs2 hR _ _ slot c1 x hx
  have hE : Real.exp (slotLoad s ((List.range F.nr).map slot)) - 1 ≤ Real.exp (3 * ((n + o : ℕ) * s)) - 1 := by
    have := Real.exp_le_exp.2 c2
    linarith
  refine ⟨⟨fun x hx r hr => ?_, fun x hx => ?_, fun x y hx hy => ?_⟩, fun x hx r hr => ?_⟩
  · rw [eA x hx]
    refine le_trans ?_ (slots_floor hR _ expOk' (by linarith) x hx r hr)
    exact mul_nonneg (by linarith) (hx r hr)
  · rw [eA x hx]
    exact (slots_small hR _ expOk' x hx).trans
      (mul_le_mul_of_nonneg_right hE (Finset.sum_nonneg fun r hr => hx r (Finset.mem_range.1 hr)))
  · rw [eA x hx, eA y hy]
    exact (slots_lip hR _ expOk' x y hx hy).trans
      (mul_le_mul_of_nonneg_right hE (Finset.sum_nonneg fun _ _ => abs_nonneg _))
  · rw [eA x hx]
    have := slots_rise hR (T := T) (fun k x hx r _ => hG.gains_high hT _ x s0 hF.inv
      (fun q hq => hx q (mem_rowsFrom.1 hq).1) r) _ expOk' x hx r hr
    rw [List.map_map] at this
    change _ ≤ x r + T * ((List.range F.nr).map fun k => (slot k).mult r).sum at this
    rw [hcol r hr] at this
    exact this

theorem EmptyStart.expressed (hF : EmptyStart step Inv near mass κ s0 Sp) (hG : Gentle step Inv near mass l T)
    (hk : 2 * κ ≤ l) (hl : l < 1) (i : Bool) (n e o : ℕ) (hn : 0 < n) (hne : effectiveExpress e (n + o) + 1 ≠ n)
    (h3 : 3 * ((n + o : ℕ) * (l / (1 - l))) ≤ 1) :
    Expressed n 0 0 (expressError i n e o (l / (1 - l))) (Ref.stepExpress step s0 i n e o)
      (stepReadout step s0 (Ref.allPasses n o)) := by
  have hR := hF.rates hG hk hl n o
  have hk0 := hF.slope
  have hl0 : 0 ≤ l := by linarith
  have hs2 : 2 * κ ≤ l / (1 - l) := by
    refine hk.trans ?_
    rw [le_div_iff₀ (by linarith)]
    nlinarith
  have lip := hG.readout hl0 hl n hF.inv _ (allPasses_good n o).nodup (allPasses_one n o)
  rw [allPasses_length] at lip
  have hinv : 1 / (1 - l) = 1 + l / (1 - l) := by
    have : (1 - l) ≠ 0 := by linarith
    field_simp
    ring
  have hslope : lossSlope l (n + o) = (1 + l / (1 - l)) ^ (n + o) - 1 := by
    unfold lossSlope
    rw [hinv]
  rw [hslope] at lip
  clear hslope hinv
  set s := l / (1 - l) with hs
  set G := Ref.stepUnit step s0 n o with hGdef
  have hs0 := hR.slope
  obtain ⟨slot, c1, c2, c3⟩ := express_slots i n e o hn hne hs0 h3
  unfold Ref.stepExpress
  set F := expressFull (K := ℝ) true i n e o with hF'
  have hN1 : (1 : ℝ) ≤ (n + o : ℕ) := by exact_mod_cast (by omega : 1 ≤ n + o)
  have hs1 : s ≤ 1 := by nlinarith
  have fullOk : ∀ k ∈ List.range (n + o), Fits n o (((List.range n).filter fun r => k ≤ r + o).map fun r => (r, 1))
      (fullSlot o k) ∧ (fullSlot o k).Ok n s := fun k _ => ⟨fullSlot_fits n o k, fullSlot_ok (by linarith)⟩
  have fullOk' : ∀ p ∈ (List.range (n + o)).map (fullSlot o), p.Ok n s := by
    intro p hp
    obtain ⟨k, hk, rfl⟩ := List.mem_map.1 hp
    exact (fullOk k hk).2
  have expOk' : ∀ p ∈ (List.range F.nr).map slot, p.Ok n s := by
    intro p hp
    obtain ⟨k, hk, rfl⟩ := List.mem_map.1 hp
    exact (c1 k hk).2
  have fullLoad : slotLoad s ((List.range (n + o)).map (fullSlot o)) = (n + o : ℕ) * s := fullSlot_load _ _ _
  have eA : ∀ x : ℕ → ℝ, (∀ r < n, 0 ≤ x r) → stepReadout step s0 ((List.range F.nr).map (matTodo F n o)) x =
      runSlots G ((List.range F.nr).map slot) x := fun x hx => hF.readout_slots hG hs2 hR _ _ slot c1 x hx
  have eB : ∀ x : ℕ → ℝ, (∀ r < n, 0 ≤ x r) → stepReadout step s0 (Ref.allPasses n o) x =
      runSlots G ((List.range (n + o)).map (fullSlot o)) x := fun x hx =>
    hF.readout_slots hG hs2 hR (List.range (n + o)) _ (fullSlot o) fullOk x hx
  refine ⟨fun x hx r hr => ?_, fun x hx r hr => ?_, fun x hx => ?_, fun x y hx hy => ?_, fun x hx => ?_⟩
  · rw [eA x hx]
    exact (mul_nonneg (by linarith) (hx r hr)).trans (slots_floor hR _ expOk' (by linarith) x hx r hr)
  · exact (lip x x hx hx).1 r hr
  · rw [eA x hx, eB x hx]
    have a2 := run_frozen_sq hR _ expOk' x hx c2 h3
    have a3 := c3 G hR x hx
    have a4 := run_frozen_sq hR _ fullOk' x hx fullLoad.le (by linarith)
    set ps := (List.range F.nr).map slot
    set qs := (List.range (n + o)).map (fullSlot o)
    have : colDist n (runSlots G ps x) (runSlots G qs x) ≤
        ∑ r ∈ range n, |runSlots G ps x r - x r - frozen G ps x r| +
          (∑ r ∈ range n, |frozen G qs x r - frozen G ps x r| +
          ∑ r ∈ range n, |runSlots G qs x r - x r - frozen G qs x r|) := by
      unfold colDist
      rw [← Finset.sum_add_distrib, ← Finset.sum_add_distrib]
      refine Finset.sum_le_sum fun r _ => ?_
      set A := runSlots G ps x r - x r - frozen G ps x r with hA
      set B := frozen G qs x r - frozen G ps x r with hB
      set C := runSlots G qs x r - x r - frozen G qs x r with hC
      have e1 : runSlots G ps x r - runSlots G qs x r = A - (B + C) := by
        rw [hA, hB, hC]; ring
      rw [e1]
      exact (abs_sub _ _).trans (add_le_add le_rfl (abs_add_le _ _))
    refine this.trans ((add_le_add a2 (add_le_add a3 a4)).trans (le_of_eq ?_))
    unfold expressError
    change _ = (s / 2 * (expressWidth i (n + o) (effectiveExpress e (n + o)) : ℕ) + _) * _
    ring
  · have h1 := (lip x y hx hy).2
    have h2 : (1 + s) ^ (n + o) ≤ 2 := by
      have h4 : (1 + s) ^ (n + o) ≤ Real.exp ((n + o : ℕ) * s) := by
        rw [Real.exp_nat_mul]
        exact pow_le_pow_left₀ (by linarith) (by linarith [Real.add_one_le_exp s]) _
      have h5 : (0 : ℝ) ≤ (n + o : ℕ) * s := by positivity
      have h6 := Real.abs_exp_sub_one_sub_id_le (x := (n + o : ℕ) * s) (by rw [abs_of_nonneg h5]; linarith)
      have h7 := (abs_le.1 h6).2
      nlinarith
    have hD : 0 ≤ colDist n x y := Finset.sum_nonneg fun _ _ => abs_nonneg _
    set B := stepReadout step s0 (Ref.allPasses n o) with hB
    have h8 : colDist n (B x) (B y) ≤ ∑ r ∈ range n, |(B x r - x r) - (B y r - y r)| + colDist n x y := by
      unfold colDist
      rw [← Finset.sum_add_distrib]
      refine Finset.sum_le_sum fun r _ => ?_
      rw [show B x r - B y r = ((B x r - x r) - (B y r - y r)) + (x r - y r) by ring]
      exact abs_add_le _ _
    nlinarith
  · exact hG.readout_total n hF.inv hF.empty _ (allPasses_one n o) x hx

end gains

end Arctic
