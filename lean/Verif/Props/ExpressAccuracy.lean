import Verif.Lemmas.ExpressError
import Verif.Props.TrapErrors

/-!
# C82 — how far `express` readouts are from following every transfer
-/

set_option linter.unusedSectionVars false
set_option linter.unusedVariables false

namespace Arctic

open Finset (range)

/-! ## Passes and slots -/

/-- A pass whose rows are those from number `k` on, or only number `k`. -/
def Fits (n o : ℕ) (todo : List (ℕ × ℝ)) (p : Slot) : Prop :=
  ∃ P : ℕ → Bool, todo = ((List.range n).filter P).map (fun r => (r, p.mult r)) ∧
    (∀ r < n, ¬P r = true → p.mult r = 0) ∧
    ((∀ r < n, P r = true ↔ p.k ≤ r + o) ∨ ∀ r < n, P r = true ↔ r + o = p.k)

section
variable {f : ℝ → ℝ} {dw L : ℝ}

theorem Fits.pass (hf : LipFill f L) {ts : List Ref.Traps} (hts : Ref.Few dw L ts) {s : ℝ} (hs : 2 * (Ref.totals ts * L) ≤ s)
    {n o : ℕ} {todo : List (ℕ × ℝ)} {p : Slot} (h : Fits n o todo p) (hp : p.Ok n s) (x : ℕ → ℝ) (hx : ∀ r < n, 0 ≤ x r) :
    Ref.pass f dw ts x todo = p.run (Ref.unitPass f dw ts n o) x := by
  obtain ⟨P, rfl, h1, h2⟩ := h
  have hk := mul_nonneg (Ref.totals_nonneg hts.reg) hts.slope
  have mem : ∀ r, r ∈ (List.range n).filter P ↔ r < n ∧ P r = true := fun r => by simp
  funext r
  unfold Ref.pass
  rw [fold_gains hf p.mult _ x ts hts (List.nodup_range.filter _) fun r hr => by
    have hr' := ((mem r).1 hr).1
    refine ⟨hx r hr', hp.nonneg r hr', ?_⟩
    have a1 := mul_le_mul_of_nonneg_right (hp.le r hr') hk
    have a2 := mul_le_mul_of_nonneg_left hs hp.top
    have a3 := hp.few
    linarith]
  unfold Slot.run
  congr 1
  by_cases hr : r < n ∧ P r = true
  · rw [if_pos ((mem r).2 hr)]
    congr 1
    unfold Ref.unitPass
    rcases h2 with h2 | h2
    · have : (List.range n).filter P = Ref.rowsFrom n o p.k := by
        refine List.filter_congr fun q hq => ?_
        rw [Bool.eq_iff_iff, decide_eq_true_eq]
        exact h2 q (List.mem_range.1 hq)
      rw [this]
    · have : (List.range n).filter P = (List.range n).filter fun q => p.k ≤ q + o ∧ q + o < p.k + 1 := by
        refine List.filter_congr fun q hq => ?_
        rw [Bool.eq_iff_iff, decide_eq_true_eq, h2 q (List.mem_range.1 hq)]
        omega
      rw [rowsFrom_split (Nat.le_succ p.k), gains_append, ← this, if_pos ((mem r).2 hr)]
  · rw [if_neg fun h => hr ((mem r).1 h)]
    by_cases hn : r < n
    · rw [h1 r hn fun h => hr ⟨hn, h⟩, zero_mul]
    · unfold Ref.unitPass
      rw [gains_out _ _ _ fun h => hn (mem_rowsFrom.1 h).1, mul_zero]

theorem readout_slots (hf : LipFill f L) {ts : List Ref.Traps} (hts : Ref.Few dw L ts) {s : ℝ}
    (hs : 2 * (Ref.totals ts * L) ≤ s) {n o : ℕ} (hG : Rates n o s (Ref.unitPass f dw ts n o)) (l : List ℕ)
    (todo : ℕ → List (ℕ × ℝ)) (slot : ℕ → Slot) (h : ∀ k ∈ l, Fits n o (todo k) (slot k) ∧ (slot k).Ok n s) (x : ℕ → ℝ)
    (hx : ∀ r < n, 0 ≤ x r) :
    Ref.readout f dw ts (l.map todo) x = runSlots (Ref.unitPass f dw ts n o) (l.map slot) x := by
  induction l generalizing x with
  | nil => rfl
  | cons k l ih =>
    obtain ⟨h1, h2⟩ := h k List.mem_cons_self
    unfold Ref.readout runSlots at *
    rw [List.map_cons, List.map_cons, List.foldl_cons, List.foldl_cons, h1.pass hf hts hs h2 x hx]
    exact ih (fun q hq => h q (List.mem_cons_of_mem _ hq)) _ (h2.run_nonneg hG x hx)

end

theorem list_range_sum (N : ℕ) (g : ℕ → ℝ) : ((List.range N).map g).sum = ∑ k ∈ range N, g k := by
  have := filter_sum N (fun _ => true) g
  simpa using this

/-! ## The full readout -/

/-- The pass over pixel number `k`. -/
noncomputable def fullSlot (o k : ℕ) : Slot := ⟨k, 1, fun r => if k ≤ r + o then 1 else 0⟩

theorem fullSlot_fits (n o k : ℕ) :
    Fits n o (((List.range n).filter fun r => k ≤ r + o).map fun r => (r, 1)) (fullSlot o k) := by
  refine ⟨fun r => k ≤ r + o, List.map_congr_left fun r hr => ?_, fun r _ hr => ?_, Or.inl fun r _ => ?_⟩
  · have := (List.mem_filter.1 hr).2
    rw [decide_eq_true_eq] at this
    simp [fullSlot, this]
  · rw [decide_eq_true_eq] at hr
    simp [fullSlot, hr]
  · rw [decide_eq_true_eq]; rfl

theorem fullSlot_ok {n o k : ℕ} {s : ℝ} (hs : s ≤ 2) : (fullSlot o k).Ok n s := by
  refine ⟨fun r _ => ?_, fun r _ => ?_, zero_le_one, by change 1 * (s / 2) ≤ 1; linarith⟩
  · change (0 : ℝ) ≤ if _ then 1 else 0
    split <;> norm_num
  · change (if _ then 1 else 0 : ℝ) ≤ 1
    split <;> norm_num

theorem fullSlot_load (N o : ℕ) (s : ℝ) : slotLoad s ((List.range N).map (fullSlot o)) = N * s := by
  unfold slotLoad
  rw [List.map_map, list_range_sum]
  simp [fullSlot]

theorem fullSlot_frozen (G : ℕ → (ℕ → ℝ) → ℕ → ℝ) (n o : ℕ) (x : ℕ → ℝ) {r : ℕ} (hr : r < n) :
    frozen G ((List.range (n + o)).map (fullSlot o)) x r = ∑ k ∈ range (r + o + 1), G k x r := by
  unfold frozen
  rw [List.map_map, list_range_sum]
  have : range (r + o + 1) ⊆ range (n + o) := Finset.range_mono (by omega)
  rw [← Finset.sum_subset this fun k _ hk => ?_]
  · refine Finset.sum_congr rfl fun k hk => ?_
    have : k ≤ r + o := by have := Finset.mem_range.1 hk; omega
    simp [fullSlot, this]
  · have : ¬k ≤ r + o := by intro h; exact hk (Finset.mem_range.2 (by omega))
    simp [fullSlot, this]

/-! ## Express matrices -/

theorem expressBase_share (i : Bool) (N E k p : ℕ) :
    (expressBase (K := ℝ) i N E).e k p = share (maxMultiplier i N E) k (p + 1) := by
  unfold expressBase share
  simp only
  rw [truncate_sub _ _ (maxMultiplier_nonneg i N E)]
  push_cast
  rfl

theorem expressBase_pos_floor (i : Bool) (N E k p : ℕ) (hE : 0 < E) (h : 0 < N) :
    0 < (expressBase (K := ℝ) i N E).e k p ↔ ⌊(k : ℝ) * maxMultiplier i N E⌋₊ ≤ p := by
  rw [expressBase_pos_iff i N E k p hE h, ← Nat.lt_add_one_iff,
    Nat.floor_lt (mul_nonneg (Nat.cast_nonneg _) (maxMultiplier_nonneg i N E))]
  push_cast
  rfl

theorem nNonzero_floor (i : Bool) (N E k : ℕ) (hE : 0 < E) (h : 0 < N) :
    nNonzero (expressBase (K := ℝ) i N E) k = N - ⌊(k : ℝ) * maxMultiplier i N E⌋₊ := by
  rw [nNonzero_eq_card]
  have : ((range (expressBase (K := ℝ) i N E).nc).filter fun j => (expressBase (K := ℝ) i N E).e k j > 0) =
      Finset.Ico ⌊(k : ℝ) * maxMultiplier i N E⌋₊ N := by
    ext p
    rw [Finset.mem_filter, Finset.mem_Ico, Finset.mem_range]
    change p < N ∧ 0 < _ ↔ _
    rw [expressBase_pos_floor i N E k p hE h]
    tauto
  rw [this, Nat.card_Ico]

/-- Pass number `k` of a matrix without separate first transfers. -/
noncomputable def baseSlot (i : Bool) (N E o k : ℕ) : Slot :=
  ⟨⌊(k : ℝ) * maxMultiplier i N E⌋₊, maxMultiplier i N E, fun r => (expressBase (K := ℝ) i N E).e k (r + o)⟩

/-- Pass number `k` of a matrix with separate first transfers. -/
noncomputable def flipSlot (i : Bool) (N E o k : ℕ) : Slot :=
  ⟨N - 1 - k, 1 + ∑ j ∈ (range E).filter (fun j => nNonzero (expressBase (K := ℝ) i (N - 1) E) j = k), maxMultiplier i (N - 1) E,
    fun r => (insertRows (flipIdentity N) (expressBase (K := ℝ) i (N - 1) E)).e k (r + o)⟩

/-- The rows of a pass of a matrix. -/
noncomputable def matTodo (F : Mat ℝ) (n o k : ℕ) : List (ℕ × ℝ) :=
  ((List.range n).filter fun r => F.e k (r + o) > 0).map fun r => (r, F.e k (r + o))

theorem maxMultiplier_total (i : Bool) (N E : ℕ) (hE : 0 < E) (h : E ≤ N) : (E : ℝ) * maxMultiplier i N E ≤ 2 * N := by
  have hE' : (0 : ℝ) < E := by exact_mod_cast hE
  have h' : (E : ℝ) ≤ N := by exact_mod_cast h
  unfold maxMultiplier
  split
  · have h1 : N ⌈/⌉ E * E ≤ N + E := by
      rw [Nat.ceilDiv_eq_add_pred_div]
      exact (Nat.div_mul_le_self _ _).trans (by omega)
    have h2 : ((N ⌈/⌉ E : ℕ) : ℝ) * E ≤ N + E := by exact_mod_cast h1
    linarith
  · rw [mul_div_cancel₀ _ hE'.ne']
    linarith [(Nat.cast_nonneg N : (0 : ℝ) ≤ N)]

theorem baseSlot_fits (i : Bool) (n o E k : ℕ) (hE : 0 < E) (hn : 0 < n + o) :
    Fits n o (matTodo (expressBase i (n + o) E) n o k) (baseSlot i (n + o) E o k) := by
  refine ⟨fun r => decide ((expressBase (K := ℝ) i (n + o) E).e k (r + o) > 0), rfl, fun r _ hr => ?_, Or.inl fun r _ => ?_⟩
  · rw [decide_eq_true_eq, gt_iff_lt, not_lt] at hr
    exact le_antisymm hr (expressBase_nonneg i _ _ _ _)
  · rw [decide_eq_true_eq]
    exact expressBase_pos_floor i _ _ _ _ hE hn

theorem baseSlot_ok (i : Bool) (n o E k : ℕ) {s : ℝ} (h : maxMultiplier i (n + o) E * (s / 2) ≤ 1) :
    (baseSlot i (n + o) E o k).Ok n s :=
  ⟨fun r _ => expressBase_nonneg i _ _ _ _, fun r _ => expressBase_le i _ _ _ _, maxMultiplier_nonneg i _ _, h⟩

theorem baseSlot_load (i : Bool) (N E o : ℕ) (s : ℝ) :
    slotLoad s ((List.range E).map (baseSlot i N E o)) = E * maxMultiplier i N E * s := by
  unfold slotLoad
  rw [List.map_map, list_range_sum]
  simp [baseSlot, mul_assoc]

theorem baseSlot_frozen (G : ℕ → (ℕ → ℝ) → ℕ → ℝ) (i : Bool) (N E o : ℕ) (x : ℕ → ℝ) (r : ℕ) :
    frozen G ((List.range E).map (baseSlot i N E o)) x r =
      ∑ j ∈ range E, share (maxMultiplier i N E) j ((r + o + 1 : ℕ) : ℝ) * G ⌊(j : ℝ) * maxMultiplier i N E⌋₊ x r := by
  unfold frozen
  rw [List.map_map, list_range_sum]
  refine Finset.sum_congr rfl fun j _ => ?_
  simp only [Function.comp_apply, baseSlot, expressBase_share]
  push_cast
  rfl

/-- Entries of the matrix with separate first transfers. -/
theorem flip_entry (i : Bool) (N E k q : ℕ) (hE : 0 < E) (hEN : E ≤ N - 1) (hq : q < N) :
    (insertRows (flipIdentity N) (expressBase (K := ℝ) i (N - 1) E)).e k q =
      (if k + q + 1 = N then 1 else 0) +
        ∑ j ∈ (range E).filter (fun j => nNonzero (expressBase (K := ℝ) i (N - 1) E) j = k),
          share (maxMultiplier i (N - 1) E) j q := by
  rcases q with _ | p
  · rw [insertRows_col0]
    have : ∑ j ∈ (range E).filter (fun j => nNonzero (expressBase (K := ℝ) i (N - 1) E) j = k),
        share (maxMultiplier i (N - 1) E) j ((0 : ℕ) : ℝ) = 0 :=
      Finset.sum_eq_zero fun j _ => by rw [Nat.cast_zero, share_zero (maxMultiplier_nonneg i _ _)]
    rw [this, add_zero]
    rfl
  · rw [insertRows_e _ _ _ (base_dup_zero i _ _ p hE hEN (by omega))]
    congr 1
    refine Finset.sum_congr rfl fun j _ => ?_
    rw [expressBase_share]
    push_cast
    rfl

theorem flipSlot_fits (i : Bool) (n o E k : ℕ) (hE : 0 < E) (hEN : E ≤ n + o - 1) (hk : k < n + o) :
    Fits n o (matTodo (insertRows (flipIdentity (n + o)) (expressBase i (n + o - 1) E)) n o k) (flipSlot i (n + o) E o k) := by
  set F := insertRows (flipIdentity (n + o)) (expressBase (K := ℝ) i (n + o - 1) E) with hF
  set N := n + o with hN
  set M : ℝ := maxMultiplier i (N - 1) E with hM
  have hM0 : 0 ≤ M := maxMultiplier_nonneg i _ _
  have hN1 : 0 < N - 1 := by omega
  have hnn : ∀ q < N, 0 ≤ F.e k q := by
    intro q hq
    rw [hF, flip_entry i N E k q hE hEN hq]
    refine add_nonneg (by split <;> norm_num) (Finset.sum_nonneg fun j _ => (share_le hM0 j _).1)
  have hpos : ∀ q < N, 0 < F.e k q ↔ k + q + 1 = N ∨ ∃ j < E, N - 1 - ⌊(j : ℝ) * M⌋₊ = k ∧ ⌊(j : ℝ) * M⌋₊ < q := by
    intro q hq
    have sp : ∀ j : ℕ, 0 < share M j q ↔ ⌊(j : ℝ) * M⌋₊ < q := by
      intro j
      rcases q with _ | p
      · rw [Nat.cast_zero, share_zero hM0]; simp
      · have := expressBase_pos_floor i (N - 1) E j p hE hN1
        rw [expressBase_share] at this
        push_cast
        rw [this]
        exact Nat.lt_succ_iff.symm
    rw [hF, flip_entry i N E k q hE hEN hq]
    constructor
    · intro h
      by_contra hc
      rw [not_or] at hc
      rw [if_neg hc.1, zero_add] at h
      obtain ⟨j, hj, hj'⟩ := Finset.exists_lt_of_sum_lt (f := fun _ => (0 : ℝ)) (by simpa using h)
      rw [Finset.mem_filter, nNonzero_floor i _ _ _ hE hN1] at hj
      exact hc.2 ⟨j, Finset.mem_range.1 hj.1, hj.2, (sp j).1 hj'⟩
    · rintro (h | ⟨j, hj, h1, h2⟩)
      · rw [if_pos h]
        exact add_pos_of_pos_of_nonneg one_pos (Finset.sum_nonneg fun j _ => (share_le hM0 j _).1)
      · refine add_pos_of_nonneg_of_pos (by split <;> norm_num) ?_
        refine Finset.sum_pos' (fun j _ => (share_le hM0 j _).1) ⟨j, ?_, (sp j).2 h2⟩
        rw [Finset.mem_filter, nNonzero_floor i _ _ _ hE hN1]
        exact ⟨Finset.mem_range.2 hj, h1⟩
  refine ⟨fun r => decide (F.e k (r + o) > 0), rfl, fun r hr hz => ?_, ?_⟩
  · rw [decide_eq_true_eq, gt_iff_lt, not_lt] at hz
    exact le_antisymm hz (hnn _ (by omega))
  · by_cases hj : 0 < k ∧ ∃ j < E, N - 1 - ⌊(j : ℝ) * M⌋₊ = k
    · obtain ⟨hk0, j, hj1, hj2⟩ := hj
      refine Or.inl fun r hr => ?_
      rw [decide_eq_true_eq, gt_iff_lt, hpos _ (by omega)]
      change _ ↔ N - 1 - k ≤ r + o
      constructor
      · rintro (h | ⟨j', -, h1, h2⟩) <;> omega
      · intro h
        by_cases h' : k + (r + o) + 1 = N
        · exact Or.inl h'
        · exact Or.inr ⟨j, hj1, hj2, by omega⟩
    · refine Or.inr fun r hr => ?_
      rw [decide_eq_true_eq, gt_iff_lt, hpos _ (by omega)]
      change _ ↔ r + o = N - 1 - k
      constructor
      · rintro (h | ⟨j', h0, h1, h2⟩)
        · omega
        · exfalso
          refine hj ⟨?_, j', h0, h1⟩
          omega
      · intro h
        exact Or.inl (by omega)

theorem flipSlot_ok (i : Bool) (n o E k : ℕ) {s : ℝ} (hs : 0 ≤ s) (hE : 0 < E) (hEN : E ≤ n + o - 1)
    (h : (1 + E * maxMultiplier i (n + o - 1) E) * (s / 2) ≤ 1) : (flipSlot i (n + o) E o k).Ok n s := by
  have hM0 := maxMultiplier_nonneg (K := ℝ) i (n + o - 1) E
  have hsum : ∑ j ∈ (range E).filter (fun j => nNonzero (expressBase (K := ℝ) i (n + o - 1) E) j = k),
      maxMultiplier i (n + o - 1) E ≤ E * (maxMultiplier i (n + o - 1) E : ℝ) := by
    rw [Finset.sum_const, nsmul_eq_mul]
    refine mul_le_mul_of_nonneg_right ?_ hM0
    have := (Finset.card_filter_le (range E) fun j => nNonzero (expressBase (K := ℝ) i (n + o - 1) E) j = k)
    rw [Finset.card_range] at this
    exact_mod_cast this
  have hsum0 : 0 ≤ ∑ j ∈ (range E).filter (fun j => nNonzero (expressBase (K := ℝ) i (n + o - 1) E) j = k),
      (maxMultiplier i (n + o - 1) E : ℝ) := Finset.sum_nonneg fun _ _ => hM0
  refine ⟨fun r hr => ?_, fun r hr => ?_, ?_, ?_⟩
  · change 0 ≤ (insertRows _ _).e k (r + o)
    rw [flip_entry i _ E k _ hE hEN (by omega)]
    exact add_nonneg (by split <;> norm_num) (Finset.sum_nonneg fun j _ => (share_le hM0 j _).1)
  · change (insertRows _ _).e k (r + o) ≤ _
    rw [flip_entry i _ E k _ hE hEN (by omega)]
    exact add_le_add (by split <;> norm_num) (Finset.sum_le_sum fun j _ => (share_le hM0 j _).2)
  · change 0 ≤ 1 + _
    linarith
  · refine le_trans ?_ h
    change (1 + _) * (s / 2) ≤ _
    exact mul_le_mul_of_nonneg_right (by linarith) (by linarith)

theorem flipSlot_load (i : Bool) (N E o : ℕ) (hN : 1 < N) (hE : 0 < E) (s : ℝ) :
    slotLoad s ((List.range N).map (flipSlot i N E o)) = (N + E * maxMultiplier i (N - 1) E) * s := by
  unfold slotLoad
  rw [List.map_map, list_range_sum]
  simp only [Function.comp_apply, flipSlot]
  rw [← Finset.sum_mul, Finset.sum_add_distrib, Finset.sum_fiberwise_of_maps_to]
  · simp
  · intro j _
    rw [nNonzero_floor i _ _ _ hE (by omega), Finset.mem_range]
    omega

theorem flipSlot_frozen (G : ℕ → (ℕ → ℝ) → ℕ → ℝ) (i : Bool) (N E o : ℕ) (hE : 0 < E) (hEN : E ≤ N - 1) (x : ℕ → ℝ) (r : ℕ)
    (hr : r + o < N) :
    frozen G ((List.range N).map (flipSlot i N E o)) x r = G (r + o) x r +
      ∑ j ∈ range E, share (maxMultiplier i (N - 1) E) j ((r + o : ℕ) : ℝ) * G ⌊(j : ℝ) * maxMultiplier i (N - 1) E⌋₊ x r := by
  unfold frozen
  rw [List.map_map, list_range_sum]
  have e1 : ∀ k ∈ range N, ((fun p : Slot => p.mult r * G p.k x r) ∘ flipSlot i N E o) k =
      (if k = N - 1 - (r + o) then G (r + o) x r else 0) +
        ∑ j ∈ (range E).filter (fun j => nNonzero (expressBase (K := ℝ) i (N - 1) E) j = k),
          share (maxMultiplier i (N - 1) E) j ((r + o : ℕ) : ℝ) * G ⌊(j : ℝ) * maxMultiplier i (N - 1) E⌋₊ x r := by
    intro k hk
    have hk' := Finset.mem_range.1 hk
    simp only [Function.comp_apply, flipSlot]
    rw [flip_entry i N E k _ hE hEN hr, add_mul, Finset.sum_mul]
    congr 1
    · by_cases h : k = N - 1 - (r + o)
      · rw [if_pos h, if_pos (by omega), one_mul]
        congr 1
        omega
      · rw [if_neg h, if_neg (by omega), zero_mul]
    · refine Finset.sum_congr rfl fun j hj => ?_
      have h1 := (Finset.mem_filter.1 hj).2
      rw [nNonzero_floor i _ _ _ hE (by omega)] at h1
      by_cases h2 : ⌊(j : ℝ) * maxMultiplier i (N - 1) E⌋₊ ≤ N - 1
      · congr 2
        omega
      · have : share (maxMultiplier i (N - 1) E) j ((r + o : ℕ) : ℝ) = 0 := by
          rcases hq : r + o with _ | p
          · rw [Nat.cast_zero, share_zero (maxMultiplier_nonneg i _ _)]
          · have h3 := (expressBase_pos_floor i (N - 1) E j p hE (by omega)).not.2 (by omega)
            have h4 := le_antisymm (not_lt.1 h3) (expressBase_nonneg i _ _ _ _)
            rw [expressBase_share] at h4
            push_cast
            exact h4
        rw [this, zero_mul, zero_mul]
  rw [Finset.sum_congr rfl e1, Finset.sum_add_distrib, Finset.sum_fiberwise_of_maps_to, Finset.sum_ite_eq' (range N),
    if_pos (Finset.mem_range.2 (by omega))]
  intro j _
  rw [nNonzero_floor i _ _ _ hE (by omega), Finset.mem_range]
  omega

/-! ## Columns -/

/-- By how many rows the front of a computed pass can be ahead of that of a transfer it stands for. -/
def expressWidth (i : Bool) (N E : ℕ) : ℕ := N ⌈/⌉ E - if i then 1 else 0

theorem expressWidth_ok (i : Bool) {N' N E : ℕ} (hE : 0 < E) (h : N' ≤ N) (j p k : ℕ)
    (h1 : ⌊(j : ℝ) * maxMultiplier i N' E⌋₊ ≤ p) (h2 : p < k) (h3 : (k : ℝ) < (j + 1) * maxMultiplier i N' E) :
    k ≤ p + expressWidth i N E := by
  have hc : N' ⌈/⌉ E ≤ N ⌈/⌉ E := by
    rw [ceilDiv_le_iff_le_smul hE]
    exact h.trans (le_smul_ceilDiv hE)
  unfold expressWidth
  cases i
  · have := width_ceil (maxMultiplier_nonneg false N' E) j p k h1 h2 h3
    have h4 : ⌈(maxMultiplier false N' E : ℝ)⌉₊ ≤ N ⌈/⌉ E :=
      Nat.ceil_le.2 (maxMultiplier_le_ceil false N' N E hE h)
    simp only [Bool.false_eq_true, if_false]
    omega
  · have := width_nat (N' ⌈/⌉ E) j p k h1 h2 h3
    simp only [if_true]
    omega

/-- The passes of the matrices with multipliers. -/
theorem express_slots (i : Bool) (n e o : ℕ) (hn : 0 < n) (hne : effectiveExpress e (n + o) + 1 ≠ n) {s : ℝ} (hs0 : 0 ≤ s)
    (h3 : 3 * ((n + o : ℕ) * s) ≤ 1) :
    ∃ slot : ℕ → Slot, (∀ k ∈ List.range (expressFull (K := ℝ) true i n e o).nr,
        Fits n o (matTodo (expressFull true i n e o) n o k) (slot k) ∧ (slot k).Ok n s) ∧
      slotLoad s ((List.range (expressFull (K := ℝ) true i n e o).nr).map slot) ≤ 3 * ((n + o : ℕ) * s) ∧
      ∀ G : ℕ → (ℕ → ℝ) → ℕ → ℝ, Rates n o s G → ∀ x : ℕ → ℝ, (∀ r < n, 0 ≤ x r) →
        ∑ r ∈ range n, |frozen G ((List.range (n + o)).map (fullSlot o)) x r -
            frozen G ((List.range (expressFull (K := ℝ) true i n e o).nr).map slot) x r| ≤
          s / 2 * expressWidth i (n + o) (effectiveExpress e (n + o)) * ∑ r ∈ range n, x r := by
  set N := n + o with hN
  set E := effectiveExpress e N with hEdef
  have hE : 0 < E := effectiveExpress_pos e N (by omega)
  have hEN : E ≤ N := effectiveExpress_le e N
  have hN1 : (1 : ℝ) ≤ N := by exact_mod_cast (by omega : 1 ≤ N)
  have hs1 : s ≤ 1 := by nlinarith
  rcases expressFull_cases (K := ℝ) true i n e o with ⟨h, heq⟩ | ⟨-, h2, -⟩ | ⟨-, h2, heq⟩
  · have hM := maxMultiplier_total i N E hE hEN
    have hM1 : maxMultiplier i N E * (s / 2) ≤ 1 := by
      have h4 : (1 : ℝ) ≤ E := by exact_mod_cast hE
      have h5 := mul_le_mul_of_nonneg_right h4 (maxMultiplier_nonneg (K := ℝ) i N E)
      have h6 : (maxMultiplier i N E : ℝ) ≤ 2 * N := by linarith
      nlinarith
    rw [heq]
    refine ⟨baseSlot i N E o, fun k _ => ⟨baseSlot_fits i n o E k hE (by omega), baseSlot_ok i n o E k hM1⟩, ?_, ?_⟩
    · change slotLoad s ((List.range E).map _) ≤ _
      rw [baseSlot_load]
      nlinarith
    · intro G hG x hx
      refine le_trans (le_of_eq ?_) (frozen_gap hG (maxMultiplier_nonneg i N E) E N (expressWidth i N E)
        (maxMultiplier_mul_ge i N E hE) (fun j p k => expressWidth_ok i hE le_rfl j p k) (fun r => r + o + 1)
        (fun r hr => ⟨le_rfl, by omega⟩) x hx)
      refine Finset.sum_congr rfl fun r hr => ?_
      rw [fullSlot_frozen G n o x (Finset.mem_range.1 hr)]
      change |_ - frozen G ((List.range E).map _) x r| = _
      rw [baseSlot_frozen]
  · exact absurd h2 hne
  · have h2' : E + 1 < n := h2
    have hEN' : E ≤ N - 1 := by omega
    have hM := maxMultiplier_total i (N - 1) E hE hEN'
    have hcast : (((N - 1 : ℕ)) : ℝ) ≤ N := by exact_mod_cast Nat.sub_le _ _
    have hM1 : (1 + E * maxMultiplier i (N - 1) E) * (s / 2) ≤ 1 := by nlinarith
    have heq' : expressFull (K := ℝ) true i n e o = insertRows (flipIdentity N) (expressBase i (N - 1) E) := by
      have q : n - 1 + o = N - 1 := by omega
      rw [heq, q]
    rw [heq']
    refine ⟨flipSlot i N E o, fun k hk => ⟨flipSlot_fits i n o E k hE hEN' (List.mem_range.1 hk),
      flipSlot_ok i n o E k hs0 hE hEN' hM1⟩, ?_, ?_⟩
    · change slotLoad s ((List.range N).map _) ≤ _
      rw [flipSlot_load i N E o (by omega) hE]
      nlinarith
    · intro G hG x hx
      refine le_trans (le_of_eq ?_) (frozen_gap hG (maxMultiplier_nonneg i (N - 1) E) E (N - 1) (expressWidth i N E)
        (maxMultiplier_mul_ge i (N - 1) E hE) (fun j p k => expressWidth_ok i hE (Nat.sub_le _ _) j p k) (fun r => r + o)
        (fun r hr => ⟨Nat.le_succ _, by omega⟩) x hx)
      refine Finset.sum_congr rfl fun r hr => ?_
      have hr' := Finset.mem_range.1 hr
      rw [fullSlot_frozen G n o x hr']
      change |_ - frozen G ((List.range N).map _) x r| = _
      rw [flipSlot_frozen G i N E o hE hEN' x r (by omega), Finset.sum_range_succ]
      congr 1
      ring

section
variable {f g : ℝ → ℝ} {dw L b s : ℝ} {n o : ℕ}

/-- Passes of slots leave at least a fraction of every pixel, so that a filling law matters only where it is used. -/
theorem slots_floor {G : ℕ → (ℕ → ℝ) → ℕ → ℝ} (hG : Rates n o s G) (ps : List Slot) (hp : ∀ p ∈ ps, p.Ok n s)
    (hl : slotLoad s ps ≤ 1) (x : ℕ → ℝ) (hx : ∀ r < n, 0 ≤ x r) :
    ∀ r < n, (1 - slotLoad s ps / 2) * x r ≤ runSlots G ps x r := by
  induction ps generalizing x with
  | nil => intro r _; simp [slotLoad, runSlots]
  | cons p ps ih =>
    intro r hr
    have hp1 := hp p List.mem_cons_self
    have hp' : ∀ q ∈ ps, q.Ok n s := fun q hq => hp q (List.mem_cons_of_mem _ hq)
    have e : slotLoad s (p :: ps) = p.top * s + slotLoad s ps := by simp [slotLoad]
    have hl0 := slotLoad_nonneg hG.slope ps hp'
    have ha : 0 ≤ p.top * s := mul_nonneg hp1.top hG.slope
    have h1 := ih hp' (by linarith) (p.run G x) (hp1.run_nonneg hG x hx) r hr
    refine le_trans ?_ h1
    have h2 : (1 - p.top * s / 2) * x r ≤ p.run G x r := by
      have h3 := mul_le_mul_of_nonneg_left (hG.low p.k x hx r hr) (hp1.nonneg r hr)
      have h4 := mul_le_mul_of_nonneg_right (hp1.le r hr) (mul_nonneg (by linarith [hG.slope] : 0 ≤ s / 2) (hx r hr))
      unfold Slot.run
      nlinarith
    have h5 := mul_le_mul_of_nonneg_left h2 (by linarith : 0 ≤ 1 - slotLoad s ps / 2)
    refine le_trans ?_ h5
    rw [e]
    nlinarith [mul_nonneg (mul_nonneg hl0 ha) (hx r hr)]

theorem readout_congr_slots (hg : LipFill g L) (hb : 0 ≤ b) (hfg : ∀ z, b ≤ z → f z = g z) {ts : List Ref.Traps}
    (hts : Ref.Few dw L ts) (hs : 2 * (Ref.totals ts * L) ≤ s) (hG : Rates n o s (Ref.unitPass g dw ts n o)) (l : List ℕ)
    (todo : ℕ → List (ℕ × ℝ)) (slot : ℕ → Slot) (h : ∀ k ∈ l, Fits n o (todo k) (slot k) ∧ (slot k).Ok n s)
    (hl : slotLoad s (l.map slot) ≤ 1) (x : ℕ → ℝ) (hx : ∀ r < n, 0 ≤ x r)
    (hxb : ∀ r < n, b ≤ (1 - slotLoad s (l.map slot) / 2) * x r) :
    Ref.readout f dw ts (l.map todo) x = Ref.readout g dw ts (l.map todo) x := by
  induction l generalizing x with
  | nil => unfold Ref.readout; rw [List.map_nil, List.foldl_nil, List.foldl_nil]
  | cons k l ih =>
    obtain ⟨h1, h2⟩ := h k List.mem_cons_self
    have h' : ∀ q ∈ l, Fits n o (todo q) (slot q) ∧ (slot q).Ok n s := fun q hq => h q (List.mem_cons_of_mem _ hq)
    have e : slotLoad s ((k :: l).map slot) = (slot k).top * s + slotLoad s (l.map slot) := by simp [slotLoad]
    have hl0 := slotLoad_nonneg (n := n) hG.slope (l.map slot) fun p hp => by
      obtain ⟨q, hq, rfl⟩ := List.mem_map.1 hp
      exact (h' q hq).2
    have ha : 0 ≤ (slot k).top * s := mul_nonneg h2.top hG.slope
    have same := h1.pass hg hts hs h2 x hx
    have hbx : ∀ r < n, b ≤ x r := fun r hr => by
      have q1 := hxb r hr
      have q2 := hx r hr
      rw [e] at q1
      nlinarith
    have hpass : Ref.pass f dw ts x (todo k) = Ref.pass g dw ts x (todo k) := by
      obtain ⟨P, ht, -, -⟩ := h1
      have hk := mul_nonneg (Ref.totals_nonneg hts.reg) hts.slope
      have := (pass_congr_fill (M := (slot k).top) hb hg hfg n h2.top (todo k) x ts hts (by
          have a2 := mul_le_mul_of_nonneg_left hs h2.top
          have a3 := h2.few
          linarith) (by
            rw [ht, List.map_map]
            exact (List.nodup_range.filter _).map fun a b h => h) (by
            intro p hp
            rw [ht] at hp
            obtain ⟨r, hr, rfl⟩ := List.mem_map.1 hp
            have hr' := List.mem_range.1 (List.mem_filter.1 hr).1
            exact ⟨hr', h2.nonneg r hr', h2.le r hr'⟩) (by
            intro p hp
            rw [ht] at hp
            obtain ⟨r, hr, rfl⟩ := List.mem_map.1 hp
            exact hbx r (List.mem_range.1 (List.mem_filter.1 hr).1)) hx).1
      unfold Ref.pass
      rw [this]
    unfold Ref.readout at ih ⊢
    rw [List.map_cons, List.foldl_cons, List.foldl_cons, hpass, same]
    rw [e] at hl
    refine ih h' (by linarith) _ (h2.run_nonneg hG x hx) fun r hr => ?_
    have q1 := hxb r hr
    rw [e] at q1
    have q2 := slots_floor hG [slot k] (fun p hp => by rw [List.mem_singleton.1 hp]; exact h2) (by
      simp only [slotLoad, List.map_cons, List.map_nil, List.sum_cons, List.sum_nil]; linarith) x hx r hr
    simp only [slotLoad, List.map_cons, List.map_nil, List.sum_cons, List.sum_nil, add_zero] at q2
    have q3 : (1 - (slot k).top * s / 2) * x r ≤ (slot k).run (Ref.unitPass g dw ts n o) x r := q2
    have q4 := mul_le_mul_of_nonneg_left q3 (by unfold slotLoad at *; linarith : 0 ≤ 1 - slotLoad s (l.map slot) / 2)
    refine q1.trans (le_trans ?_ q4)
    nlinarith [mul_nonneg (mul_nonneg hl0 ha) (hx r hr)]

end

/-- Readouts in which every transfer stands for one gain no charge. -/
theorem readout_total {f : ℝ → ℝ} {dw L : ℝ} (hf : LipFill f L) (R : ℕ) {ts : List Ref.Traps} (hts : Ref.Few dw L ts)
    (h0 : Ref.filling ts = 0) (passes : List (List (ℕ × ℝ))) (hp : ∀ todo ∈ passes, ∀ p ∈ todo, p.1 < R ∧ p.2 = 1)
    (x : ℕ → ℝ) (hx : ∀ r < R, 0 ≤ x r) :
    (∀ r < R, 0 ≤ Ref.readout f dw ts passes x r) ∧
      ∑ r ∈ range R, Ref.readout f dw ts passes x r ≤ ∑ r ∈ range R, x r := by
  induction passes generalizing x with
  | nil =>
    unfold Ref.readout
    simp only [List.foldl_nil]
    exact ⟨hx, le_rfl⟩
  | cons todo passes ih =>
    obtain ⟨a1, a2⟩ := pass_total hf R todo x ts hts (hp todo List.mem_cons_self) hx
    obtain ⟨b1, b2⟩ := ih (fun t ht => hp t (List.mem_cons_of_mem _ ht)) (Ref.pass f dw ts x todo) a1
    unfold Ref.readout at *
    rw [List.foldl_cons]
    rw [h0, add_zero] at a2
    exact ⟨b1, b2.trans a2⟩

/-- What is needed to compare an express readout `A` of columns of at least `low` electrons per pixel with the full readout `B`:
pixels keep `left` electrons, the readouts differ by `err` times the charge, and the full readout at most doubles distances and
gains no charge. -/
structure Expressed (R : ℕ) (low left err : ℝ) (A B : (ℕ → ℝ) → ℕ → ℝ) : Prop where
  floorA : ∀ x, (∀ r < R, low ≤ x r) → ∀ r < R, left ≤ A x r
  floorB : ∀ x, (∀ r < R, low ≤ x r) → ∀ r < R, left ≤ B x r
  near : ∀ x, (∀ r < R, low ≤ x r) → colDist R (A x) (B x) ≤ err * ∑ r ∈ range R, x r
  lip : ∀ x y, (∀ r < R, low ≤ x r) → (∀ r < R, low ≤ y r) → colDist R (B x) (B y) ≤ 2 * colDist R x y
  total : ∀ x, (∀ r < R, low ≤ x r) → ∑ r ∈ range R, B x r ≤ ∑ r ∈ range R, x r

/-- The error of an express readout of `n` rows at distance `o`, per electron, if a transfer costs at most `s`: in proportion to
the number of transfers that a computed pass represents, less one if these numbers are whole, and second order in what all
transfers together cost. -/
noncomputable def expressError (i : Bool) (n e o : ℕ) (s : ℝ) : ℝ :=
  s / 2 * (((n + o) ⌈/⌉ (if e = 0 then n + o else min e (n + o)) - (if i then 1 else 0) : ℕ) : ℝ) + 10 * ((n + o : ℕ) * s) ^ 2

theorem express_column {f g : ℝ → ℝ} {dw L b low : ℝ} (hg : LipFill g L) (hb : 0 ≤ b) (hfg : ∀ z, b ≤ z → f z = g z)
    (hlow : 2 * b ≤ low) {ts : List Ref.Traps} (hts : Ref.Few dw L ts)
    (hsp : Ref.Spent dw ts ts) (h0 : Ref.filling ts = 0) (hl : 2 * (Ref.totals ts * L) < 1) (i : Bool) (n e o : ℕ) (hn : 0 < n)
    (hne : effectiveExpress e (n + o) + 1 ≠ n)
    (h3 : 3 * ((n + o : ℕ) * passSlope 1 (2 * (Ref.totals ts * L))) ≤ 1) :
    Expressed n low b (expressError i n e o (passSlope 1 (2 * (Ref.totals ts * L))))
      (Ref.readout f dw ts ((List.range (expressFull (K := ℝ) true i n e o).nr).map (matTodo (expressFull true i n e o) n o)))
      (Ref.readout f dw ts (Ref.allPasses n o)) := by
  have hG := unitPass_rates hg ts hts hsp h0 hl n o
  have hk := mul_nonneg (Ref.totals_nonneg hts.reg) hts.slope
  have hs2 : 2 * (Ref.totals ts * L) ≤ passSlope 1 (2 * (Ref.totals ts * L)) := by
    unfold passSlope
    rw [one_mul, le_div_iff₀ (by linarith)]
    nlinarith
  have lip := readout_lip hg n 1 zero_le_one ts hts (by rw [one_mul]; exact hts.few) hl _ (allPasses_good n o)
  rw [allPasses_length] at lip
  set s := passSlope 1 (2 * (Ref.totals ts * L)) with hs
  set G := Ref.unitPass g dw ts n o with hGdef
  have hs0 := hG.slope
  obtain ⟨slot, c1, c2, c3⟩ := express_slots i n e o hn hne hs0 h3
  set F := expressFull (K := ℝ) true i n e o with hF
  have hN1 : (1 : ℝ) ≤ (n + o : ℕ) := by exact_mod_cast (by omega : 1 ≤ n + o)
  have hs1 : s ≤ 1 := by nlinarith
  have fullOk : ∀ k ∈ List.range (n + o), Fits n o (((List.range n).filter fun r => k ≤ r + o).map fun r => (r, 1))
      (fullSlot o k) ∧ (fullSlot o k).Ok n s := fun k _ => ⟨fullSlot_fits n o k, fullSlot_ok (by linarith)⟩
  have fullOk' : ∀ p ∈ (List.range (n + o)).map (fullSlot o), p.Ok n s := by
    intro p hp
    obtain ⟨k, hk, rfl⟩ := List.mem_map.1 hp
    exact (fullOk k hk).2
  have expOk' : ∀ p ∈ (List.range F.nr).map slot, p.Ok n s := by
    intro p hp
    obtain ⟨k, hk, rfl⟩ := List.mem_map.1 hp
    exact (c1 k hk).2
  have fullLoad : slotLoad s ((List.range (n + o)).map (fullSlot o)) = (n + o : ℕ) * s := fullSlot_load _ _ _
  have one : ∀ todo ∈ Ref.allPasses n o, ∀ p ∈ todo, p.1 < n ∧ p.2 = (1 : ℝ) := by
    intro todo ht p hp
    obtain ⟨k, -, rfl⟩ := List.mem_map.1 ht
    obtain ⟨r, hr, rfl⟩ := List.mem_map.1 hp
    exact ⟨List.mem_range.1 (List.mem_filter.1 hr).1, rfl⟩
  -- the law is only used above `b`
  have low0 : 0 ≤ low := by linarith
  have nonneg : ∀ x : ℕ → ℝ, (∀ r < n, low ≤ x r) → ∀ r < n, 0 ≤ x r := fun x hx r hr => low0.trans (hx r hr)
  have half : ∀ t : ℝ, t ≤ 1 → ∀ x : ℕ → ℝ, (∀ r < n, low ≤ x r) → ∀ r < n, b ≤ (1 - t / 2) * x r := by
    intro t ht x hx r hr
    have := hx r hr
    nlinarith
  have eA : ∀ x : ℕ → ℝ, (∀ r < n, low ≤ x r) → Ref.readout f dw ts ((List.range F.nr).map (matTodo F n o)) x =
      runSlots G ((List.range F.nr).map slot) x := by
    intro x hx
    rw [readout_congr_slots hg hb hfg hts hs2 hG _ _ slot c1 (by linarith) x (nonneg x hx) (half _ (by linarith) x hx)]
    exact readout_slots hg hts hs2 hG _ _ slot c1 x (nonneg x hx)
  have eB' : ∀ x : ℕ → ℝ, (∀ r < n, low ≤ x r) → Ref.readout f dw ts (Ref.allPasses n o) x =
      Ref.readout g dw ts (Ref.allPasses n o) x := by
    intro x hx
    exact readout_congr_slots hg hb hfg hts hs2 hG (List.range (n + o)) _ (fullSlot o) fullOk (by rw [fullLoad]; linarith) x
      (nonneg x hx) (half _ (by rw [fullLoad]; linarith) x hx)
  have eB : ∀ x : ℕ → ℝ, (∀ r < n, low ≤ x r) → Ref.readout f dw ts (Ref.allPasses n o) x =
      runSlots G ((List.range (n + o)).map (fullSlot o)) x := by
    intro x hx
    rw [eB' x hx]
    exact readout_slots hg hts hs2 hG (List.range (n + o)) _ (fullSlot o) fullOk x (nonneg x hx)
  refine ⟨fun x hx r hr => ?_, fun x hx r hr => ?_, fun x hx => ?_, fun x y hx hy => ?_, fun x hx => ?_⟩
  · rw [eA x hx]
    exact (half _ (by linarith) x hx r hr).trans (slots_floor hG _ expOk' (by linarith) x (nonneg x hx) r hr)
  · rw [eB x hx]
    exact (half _ (by rw [fullLoad]; linarith) x hx r hr).trans
      (slots_floor hG _ fullOk' (by rw [fullLoad]; linarith) x (nonneg x hx) r hr)
  · rw [eA x hx, eB x hx]
    have hx0 := nonneg x hx
    have a2 := run_frozen_sq hG _ expOk' x hx0 c2 h3
    have a3 := c3 G hG x hx0
    have a4 := run_frozen_sq hG _ fullOk' x hx0 fullLoad.le (by linarith)
    set ps := (List.range F.nr).map slot
    set qs := (List.range (n + o)).map (fullSlot o)
    have : colDist n (runSlots G ps x) (runSlots G qs x) ≤
        ∑ r ∈ range n, |runSlots G ps x r - x r - frozen G ps x r| +
          (∑ r ∈ range n, |frozen G qs x r - frozen G ps x r| +
          ∑ r ∈ range n, |runSlots G qs x r - x r - frozen G qs x r|) := by
      unfold colDist
      rw [← Finset.sum_add_distrib, ← Finset.sum_add_distrib]
      refine Finset.sum_le_sum fun r _ => ?_
      set A := runSlots G ps x r - x r - frozen G ps x r with hA
      set B := frozen G qs x r - frozen G ps x r with hB
      set C := runSlots G qs x r - x r - frozen G qs x r with hC
      have e1 : runSlots G ps x r - runSlots G qs x r = A - (B + C) := by
        rw [hA, hB, hC]; ring
      rw [e1]
      exact (abs_sub _ _).trans (add_le_add le_rfl (abs_add_le _ _))
    refine this.trans ((add_le_add a2 (add_le_add a3 a4)).trans (le_of_eq ?_))
    unfold expressError
    change _ = (s / 2 * (expressWidth i (n + o) (effectiveExpress e (n + o)) : ℕ) + _) * _
    ring
  · rw [eB' x hx, eB' y hy]
    have h1 := (lip x y (nonneg x hx) (nonneg y hy)).2
    have h2 : (1 + s) ^ (n + o) ≤ 2 := by
      have h4 : (1 + s) ^ (n + o) ≤ Real.exp ((n + o : ℕ) * s) := by
        rw [Real.exp_nat_mul]
        exact pow_le_pow_left₀ (by linarith) (by linarith [Real.add_one_le_exp s]) _
      have h5 : (0 : ℝ) ≤ (n + o : ℕ) * s := by positivity
      have h6 := Real.abs_exp_sub_one_sub_id_le (x := (n + o : ℕ) * s) (by rw [abs_of_nonneg h5]; linarith)
      have h7 := (abs_le.1 h6).2
      nlinarith
    have hD : 0 ≤ colDist n x y := Finset.sum_nonneg fun _ _ => abs_nonneg _
    have h8 : colDist n (Ref.readout g dw ts (Ref.allPasses n o) x) (Ref.readout g dw ts (Ref.allPasses n o) y) ≤
        ∑ r ∈ range n, |(Ref.readout g dw ts (Ref.allPasses n o) x r - x r) -
          (Ref.readout g dw ts (Ref.allPasses n o) y r - y r)| + colDist n x y := by
      unfold colDist
      rw [← Finset.sum_add_distrib]
      refine Finset.sum_le_sum fun r _ => ?_
      rw [show Ref.readout g dw ts (Ref.allPasses n o) x r - Ref.readout g dw ts (Ref.allPasses n o) y r =
        ((Ref.readout g dw ts (Ref.allPasses n o) x r - x r) - (Ref.readout g dw ts (Ref.allPasses n o) y r - y r)) +
          (x r - y r) by ring]
      exact abs_add_le _ _
    nlinarith
  · rw [eB' x hx]
    exact (readout_total hg n hts h0 _ one x (nonneg x hx)).2


theorem expressError_le (i : Bool) (n e o : ℕ) (hn : 0 < n) {s : ℝ} (hs : 0 ≤ s) (h3 : 3 * ((n + o : ℕ) * s) ≤ 1) :
    0 ≤ expressError i n e o s ∧ expressError i n e o s ≤ 2 := by
  unfold expressError
  set W : ℕ := (n + o) ⌈/⌉ (if e = 0 then n + o else min e (n + o)) - (if i then 1 else 0) with hW
  have hE : 0 < (if e = 0 then n + o else min e (n + o)) := effectiveExpress_pos e (n + o) (by omega)
  have h1 : W ≤ n + o := by
    have : (n + o) ⌈/⌉ (if e = 0 then n + o else min e (n + o)) ≤ n + o := by
      rw [ceilDiv_le_iff_le_smul hE, smul_eq_mul]
      exact Nat.le_mul_of_pos_left _ hE
    omega
  have h2 : (W : ℝ) ≤ (n + o : ℕ) := by exact_mod_cast h1
  have h4 : (0 : ℝ) ≤ W := Nat.cast_nonneg _
  have h5 : (0 : ℝ) ≤ (n + o : ℕ) * s := mul_nonneg (Nat.cast_nonneg _) hs
  have h6 : s / 2 * W ≤ 1 := by nlinarith
  constructor
  · have := mul_nonneg hs h4
    positivity
  · nlinarith

/-! ## Images -/

/-- The passes made from an express matrix. -/
theorem express_passes {i : Bool} {n e o : ℕ} (hn : 0 < n) {tw : Option (List ℕ)} (hcov : Covering o (List.range n) tw)
    {m : Mat ℝ} {mon : Mat Bool} (hm : roeExpress true i (List.range n) e o tw = .ok (m, mon)) :
    matrixPasses (List.range n) m mon =
      (List.range (expressFull (K := ℝ) true i n e o).nr).map (matTodo (expressFull true i n e o) n o) := by
  have base : ∀ (m : Mat ℝ) (mon : Mat Bool), roeExpress true i (List.range n) e o none = .ok (m, mon) →
      m.nr = (expressFull (K := ℝ) true i n e o).nr ∧ ∀ k, ∀ j < n,
        m.e k j = (expressFull (K := ℝ) true i n e o).e k (j + o) ∧
        mon.e k j = decide ((expressFull (K := ℝ) true i n e o).e k (j + o) > 0) := by
    intro m mon h
    obtain ⟨a, ha, -, r, hr, rfl, rfl⟩ := roeExpress_ok h
    simp only [restrictTimeSpan, Except.ok.injEq] at hr
    subst hr
    have han : a + 1 = n := by
      have q := List.max?_eq_some_iff.1 ha
      have q1 := List.mem_range.1 q.1
      have q2 := q.2 (n - 1) (List.mem_range.2 (by omega))
      omega
    rw [han]
    refine ⟨rfl, fun k j hj => ?_⟩
    have : (List.range n).getD j 0 = j := by
      rw [List.getD_eq_getElem _ _ (by simpa using hj), List.getElem_range]
    simp only [this]
    exact ⟨trivial, trivial⟩
  have key : m.nr = (expressFull (K := ℝ) true i n e o).nr ∧ ∀ k < m.nr, ∀ j < n,
        m.e k j = (expressFull (K := ℝ) true i n e o).e k (j + o) ∧
        mon.e k j = decide ((expressFull (K := ℝ) true i n e o).e k (j + o) > 0) := by
    rcases hcov with rfl | ⟨T, rfl, hT⟩
    · obtain ⟨h1, h2⟩ := base m mon hm
      exact ⟨h1, fun k _ j hj => h2 k j hj⟩
    · obtain ⟨a', ha', hs, -⟩ := roeExpress_ok hm
      have h0 := roeExpress_eq (K := ℝ) true i (List.range n) e o none a' ha' hs
      simp only [restrictTimeSpan, Except.bind] at h0
      obtain ⟨m', c1, c2, -, c4⟩ := C06_default_time_window true i (List.range n) e o T hT _ _ h0
      obtain ⟨h1, h2⟩ := base _ _ h0
      rw [hm] at c1
      injection c1 with c1
      injection c1 with c1 c3
      subst c1
      rw [c3]
      refine ⟨c2.trans h1, fun k hk j hj => ?_⟩
      rw [c4 k (by rw [← c2]; exact hk) j]
      exact h2 k j hj
  unfold matrixPasses matTodo
  rw [key.1, List.length_range]
  refine List.map_congr_left fun k hk => ?_
  have hk' : k < m.nr := by rw [key.1]; exact List.mem_range.1 hk
  have e2 : ((List.range n).filter fun j => mon.e k j) =
      (List.range n).filter fun r => decide ((expressFull (K := ℝ) true i n e o).e k (r + o) > 0) :=
    List.filter_congr fun j hj => (key.2 k hk' j (List.mem_range.1 hj)).2
  rw [e2]
  refine List.map_congr_left fun j hj => ?_
  have hj' := List.mem_range.1 (List.mem_filter.1 hj).1
  rw [(key.2 k hk' j hj').1, List.getD_eq_getElem _ _ (by simpa using hj'), List.getElem_range]

/-- The readout of a column computed with `express = e`. -/
noncomputable def expressReadout (full power dw : ℝ) (gs : List (List Trap)) (i : Bool) (n e o : ℕ) : (ℕ → ℝ) → ℕ → ℝ :=
  Ref.readout (wellFill full power) dw (gs.map Ref.ofTraps)
    ((List.range (expressFull (K := ℝ) true i n e o).nr).map (matTodo (expressFull true i n e o) n o))

section
variable {full power dw : ℝ} {gs : List (List Trap)} {i : Bool} {c : CCD} {o : ℕ} {d : PyDirection}

theorem ExactObjects.run_express (h : ExactObjects full power dw gs i c o d) (e : ℕ) (img : Image ℝ) (hnr : 0 < img.nr)
    (he : e = 0 ∨ e + 1 ≠ img.nr) (tw : Option (List ℕ)) (hcov : Covering o (List.range img.nr) tw) :
    ∃ out, clockChargePy img (some c) (.standard [dw] true true true i) (.list (gs.map .group)) e o
        (List.range img.nr) (List.range img.nc) tw = .ok (out, .standard [dw] true true true i) ∧
      out.nr = img.nr ∧ out.nc = img.nc ∧ ∀ r < img.nr, ∀ c < img.nc, out.px r c =
        expressReadout full power dw gs i img.nr e o (fun r => img.px r c) r := by
  obtain ⟨h0, ⟨h1, h2⟩, h3, h4, h5, h6, h7⟩ := h
  have hw := wellFill_exact h3 h4
  have hv : c.view = ⟨[1], c.view.fill⟩ := by
    rw [← h1]; rfl
  have hfill := CCD.view_fill h2 h3 h4
  have htraps : ∀ t ∈ gs.map Ref.ofTraps, t.Ok := by
    intro t ht
    obtain ⟨l, hl, rfl⟩ := List.mem_map.1 ht
    exact Ref.ofTraps_ok (h7 l hl).2
  have hmax : ∀ a, (List.range img.nr).max? = some a → a + 1 = img.nr := by
    intro a ha
    have q := List.max?_eq_some_iff.1 ha
    have q1 := List.mem_range.1 q.1
    have q2 := q.2 (img.nr - 1) (List.mem_range.2 (by omega))
    omega
  obtain ⟨m, mon, hm⟩ : ∃ m mon, roeExpress (K := ℝ) true i (List.range img.nr) e o tw = .ok (m, mon) := by
    obtain ⟨x, hx⟩ := standard_cfg (K := ℝ) [1] i ⟨[1], fun _ x => x⟩ e o (List.range img.nr) tw
      (by rw [Ne, List.range_eq_nil]; omega) (by
        rintro ⟨-, hz, hmx⟩
        have := hmax e hmx
        omega) (by
        rintro t rfl
        rcases hcov with h | ⟨N, h, hN⟩
        · cases h
        · injection h with h
          subst h
          rw [Ne, List.range_eq_nil]
          have := hN 0 (List.mem_range.2 hnr)
          omega)
    obtain ⟨h1, -⟩ := clockCfg_fields (cfg := x.1) (roe' := x.2) hx
    simp only [Roe.express] at h1
    obtain ⟨⟨m, mon⟩, g1, -⟩ := bind_eq_ok h1
    exact ⟨m, mon, g1⟩
  obtain ⟨out, g1, g2, g3, g4⟩ := C53_clock img c.view.fill 1 dw i (gs.map Ref.ofTraps) e o (List.range img.nr)
    (List.range img.nc) tw m mon hm h5 one_pos (by rw [hfill]; exact hw.1) (by rw [hfill]; exact hw.2) htraps
    (fun w hw => List.mem_range.1 hw) (fun c hc => List.mem_range.1 hc) List.nodup_range
  refine ⟨out, ?_, g2, g3, fun r hr c' hc' => ?_⟩
  · rw [clockChargePy_groups img c _ gs h6 (fun l hl => (h7 l hl).1) (by rw [h1]; simp), hv, ← g1, List.map_map]
    congr 1
    exact List.map_congr_left fun l hl => Ref.ofTraps_group (h7 l hl).1 (h7 l hl).2
  · rw [g4 r hr c', if_pos (List.mem_range.2 hc'), hfill, express_passes hnr hcov hm]
    simp only [inPhase_one, List.map_map]
    rfl

theorem Ref.ofTraps_spent (hdw : 0 < dw) (hb : ∀ l ∈ gs, ∀ t ∈ l, t.Bulk) :
    Ref.Spent dw (gs.map Ref.ofTraps) (gs.map Ref.ofTraps) := by
  unfold Ref.Spent
  rw [List.forall₂_same]
  intro t ht
  obtain ⟨l, hl, rfl⟩ := List.mem_map.1 ht
  exact ⟨rfl, (Ref.ofTraps_ok (hb l hl)).reg hdw⟩

/-- Power at least one. -/
theorem ExactObjects.expressed (h : ExactObjects full power dw gs i c o d) (hpw : 1 ≤ power) (n e : ℕ) (hn : 0 < n)
    (he : e = 0 ∨ e + 1 ≠ n) (l : ℝ) (hl : l = 2 * (trapCount gs * (power / full))) (hl1 : l < 1)
    (h3 : 3 * ((n + o : ℕ) * (l / (1 - l))) ≤ 1) :
    Expressed n 0 0 (expressError i n e o (l / (1 - l))) (expressReadout full power dw gs i n e o)
      (Ref.readout (wellFill full power) dw (gs.map Ref.ofTraps) (Ref.allPasses n o)) := by
  have hf := wellFill_lip h.full hpw
  have k := mul_nonneg h.count_nonneg hf.nonneg_slope
  have hF := h.few hf.nonneg_slope (by linarith)
  have hs : passSlope 1 (2 * (Ref.totals (gs.map Ref.ofTraps) * (power / full))) = l / (1 - l) := by
    rw [Ref.ofTraps_totals, ← hl, passSlope, one_mul]
  have key := express_column (b := 0) (low := 0) hf le_rfl (fun _ _ => rfl) (by linarith) hF
    (Ref.ofTraps_spent h.dwell fun l hl => (h.groups.2 l hl).2) (Ref.ofTraps_filling gs)
    (by rw [Ref.ofTraps_totals, ← hl]; exact hl1) i n e o hn (by unfold effectiveExpress; split <;> omega)
    (by rw [hs]; exact h3)
  rw [hs] at key
  exact key

/-- Power at most one and a background. -/
theorem ExactObjects.expressed_background (h : ExactObjects full power dw gs i c o d) (hpw : power ≤ 1) (n e : ℕ) (hn : 0 < n)
    (he : e = 0 ∨ e + 1 ≠ n) (b l : ℝ) (hb : 0 < b) (hl : l = 2 * (trapCount gs * (wellFill full power b / b))) (hl1 : l < 1)
    (h3 : 3 * ((n + o : ℕ) * (l / (1 - l))) ≤ 1) :
    Expressed n (2 * b) b (expressError i n e o (l / (1 - l))) (expressReadout full power dw gs i n e o)
      (Ref.readout (wellFill full power) dw (gs.map Ref.ofTraps) (Ref.allPasses n o)) := by
  have hf := (wellFill_concave h.full h.power hpw).lift hb
  have k := mul_nonneg h.count_nonneg hf.nonneg_slope
  have hF := h.few hf.nonneg_slope (by linarith)
  have hs : passSlope 1 (2 * (Ref.totals (gs.map Ref.ofTraps) * (wellFill full power b / b))) = l / (1 - l) := by
    rw [Ref.ofTraps_totals, ← hl, passSlope, one_mul]
  have key := express_column (b := b) (low := 2 * b) hf hb.le (fun z hz => (liftFill_eq hz).symm) le_rfl hF
    (Ref.ofTraps_spent h.dwell fun l hl => (h.groups.2 l hl).2) (Ref.ofTraps_filling gs)
    (by rw [Ref.ofTraps_totals, ← hl]; exact hl1) i n e o hn (by unfold effectiveExpress; split <;> omega)
    (by rw [hs]; exact h3)
  rw [hs] at key
  exact key

end

/-- One direction. -/
theorem expressed_columns {nr nc : ℕ} {low left err : ℝ} {P Q : (ℕ → ℝ) → ℕ → ℝ} (h : Expressed nr low left err P Q)
    (x : ℕ → ℕ → ℝ) (hx : ∀ r < nr, ∀ c < nc, low ≤ x r c) :
    ∑ r ∈ range nr, ∑ c ∈ range nc, Q (fun r => x r c) r ≤ ∑ r ∈ range nr, ∑ c ∈ range nc, x r c ∧
    ∑ r ∈ range nr, ∑ c ∈ range nc, |P (fun r => x r c) r - Q (fun r => x r c) r| ≤
      err * ∑ r ∈ range nr, ∑ c ∈ range nc, x r c := by
  constructor
  · rw [Finset.sum_comm, Finset.sum_comm (s := range nr)]
    exact Finset.sum_le_sum fun c hc => h.total (fun r => x r c) fun r hr => hx r hr c (Finset.mem_range.1 hc)
  · rw [Finset.sum_comm, Finset.sum_comm (s := range nr), Finset.mul_sum]
    exact Finset.sum_le_sum fun c hc => h.near (fun r => x r c) fun r hr => hx r hr c (Finset.mem_range.1 hc)

/-- Two directions, one after the other. -/
theorem expressed_image {nr nc : ℕ} {lp ls left ep es : ℝ} {P Q S T : (ℕ → ℝ) → ℕ → ℝ} (hP : Expressed nr lp ls ep P Q)
    (hS : Expressed nc ls left es S T) (hl : 0 ≤ lp) (hep : 0 ≤ ep ∧ ep ≤ 2) (hes : 0 ≤ es) (x : ℕ → ℕ → ℝ)
    (hx : ∀ r < nr, ∀ c < nc, lp ≤ x r c) :
    ∑ r ∈ range nr, ∑ c ∈ range nc, |S (fun c => P (fun r => x r c) r) c - T (fun c => Q (fun r => x r c) r) c| ≤
      (2 * ep + 3 * es) * ∑ r ∈ range nr, ∑ c ∈ range nc, x r c := by
  obtain ⟨t, e⟩ := expressed_columns (nc := nc) hP x hx
  set u : ℕ → ℕ → ℝ := fun r c => P (fun r => x r c) r with hu
  set v : ℕ → ℕ → ℝ := fun r c => Q (fun r => x r c) r with hv
  set D := ∑ r ∈ range nr, ∑ c ∈ range nc, x r c with hD
  have hD0 : 0 ≤ D := Finset.sum_nonneg fun r hr => Finset.sum_nonneg fun c hc =>
    hl.trans (hx r (Finset.mem_range.1 hr) c (Finset.mem_range.1 hc))
  have hu0 : ∀ r < nr, ∀ c < nc, ls ≤ u r c := fun r hr c hc =>
    hP.floorA (fun r => x r c) (fun r hr => hx r hr c hc) r hr
  have hv0 : ∀ r < nr, ∀ c < nc, ls ≤ v r c := fun r hr c hc =>
    hP.floorB (fun r => x r c) (fun r hr => hx r hr c hc) r hr
  have h1 : ∑ r ∈ range nr, ∑ c ∈ range nc, |S (u r) c - T (u r) c| ≤ es * ∑ r ∈ range nr, ∑ c ∈ range nc, u r c := by
    rw [Finset.mul_sum]
    exact Finset.sum_le_sum fun r hr => hS.near (u r) (hu0 r (Finset.mem_range.1 hr))
  have h2 : ∑ r ∈ range nr, ∑ c ∈ range nc, |T (u r) c - T (v r) c| ≤
      2 * ∑ r ∈ range nr, ∑ c ∈ range nc, |u r c - v r c| := by
    rw [Finset.mul_sum]
    exact Finset.sum_le_sum fun r hr => hS.lip (u r) (v r) (hu0 r (Finset.mem_range.1 hr)) (hv0 r (Finset.mem_range.1 hr))
  have h3 : ∑ r ∈ range nr, ∑ c ∈ range nc, u r c ≤
      ∑ r ∈ range nr, ∑ c ∈ range nc, |u r c - v r c| + ∑ r ∈ range nr, ∑ c ∈ range nc, v r c := by
    rw [← Finset.sum_add_distrib]
    refine Finset.sum_le_sum fun r _ => ?_
    rw [← Finset.sum_add_distrib]
    exact Finset.sum_le_sum fun c _ => by linarith [le_abs_self (u r c - v r c)]
  have h4 : ∑ r ∈ range nr, ∑ c ∈ range nc, |S (u r) c - T (v r) c| ≤
      ∑ r ∈ range nr, ∑ c ∈ range nc, |S (u r) c - T (u r) c| +
        ∑ r ∈ range nr, ∑ c ∈ range nc, |T (u r) c - T (v r) c| := by
    rw [← Finset.sum_add_distrib]
    refine Finset.sum_le_sum fun r _ => ?_
    rw [← Finset.sum_add_distrib]
    exact Finset.sum_le_sum fun c _ => abs_sub_le _ _ _
  have h5 : ∑ r ∈ range nr, ∑ c ∈ range nc, u r c ≤ 3 * D := by nlinarith [hep.1, hep.2]
  have h6 := mul_le_mul_of_nonneg_left h5 hes
  refine h4.trans ?_
  linarith

/-- `add_cti` with `express`, any values that do not fail. -/
theorem add_cti_express {fp fs pp ps dp ds : ℝ} {gp gs : List (List Trap)} {ip is : Bool} {cp cs : CCD} {op os : ℕ}
    {par ser : PyDirection} (hp : ExactObjects fp pp dp gp ip cp op par) (hs : ExactObjects fs ps ds gs is cs os ser)
    (img : Image ℝ) (hnr : 0 < img.nr) (hnc : 0 < img.nc) (ep es : ℕ) (hep : ep = 0 ∨ ep + 1 ≠ img.nr)
    (hes : es = 0 ∨ es + 1 ≠ img.nc) :
    ∃ out, addCtiPy img { par with express := ep } .all { ser with express := es } .all none =
        .ok (out, .standard [dp] true true true ip, .standard [ds] true true true is) ∧
      out.nr = img.nr ∧ out.nc = img.nc ∧
      ∀ r < img.nr, ∀ c < img.nc, out.px r c =
        expressReadout fs ps ds gs is img.nc es os
          (fun c => expressReadout fp pp dp gp ip img.nr ep op (fun r => img.px r c) r) c := by
  obtain ⟨mid, g1, g2, g3, g4⟩ := hp.run_express ep img hnr hep (some (List.range (img.nr + op)))
    (Or.inr ⟨img.nr, rfl, fun x hx => List.mem_range.1 hx⟩)
  have e1 : mid.transpose.nr = img.nc := g3
  have e2 : mid.transpose.nc = img.nr := g2
  obtain ⟨out, q1, q2, q3, q4⟩ := hs.run_express es mid.transpose (by rw [e1]; exact hnc) (by rw [e1]; exact hes) none (Or.inl rfl)
  rw [e1, e2] at q1
  refine ⟨out.transpose, ?_, q3.trans e2, q2.trans e1, ?_⟩
  · rw [hp.eq, hs.eq]
    unfold addCtiPy
    simp only [Window.resolve, bind, Except.bind, Option.getD_none, Option.getD_some]
    rw [g1]
    simp only
    rw [q1]
  · intro r hr c hc
    change out.px c r = _
    rw [q4 c (by rw [e1]; exact hc) r (by rw [e2]; exact hr), e1]
    refine readout_congr _ ds _ img.nc _ ?_ _ _ (fun c hc => ?_) c hc
    · intro p hp x hx
      obtain ⟨k, -, rfl⟩ := List.mem_map.1 hp
      obtain ⟨j, hj, rfl⟩ := List.mem_map.1 hx
      exact List.mem_range.1 (List.mem_filter.1 hj).1
    · change mid.px r c = _
      exact g4 r hr c hc

/-! ## C82 -/

section
variable {fp fs pp ps dp ds : ℝ} {gp gs : List (List Trap)} {ip is : Bool} {cp cs : CCD} {op os : ℕ} {par ser : PyDirection}

/-- **C82**: `add_cti` with `express` against `add_cti` that follows every transfer. A transfer changes a pixel by at most a
fraction `l / (1 - l)`, `l` being twice the number of traps per pixel and electron of well depth (times the power of the filling
law). If all transfers together cost at most a third, the images differ by at most `2 ep + 3 es` times the charge of the image:
`ep` and `es` are half the cost of the transfers that one computed pass stands for, plus ten times the square of the cost of all
transfers. No `express` value needs to be a divisor of anything; only `express = rows - 1` fails (C02). -/
theorem C82_add_cti (hp : ExactObjects fp pp dp gp ip cp op par) (hs : ExactObjects fs ps ds gs is cs os ser)
    (hpp : 1 ≤ pp) (hps : 1 ≤ ps) (img : Image ℝ) (hnr : 0 < img.nr) (hnc : 0 < img.nc)
    (himg : ∀ r < img.nr, ∀ c < img.nc, 0 ≤ img.px r c) (ep es : ℕ) (hep : ep = 0 ∨ ep + 1 ≠ img.nr)
    (hes : es = 0 ∨ es + 1 ≠ img.nc) (lp ls : ℝ) (hlp : lp = 2 * (trapCount gp * (pp / fp)))
    (hls : ls = 2 * (trapCount gs * (ps / fs))) (hlp1 : lp < 1) (hls1 : ls < 1)
    (h3p : 3 * ((img.nr + op : ℕ) * (lp / (1 - lp))) ≤ 1) (h3s : 3 * ((img.nc + os : ℕ) * (ls / (1 - ls))) ≤ 1) :
    ∃ a b roes roes', addCtiPy img { par with express := ep } .all { ser with express := es } .all none = .ok (a, roes) ∧
      addCtiPy img par .all ser .all none = .ok (b, roes') ∧ a.SameShape img ∧ b.SameShape img ∧
      a.dist b ≤ (2 * expressError ip img.nr ep op (lp / (1 - lp)) + 3 * expressError is img.nc es os (ls / (1 - ls))) *
        img.total := by
  obtain ⟨a, a1, a2, a3, a4⟩ := add_cti_express hp hs img hnr hnc ep es hep hes
  obtain ⟨b, b1, b2, b3, b4⟩ := C55_add_cti img hnr hnc fp fs pp ps dp ds gp gs ip is cp cs op os par ser hp hs
  refine ⟨a, b, _, _, a1, b1, ⟨a2, a3⟩, ⟨b2, b3⟩, ?_⟩
  have kp := mul_nonneg hp.count_nonneg (wellFill_lip hp.full hpp).nonneg_slope
  have ks := mul_nonneg hs.count_nonneg (wellFill_lip hs.full hps).nonneg_slope
  have s0p : 0 ≤ lp / (1 - lp) := div_nonneg (by linarith) (by linarith)
  have s0s : 0 ≤ ls / (1 - ls) := div_nonneg (by linarith) (by linarith)
  have key := expressed_image (hp.expressed hpp img.nr ep hnr hep lp hlp hlp1 h3p)
    (hs.expressed hps img.nc es hnc hes ls hls hls1 h3s) le_rfl (expressError_le ip img.nr ep op hnr s0p h3p)
    (expressError_le is img.nc es os hnc s0s h3s).1 img.px himg
  refine le_trans (le_of_eq ?_) key
  unfold Image.dist
  rw [a2, a3]
  refine Finset.sum_congr rfl fun r hr => Finset.sum_congr rfl fun c hc => ?_
  rw [a4 r (Finset.mem_range.1 hr) c (Finset.mem_range.1 hc), b4 r (Finset.mem_range.1 hr) c (Finset.mem_range.1 hc)]

/-- **C82**, one direction, power at most one and a background of at least `2 b` electrons: the volume of a cloud of `b`
electrons counts. -/
theorem C82_background (hp : ExactObjects fp pp dp gp ip cp op par) (hpp : pp ≤ 1) (img : Image ℝ) (hnr : 0 < img.nr)
    (b l : ℝ) (hb : 0 < b) (himg : ∀ r < img.nr, ∀ c < img.nc, 2 * b ≤ img.px r c) (e : ℕ) (he : e = 0 ∨ e + 1 ≠ img.nr)
    (hl : l = 2 * (trapCount gp * (wellFill fp pp b / b))) (hl1 : l < 1)
    (h3 : 3 * ((img.nr + op : ℕ) * (l / (1 - l))) ≤ 1) :
    ∃ out full, addCtiPy img { par with express := e } .all .absent .all none =
        .ok (out, .standard [dp] true true true ip, Roe.default) ∧
      addCtiPy img par .all .absent .all none = .ok (full, .standard [dp] true true true ip, Roe.default) ∧
      out.SameShape img ∧ full.SameShape img ∧
      out.dist full ≤ expressError ip img.nr e op (l / (1 - l)) * img.total := by
  obtain ⟨out, g1, g2, g3, g4⟩ := hp.run_express e img hnr he (some (List.range (img.nr + op)))
    (Or.inr ⟨img.nr, rfl, fun x hx => List.mem_range.1 hx⟩)
  obtain ⟨fl, f1, f2, f3, f4⟩ := C55_parallel img hnr fp pp dp gp ip cp op par hp
  refine ⟨out, fl, ?_, f1, ⟨g2, g3⟩, ⟨f2, f3⟩, ?_⟩
  · rw [hp.eq]
    unfold addCtiPy PyDirection.absent
    simp only [Window.resolve, bind, Except.bind, Option.getD_none, Option.getD_some]
    rw [g1]
  · refine le_trans (le_of_eq ?_) (expressed_columns (nc := img.nc) (hp.expressed_background hpp img.nr e hnr he b l hb hl hl1 h3)
      img.px himg).2
    unfold Image.dist
    rw [g2, g3]
    refine Finset.sum_congr rfl fun r hr => Finset.sum_congr rfl fun c hc => ?_
    rw [g4 r (Finset.mem_range.1 hr) c (Finset.mem_range.1 hc), f4 r (Finset.mem_range.1 hr) c (Finset.mem_range.1 hc)]

/-- **C82**: an image made by following every transfer, corrected with `express`. The result approaches the true image up to a
fraction `E / (1 - q - E)` of its charge, `E` being the error of one simulation (`C82_add_cti`) and `q` the charge that the traps
displace (C58). -/
theorem C82_remove_cti (hp : ExactObjects fp pp dp gp ip cp op par) (hs : ExactObjects fs ps ds gs is cs os ser)
    (hpp : 1 ≤ pp) (hps : 1 ≤ ps) (truth : Image ℝ) (hnr : 0 < truth.nr) (hnc : 0 < truth.nc) (ep es : ℕ)
    (hep : ep = 0 ∨ ep + 1 ≠ truth.nr) (hes : es = 0 ∨ es + 1 ≠ truth.nc) (lp ls q E : ℝ)
    (hlp : lp = 2 * (trapCount gp * (pp / fp))) (hls : ls = 2 * (trapCount gs * (ps / fs))) (hlp1 : lp < 1) (hls1 : ls < 1)
    (h3p : 3 * ((truth.nr + op : ℕ) * (lp / (1 - lp))) ≤ 1) (h3s : 3 * ((truth.nc + os : ℕ) * (ls / (1 - ls))) ≤ 1)
    (hq : q = (1 / (1 - lp)) ^ (truth.nr + op) * (1 / (1 - ls)) ^ (truth.nc + os) - 1)
    (hE : E = 2 * expressError ip truth.nr ep op (lp / (1 - lp)) + 3 * expressError is truth.nc es os (ls / (1 - ls)))
    (hq1 : q + E < 1) (hpos : 0 ≤ truth.total)
    (htruth : ∀ r < truth.nr, ∀ c < truth.nc, (q + E / (1 - (q + E))) * truth.total ≤ truth.px r c) :
    ∃ img roes, addCtiPy truth par .all ser .all none = .ok (img, roes) ∧
      ∀ n, ∃ out, removeCtiPy img n { par with express := ep } .all { ser with express := es } .all none =
          .ok (out, par.roe, ser.roe) ∧ out.SameShape truth ∧
        out.dist truth ≤ ((q + E) ^ n * q + E / (1 - (q + E))) * truth.total := by
  have kp := mul_nonneg hp.count_nonneg (wellFill_lip hp.full hpp).nonneg_slope
  have ks := mul_nonneg hs.count_nonneg (wellFill_lip hs.full hps).nonneg_slope
  have mP := (hp.mild hpp (by linarith) truth.nr).mono le_rfl (lossSlope_mono hlp.symm.le hlp1 (truth.nr + op))
  have mS := (hs.mild hps (by linarith) truth.nc).mono le_rfl (lossSlope_mono hls.symm.le hls1 (truth.nc + os))
  have s0p : 0 ≤ lp / (1 - lp) := div_nonneg (by linarith) (by linarith)
  have s0s : 0 ≤ ls / (1 - ls) := div_nonneg (by linarith) (by linarith)
  have ebp := expressError_le ip truth.nr ep op hnr s0p h3p
  have ebs := expressError_le is truth.nc es os hnc s0s h3s
  have hE0 : 0 ≤ E := by rw [hE]; linarith [ebp.1, ebs.1]
  have q0p := lossSlope_nonneg (by linarith : 0 ≤ lp) hlp1 (truth.nr + op)
  have q0s := lossSlope_nonneg (by linarith : 0 ≤ ls) hls1 (truth.nc + os)
  have qe : (1 + lossSlope lp (truth.nr + op)) * (1 + lossSlope ls (truth.nc + os)) - 1 = q := by
    rw [hq]; unfold lossSlope; ring
  have hq0 : 0 ≤ q := by rw [← qe]; nlinarith
  have hd : 0 ≤ E / (1 - (q + E)) := div_nonneg hE0 (by linarith)
  have ht0 : ∀ r < truth.nr, ∀ c < truth.nc, 0 ≤ truth.px r c := fun r hr c hc =>
    (mul_nonneg (by linarith) hpos).trans (htruth r hr c hc)
  obtain ⟨img, b1, b2, b3, b4⟩ := C55_add_cti truth hnr hnc fp fs pp ps dp ds gp gs ip is cp cs op os par ser hp hs
  have small := mild_image_small mP mS q0s truth.px ht0
  rw [qe] at small
  change _ ≤ q * truth.total at small
  have hdist : img.dist truth ≤ q * truth.total := by
    refine le_trans (le_of_eq ?_) small
    unfold Image.dist
    rw [b2, b3]
    refine Finset.sum_congr rfl fun r hr => Finset.sum_congr rfl fun c hc => ?_
    rw [b4 r (Finset.mem_range.1 hr) c (Finset.mem_range.1 hc)]
  have hroe : par.roe = some (.standard [dp] true true true ip) ∧ ser.roe = some (.standard [ds] true true true is) := by
    rw [hp.eq, hs.eq]; exact ⟨rfl, rfl⟩
  refine ⟨img, _, b1, fun n => ?_⟩
  have sp : (q + E / (1 - (q + E))) * truth.total = q * truth.total + E * truth.total / (1 - (q + E)) := by ring
  have main := removeIter_near (fun x (roes : Option (Roe ℝ) × Option (Roe ℝ)) => do
      let (y, rp, rs) ← addCtiPy x { { par with express := ep } with roe := roes.1 } .all
        { { ser with express := es } with roe := roes.2 } .all none
      pure (y, roes.1.map fun _ => rp, roes.2.map fun _ => rs)) (par.roe, ser.roe) truth img 0 (q + E)
    (E * truth.total) (q * truth.total) (by linarith) hq1 (mul_nonneg hE0 hpos) ⟨b2, b3⟩ hdist
    (fun r hr c hc => by rw [zero_add, ← sp]; exact htruth r hr c hc) (fun x hx hlow => ?_) n
  · obtain ⟨out, o1, o2, o3⟩ := main
    refine ⟨out, o1, o2, o3.trans (le_of_eq ?_)⟩
    ring
  · obtain ⟨y, g1, g2, g3, g4⟩ := add_cti_express hp hs x (by rw [hx.1]; exact hnr) (by rw [hx.2]; exact hnc) ep es
      (by rw [hx.1]; exact hep) (by rw [hx.2]; exact hes)
    rw [hx.1, hx.2] at g4
    refine ⟨y, ?_, ⟨g2.trans hx.1, g3.trans hx.2⟩, ?_⟩
    · simp only [bind, Except.bind]
      rw [g1]
      simp only [hroe.1, hroe.2, Option.map_some]
      rfl
    · have lip := mild_image mP mS q0s x.px truth.px hlow ht0
      have near := expressed_image (hp.expressed hpp truth.nr ep hnr hep lp hlp hlp1 h3p)
        (hs.expressed hps truth.nc es hnc hes ls hls hls1 h3s) le_rfl ebp ebs.1 x.px hlow
      rw [qe] at lip
      rw [← hE] at near
      have e : x.dist truth = ∑ r ∈ range truth.nr, ∑ c ∈ range truth.nc, |x.px r c - truth.px r c| := by
        unfold Image.dist
        rw [hx.1, hx.2]
      have tot : ∑ r ∈ range truth.nr, ∑ c ∈ range truth.nc, x.px r c ≤ x.dist truth + truth.total := by
        rw [e]
        unfold Image.total
        rw [← Finset.sum_add_distrib]
        refine Finset.sum_le_sum fun r _ => ?_
        rw [← Finset.sum_add_distrib]
        exact Finset.sum_le_sum fun c _ => by linarith [le_abs_self (x.px r c - truth.px r c)]
      have tot' := mul_le_mul_of_nonneg_left tot hE0
      rw [← e] at lip
      have both := add_le_add near lip
      rw [← Finset.sum_add_distrib] at both
      refine le_trans ?_ (both.trans (by linarith))
      refine Finset.sum_le_sum fun r hr => ?_
      rw [← Finset.sum_add_distrib]
      refine Finset.sum_le_sum fun c hc => ?_
      rw [g4 r (Finset.mem_range.1 hr) c (Finset.mem_range.1 hc), b4 r (Finset.mem_range.1 hr) c (Finset.mem_range.1 hc)]
      refine le_trans (le_of_eq ?_) (abs_add_le _ _)
      congr 1
      ring

/-- **C82**: the HST preset. -/
theorem C82_hst (date : ℝ) (hd : 2452334.5 ≤ date) (img : Image ℝ) (hnr : 0 < img.nr) (e o : ℕ) (he : e = 0 ∨ e + 1 ≠ img.nr)
    (b l : ℝ) (hb : 0 < b) (himg : ∀ r < img.nr, ∀ c < img.nc, 2 * b ≤ img.px r c)
    (hl : l = 2 * (hstTotalDensity date * (wellFill 84700 0.478 b / b))) (hl1 : l < 1)
    (h3 : 3 * ((img.nr + o : ℕ) * (l / (1 - l))) ≤ 1) :
    ∃ traps ccd roe out full, modelForHstAcs date = .ok (traps, ccd, roe) ∧
      addCtiPy img ⟨some ccd, some roe, some (.list (traps.map .trap)), e, o⟩ .all .absent .all none =
        .ok (out, roe, Roe.default) ∧
      addCtiPy img ⟨some ccd, some roe, some (.list (traps.map .trap)), 0, o⟩ .all .absent .all none =
        .ok (full, roe, Roe.default) ∧
      out.SameShape img ∧ full.SameShape img ∧
      out.dist full ≤ expressError false img.nr e o (l / (1 - l)) * img.total := by
  obtain ⟨traps, ccd, h, hne, hx⟩ := hst_exact date hd o
  have hcount : trapCount [traps] = hstTotalDensity date := by
    obtain ⟨d₁, d₂, d₃, τ₁, τ₂, τ₃, ht, -, -, -, -, -, hsum, -⟩ := C42_species date traps ccd _ h
    rw [← hsum, ht]
    simp [trapCount, Trap.density]
    ring
  obtain ⟨out, fl, g1, g2, g3, g4, g5⟩ := C82_background hx (by norm_num) img hnr b l hb himg e he (by rw [hcount]; exact hl) hl1 h3
  refine ⟨traps, ccd, _, out, fl, h, ?_, ?_, g3, g4, g5⟩
  · exact (addCtiPy_trap_list img ⟨some ccd, some (.standard [1] true true true false), none, e, o⟩ traps hne .all .absent
      .all none).trans g1
  · exact (addCtiPy_trap_list img ⟨some ccd, some (.standard [1] true true true false), none, 0, o⟩ traps hne .all .absent
      .all none).trans g2

end

/-! ### examples -/

/-- The preset with `express = 5`, ten rows of 10000 electrons: 100 of the 100000 electrons at most are elsewhere. -/
example : ∃ traps ccd roe out full, modelForHstAcs 2454834.5 = .ok (traps, ccd, roe) ∧
    addCtiPy ⟨10, 1, fun _ _ => 10000⟩ ⟨some ccd, some roe, some (.list (traps.map .trap)), 5, 0⟩ .all .absent .all none =
      .ok (out, roe, Roe.default) ∧
    addCtiPy ⟨10, 1, fun _ _ => 10000⟩ ⟨some ccd, some roe, some (.list (traps.map .trap)), 0, 0⟩ .all .absent .all none =
      .ok (full, roe, Roe.default) ∧ out.dist full ≤ 100 := by
  have htot : Image.total (⟨10, 1, fun _ _ => 10000⟩ : Image ℝ) = 100000 := by
    simp [Image.total]; norm_num
  have d1 : hstTotalDensity 2454834.5 = 0.905045 := by unfold hstTotalDensity; norm_num
  have hw := (wellFill_exact (full := 84700) (power := 0.478) (by norm_num) (by norm_num)).1
  have hw1 := hw.le_one 5000
  have hw0 := hw.nonneg 5000
  obtain ⟨l, hl⟩ : ∃ l : ℝ, l = 2 * (hstTotalDensity 2454834.5 * (wellFill 84700 0.478 5000 / 5000)) := ⟨_, rfl⟩
  have l0 : 0 ≤ l := by rw [hl, d1]; positivity
  have l1 : l ≤ 4 / 10000 := by rw [hl, d1]; linarith
  have s0 : 0 ≤ l / (1 - l) := div_nonneg l0 (by linarith)
  have s1 : l / (1 - l) ≤ 5 / 10000 := by
    rw [div_le_iff₀ (by linarith)]; linarith
  obtain ⟨traps, ccd, roe, out, fl, g1, g2, g3, -, -, g4⟩ := C82_hst 2454834.5 (by norm_num)
    (⟨10, 1, fun _ _ => 10000⟩ : Image ℝ) (by norm_num) 5 0 (by norm_num) 5000 l (by norm_num)
    (fun r _ c _ => by norm_num) hl (by linarith) (by push_cast; linarith)
  refine ⟨traps, ccd, roe, out, fl, g1, g2, g3, g4.trans ?_⟩
  rw [htot]
  unfold expressError
  have hW : ((10 + 0) ⌈/⌉ (if (5 : ℕ) = 0 then 10 + 0 else min 5 (10 + 0)) - (if false = true then 1 else 0) : ℕ) = 2 := by
    decide
  have e : (Image.nr (⟨10, 1, fun _ _ => 10000⟩ : Image ℝ)) = 10 := rfl
  rw [e, hW]
  push_cast
  nlinarith

/-- Two directions, a linear well of 10000 electrons with half a trap per pixel, whole multipliers. -/
example (c : CCD) (d : PyDirection) (h : ExactObjects 10000 1 1 [[.instant (1 / 2) 5 false]] true c 0 d) :
    ∃ img roes, addCtiPy ⟨4, 3, fun _ _ => 100⟩ d .all d .all none = .ok (img, roes) ∧
      ∀ n, ∃ out, removeCtiPy img n { d with express := 2 } .all { d with express := 1 } .all none =
          .ok (out, d.roe, d.roe) ∧ out.SameShape ⟨4, 3, fun _ _ => 100⟩ ∧
        out.dist ⟨4, 3, fun _ _ => 100⟩ ≤ (1 / 100) ^ (n + 1) * 1200 + 1 := by
  have htot : Image.total (⟨4, 3, fun _ _ => 100⟩ : Image ℝ) = 1200 := by
    simp [Image.total]; norm_num
  have hc : trapCount [[.instant (1 / 2) 5 false]] = 1 / 2 := by simp [trapCount, Trap.density]
  obtain ⟨q, hq⟩ : ∃ q : ℝ, q = (1 / (1 - 1 / 10000)) ^ (4 + 0) * (1 / (1 - 1 / 10000)) ^ (3 + 0) - 1 := ⟨_, rfl⟩
  have q0 : 0 ≤ q := by rw [hq]; norm_num
  have q1 : q ≤ 1 / 1000 := by rw [hq]; norm_num
  obtain ⟨E, hE⟩ : ∃ E : ℝ, E = 2 * expressError true 4 2 0 (1 / 10000 / (1 - 1 / 10000)) +
    3 * expressError true 3 1 0 (1 / 10000 / (1 - 1 / 10000)) := ⟨_, rfl⟩
  have hW1 : ((4 + 0) ⌈/⌉ (if (2 : ℕ) = 0 then 4 + 0 else min 2 (4 + 0)) - (if true = true then 1 else 0) : ℕ) = 1 := by decide
  have hW2 : ((3 + 0) ⌈/⌉ (if (1 : ℕ) = 0 then 3 + 0 else min 1 (3 + 0)) - (if true = true then 1 else 0) : ℕ) = 2 := by decide
  have E0 : 0 ≤ E := by
    rw [hE]; unfold expressError; rw [hW1, hW2]; norm_num
  have E1 : E ≤ 5 / 10000 := by
    rw [hE]; unfold expressError; rw [hW1, hW2]; norm_num
  have E2 : E / (1 - (q + E)) ≤ 1 / 1200 := by
    rw [div_le_iff₀ (by linarith)]
    linarith
  obtain ⟨img, roes, g1, g2⟩ := C82_remove_cti h h le_rfl le_rfl (⟨4, 3, fun _ _ => 100⟩ : Image ℝ) (by norm_num) (by norm_num)
    2 1 (by norm_num) (by norm_num) (1 / 10000) (1 / 10000) q E (by rw [hc]; norm_num) (by rw [hc]; norm_num) (by norm_num)
    (by norm_num) (by norm_num) (by norm_num) hq hE (by linarith) (by rw [htot]; norm_num)
    (fun r _ c _ => by rw [htot]; dsimp only; linarith)
  refine ⟨img, roes, g1, fun n => ?_⟩
  obtain ⟨out, o1, o2, o3⟩ := g2 n
  refine ⟨out, o1, o2, o3.trans ?_⟩
  rw [htot]
  have := pow_le_pow_left₀ (by linarith) (by linarith : q + E ≤ 1 / 100) n
  have p0 : 0 ≤ (1 / 100 : ℝ) ^ n := by positivity
  have := mul_le_mul this (by linarith : q ≤ 1 / 100) q0 p0
  rw [pow_succ]
  linarith

end Arctic
