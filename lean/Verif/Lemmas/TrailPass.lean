import Verif.Lemmas.Trail
import Verif.Props.Reference

/-!
# The passes of a full readout over a bright pixel
-/

set_option linter.unusedSectionVars false
set_option linter.unusedVariables false

namespace Arctic

variable {f : ℝ → ℝ} {held : ℕ → ℝ} {img : ℕ → ℝ} {N : ℝ} {b : ℕ}

/-- The column of `n` rows after `k` transfers of the bright pixel. -/
noncomputable def trailCol (f : ℝ → ℝ) (held : ℕ → ℝ) (img : ℕ → ℝ) (n b k r : ℕ) : ℝ :=
  if r < b ∨ n ≤ r then img r else if r = b then brightAfter f (held 0) (img b) k
  else img r + trailAfter f held (img b) k (r - b - 1)

theorem trailAfter_succ (f : ℝ → ℝ) (held : ℕ → ℝ) (N : ℝ) (k j : ℕ) :
    trailAfter f held N (k + 1) j = trailAfter f held N k j +
      f (brightAfter f (held 0) N k) * (held j - held (j + 1)) := by
  unfold trailAfter
  rw [Finset.sum_range_succ]

theorem trailAfter_mono (hf : ∀ x, 0 ≤ f x) (ha : ∀ a, held (a + 1) ≤ held a) (N : ℝ) (j : ℕ) {k l : ℕ} (h : k ≤ l) :
    trailAfter f held N k j ≤ trailAfter f held N l j := by
  unfold trailAfter
  exact Finset.sum_le_sum_of_subset_of_nonneg (Finset.range_mono h)
    fun i _ _ => mul_nonneg (hf _) (sub_nonneg.2 (ha j))

theorem trailAfter_nonneg (hf : ∀ x, 0 ≤ f x) (ha : ∀ a, held (a + 1) ≤ held a) (N : ℝ) (k j : ℕ) :
    0 ≤ trailAfter f held N k j :=
  Finset.sum_nonneg fun i _ => mul_nonneg (hf _) (sub_nonneg.2 (ha j))

theorem brightAfter_anti (hf : ∀ x, 0 ≤ f x) {cap : ℝ} (hc : 0 ≤ cap) (N : ℝ) {k l : ℕ} (h : k ≤ l) :
    brightAfter f cap N l ≤ brightAfter f cap N k := by
  induction h with
  | refl => exact le_rfl
  | step h ih =>
    refine le_trans ?_ ih
    change _ - _ ≤ _
    have := mul_nonneg (hf (brightAfter f cap N ‹ℕ›)) hc
    linarith

/-- What the column must satisfy for `T` transfers of the bright pixel. -/
structure TrailOk (f : ℝ → ℝ) (depth : ℝ) (held : ℕ → ℝ) (img : ℕ → ℝ) (n b T : ℕ) : Prop where
  fill : FillModel f
  notch : ∀ y, y ≤ depth → f y = 0
  row : b < n
  nonneg : ∀ r < n, 0 ≤ img r
  dark : ∀ r < n, r ≠ b → trailCol f held img n b T r ≤ depth
  bright : 0 < trailCol f held img n b T b
  heldNonneg : ∀ a, 0 ≤ held a
  heldAnti : ∀ a, held (a + 1) ≤ held a

theorem TrailOk.mono {depth : ℝ} {n b T k : ℕ} (h : TrailOk f depth held img n b T) (hk : k ≤ T) :
    (∀ r < n, r ≠ b → 0 ≤ trailCol f held img n b k r ∧ trailCol f held img n b k r ≤ depth) ∧
      0 < brightAfter f (held 0) (img b) k := by
  have hb : 0 < brightAfter f (held 0) (img b) T := by
    have := h.bright
    have hr := h.row
    unfold trailCol at this
    rwa [if_neg (by omega), if_pos rfl] at this
  refine ⟨fun r hr hrb => ?_, hb.trans_le (brightAfter_anti h.fill.nonneg (h.heldNonneg 0) _ hk)⟩
  have hd := h.dark r hr hrb
  have h0 := h.nonneg r hr
  unfold trailCol at hd ⊢
  split at hd
  · rename_i hlt
    rw [if_pos hlt]
    exact ⟨h0, hd⟩
  · rename_i hlt
    rw [if_neg hlt]
    rw [if_neg hrb]
    have m1 := trailAfter_mono h.fill.nonneg h.heldAnti (img b) (r - b - 1) hk
    have m0 := trailAfter_nonneg h.fill.nonneg h.heldAnti (img b) k (r - b - 1)
    exact ⟨by linarith, by linarith⟩

theorem OneLevel.zero {K : Type} [Field K] [LinearOrder K] {x : K} {a a' : ℕ} {g : Group K} {m : Mgr K}
    (h : OneLevel x 0 a g m) : OneLevel x 0 a' g m := by
  obtain ⟨z, q, h1, -⟩ := h
  exact ⟨z, q, h1, fun h => absurd rfl h⟩

/-- One row. -/
theorem trail_row {depth dw : ℝ} (hdw : 0 ≤ dw) {gs : List (Group ℝ)} (hg : ∀ g ∈ gs, g.Fading dw) {n T k m : ℕ}
    (h : TrailOk f depth (heldBy gs dw) img n b T) (hk : k + 1 ≤ T) (hm : m < n) {ms : List (Mgr ℝ)}
    (hms : List.Forall₂ (OneLevel dw (if m ≤ b then 0 else f (brightAfter f (heldBy gs dw 0) (img b) k)) (m - b - 1)) gs ms) :
    ∃ ms', mgrRow f dw (fun q => if q < m then trailCol f (heldBy gs dw) img n b (k + 1) q
        else trailCol f (heldBy gs dw) img n b k q, ms) (m, 1) =
      .ok (fun q => if q < m + 1 then trailCol f (heldBy gs dw) img n b (k + 1) q
        else trailCol f (heldBy gs dw) img n b k q, ms') ∧
      List.Forall₂ (OneLevel dw (if m + 1 ≤ b then 0 else f (brightAfter f (heldBy gs dw 0) (img b) k)) (m + 1 - b - 1))
        gs ms' := by
  obtain ⟨d0, b0⟩ := h.mono (k := k) (by omega)
  obtain ⟨d1, b1⟩ := h.mono hk
  have hcol : ∀ v : ℝ, v = trailCol f (heldBy gs dw) img n b (k + 1) m →
      Function.update (fun q => if q < m then trailCol f (heldBy gs dw) img n b (k + 1) q
        else trailCol f (heldBy gs dw) img n b k q) m v = fun q => if q < m + 1 then trailCol f (heldBy gs dw) img n b (k + 1) q
        else trailCol f (heldBy gs dw) img n b k q := by
    rintro v rfl
    funext q
    by_cases hq : q = m
    · subst hq; simp
    · rw [Function.update_of_ne hq]
      by_cases h1 : q < m
      · rw [if_pos h1, if_pos (by omega)]
      · rw [if_neg h1, if_neg (by omega)]
  unfold mgrRow
  simp only [lt_irrefl, if_false, one_ne_zero, mul_one]
  rcases lt_trichotomy m b with hmb | rfl | hmb
  · -- before the bright pixel
    rw [if_pos hmb.le] at hms
    rw [if_pos (by omega : m + 1 ≤ b)]
    obtain ⟨q0, q1⟩ := d0 m hm hmb.ne
    obtain ⟨ms', e1, e2⟩ := levels_dark hdw le_rfl h.notch q0 hms hg (by rw [zero_mul, add_zero]; exact q1)
    refine ⟨ms', ?_, e2.imp fun g m h => h.zero⟩
    rw [e1]
    simp only [bind, Except.bind, zero_mul, add_zero]
    rw [hcol _ ?_]
    rw [max_eq_right q0]
    unfold trailCol
    rw [if_pos (Or.inl hmb), if_pos (Or.inl hmb)]
  · -- the bright pixel
    rw [if_pos le_rfl] at hms
    rw [if_neg (by omega : ¬ m + 1 ≤ m)]
    have ek : trailCol f (heldBy gs dw) img n m k m = brightAfter f (heldBy gs dw 0) (img m) k := by
      unfold trailCol; rw [if_neg (by omega), if_pos rfl]
    have ek1 : trailCol f (heldBy gs dw) img n m (k + 1) m = brightAfter f (heldBy gs dw 0) (img m) (k + 1) := by
      unfold trailCol; rw [if_neg (by omega), if_pos rfl]
    have es : brightAfter f (heldBy gs dw 0) (img m) (k + 1) = brightAfter f (heldBy gs dw 0) (img m) k -
      f (brightAfter f (heldBy gs dw 0) (img m) k) * heldBy gs dw 0 := rfl
    rw [ek]
    obtain ⟨ms', e1, e2⟩ := levels_bright hdw b0 (h.fill.nonneg _) hms hg (by rw [es] at b1; linarith)
    refine ⟨ms', ?_, ?_⟩
    · rw [e1]
      simp only [bind, Except.bind]
      rw [hcol _ ?_]
      rw [ek1, ← sub_eq_add_neg, ← es]
      exact max_eq_right b1.le
    · have : m + 1 - m - 1 = 0 := by omega
      rw [this]
      exact e2
  · -- behind the bright pixel
    rw [if_neg (by omega : ¬ m ≤ b)] at hms
    rw [if_neg (by omega : ¬ m + 1 ≤ b)]
    have es : trailCol f (heldBy gs dw) img n b (k + 1) m = trailCol f (heldBy gs dw) img n b k m +
        f (brightAfter f (heldBy gs dw 0) (img b) k) * (heldBy gs dw (m - b - 1) - heldBy gs dw (m - b - 1 + 1)) := by
      unfold trailCol
      rw [if_neg (by omega), if_neg (by omega), if_neg (by omega), if_neg (by omega), trailAfter_succ]
      ring
    obtain ⟨q0, q1⟩ := d0 m hm hmb.ne'
    obtain ⟨r0, r1⟩ := d1 m hm hmb.ne'
    obtain ⟨ms', e1, e2⟩ := levels_dark hdw (h.fill.nonneg _) h.notch q0 hms hg (by rw [← es]; exact r1)
    refine ⟨ms', ?_, ?_⟩
    · rw [e1]
      simp only [bind, Except.bind]
      rw [hcol _ ?_]
      rw [← es]
      exact max_eq_right r0
    · have : m + 1 - b - 1 = m - b - 1 + 1 := by omega
      rw [this]
      exact e2

/-- A row that no cloud deep enough to meet traps has passed before. -/
theorem trail_row_idle {depth dw : ℝ} (hdw : 0 ≤ dw) {gs : List (Group ℝ)} (hg : ∀ g ∈ gs, g.Fading dw)
    (hf : ∀ y, y ≤ depth → f y = 0) (col : ℕ → ℝ) (r : ℕ) (h0 : 0 ≤ col r) (h1 : col r ≤ depth) {ms : List (Mgr ℝ)}
    (hms : List.Forall₂ (OneLevel dw 0 0) gs ms) :
    ∃ ms', mgrRow f dw (col, ms) (r, 1) = .ok (col, ms') ∧ List.Forall₂ (OneLevel dw 0 0) gs ms' := by
  obtain ⟨ms', e1, e2⟩ := levels_dark hdw le_rfl hf h0 hms hg (by rw [zero_mul, add_zero]; exact h1)
  refine ⟨ms', ?_, e2.imp fun g m h => h.zero⟩
  unfold mgrRow
  simp only [e1, bind, Except.bind, one_ne_zero, if_false, zero_mul, add_zero, max_eq_right h0]
  rw [Function.update_eq_self]

theorem foldlM_append' {α β ε : Type} (g : α → β → Except ε α) (l l' : List β) (s : α) :
    (l ++ l').foldlM g s = (do let s' ← l.foldlM g s; l'.foldlM g s') := by
  rw [List.foldlM_append]

/-- A pass in which the bright pixel is transferred. -/
theorem trail_pass {depth dw : ℝ} (hdw : 0 ≤ dw) {gs : List (Group ℝ)} (hg : ∀ g ∈ gs, g.Fading dw) {n o k : ℕ}
    (h : TrailOk f depth (heldBy gs dw) img n b (b + o + 1)) (hk : k ≤ b + o) {ms : List (Mgr ℝ)}
    (hms : List.Forall₂ (OneLevel dw 0 0) gs ms) (m : ℕ) (hm : m ≤ n) :
    ∃ ms', (((List.range m).filter fun r => decide (k ≤ r + o)).map fun r => (r, (1 : ℝ))).foldlM (mgrRow f dw)
        (trailCol f (heldBy gs dw) img n b k, ms) =
      .ok (fun q => if q < m then trailCol f (heldBy gs dw) img n b (k + 1) q
        else trailCol f (heldBy gs dw) img n b k q, ms') ∧
      List.Forall₂ (OneLevel dw (if m ≤ b then 0 else f (brightAfter f (heldBy gs dw 0) (img b) k)) (m - b - 1)) gs ms' := by
  induction m with
  | zero =>
    refine ⟨ms, ?_, ?_⟩
    · simp only [Nat.not_lt_zero, if_false]
      rfl
    · rw [if_pos (Nat.zero_le _)]
      exact hms.imp fun g m h => h.zero
  | succ m ih =>
    obtain ⟨ms1, e1, e2⟩ := ih (by omega)
    rw [List.range_succ, List.filter_append, List.map_append, foldlM_append', e1]
    simp only [bind_ok]
    by_cases hkm : k ≤ m + o
    · obtain ⟨ms2, e3, e4⟩ := trail_row hdw hg h (by omega) (by omega) e2
      refine ⟨ms2, ?_, e4⟩
      simp only [List.filter_cons, hkm, decide_true, if_true, List.filter_nil, List.map_cons, List.map_nil, foldlM_cons,
        foldlM_nil, e3, bind_ok]
    · refine ⟨ms1, ?_, ?_⟩
      · simp only [List.filter_cons, hkm, decide_false, Bool.false_eq_true, if_false, List.filter_nil, List.map_nil,
          foldlM_nil]
        congr 2
        funext q
        by_cases hq : q = m
        · subst hq
          rw [if_neg (lt_irrefl _), if_pos (Nat.lt_succ_self _)]
          unfold trailCol
          rw [if_pos (by omega), if_pos (by omega)]
        · by_cases h1 : q < m
          · rw [if_pos h1, if_pos (by omega)]
          · rw [if_neg h1, if_neg (by omega)]
      · rw [if_pos (by omega)] at e2 ⊢
        exact e2.imp fun g m h => h.zero

/-- A pass after the bright pixel has been read out. -/
theorem trail_pass_idle {depth dw : ℝ} (hdw : 0 ≤ dw) {gs : List (Group ℝ)} (hg : ∀ g ∈ gs, g.Fading dw)
    (hf : ∀ y, y ≤ depth → f y = 0) (col : ℕ → ℝ) (l : List ℕ) (h : ∀ r ∈ l, 0 ≤ col r ∧ col r ≤ depth) :
    ∀ {ms : List (Mgr ℝ)}, List.Forall₂ (OneLevel dw 0 0) gs ms →
    ∃ ms', (l.map fun r => (r, (1 : ℝ))).foldlM (mgrRow f dw) (col, ms) = .ok (col, ms') := by
  induction l with
  | nil => intro ms _; exact ⟨ms, rfl⟩
  | cons r l ih =>
    intro ms hms
    obtain ⟨q0, q1⟩ := h r List.mem_cons_self
    obtain ⟨ms1, e1, e2⟩ := trail_row_idle hdw hg hf col r q0 q1 hms
    obtain ⟨ms2, e3⟩ := ih (fun r hr => h r (List.mem_cons_of_mem _ hr)) e2
    exact ⟨ms2, by rw [List.map_cons, foldlM_cons, e1, bind_ok, e3]⟩

/-- A whole pass. -/
theorem trail_full_pass {depth dw : ℝ} (hdw : 0 ≤ dw) {gs : List (Group ℝ)} (hg : ∀ g ∈ gs, g.Fading dw) {n o : ℕ}
    (h : TrailOk f depth (heldBy gs dw) img n b (b + o + 1)) {ms : List (Mgr ℝ)}
    (hms : List.Forall₂ (OneLevel dw 0 0) gs ms) (k : ℕ) :
    mgrPass f dw ms (trailCol f (heldBy gs dw) img n b (min k (b + o + 1)))
        (((List.range n).filter fun r => decide (k ≤ r + o)).map fun r => (r, (1 : ℝ))) =
      .ok (trailCol f (heldBy gs dw) img n b (min (k + 1) (b + o + 1))) := by
  unfold mgrPass
  by_cases hk : k ≤ b + o
  · rw [min_eq_left (by omega : k ≤ b + o + 1), min_eq_left (by omega : k + 1 ≤ b + o + 1)]
    obtain ⟨ms', e, -⟩ := trail_pass hdw hg h hk hms n le_rfl
    rw [e, bind_ok]
    congr 1
    funext q
    dsimp only
    by_cases hq : q < n
    · rw [if_pos hq]
    · rw [if_neg hq]
      unfold trailCol
      rw [if_pos (Or.inr (by omega)), if_pos (Or.inr (by omega))]
  · rw [min_eq_right (by omega : b + o + 1 ≤ k), min_eq_right (by omega : b + o + 1 ≤ k + 1)]
    obtain ⟨d, -⟩ := h.mono le_rfl
    obtain ⟨ms', e⟩ := trail_pass_idle hdw hg h.notch (trailCol f (heldBy gs dw) img n b (b + o + 1))
      ((List.range n).filter fun r => decide (k ≤ r + o)) (fun r hr => by
        obtain ⟨q1, q2⟩ := List.mem_filter.1 hr
        have q2 : k ≤ r + o := by simpa using q2
        exact d r (List.mem_range.1 q1) (by omega)) hms
    rw [e, bind_ok]

/-- The first `t` passes. -/
theorem trail_passes {depth dw : ℝ} (hdw : 0 ≤ dw) {gs : List (Group ℝ)} (hg : ∀ g ∈ gs, g.Fading dw) {n o : ℕ}
    (h : TrailOk f depth (heldBy gs dw) img n b (b + o + 1)) {ms : List (Mgr ℝ)}
    (hms : List.Forall₂ (OneLevel dw 0 0) gs ms) (t : ℕ) :
    ((List.range t).map fun k => ((List.range n).filter fun r => decide (k ≤ r + o)).map fun r =>
        (r, (1 : ℝ))).foldlM (mgrPass f dw ms) img =
      .ok (trailCol f (heldBy gs dw) img n b (min t (b + o + 1))) := by
  induction t with
  | zero =>
    rw [Nat.zero_min]
    have : trailCol f (heldBy gs dw) img n b 0 = img := by
      funext r
      unfold trailCol
      split
      · rfl
      · split
        · rename_i h; subst h; rfl
        · simp [trailAfter]
    rw [this]
    rfl
  | succ t ih =>
    rw [List.range_succ, List.map_append, foldlM_append', ih, bind_ok, List.map_cons, List.map_nil, foldlM_cons,
      trail_full_pass hdw hg h hms, bind_ok]
    rfl

end Arctic
