import Verif.Lemmas.RefPass

/-!
# Columns with a background

A filling law that is steep for small clouds only matters for small clouds: if no cloud ever has fewer than `b`
electrons, the law can be replaced by one that is linear up to `b` electrons.
-/

set_option linter.unusedSectionVars false
set_option linter.unusedVariables false

namespace Arctic

/-- A filling law for which the volume per electron does not grow with the number of electrons. -/
structure ConcaveFill (f : ℝ → ℝ) : Prop extends FillModel f where
  mono : Monotone f
  ratio : ∀ x y, 0 < x → x ≤ y → f y * x ≤ f x * y

/-- The law made linear below `b` electrons. -/
noncomputable def liftFill (f : ℝ → ℝ) (b n : ℝ) : ℝ := if b ≤ n then f n else f b / b * max 0 n

theorem liftFill_eq {f : ℝ → ℝ} {b n : ℝ} (h : b ≤ n) : liftFill f b n = f n := if_pos h

theorem ConcaveFill.lift {f : ℝ → ℝ} (h : ConcaveFill f) {b : ℝ} (hb : 0 < b) : LipFill (liftFill f b) (f b / b) := by
  have hs : 0 ≤ f b / b := div_nonneg (h.nonneg b) hb.le
  have hfb : f b / b * b = f b := div_mul_cancel₀ _ hb.ne'
  have upper : ∀ x y, b ≤ x → x ≤ y → f y - f x ≤ f b / b * (y - x) := by
    intro x y hx hxy
    have hx0 := hb.trans_le hx
    have h1 := h.ratio x y hx0 hxy
    have h2 := h.ratio b x hb hx
    have h3 : f x / x ≤ f b / b := by rw [div_le_div_iff₀ hx0 hb]; exact h2
    have h4 : f y - f x ≤ f x / x * (y - x) := by
      rw [div_mul_eq_mul_div, le_div_iff₀ hx0]; nlinarith
    exact h4.trans (mul_le_mul_of_nonneg_right h3 (by linarith))
  have mono : Monotone (liftFill f b) := by
    intro x y hxy
    unfold liftFill
    by_cases hy : b ≤ y
    · rw [if_pos hy]
      by_cases hx : b ≤ x
      · rw [if_pos hx]; exact h.mono hxy
      · rw [if_neg hx]
        have hm : max 0 x ≤ b := max_le hb.le (not_le.1 hx).le
        have := mul_le_mul_of_nonneg_left hm hs
        rw [hfb] at this
        exact this.trans (h.mono hy)
    · rw [if_neg hy, if_neg (fun hx => hy (hx.trans hxy))]
      exact mul_le_mul_of_nonneg_left (max_le_max le_rfl hxy) hs
  refine ⟨⟨fun n => ?_, fun n => ?_, fun n hn => ?_⟩, mono, fun x y hxy => ?_⟩
  · unfold liftFill; split
    · exact h.nonneg n
    · exact mul_nonneg hs (le_max_left _ _)
  · unfold liftFill; split
    · exact h.le_one n
    · rename_i hn
      have hm : max 0 n ≤ b := max_le hb.le (not_le.1 hn).le
      have := mul_le_mul_of_nonneg_left hm hs
      rw [hfb] at this
      exact this.trans (h.le_one b)
  · unfold liftFill
    rw [if_neg (by linarith), max_eq_left hn, mul_zero]
  · unfold liftFill
    by_cases hy : b ≤ y
    · rw [if_pos hy]
      by_cases hx : b ≤ x
      · rw [if_pos hx]; exact upper x y hx hxy
      · rw [if_neg hx]
        have h1 := upper b y le_rfl hy
        have hm : b - max 0 x ≤ b - x := sub_le_sub_left (le_max_right _ _) _
        have h2 := mul_le_mul_of_nonneg_left hm hs
        nlinarith
    · rw [if_neg hy, if_neg (fun hx => hy (hx.trans hxy)), ← mul_sub]
      refine mul_le_mul_of_nonneg_left ?_ hs
      rcases le_total 0 x with h0 | h0
      · rw [max_eq_right h0, max_eq_right (h0.trans hxy)]
      · rw [max_eq_left h0]
        rcases le_total 0 y with h1 | h1
        · rw [max_eq_right h1]; linarith
        · rw [max_eq_left h1]; linarith

theorem transfer_congr {f g : ℝ → ℝ} {b dw n : ℝ} {t : Ref.Traps} (h : t.Reg dw) (hfg : ∀ z, b ≤ z → f z = g z)
    (hn : b ≤ n) : t.transfer f dw n = t.transfer g dw n := by
  have h0 := h.outflow_nonneg
  have : f (n + (t.filled - (t.release dw).filled)) = g (n + (t.filled - (t.release dw).filled)) :=
    hfg _ (by change 0 ≤ t.filled - (t.release dw).filled at h0; linarith)
  unfold Ref.Traps.transfer
  simp only [this]

theorem row_congr_fill {f g : ℝ → ℝ} {b dw : ℝ} {ts : List Ref.Traps} (h : ∀ t ∈ ts, t.Reg dw)
    (hfg : ∀ z, b ≤ z → f z = g z) (x : ℕ → ℝ) (p : ℕ × ℝ) (hn : b ≤ x p.1) :
    Ref.row f dw (x, ts) p = Ref.row g dw (x, ts) p := by
  unfold Ref.row
  simp only
  rw [List.map_congr_left fun t ht => transfer_congr (h t ht) hfg hn]

/-- One pass over pixels of at least `b` electrons. -/
theorem pass_congr_fill {f g : ℝ → ℝ} {b dw L M : ℝ} (hb : 0 ≤ b) (hg : LipFill g L) (hfg : ∀ z, b ≤ z → f z = g z)
    (R : ℕ) (hM : 0 ≤ M) (todo : List (ℕ × ℝ)) :
    ∀ (x : ℕ → ℝ) (ts : List Ref.Traps), Ref.Few dw L ts → M * (Ref.totals ts * L) ≤ 1 → (todo.map Prod.fst).Nodup →
      (∀ p ∈ todo, p.1 < R ∧ 0 ≤ p.2 ∧ p.2 ≤ M) → (∀ p ∈ todo, b ≤ x p.1) → (∀ r < R, 0 ≤ x r) →
      todo.foldl (Ref.row f dw) (x, ts) = todo.foldl (Ref.row g dw) (x, ts) ∧
        ∀ r < R, (1 - M * (Ref.totals ts * L)) * x r ≤ (todo.foldl (Ref.row g dw) (x, ts)).1 r := by
  induction todo with
  | nil =>
    intro x ts hts hml _ _ _ hx
    refine ⟨by rw [List.foldl_nil, List.foldl_nil], fun r hr => ?_⟩
    have h1 := mul_nonneg (mul_nonneg hM (mul_nonneg (Ref.totals_nonneg hts.reg) hts.slope)) (hx r hr)
    simp only [List.foldl_nil]
    linarith
  | cons p todo ih =>
    intro x ts hts hml hnd hp hbx hx
    obtain ⟨p1, p2, p3⟩ := hp p List.mem_cons_self
    rw [List.map_cons, List.nodup_cons] at hnd
    have hl : 0 ≤ Ref.totals ts * L := mul_nonneg (Ref.totals_nonneg hts.reg) hts.slope
    have hpm : p.2 * (Ref.totals ts * L) ≤ 1 := (mul_le_mul_of_nonneg_right p3 hl).trans hml
    obtain ⟨e, e0⟩ := row_plain hg hts x p (hx _ p1) p2 hpm
    obtain ⟨a1, a2⟩ := hts.after hg (x p.1)
    rw [List.foldl_cons, List.foldl_cons, row_congr_fill hts.reg hfg x p (hbx p List.mem_cons_self), e]
    set u := Function.update x p.1 (x p.1 + Ref.gain g dw ts (x p.1) * p.2) with hu
    have hne : ∀ q ∈ todo, q.1 ≠ p.1 := fun q hq h => hnd.1 (h ▸ List.mem_map_of_mem hq)
    have hu0 : ∀ r < R, 0 ≤ u r := by
      intro r hr
      by_cases h : r = p.1
      · subst h; rw [hu, Function.update_self]; exact e0
      · rw [hu, Function.update_of_ne h]; exact hx r hr
    have hbu : ∀ q ∈ todo, b ≤ u q.1 := by
      intro q hq
      rw [hu, Function.update_of_ne (hne q hq)]
      exact hbx q (List.mem_cons_of_mem _ hq)
    obtain ⟨i1, i2⟩ := ih u _ a1 (by rw [a2]; exact hml) hnd.2 (fun q hq => hp q (List.mem_cons_of_mem _ hq)) hbu hu0
    refine ⟨i1, fun r hr => ?_⟩
    by_cases h : r = p.1
    · subst h
      have keep : ∀ (l : List (ℕ × ℝ)) (st : (ℕ → ℝ) × List Ref.Traps), (∀ q ∈ l, q.1 ≠ p.1) →
          (l.foldl (Ref.row g dw) st).1 p.1 = st.1 p.1 := by
        intro l
        induction l with
        | nil => intro st _; rfl
        | cons q l il =>
          rintro ⟨y, ys⟩ hq
          rw [List.foldl_cons, il _ fun z hz => hq z (List.mem_cons_of_mem _ hz), Ref.row_eq]
          simp only
          split
          · rfl
          · rw [Function.update_of_ne (hq q List.mem_cons_self).symm]
      rw [keep todo _ hne]
      simp only
      rw [hu, Function.update_self]
      have h1 := mul_le_mul_of_nonneg_right (hts.gain_ge hg (hx _ p1)) p2
      have h2 := mul_le_mul_of_nonneg_right (mul_le_mul_of_nonneg_right p3 hl) (hx _ p1)
      nlinarith
    · have := i2 r hr
      rw [a2] at this
      rw [hu, Function.update_of_ne h] at this
      exact this

/-- Readout of columns with a background: no pixel ever falls below `b`, so that small clouds do not occur. -/
theorem readout_congr_fill {f g : ℝ → ℝ} {b dw L M : ℝ} (hb : 0 ≤ b) (hg : LipFill g L)
    (hfg : ∀ z, b ≤ z → f z = g z) (R : ℕ) (hM : 0 ≤ M) (ts : List Ref.Traps) (hts : Ref.Few dw L ts)
    (hml : M * (Ref.totals ts * L) ≤ 1) (passes : List (List (ℕ × ℝ))) (hp : GoodPasses R M passes) :
    ∀ x : ℕ → ℝ, (∀ r < R, 0 ≤ x r) → (∀ r < R, b ≤ (1 - M * (Ref.totals ts * L)) ^ passes.length * x r) →
      Ref.readout f dw ts passes x = Ref.readout g dw ts passes x ∧
        ∀ r < R, (1 - M * (Ref.totals ts * L)) ^ passes.length * x r ≤ Ref.readout g dw ts passes x r := by
  have hl : 0 ≤ Ref.totals ts * L := mul_nonneg (Ref.totals_nonneg hts.reg) hts.slope
  have hc0 : 0 ≤ 1 - M * (Ref.totals ts * L) := by linarith
  have hc1 : 1 - M * (Ref.totals ts * L) ≤ 1 := by linarith [mul_nonneg hM hl]
  set c := 1 - M * (Ref.totals ts * L) with hc
  induction passes with
  | nil =>
    intro x _ h
    exact ⟨by unfold Ref.readout; rw [List.foldl_nil, List.foldl_nil], fun r hr => by simp [Ref.readout]⟩
  | cons todo passes ih =>
    intro x hx0 hx
    have hm := hp.mult todo List.mem_cons_self
    have hbx : ∀ p ∈ todo, b ≤ x p.1 := by
      intro p hpt
      have h1 := hx p.1 (hm p hpt).1
      have h2 := pow_le_one₀ (n := (todo :: passes).length) hc0 hc1
      have h3 := mul_le_mul_of_nonneg_right h2 (hx0 p.1 (hm p hpt).1)
      linarith
    obtain ⟨e1, e2⟩ := pass_congr_fill hb hg hfg R hM todo x ts hts hml (hp.nodup todo List.mem_cons_self) hm hbx hx0
    have hp' : GoodPasses R M passes :=
      ⟨fun t ht => hp.nodup t (List.mem_cons_of_mem _ ht), fun t ht => hp.mult t (List.mem_cons_of_mem _ ht)⟩
    have hpw := pow_nonneg hc0 passes.length
    have step : ∀ r < R, c ^ (todo :: passes).length * x r ≤ c ^ passes.length * Ref.pass g dw ts x todo r := by
      intro r hr
      have := mul_le_mul_of_nonneg_left (e2 r hr) hpw
      rw [List.length_cons, pow_succ, mul_assoc]
      exact this
    obtain ⟨i1, i2⟩ := ih hp' (Ref.pass g dw ts x todo)
      (fun r hr => (mul_nonneg hc0 (hx0 r hr)).trans (e2 r hr))
      (fun r hr => (hx r hr).trans (step r hr))
    have ef : Ref.pass f dw ts x todo = Ref.pass g dw ts x todo := by
      unfold Ref.pass; rw [e1]
    have cons : ∀ (w : ℝ → ℝ), Ref.readout w dw ts (todo :: passes) x =
        Ref.readout w dw ts passes (Ref.pass w dw ts x todo) := fun w => by
      unfold Ref.readout; rw [List.foldl_cons]
    rw [cons, cons, ef]
    exact ⟨i1, fun r hr => (step r hr).trans (i2 r hr)⟩

end Arctic
