import Verif.Props.Converge

/-!
# The changes made by two sets of traps
-/

set_option linter.unusedSectionVars false
set_option linter.unusedVariables false

namespace Arctic

theorem Ref.totals_append (ts us : List Ref.Traps) : Ref.totals (ts ++ us) = Ref.totals ts + Ref.totals us := by
  simp [Ref.totals]

theorem Ref.gain_append (f : ℝ → ℝ) (dw : ℝ) (ts us : List Ref.Traps) (n : ℝ) :
    Ref.gain f dw (ts ++ us) n = Ref.gain f dw ts n + Ref.gain f dw us n := by
  simp [Ref.gain]

theorem Ref.after_append (f : ℝ → ℝ) (dw : ℝ) (ts us : List Ref.Traps) (n : ℝ) :
    Ref.after f dw (ts ++ us) n = Ref.after f dw ts n ++ Ref.after f dw us n := by
  simp [Ref.after]

theorem Ref.Few.parts {dw L : ℝ} {ts us : List Ref.Traps} (h : Ref.Few dw L (ts ++ us)) :
    Ref.Few dw L ts ∧ Ref.Few dw L us ∧ 0 ≤ Ref.totals ts * L ∧ 0 ≤ Ref.totals us * L ∧
      Ref.totals (ts ++ us) * L = Ref.totals ts * L + Ref.totals us * L := by
  have r1 : ∀ t ∈ ts, t.Reg dw := fun t ht => h.reg t (List.mem_append_left _ ht)
  have r2 : ∀ t ∈ us, t.Reg dw := fun t ht => h.reg t (List.mem_append_right _ ht)
  have h1 := mul_nonneg (Ref.totals_nonneg r1) h.slope
  have h2 := mul_nonneg (Ref.totals_nonneg r2) h.slope
  have e : Ref.totals (ts ++ us) * L = Ref.totals ts * L + Ref.totals us * L := by rw [Ref.totals_append, add_mul]
  have := h.few
  rw [e] at this
  exact ⟨⟨r1, h.slope, by linarith⟩, ⟨r2, h.slope, by linarith⟩, h1, h2, e⟩

/-- In one pass the traps of one set see the same clouds whether the others are there or not. -/
theorem pass_add {dw L M : ℝ} {f : ℝ → ℝ} (hf : LipFill f L) (x : ℕ → ℝ) (todo : List (ℕ × ℝ)) :
    ∀ (z u v : ℕ → ℝ) (ts us : List Ref.Traps), Ref.Few dw L (ts ++ us) → (todo.map Prod.fst).Nodup →
      (∀ p ∈ todo, 0 ≤ p.2 ∧ p.2 ≤ M) → M * (Ref.totals (ts ++ us) * L) ≤ 1 →
      (∀ p ∈ todo, 0 ≤ x p.1 ∧ z p.1 = x p.1 ∧ u p.1 = x p.1 ∧ v p.1 = x p.1) →
      (∀ r, z r - x r = (u r - x r) + (v r - x r)) →
      ∀ r, (todo.foldl (Ref.row f dw) (z, ts ++ us)).1 r - x r =
        ((todo.foldl (Ref.row f dw) (u, ts)).1 r - x r) + ((todo.foldl (Ref.row f dw) (v, us)).1 r - x r) := by
  induction todo with
  | nil => intro z u v ts us _ _ _ _ _ h; exact h
  | cons p todo ih =>
    intro z u v ts us hts hnd hp hM hx hzuv
    obtain ⟨p2, p3⟩ := hp p List.mem_cons_self
    obtain ⟨x0, ez, eu, ev⟩ := hx p List.mem_cons_self
    obtain ⟨f1, f2, l1, l2, el⟩ := hts.parts
    rw [List.map_cons, List.nodup_cons] at hnd
    have hpm : p.2 * (Ref.totals (ts ++ us) * L) ≤ 1 := (mul_le_mul_of_nonneg_right p3 (by rw [el]; linarith)).trans hM
    have hp1 : p.2 * (Ref.totals ts * L) ≤ 1 :=
      (mul_le_mul_of_nonneg_left (by rw [el]; linarith) p2).trans hpm
    have hp2 : p.2 * (Ref.totals us * L) ≤ 1 :=
      (mul_le_mul_of_nonneg_left (by rw [el]; linarith) p2).trans hpm
    rw [List.foldl_cons, List.foldl_cons, List.foldl_cons, (row_plain hf hts z p (by rw [ez]; exact x0) p2 hpm).1,
      (row_plain hf f1 u p (by rw [eu]; exact x0) p2 hp1).1, (row_plain hf f2 v p (by rw [ev]; exact x0) p2 hp2).1,
      Ref.after_append, ez, eu, ev, Ref.gain_append]
    have htot : Ref.totals (Ref.after f dw ts (x p.1) ++ Ref.after f dw us (x p.1)) = Ref.totals (ts ++ us) := by
      rw [← Ref.after_append]; exact (hts.after hf _).2
    refine ih _ _ _ _ _ ?_ hnd.2 (fun q hq => hp q (List.mem_cons_of_mem _ hq)) (by rw [htot]; exact hM) ?_ ?_
    · rw [← Ref.after_append]; exact (hts.after hf _).1
    · intro q hq
      have : q.1 ≠ p.1 := fun h => hnd.1 (h ▸ List.mem_map_of_mem hq)
      rw [Function.update_of_ne this, Function.update_of_ne this, Function.update_of_ne this]
      exact hx q (List.mem_cons_of_mem _ hq)
    · intro r
      by_cases hr : r = p.1
      · subst hr
        rw [Function.update_self, Function.update_self, Function.update_self]
        ring
      · rw [Function.update_of_ne hr, Function.update_of_ne hr, Function.update_of_ne hr]
        exact hzuv r

/-- What is left of the sum of two changes of `N` passes, each pass changing by at most `a` and `b` per electron. -/
noncomputable def crossSlope (a b : ℝ) (N : ℕ) : ℝ := (1 + a + b) ^ N - (1 + a) ^ N - (1 + b) ^ N + 1

theorem crossSlope_succ (a b : ℝ) (N : ℕ) : crossSlope a b (N + 1) =
    (1 + a + b) * crossSlope a b N + a * ((1 + b) ^ N - 1) + b * ((1 + a) ^ N - 1) := by
  unfold crossSlope
  ring

/-- Nothing is left after one pass. -/
theorem crossSlope_one (a b : ℝ) : crossSlope a b 1 = 0 := by unfold crossSlope; ring

theorem crossSlope_nonneg {a b : ℝ} (ha : 0 ≤ a) (hb : 0 ≤ b) (N : ℕ) : 0 ≤ crossSlope a b N := by
  induction N with
  | zero => simp [crossSlope]
  | succ N ih =>
    rw [crossSlope_succ]
    have h1 := one_le_pow₀ (n := N) (by linarith : 1 ≤ 1 + a)
    have h2 := one_le_pow₀ (n := N) (by linarith : 1 ≤ 1 + b)
    have h3 := mul_nonneg ha (sub_nonneg.2 h2)
    have h4 := mul_nonneg hb (sub_nonneg.2 h1)
    have h5 := mul_nonneg (by linarith : 0 ≤ 1 + a + b) ih
    linarith

theorem pow_sub_one_le {b : ℝ} (hb : 0 ≤ b) (N : ℕ) : (1 + b) ^ N - 1 ≤ N * b * (1 + b) ^ N := by
  induction N with
  | zero => simp
  | succ N ih =>
    have h1 := mul_le_mul_of_nonneg_left ih (by linarith : 0 ≤ 1 + b)
    have h2 := one_le_pow₀ (n := N + 1) (by linarith : 1 ≤ 1 + b)
    have h3 := mul_le_mul_of_nonneg_left h2 hb
    rw [pow_succ] at h3 ⊢
    push_cast
    nlinarith

/-- The rest is of second order. -/
theorem crossSlope_le {a b : ℝ} (ha : 0 ≤ a) (hb : 0 ≤ b) (N : ℕ) :
    crossSlope a b N ≤ N * (N - 1) * (a * b) * (1 + a + b) ^ N := by
  induction N with
  | zero => simp [crossSlope]
  | succ N ih =>
    rw [crossSlope_succ]
    have hA : 0 ≤ 1 + a + b := by linarith
    have hN : (0 : ℝ) ≤ N := Nat.cast_nonneg _
    have p1 : (1 + a) ^ N ≤ (1 + a + b) ^ N := pow_le_pow_left₀ (by linarith) (by linarith) _
    have p2 : (1 + b) ^ N ≤ (1 + a + b) ^ N := pow_le_pow_left₀ (by linarith) (by linarith) _
    have p3 : (1 + a + b) ^ N ≤ (1 + a + b) ^ (N + 1) := pow_le_pow_right₀ (by linarith) (by omega)
    have q1 := mul_le_mul_of_nonneg_left ((pow_sub_one_le hb N).trans
      (mul_le_mul_of_nonneg_left (p2.trans p3) (mul_nonneg hN hb))) ha
    have q2 := mul_le_mul_of_nonneg_left ((pow_sub_one_le ha N).trans
      (mul_le_mul_of_nonneg_left (p1.trans p3) (mul_nonneg hN ha))) hb
    have q3 := mul_le_mul_of_nonneg_left ih hA
    have e : (1 + a + b) * (N * (N - 1) * (a * b) * (1 + a + b) ^ N) = N * (N - 1) * (a * b) * (1 + a + b) ^ (N + 1) := by
      rw [pow_succ]; ring
    rw [e] at q3
    push_cast
    nlinarith

/-- A simpler bound if the changes are small. -/
theorem crossSlope_small {a b : ℝ} (ha : 0 ≤ a) (hb : 0 ≤ b) (N : ℕ) (h : 3 * (N * (a + b)) ≤ 1) :
    crossSlope a b N ≤ 3 / 2 * (N * a * (N * b)) := by
  have hN : (0 : ℝ) ≤ N := Nat.cast_nonneg _
  have hab := mul_nonneg ha hb
  refine (crossSlope_le ha hb N).trans ?_
  rcases Nat.eq_zero_or_pos N with rfl | hpos
  · simp
  have h1N : (1 : ℝ) ≤ N := by exact_mod_cast hpos
  have hc1 : a + b ≤ 1 := by nlinarith
  have b1 := one_add_mul_le_pow (a := -(a + b)) (by linarith) N
  have b2 : (1 + a + b) ^ N * (1 + -(a + b)) ^ N ≤ 1 := by
    rw [← mul_pow]
    exact pow_le_one₀ (mul_nonneg (by linarith) (by linarith)) (by nlinarith)
  have b3 : (1 + a + b) ^ N ≤ 3 / 2 := by
    have h0 : 0 ≤ (1 + a + b) ^ N := pow_nonneg (by linarith) _
    have := mul_le_mul_of_nonneg_left b1 h0
    nlinarith
  have h2 : (N : ℝ) * (N - 1) * (a * b) * (1 + a + b) ^ N ≤ N * (N - 1) * (a * b) * (3 / 2) :=
    mul_le_mul_of_nonneg_left b3 (mul_nonneg (mul_nonneg hN (by linarith)) hab)
  refine h2.trans ?_
  have := mul_nonneg hN hab
  nlinarith

/-- The same in terms of the chance `κ` that an electron is caught in one transfer. -/
theorem crossSlope_rate {κ₁ κ₂ : ℝ} (N : ℕ) (hN : (1 : ℝ) ≤ N) (h1 : 0 ≤ κ₁) (h2 : 0 ≤ κ₂) (h : N * (κ₁ + κ₂) ≤ 1 / 8) :
    κ₁ + κ₂ ≤ 1 / 8 ∧ crossSlope (2 * κ₁ / (1 - 2 * κ₁)) (2 * κ₂ / (1 - 2 * κ₂)) N ≤ 11 * (N * κ₁ * (N * κ₂)) := by
  have hs : κ₁ + κ₂ ≤ 1 / 8 := by nlinarith
  have slope : ∀ κ : ℝ, 0 ≤ κ → κ ≤ 1 / 8 → 0 ≤ 2 * κ / (1 - 2 * κ) ∧ 2 * κ / (1 - 2 * κ) ≤ 8 / 3 * κ := by
    intro κ h0 h8
    refine ⟨div_nonneg (by linarith) (by linarith), ?_⟩
    rw [div_le_iff₀ (by linarith)]
    nlinarith
  obtain ⟨a0, a1⟩ := slope κ₁ h1 (by linarith)
  obtain ⟨b0, b1⟩ := slope κ₂ h2 (by linarith)
  set a := 2 * κ₁ / (1 - 2 * κ₁)
  set b := 2 * κ₂ / (1 - 2 * κ₂)
  have hN0 : (0 : ℝ) ≤ N := by linarith
  have hNa := mul_le_mul_of_nonneg_left a1 hN0
  have hNb := mul_le_mul_of_nonneg_left b1 hN0
  refine ⟨hs, (crossSlope_small a0 b0 N (by nlinarith)).trans ?_⟩
  have := mul_le_mul hNa hNb (mul_nonneg hN0 b0) (mul_nonneg hN0 (by linarith))
  have hk := mul_nonneg (mul_nonneg hN0 h1) (mul_nonneg hN0 h2)
  nlinarith

theorem sum_abs_add {R : ℕ} (a b : ℕ → ℝ) :
    ∑ r ∈ Finset.range R, |a r + b r| ≤ ∑ r ∈ Finset.range R, |a r| + ∑ r ∈ Finset.range R, |b r| := by
  rw [← Finset.sum_add_distrib]
  exact Finset.sum_le_sum fun r _ => abs_add_le _ _

theorem readout_append (f : ℝ → ℝ) (dw : ℝ) (ts : List Ref.Traps) (passes : List (List (ℕ × ℝ))) (todo : List (ℕ × ℝ))
    (x : ℕ → ℝ) : Ref.readout f dw ts (passes ++ [todo]) x = Ref.pass f dw ts (Ref.readout f dw ts passes x) todo := by
  unfold Ref.readout
  rw [List.foldl_append]
  rfl

/-- The change made by two sets of traps is the sum of the two changes, up to second order. -/
theorem readout_add {dw L M : ℝ} {f : ℝ → ℝ} (hf : LipFill f L) (R : ℕ) (hM : 0 ≤ M) (ts us : List Ref.Traps)
    (hts : Ref.Few dw L (ts ++ us)) (hML : M * (Ref.totals (ts ++ us) * L) ≤ 1) (hl1 : 2 * (Ref.totals (ts ++ us) * L) < 1)
    (he : ∀ t ∈ ts ++ us, ∀ d, 0 < d → ∀ j, t.occ d j = 0) (passes : List (List (ℕ × ℝ))) (x : ℕ → ℝ) (hx : ∀ r < R, 0 ≤ x r) :
    GoodPasses R M passes →
    ∑ r ∈ Finset.range R, |(Ref.readout f dw (ts ++ us) passes x r - x r) - ((Ref.readout f dw ts passes x r - x r) +
        (Ref.readout f dw us passes x r - x r))| ≤
      crossSlope (passSlope M (2 * (Ref.totals ts * L))) (passSlope M (2 * (Ref.totals us * L))) passes.length *
        ∑ r ∈ Finset.range R, x r := by
  obtain ⟨f1, f2, l1, l2, el⟩ := hts.parts
  have hM1 : M * (Ref.totals ts * L) ≤ 1 := (mul_le_mul_of_nonneg_left (by rw [el]; linarith) hM).trans hML
  have hM2 : M * (Ref.totals us * L) ≤ 1 := (mul_le_mul_of_nonneg_left (by rw [el]; linarith) hM).trans hML
  have h21 : 2 * (Ref.totals ts * L) < 1 := by rw [el] at hl1; linarith
  have h22 : 2 * (Ref.totals us * L) < 1 := by rw [el] at hl1; linarith
  have s1 : 0 ≤ passSlope M (2 * (Ref.totals ts * L)) := div_nonneg (mul_nonneg hM (by linarith)) (by linarith)
  have s2 : 0 ≤ passSlope M (2 * (Ref.totals us * L)) := div_nonneg (mul_nonneg hM (by linarith)) (by linarith)
  have hS : 0 ≤ ∑ r ∈ Finset.range R, x r := Finset.sum_nonneg fun r hr => hx r (Finset.mem_range.1 hr)
  -- the change made by one set
  have change : ∀ (vs : List Ref.Traps), Ref.Few dw L vs → M * (Ref.totals vs * L) ≤ 1 → 2 * (Ref.totals vs * L) < 1 →
      (∀ t ∈ vs, ∀ d, 0 < d → ∀ j, t.occ d j = 0) → ∀ ps, GoodPasses R M ps →
      (∀ r < R, 0 ≤ Ref.readout f dw vs ps x r) ∧ ∑ r ∈ Finset.range R, |Ref.readout f dw vs ps x r - x r| ≤
        ((1 + passSlope M (2 * (Ref.totals vs * L))) ^ ps.length - 1) * ∑ r ∈ Finset.range R, x r := by
    intro vs hv a1 a2 a3 ps hps
    have := readout_lip hf R M hM vs hv a1 a2 ps hps x (fun _ => 0) hx fun _ _ => le_rfl
    rw [readout_zero hf hv a3, colDist_zero hx] at this
    simpa only [sub_zero] using this
  induction passes using List.reverseRecOn with
  | nil =>
    intro _
    have : crossSlope (passSlope M (2 * (Ref.totals ts * L))) (passSlope M (2 * (Ref.totals us * L))) 0 = 0 := by simp [crossSlope]
    simp [Ref.readout, this]
  | append_singleton passes todo ih =>
    intro hp
    have hp' : GoodPasses R M passes :=
      ⟨fun t ht => hp.nodup t (List.mem_append_left _ ht), fun t ht => hp.mult t (List.mem_append_left _ ht)⟩
    have hp1 : GoodPasses R M [todo] := by
      refine ⟨fun t ht => hp.nodup t (List.mem_append_right _ ht), fun t ht => hp.mult t (List.mem_append_right _ ht)⟩
    have hi := ih hp'
    have e1 := fun t ht => he t (List.mem_append_left us ht)
    have e2 := fun t ht => he t (List.mem_append_right ts ht)
    obtain ⟨z0, -⟩ := change (ts ++ us) hts hML hl1 he passes hp'
    obtain ⟨u0, u1⟩ := change ts f1 hM1 h21 e1 passes hp'
    obtain ⟨v0, v1⟩ := change us f2 hM2 h22 e2 passes hp'
    rw [readout_append, readout_append, readout_append, List.length_append, List.length_singleton, crossSlope_succ]
    set z := Ref.readout f dw (ts ++ us) passes x
    set u := Ref.readout f dw ts passes x
    set v := Ref.readout f dw us passes x
    have hsum : ∀ r, Ref.pass f dw (ts ++ us) z todo r - z r =
        (Ref.pass f dw ts z todo r - z r) + (Ref.pass f dw us z todo r - z r) :=
      pass_add hf z todo z z z ts us hts (hp1.nodup todo (by simp)) (fun p hp => (hp1.mult todo (by simp) p hp).2) hML
        (fun p hp => ⟨z0 _ (hp1.mult todo (by simp) p hp).1, rfl, rfl, rfl⟩) (fun r => by ring)
    have q1 := (readout_lip hf R M hM ts f1 hM1 h21 [todo] hp1 z u z0 u0).2
    have q2 := (readout_lip hf R M hM us f2 hM2 h22 [todo] hp1 z v z0 v0).2
    change ∑ r ∈ Finset.range R, |(Ref.pass f dw ts z todo r - z r) - (Ref.pass f dw ts u todo r - u r)| ≤ _ at q1
    change ∑ r ∈ Finset.range R, |(Ref.pass f dw us z todo r - z r) - (Ref.pass f dw us v todo r - v r)| ≤ _ at q2
    simp only [List.length_singleton, pow_one, add_sub_cancel_left] at q1 q2
    set a := passSlope M (2 * (Ref.totals ts * L))
    set b := passSlope M (2 * (Ref.totals us * L))
    set D := ∑ r ∈ Finset.range R, |(z r - x r) - ((u r - x r) + (v r - x r))|
    have c1 : colDist R z u ≤ D + ∑ r ∈ Finset.range R, |v r - x r| := by
      refine le_trans (le_of_eq ?_) (sum_abs_add (fun r => (z r - x r) - ((u r - x r) + (v r - x r))) fun r => v r - x r)
      exact Finset.sum_congr rfl fun r _ => by congr 1; ring
    have c2 : colDist R z v ≤ D + ∑ r ∈ Finset.range R, |u r - x r| := by
      refine le_trans (le_of_eq ?_) (sum_abs_add (fun r => (z r - x r) - ((u r - x r) + (v r - x r))) fun r => u r - x r)
      exact Finset.sum_congr rfl fun r _ => by congr 1; ring
    have step : ∑ r ∈ Finset.range R, |(Ref.pass f dw (ts ++ us) z todo r - x r) - ((Ref.pass f dw ts u todo r - x r) +
        (Ref.pass f dw us v todo r - x r))| ≤ D +
          (∑ r ∈ Finset.range R, |(Ref.pass f dw ts z todo r - z r) - (Ref.pass f dw ts u todo r - u r)| +
          ∑ r ∈ Finset.range R, |(Ref.pass f dw us z todo r - z r) - (Ref.pass f dw us v todo r - v r)|) := by
      refine le_trans (le_of_eq ?_) ((sum_abs_add (fun r => (z r - x r) - ((u r - x r) + (v r - x r))) fun r =>
        ((Ref.pass f dw ts z todo r - z r) - (Ref.pass f dw ts u todo r - u r)) +
          ((Ref.pass f dw us z todo r - z r) - (Ref.pass f dw us v todo r - v r))).trans
          (add_le_add le_rfl (sum_abs_add _ _)))
      refine Finset.sum_congr rfl fun r _ => ?_
      have := hsum r
      congr 1
      linarith
    have m1 := mul_le_mul_of_nonneg_left (c1.trans (add_le_add hi v1)) s1
    have m2 := mul_le_mul_of_nonneg_left (c2.trans (add_le_add hi u1)) s2
    have := step.trans (add_le_add hi (add_le_add (q1.trans m1) (q2.trans m2)))
    refine this.trans (le_of_eq ?_)
    ring

end Arctic
