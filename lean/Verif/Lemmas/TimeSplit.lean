import Verif.Lemmas.Causal
import Verif.Props.Causality

/-!
# Restricting a readout in time: passes whose results are not written
-/

set_option linter.unusedSectionVars false
set_option linter.unusedVariables false

namespace Arctic

variable {K : Type} [Field K] [LinearOrder K] [IsStrictOrderedRing K]

/-! ### the express matrix of a time window -/

theorem expressFull_zero (ef i : Bool) (n o : ℕ) (hn : 0 < n) :
    expressFull (K := K) ef i n 0 o = expressBase i (n + o) (n + o) := by
  have hE : effectiveExpress 0 (n + o) = n + o := by simp [effectiveExpress]
  rcases expressFull_cases (K := K) ef i n 0 o with ⟨h, heq⟩ | ⟨h1, h2, heq⟩ | ⟨h1, h2, heq⟩
  · rw [heq, hE]
  · rw [hE] at h2; omega
  · rw [hE] at h2; omega

theorem expressBase_self (i : Bool) (n : ℕ) (hn : 0 < n) (k p : ℕ) :
    (expressBase (K := K) i n n).e k p = if k ≤ p then 1 else 0 := by
  have hm : maxMultiplier (K := K) i n n = 1 := by
    unfold maxMultiplier
    split
    · have : n ⌈/⌉ n = 1 := by
        rw [Nat.ceilDiv_eq_add_pred_div]
        apply Nat.div_eq_of_lt_le <;> omega
      rw [this]; simp
    · rw [div_self]; exact_mod_cast hn.ne'
  unfold expressBase
  simp only
  rw [hm, mul_one, truncate_eq _ _ zero_le_one]
  split
  · rename_i hk
    have : (k : K) ≤ (p : K) := by exact_mod_cast hk
    push_cast at this ⊢
    rw [max_eq_right (by linarith), min_eq_left (by linarith)]
  · rename_i hk
    have : ((p + 1 : ℕ) : K) ≤ k := by exact_mod_cast (by omega : p + 1 ≤ k)
    rw [max_eq_left (by linarith), min_eq_right zero_le_one]

theorem sum_steps (k p : ℕ) : ∑ q ∈ Finset.range (k + 1), (if q ≤ p then (1 : K) else 0) = ((min (k + 1) (p + 1) : ℕ) : K) := by
  induction k with
  | zero => rw [Finset.sum_range_one, if_pos (Nat.zero_le _), min_eq_left (by omega)]; simp
  | succ k ih =>
    rw [Finset.sum_range_succ, ih]
    split
    · rename_i h
      rw [min_eq_left (by omega), min_eq_left (by omega)]; push_cast; ring
    · rename_i h
      rw [min_eq_right (by omega), min_eq_right (by omega)]; simp

theorem windowed_nat {a b : ℕ} (h : a < b) (n : ℕ) : windowed (a : K) b n = ((min (b - a) (n - a) : ℕ) : K) := by
  unfold windowed
  have e1 : (b : K) - a = ((b - a : ℕ) : K) := by rw [Nat.cast_sub h.le]
  have e2 : max 0 ((n : K) - a) = ((n - a : ℕ) : K) := by
    rcases le_total a n with h1 | h1
    · rw [Nat.cast_sub h1, max_eq_right]
      have : (a : K) ≤ n := by exact_mod_cast h1
      linarith
    · rw [Nat.sub_eq_zero_of_le h1, max_eq_left]
      · simp
      · have : (n : K) ≤ a := by exact_mod_cast h1
        linarith
  rw [e1, e2, Nat.cast_min]

/-- The express matrix of a time window `range(a, b)` with `express = 0`: pass `k` transfers once the pixels that have
not reached the readout, if `a ≤ k < b`. -/
def timeMat (x o : ℕ) (rows : List ℕ) (a b : ℕ) : Mat K :=
  ⟨x + 1 + o, rows.length, fun k j => if a ≤ k ∧ k < b ∧ k ≤ rows.getD j 0 + o then 1 else 0⟩

def timeMon (x o : ℕ) (rows : List ℕ) : Mat Bool :=
  ⟨x + 1 + o, rows.length, fun k j => decide (k ≤ rows.getD j 0 + o)⟩

/-- With `express = 0` a time window selects passes. -/
theorem roeExpress_time (ef i : Bool) (rows : List ℕ) (o x : ℕ) (hx : rows.max? = some x) {a b : ℕ} (hab : a < b) :
    roeExpress (K := K) ef i rows 0 o (some (rangeAB a b)) = .ok (timeMat x o rows a b, timeMon x o rows) := by
  have hs : ¬ ShortMatrix ef rows 0 := by rintro ⟨_, h, _⟩; exact h rfl
  rw [roeExpress_eq ef i rows 0 o _ x hx hs, expressFull_zero ef i (x + 1) o (by omega), restrict_eq _ hab]
  have hn : 0 < x + 1 + o := by omega
  have hcum : ∀ k p, cumsum0 (expressBase (K := K) i (x + 1 + o) (x + 1 + o)) k p
      = ((min (k + 1) (p + 1) : ℕ) : K) := by
    intro k p
    rw [cumsum0_eq, ← sum_steps]
    exact Finset.sum_congr rfl fun q _ => expressBase_self i _ hn q p
  unfold timeMat timeMon
  simp only [Except.bind]
  congr 2
  · simp only [Mat.mk.injEq]
    refine ⟨rfl, trivial, ?_⟩
    funext k j
    rw [hcum, hcum, hcum, windowed_nat hab, windowed_nat hab, windowed_nat hab]
    generalize rows.getD j 0 + o = p
    split
    · rename_i h0
      subst h0
      split
      · have : min (b - a) (min (0 + 1) (p + 1) - a) = 1 := by omega
        rw [this]; simp
      · have : min (b - a) (min (0 + 1) (p + 1) - a) = 0 := by omega
        rw [this]; simp
    · obtain ⟨q, rfl⟩ : ∃ q, k = q + 1 := ⟨k - 1, by omega⟩
      rw [Nat.add_sub_cancel]
      split
      · have : min (b - a) (min (q + 1 + 1) (p + 1) - a) = min (b - a) (min (q + 1) (p + 1) - a) + 1 := by omega
        rw [this]; push_cast; ring
      · have : min (b - a) (min (q + 1 + 1) (p + 1) - a) = min (b - a) (min (q + 1) (p + 1) - a) := by omega
        rw [this]; ring
  · simp only [Mat.mk.injEq]
    refine ⟨rfl, trivial, ?_⟩
    funext k j
    rw [expressBase_self i _ hn]
    split
    · rename_i h; exact (decide_eq_true zero_lt_one).trans (decide_eq_true h).symm
    · rename_i h; exact (decide_eq_false (lt_irrefl _)).trans (decide_eq_false h).symm

/-! ### agreement on a set of rows -/

/-- The same shape and the same values on the rows of `Q` of column `c`. -/
def RowsAgree (Q : ℕ → Prop) (c : ℕ) (i j : Image K) : Prop :=
  i.nr = j.nr ∧ i.nc = j.nc ∧ ∀ r, Q r → i.px r c = j.px r c

theorem read_rows {Q : ℕ → Prop} {c : ℕ} {i j : Image K} (h : RowsAgree Q c i j) (r : ℤ) :
    ExRel (fun u v => u = i.px r.toNat c ∧ v = j.px r.toNat c) (i.read r c) (j.read r c) := by
  unfold Image.read
  rw [h.1, h.2.1]
  split
  · exact ⟨rfl, rfl⟩
  · rfl

theorem writeAll_rows {Q : ℕ → Prop} (row0 : ℤ) (c : ℕ) (net mult : K) (rel : List (ℤ × K)) :
    ∀ {i j : Image K}, RowsAgree Q c i j →
    ExRel (RowsAgree Q c) (writeAll i row0 c net mult rel) (writeAll j row0 c net mult rel) := by
  induction rel with
  | nil => intro i j h; exact h
  | cons o rel ih =>
    intro i j h
    obtain ⟨off, frac⟩ := o
    unfold writeAll
    refine ExRel.bind (R := RowsAgree Q c) ?_ fun a b hab => ih hab
    unfold writeBack
    refine ExRel.bind (read_rows h _) ?_
    rintro u v ⟨rfl, rfl⟩
    refine ⟨h.1, h.2.1, fun r hr => ?_⟩
    unfold Image.set
    simp only [and_true]
    by_cases hc : r = (row0 + off).toNat
    · rw [if_pos hc, if_pos hc, ← hc, h.2.2 r hr]
    · rw [if_neg hc, if_neg hc, h.2.2 r hr]

theorem phaseBody_rows (fill : ℕ → K → K) (cfg : ClockCfg K) (hF : Forward cfg.clockSeq) (Q : ℕ → Prop) (c j : ℕ)
    (mult : K) (step phase : ℕ) (hQ : ∀ w, cfg.rowWindow[j]? = some w → Q w) (x y : Image K × ATM K)
    (h : RowsAgree Q c x.1 y.1 ∧ AtmRel x.2 y.2) :
    ExRel (fun x y => RowsAgree Q c x.1 y.1 ∧ AtmRel x.2 y.2) (phaseBody (atmSys fill) cfg c j mult step x phase)
      (phaseBody (atmSys fill) cfg c j mult step y phase) := by
  unfold phaseBody
  split
  · rename_i ph row0 dwell e1 e2 e3
    obtain ⟨hF1, hF2⟩ := hF step phase ph e1
    have hr := hQ row0 e2
    refine ExRel.bind (R := fun u v => u * (if ph.isHigh then 1 else 0) = v * (if ph.isHigh then 1 else 0))
      ((read_rows h.1 _).mono ?_) ?_
    · rintro u v ⟨rfl, rfl⟩
      cases hh : ph.isHigh with
      | false => simp
      | true => rw [hF1 hh, add_zero, Int.toNat_natCast, h.1.2.2 row0 hr]
    · intro u v huv
      simp only [huv]
      refine ExRel.bind ((atmSysRel fill).react _ _ h.2 phase _ dwell) ?_
      rintro ⟨net, s⟩ ⟨net', s'⟩ ⟨hn, hs⟩
      simp only at hn hs ⊢
      subst hn
      split
      · exact ⟨h.1, hs⟩
      · refine ExRel.bind (writeAll_rows row0 c net mult ph.release h.1) ?_
        intro i i' hi
        exact ⟨hi, hs⟩
  · rfl

/-- One pass of two runs, if all monitored rows are in `Q`. -/
theorem expressBody_rows (fill : ℕ → K → K) (cfg : ClockCfg K) (hF : Forward cfg.clockSeq) (Q : ℕ → Prop) (c k : ℕ)
    (hQ : ∀ j ∈ monitoredRows cfg k, ∀ w, cfg.rowWindow[j]? = some w → Q w) (x y : Image K × ATM K)
    (h : RowsAgree Q c x.1 y.1 ∧ AtmRel0 x.2 y.2) :
    ExRel (fun x y => RowsAgree Q c x.1 y.1 ∧ AtmRel0 x.2 y.2) (expressBody (atmSys fill) cfg c x k)
      (expressBody (atmSys fill) cfg c y k) := by
  unfold expressBody
  refine ExRel.mono (R := fun x y : Image K × ATM K => RowsAgree Q c x.1 y.1 ∧ AtmRel x.2 y.2)
    (fun _ _ h => ⟨h.1, (atmSysRel fill).weaken _ _ h.2⟩)
    (foldlM_rel _ _ _ _ (fun j hj x y h => ?_) _ _ ⟨h.1, (atmSysRel fill).restore _ _ h.2⟩)
  unfold rowBody
  refine ExRel.bind (R := fun x y : Image K × ATM K => RowsAgree Q c x.1 y.1 ∧ AtmRel x.2 y.2)
    (foldlM_rel _ _ _ _ (fun step _ x y h => ?_) x y h) ?_
  · unfold stepBody
    exact foldlM_rel _ _ _ _ (fun ph _ x y h => phaseBody_rows fill cfg hF Q c j _ step ph (hQ j hj) x y h) x y h
  · intro x y h
    split
    · exact ⟨h.1, (atmSysRel fill).save _ _ h.2⟩
    · exact h

/-! ### passes without saving -/

/-- A predicate on the pairs of image and trap state that one phase preserves is preserved by a pass that does not
save. -/
theorem expressBody_keep (fill : ℕ → K → K) (cfg : ClockCfg K) (c k : ℕ) (hs : ∀ j, cfg.saveMat.e k j = false)
    (P : Image K × ATM K → Prop)
    (hP : ∀ j ∈ monitoredRows cfg k, ∀ step phase s s', P s →
      phaseBody (atmSys fill) cfg c j (cfg.expr.e k j) step s phase = .ok s' → P s')
    (hR : ∀ s, P s → P (s.1, s.2.restore)) (x x' : Image K × ATM K) (hx : P x)
    (h : expressBody (atmSys fill) cfg c x k = .ok x') : P x' := by
  unfold expressBody at h
  refine foldlM_inv P _ _ ?_ _ x' (hR x hx) h
  intro j hj s s' hs' h
  unfold rowBody at h
  obtain ⟨st, h1, h⟩ := bind_eq_ok h
  rw [hs j] at h
  injection h with h
  subst h
  refine foldlM_inv P _ _ ?_ s st hs' h1
  intro step _ s s' hs' h
  unfold stepBody at h
  exact foldlM_inv P _ _ (fun ph _ s s' hs' h => hP j hj step ph s s' hs' h) s s' hs' h

theorem Fresh.restore {D : List (List (Mgr K))} {a : ATM K} (h : Fresh D a) : Fresh D a.restore :=
  ⟨by change emptied a.eff = D; rw [h.2.1, h.2.2], by rw [ATM.eff_restore, h.2.1], h.2.2⟩

theorem phaseBody_fresh {fill : ℕ → K → K} {cfg : ClockCfg K} {c j : ℕ} {mult : K} {step phase : ℕ}
    {x x' : Image K × ATM K} {D : List (List (Mgr K))} (hx : Fresh D x.2)
    (h : phaseBody (atmSys fill) cfg c j mult step x phase = .ok x') : Fresh D x'.2 := by
  unfold phaseBody at h
  split at h
  · obtain ⟨v, h1, h⟩ := bind_eq_ok h
    obtain ⟨⟨net, s⟩, h2, h⟩ := bind_eq_ok h
    have e := ATM.react_emptied h2
    have hs : Fresh D s := ⟨e.1.trans hx.1, (ATM.eff_of e.2 e.1).trans hx.2.1, hx.2.2⟩
    simp only at h
    split at h
    · injection h with h; subst h; exact hs
    · obtain ⟨i1, h3, h⟩ := bind_eq_ok h
      injection h with h; subst h; exact hs
  · cases h

theorem phaseBody_zero {fill : ℕ → K → K} {cfg : ClockCfg K} {c j : ℕ} {mult : K} (hm : mult = 0) {step phase : ℕ}
    {x x' : Image K × ATM K}
    (h : phaseBody (atmSys fill) cfg c j mult step x phase = .ok x') : x'.1 = x.1 := by
  unfold phaseBody at h
  split at h
  · obtain ⟨v, h1, h⟩ := bind_eq_ok h
    obtain ⟨⟨net, s⟩, h2, h⟩ := bind_eq_ok h
    simp only [hm, if_true] at h
    injection h with h; subst h; rfl
  · cases h

/-- The passes of a part of the readout during which nothing is written. -/
theorem passes_zero (fill : ℕ → K → K) (cfg : ClockCfg K) (c : ℕ) (l : List ℕ)
    (hs : ∀ k j, cfg.saveMat.e k j = false)
    (hz : ∀ k ∈ l, ∀ j ∈ monitoredRows cfg k, cfg.expr.e k j = 0) {D : List (List (Mgr K))} (x x' : Image K × ATM K)
    (hx : Fresh D x.2) (h : l.foldlM (expressBody (atmSys fill) cfg c) x = .ok x') : x'.1 = x.1 ∧ Fresh D x'.2 := by
  refine foldlM_inv (fun s : Image K × ATM K => s.1 = x.1 ∧ Fresh D s.2) _ _ ?_ x x' ⟨rfl, hx⟩ h
  intro k hk s s' hs' h
  exact expressBody_keep fill cfg c k (hs k) (fun s => s.1 = x.1 ∧ Fresh D s.2)
    (fun j hj step ph s s' hs h => ⟨(phaseBody_zero (hz k hk j hj) h).trans hs.1, phaseBody_fresh hs.2 h⟩)
    (fun s hs => ⟨hs.1, hs.2.restore⟩) s s' hs' h

/-- Passes that only monitor rows from `b` on leave the rows before alone. -/
theorem passes_high (fill : ℕ → K → K) (cfg : ClockCfg K) (hF : Forward cfg.clockSeq) (c b : ℕ) (l : List ℕ)
    (hs : ∀ k j, cfg.saveMat.e k j = false)
    (hh : ∀ k ∈ l, ∀ j ∈ monitoredRows cfg k, ∀ w, cfg.rowWindow[j]? = some w → b ≤ w) (x x' : Image K × ATM K)
    (h : l.foldlM (expressBody (atmSys fill) cfg c) x = .ok x') : ∀ r < b, ∀ c', x'.1.px r c' = x.1.px r c' := by
  rcases Nat.eq_zero_or_pos b with rfl | hb
  · intro r hr; omega
  · suffices AgreeTo (b - 1) x'.1 x.1 from fun r hr c' => this r (by omega) c'
    refine foldlM_inv (fun s : Image K × ATM K => AgreeTo (b - 1) s.1 x.1) _ _ ?_ x x' (fun _ _ _ => rfl) h
    intro k hk s s' hs' h
    refine expressBody_keep fill cfg c k (hs k) (fun s => AgreeTo (b - 1) s.1 x.1) ?_ (fun s hs => hs) s s' hs' h
    intro j hj step ph s s' hs h
    have := (phaseBody_high fill cfg hF (b - 1) c j _ step ph
      (fun w hw => by have := hh k hk j hj w hw; omega) s s' h).1
    exact fun r hr c' => (this r hr c').trans (hs r hr c')

theorem passes_fresh (fill : ℕ → K → K) (cfg : ClockCfg K) (c : ℕ) (l : List ℕ)
    (hs : ∀ k j, cfg.saveMat.e k j = false) {D : List (List (Mgr K))} (x x' : Image K × ATM K)
    (hx : Fresh D x.2) (h : l.foldlM (expressBody (atmSys fill) cfg c) x = .ok x') : Fresh D x'.2 := by
  refine foldlM_inv (fun s : Image K × ATM K => Fresh D s.2) _ _ ?_ x x' hx h
  intro k hk s s' hs' h
  exact expressBody_keep fill cfg c k (hs k) (fun s => Fresh D s.2)
    (fun j hj step ph s s' hs h => phaseBody_fresh hs h) (fun s hs => hs.restore) s s' hs' h

/-- Passes with the same entries at the monitored rows. -/
theorem passes_same {S : Type} (sys : TrapSys K S) (cfg : ClockCfg K) (m : Mat K) (c : ℕ) (l : List ℕ)
    (he : ∀ k ∈ l, ∀ j ∈ monitoredRows cfg k, m.e k j = cfg.expr.e k j) (x : Image K × S) :
    l.foldlM (expressBody sys { cfg with expr := m } c) x = l.foldlM (expressBody sys cfg c) x := by
  refine foldlM_congr (fun k hk st => ?_) x
  unfold expressBody
  refine foldlM_congr (fun j hj st => ?_) _
  unfold rowBody
  simp only [he k hk j hj]
  rfl

/-- One column of a readout split at pass `n`. -/
theorem passes_split (fill : ℕ → K → K) (cfg : ClockCfg K) (hF : Forward cfg.clockSeq) (m1 m2 : Mat K) (c n b : ℕ)
    (Q : ℕ → Prop) (hs : ∀ k j, cfg.saveMat.e k j = false) (L : ℕ) (hn : n ≤ L)
    (h11 : ∀ k < n, ∀ j ∈ monitoredRows cfg k, m1.e k j = cfg.expr.e k j)
    (h12 : ∀ k, n ≤ k → ∀ j ∈ monitoredRows cfg k, m1.e k j = 0)
    (h21 : ∀ k < n, ∀ j ∈ monitoredRows cfg k, m2.e k j = 0)
    (h22 : ∀ k, n ≤ k → ∀ j ∈ monitoredRows cfg k, m2.e k j = cfg.expr.e k j)
    (hQ : ∀ k, n ≤ k → ∀ j ∈ monitoredRows cfg k, ∀ w, cfg.rowWindow[j]? = some w → Q w)
    (hb : ∀ k, n ≤ k → ∀ j ∈ monitoredRows cfg k, ∀ w, cfg.rowWindow[j]? = some w → b ≤ w)
    {D : List (List (Mgr K))} {x x1 y y2 : Image K × ATM K} (hx : Fresh D x.2) (hy : Fresh D y.2)
    (hxy : RowsAgree Q c x1.1 y.1)
    (h1 : (List.range L).foldlM (expressBody (atmSys fill) { cfg with expr := m1 } c) x = .ok x1)
    (h2 : (List.range L).foldlM (expressBody (atmSys fill) { cfg with expr := m2 } c) y = .ok y2) :
    ∃ x3, (List.range L).foldlM (expressBody (atmSys fill) cfg c) x = .ok x3 ∧ RowsAgree Q c x3.1 y2.1 ∧
      (∀ r < b, ∀ c', x3.1.px r c' = x1.1.px r c') ∧ ∀ r < b, ∀ c', y2.1.px r c' = y.1.px r c' := by
  have hsplit : List.range L = List.range n ++ List.range' n (L - n) := by
    have := List.range'_append_1 (s := 0) (m := n) (n := L - n)
    rw [zero_add, Nat.add_sub_cancel' hn] at this
    rw [List.range_eq_range', List.range_eq_range', this]
  have hlo : ∀ k ∈ List.range n, k < n := fun k hk => List.mem_range.1 hk
  have hhi : ∀ k ∈ List.range' n (L - n), n ≤ k := fun k hk => (List.mem_range'_1.1 hk).1
  rw [hsplit, foldlM_append] at h1 h2 ⊢
  obtain ⟨u, g1, g2⟩ := bind_eq_ok h1
  obtain ⟨v, g3, g4⟩ := bind_eq_ok h2
  rw [passes_same _ cfg m1 c _ (fun k hk => h11 k (hlo k hk))] at g1
  obtain ⟨e1, -⟩ := passes_zero fill { cfg with expr := m1 } c _ hs (fun k hk j hj => h12 k (hhi k hk) j hj) u x1
    (passes_fresh fill cfg c _ hs x u hx g1) g2
  obtain ⟨e2, e3⟩ := passes_zero fill { cfg with expr := m2 } c _ hs (fun k hk j hj => h21 k (hlo k hk) j hj) y v hy g3
  rw [passes_same _ cfg m2 c _ (fun k hk => h22 k (hhi k hk))] at g4
  have hf := passes_fresh fill cfg c _ hs x u hx g1
  obtain ⟨x3, g5, g6⟩ := (foldlM_rel (fun x y : Image K × ATM K => RowsAgree Q c x.1 y.1 ∧ AtmRel0 x.2 y.2) _ _
    (List.range' n (L - n)) (fun k hk s t h => expressBody_rows fill cfg hF Q c k (hQ k (hhi k hk)) s t h) u v
    ⟨by rw [e2, ← e1]; exact hxy, hf.rel e3⟩).ok_right g4
  refine ⟨x3, ?_, g6.1, ?_, ?_⟩
  · rw [g1]; exact g5
  · intro r hr c'
    rw [passes_high fill cfg hF c b _ hs (fun k hk => hb k (hhi k hk)) u x3 g5 r hr c', e1]
  · intro r hr c'
    rw [passes_high fill cfg hF c b _ hs (fun k hk => hb k (hhi k hk)) v y2 g4 r hr c', e2]

/-! ### the whole readout -/

/-- The configuration of a time-restricted readout with `express = 0`. -/
def timeCfg (d : List K) (i : Bool) (ccd : CcdView K) (o x : ℕ) (rows : List ℕ) (a b : ℕ) : ClockCfg K :=
  { expr := timeMat x o rows a b, monitor := timeMon x o rows,
    saveMat := ⟨x + 1 + o, rows.length, fun _ _ => false⟩,
    clockSeq := (Roe.standard d true true true i).clockSequence, dwell := d, steps := positiveIndices d,
    phases := positiveIndices ccd.fractions, rowWindow := rows, emptyBetween := true }

theorem clockCfg_time (d : List K) (i : Bool) (ccd : CcdView K) (o x : ℕ) (rows : List ℕ) (hx : rows.max? = some x)
    {a b : ℕ} (hab : a < b) : clockCfg (.standard d true true true i) ccd 0 o rows (some (rangeAB a b)) =
      .ok (timeCfg d i ccd o x rows a b, .standard d true true true i) := by
  unfold clockCfg
  simp only [Roe.express]
  rw [roeExpress_time true i rows o x hx hab]
  rfl

theorem maxNTransfers_time (d : List K) (i : Bool) (ccd : CcdView K) (o x : ℕ) (rows : List ℕ) (a b a' b' : ℕ) :
    maxNTransfers (.standard d true true true i) (timeCfg d i ccd o x rows a b) =
      maxNTransfers (.standard d true true true i) (timeCfg d i ccd o x rows a' b') := rfl

/-- A readout split in time. The second call may start from an image that differs in the rows that have been read
out. -/
theorem clockCharge_split (img y : Image K) (ccd : CcdView K) (d : List K) (i : Bool) (groups : List (Group K)) (o : ℕ)
    (rows cols : List ℕ) (hw : ∀ x ∈ rows, x < img.nr) (hcv : ∀ x ∈ cols, x < img.nc) (hnd : cols.Nodup)
    {t0 a t1 : ℕ} (ht0 : t0 < a) (ht1 : a < t1) {out1 out2 : Image K} {roe1 roe2 : Roe K}
    (e1 : clockCharge img ccd (.standard d true true true i) groups 0 o rows cols (some (rangeAB t0 a)) =
      .ok (out1, roe1))
    (hyr : y.nr = img.nr) (hyc : y.nc = img.nc)
    (hy : ∀ r < img.nr, a ≤ r + o → ∀ c < img.nc, y.px r c = out1.px r c)
    (e2 : clockCharge y ccd (.standard d true true true i) groups 0 o rows cols (some (rangeAB a t1)) =
      .ok (out2, roe2)) :
    ∃ out3, clockCharge img ccd (.standard d true true true i) groups 0 o rows cols (some (rangeAB t0 t1)) =
        .ok (out3, .standard d true true true i) ∧
      (∀ r < img.nr, a ≤ r + o → ∀ c < img.nc, out3.px r c = out2.px r c) ∧
      ∀ r < img.nr, r + o < a → ∀ c, out3.px r c = out1.px r c ∧ out2.px r c = y.px r c := by
  cases hx : rows.max? with
  | none =>
    rw [List.max?_eq_none_iff] at hx; subst hx
    obtain ⟨cfg, st, g1, -⟩ := clockCharge_ok e1
    have := (clockCfg_fields g1).1
    simp only [Roe.express] at this
    rw [roeExpress_empty] at this
    cases this
  | some x =>
    have ht : t0 < t1 := ht0.trans ht1
    set roe : Roe K := .standard d true true true i with hroe
    set n := nPadding roe.accessed with hn
    obtain ⟨cfg1, st1, a1, b1, rfl⟩ := clockCharge_ok e1
    obtain ⟨cfg2, st2, a2, b2, rfl⟩ := clockCharge_ok e2
    rw [clockCfg_time d i ccd o x rows hx ht0] at a1
    rw [clockCfg_time d i ccd o x rows hx ht1] at a2
    injection a1 with a1; injection a1 with a1 _
    injection a2 with a2; injection a2 with a2 _
    subst a1 a2
    set N := maxNTransfers roe (timeCfg d i ccd o x rows t0 t1) with hN
    have hxw : x < img.nr := hw x (List.max?_mem hx)
    have hF : Forward (timeCfg d i ccd o x rows t0 t1).clockSeq := forward_of_force roe rfl
    have hmax : ∀ j, rows.getD j 0 ≤ x := fun j => window_le hx
    have hmon : ∀ k, ∀ j ∈ monitoredRows (timeCfg d i ccd o x rows t0 t1) k, k ≤ rows.getD j 0 + o := by
      intro k j hj
      unfold monitoredRows at hj
      have := (List.mem_filter.1 hj).2
      simpa [timeCfg, timeMon] using this
    have hget : ∀ j w, rows[j]? = some w → rows.getD j 0 = w := by
      intro j w h; rw [List.getD_eq_getElem?_getD, h]; rfl
    -- one column
    have col : ∀ c ∈ cols, ∃ o3, clockLoops (atmSys ccd.fill) (timeCfg d i ccd o x rows t0 t1) [c]
        (img.pad n, ATM.new groups ccd.fractions N) = .ok o3 ∧
        (∀ r < img.nr, a ≤ r + o → o3.1.px r c = st2.1.px r c) ∧
        ∀ r < img.nr, r + o < a → o3.1.px r c = st1.1.px r c ∧ st2.1.px r c = y.px r c := by
      intro c hc
      obtain ⟨o1, f1, f2⟩ := columns_split ccd.fill _ rfl hnd (fresh_new _ _ _) b1 (fresh_new _ _ _) c hc
      obtain ⟨o2, f3, f4⟩ := columns_split ccd.fill _ rfl hnd (fresh_new _ _ _) b2 (fresh_new _ _ _) c hc
      rw [clockLoops_single] at f1 f3
      unfold columnBody at f1 f3
      obtain ⟨u1, p1, q1⟩ := bind_eq_ok f1
      obtain ⟨u2, p2, q2⟩ := bind_eq_ok f3
      injection q1 with q1
      injection q2 with q2
      subst q1 q2
      simp only at f2 f4
      have hfr := clockLoops_frame _ _ b1
      obtain ⟨x3, s1, s2, s3, s4⟩ := passes_split ccd.fill (timeCfg d i ccd o x rows t0 t1) hF
        (timeMat x o rows t0 a) (timeMat x o rows a t1) c (min a (x + 1 + o)) (a - o)
        (fun r => a ≤ r + o ∧ r < img.nr) (fun _ _ => rfl) (x + 1 + o) (min_le_right _ _)
        (by
          intro k hk j hj
          have := hmon k j hj
          simp only [timeCfg, timeMat]
          refine if_congr ?_ rfl rfl
          omega)
        (by
          intro k hk j hj
          have := hmon k j hj
          have := hmax j
          simp only [timeMat]
          refine if_neg ?_
          omega)
        (by
          intro k hk j hj
          have := hmon k j hj
          simp only [timeMat]
          refine if_neg ?_
          omega)
        (by
          intro k hk j hj
          have := hmon k j hj
          have := hmax j
          simp only [timeCfg, timeMat]
          refine if_congr ?_ rfl rfl
          omega)
        (by
          intro k hk j hj w hw'
          have := hmon k j hj
          have := hmax j
          have := hget j w hw'
          omega)
        (by
          intro k hk j hj w hw'
          have := hmon k j hj
          have := hmax j
          have := hget j w hw'
          omega)
        (D := (ATM.new groups ccd.fractions N).data) (x := (img.pad n, ATM.new groups ccd.fractions N))
        (y := (y.pad n, ATM.new groups ccd.fractions N)) (fresh_new _ _ _) (fresh_new _ _ _)
        (by
          refine ⟨?_, ?_, ?_⟩
          · rw [f2.1, hfr.1]; simp [Image.pad, hyr, hn]
          · have := (clockLoops_frame (atmSys ccd.fill) _ ((clockLoops_single _ _ _ _).trans f1)).2.1
            simp only at this
            rw [this]; simp [Image.pad, hyc]
          · rintro r ⟨hr1, hr2⟩
            rw [f2.2.2 r]
            simp only [Image.pad, hyr, hr2, if_true]
            exact (hy r hr2 hr1 c (hcv c hc)).symm) p1 p2
      refine ⟨(x3.1, ATM.save (ATM.emptyAll x3.2)), ?_, ?_, ?_⟩
      · rw [clockLoops_single]
        unfold columnBody
        change ((List.range (x + 1 + o)).foldlM (expressBody (atmSys ccd.fill) (timeCfg d i ccd o x rows t0 t1) c)
          (img.pad n, ATM.new groups ccd.fractions N) >>= _) = _
        rw [s1]
        rfl
      · intro r hr hr'
        exact (s2.2.2 r ⟨hr', hr⟩).trans (f4.2.2 r)
      · intro r hr hr'
        refine ⟨(s3 r (by omega) c).trans (f2.2.2 r), ?_⟩
        rw [← f4.2.2 r, s4 r (by omega) c]
        simp [Image.pad, hyr, hr]
    obtain ⟨st3, b3⟩ := columns_join ccd.fill (timeCfg d i ccd o x rows t0 t1) rfl hnd (img := img.pad n)
      (a := ATM.new groups ccd.fractions N) (b := ATM.new groups ccd.fractions N) (fresh_new _ _ _) (fresh_new _ _ _)
      (fun c hc => by obtain ⟨o3, h, -⟩ := col c hc; exact ⟨o3, h⟩)
    refine ⟨_, clockCharge_of (clockCfg_time d i ccd o x rows hx ht) b3, ?_, ?_⟩
    · intro r hr hr' c hcn
      simp only [Image.unpad]
      by_cases hc : c ∈ cols
      · obtain ⟨o3, g1, g2⟩ := columns_split ccd.fill _ rfl hnd (fresh_new _ _ _) b3 (fresh_new _ _ _) c hc
        obtain ⟨o3', g3, g4, -⟩ := col c hc
        rw [g3] at g1
        injection g1 with g1
        subst g1
        rw [← g2.2.2 r, g4 r hr hr']
      · rw [(clockLoops_frame _ _ b3).2.2 r c hc, (clockLoops_frame _ _ b2).2.2 r c hc]
        simp only [Image.pad, hyr, hr, if_true]
        rw [hy r hr hr' c hcn]
        simp only [Image.unpad]
        rw [(clockLoops_frame _ _ b1).2.2 r c hc]
        simp [Image.pad, hr]
    · intro r hr hr' c
      simp only [Image.unpad]
      by_cases hc : c ∈ cols
      · obtain ⟨o3, g1, g2⟩ := columns_split ccd.fill _ rfl hnd (fresh_new _ _ _) b3 (fresh_new _ _ _) c hc
        obtain ⟨o3', g3, -, g4⟩ := col c hc
        rw [g3] at g1
        injection g1 with g1
        subst g1
        rw [← g2.2.2 r]
        exact g4 r hr hr'
      · rw [(clockLoops_frame _ _ b3).2.2 r c hc, (clockLoops_frame _ _ b2).2.2 r c hc,
          (clockLoops_frame _ _ b1).2.2 r c hc]
        simp [Image.pad, hr, hyr]

end Arctic
