import Verif.Lemmas.FloatExpress
import Verif.Props.Float
import Verif.Props.Express

/-!
# Express matrices and whole calls in double precision (C67, C69)
-/

set_option linter.unusedSectionVars false
set_option linter.unusedVariables false

namespace Arctic

open Finset

variable {F : Type}

/-! ### the shape of what `roe.py` computes, in any arithmetic -/

namespace Fp

theorem restrict_shape {A : Arith F} {int : ℤ → F} {m r : Mat F} {tw : Option (List ℕ)}
    (h : restrictTimeSpan A int m tw = .ok r) : r.nr = m.nr ∧ r.nc = m.nc := by
  cases tw with
  | none => cases h; exact ⟨rfl, rfl⟩
  | some tw =>
    unfold restrictTimeSpan at h
    simp only at h
    split at h
    · cases h; exact ⟨rfl, rfl⟩
    · cases h

theorem selectCols_ok {α : Type} {m r : Mat α} {w : List ℕ} (h : selectCols m w = .ok r) :
    (∀ x ∈ w, x < m.nc) ∧ r = ⟨m.nr, w.length, fun i j => m.e i (w.getD j 0)⟩ := by
  unfold selectCols at h
  split at h
  · rename_i hw
    injection h with h
    exact ⟨fun x hx => by simpa using List.all_eq_true.1 hw x hx, h.symm⟩
  · cases h

theorem roeExpressOf_ok {A : Arith F} {int : ℤ → F} {mult : ℕ → ℕ → F} {ef : Bool} {w : List ℕ} {e o : ℕ}
    {tw : Option (List ℕ)} {m : Mat F} {mon : Mat Bool} (h : roeExpressOf A int mult ef w e o tw = .ok (m, mon)) :
    ∃ a r, w.max? = some a ∧ restrictTimeSpan A int (expressFull A int mult ef (a + 1) e o) tw = .ok r ∧
      (∀ x ∈ w, x + o < (expressFull A int mult ef (a + 1) e o).nc) ∧
      m = ⟨r.nr, w.length, fun k j => r.e k (w.getD j 0 + o)⟩ ∧
      mon = ⟨(expressFull A int mult ef (a + 1) e o).nr, w.length,
        fun k j => A.lt A.zero ((expressFull A int mult ef (a + 1) e o).e k (w.getD j 0 + o))⟩ := by
  unfold roeExpressOf nPixelsOfWindow at h
  cases hw : w.max? with
  | none => rw [hw] at h; cases h
  | some a =>
    rw [hw] at h
    simp only [bind, Except.bind] at h
    split at h
    · cases h
    · rename_i v hv
      split at h
      · cases h
      · rename_i r hr
        split at h
        · cases h
        · rename_i u hu
          injection h with h
          injection h with h1 h2
          subst h1 h2
          obtain ⟨g1, g2⟩ := selectCols_ok hv
          obtain ⟨g3, g4⟩ := selectCols_ok hu
          refine ⟨a, r, rfl, hr, fun x hx => ?_, g4, g2⟩
          have := g1 x hx
          change x < (expressFull A int mult ef (a + 1) e o).nc - o at this
          omega

theorem injectionExpress_ok {A : Arith F} {C : Conv F} {i : Bool} {n : Option ℕ} {rows : List ℕ} {e o n' : ℕ}
    {tw : Option (List ℕ)} {m : Mat F} {mon : Mat Bool}
    (h : injectionExpress A C i n rows e o tw = .ok ((m, mon), n')) :
    ∃ a, rows.max? = some a ∧ m.nc = a + 1 ∧ mon.nc = a + 1 := by
  unfold injectionExpress nPixelsOfWindow at h
  cases hw : rows.max? with
  | none => rw [hw] at h; cases h
  | some a =>
    rw [hw] at h
    simp only [bind, Except.bind] at h
    split at h
    · cases h
    · split at h
      · cases h
      · split at h
        · cases h
        · rename_i r hr
          injection h with h
          injection h with h1 _
          injection h1 with h1 h2
          subst h1 h2
          exact ⟨a, rfl, (restrict_shape hr).2, rfl⟩

theorem roeExpress_cols {A : Arith F} {C : Conv F} {ef i : Bool} {w : List ℕ} {e o : ℕ} {tw : Option (List ℕ)}
    {m : Mat F} {mon : Mat Bool} (h : roeExpress A C ef i w e o tw = .ok (m, mon)) :
    m.nc = w.length ∧ mon.nc = w.length := by
  unfold roeExpress at h
  split at h
  · obtain ⟨⟨m', mon'⟩, h1, h2⟩ := bind_eq_ok h
    injection h2 with h2
    injection h2 with h2 h3
    obtain ⟨a, r, -, -, -, g1, g2⟩ := roeExpressOf_ok h1
    subst h2 h3
    exact ⟨by simp only [astype, g1], by rw [g2]⟩
  · obtain ⟨a, r, -, -, -, g1, g2⟩ := roeExpressOf_ok h
    exact ⟨by rw [g1], by rw [g2]⟩

theorem skeleton_clockSequence (A : Arith F) (C : Conv F) (roe : Roe F) :
    skeleton (clockSequence A C roe) = skeleton (shape roe).clockSequence := by
  unfold skeleton clockSequence
  rw [List.map_map]
  refine List.map_congr_left fun l _ => ?_
  simp only [Function.comp, List.map_map]
  refine List.map_congr_left fun p _ => ?_
  simp only [Function.comp, List.map_map, Prod.mk.injEq, true_and]
  rfl

theorem shape_nSteps (roe : Roe F) : (dwell roe).length = (shape roe).nSteps := by
  cases roe <;> simp [dwell, shape, Roe.nSteps, Roe.dwell]

end Fp

/-- Whatever the arithmetic, what the default readout computes has the integers that `C67_safe` asks for. -/
theorem C67_any_configuration (A : Arith F) (C : Fp.Conv F) (ccd : CcdView F) (roe roe' : Roe F) (e o : ℕ)
    (rows : List ℕ) (tw : Option (List ℕ)) (cfg : ClockCfg F)
    (h : Fp.clockCfg A C roe ccd e o rows tw = .ok (cfg, roe')) (hs : NoSaves (Fp.shape roe))
    (hb : (Fp.shape roe).emptyBetween = true) (hr : RowsFound rows (Fp.shape roe))
    (hp : ccd.fractions.length ≤ (Fp.shape roe).nPhases) :
    Fp.ShapeOf A cfg (Fp.shape roe) ccd rows ∧ Fp.maxNTransfers roe cfg = cfg.expr.nc * cfg.steps.length := by
  unfold Fp.clockCfg at h
  obtain ⟨⟨m, mon, roe2⟩, h1, h⟩ := bind_eq_ok h
  obtain ⟨sv, h2, h⟩ := bind_eq_ok h
  injection h with h
  injection h with h _
  subst h
  have hall : mon.nc = m.nc ∧ m.nc ≤ rows.length ∧ ∀ k j, sv.e k j = false := by
    cases roe with
    | standard dw ef eb f i =>
      have hef : ef = true := hs
      subst hef
      simp only [Fp.expressOf] at h1
      obtain ⟨⟨m', mon'⟩, g1, g2⟩ := bind_eq_ok h1
      injection g2 with g2
      injection g2 with g3 g4
      injection g4 with g4 _
      obtain ⟨q1, q2⟩ := Fp.roeExpress_cols g1
      simp only at g3 g4
      refine ⟨by rw [← g3, ← g4, q1, q2], by rw [← g3, q1], ?_⟩
      simp only [Fp.saveOf] at h2
      unfold Fp.roeSave at h2
      rw [if_pos rfl] at h2
      injection h2 with h2
      intro k j
      rw [← h2]
    | injection dw n eb f i =>
      simp only [Fp.expressOf] at h1
      obtain ⟨⟨⟨m', mon'⟩, n'⟩, g1, g2⟩ := bind_eq_ok h1
      injection g2 with g2
      injection g2 with g3 g4
      injection g4 with g4 _
      obtain ⟨a, q1, q2, q3⟩ := Fp.injectionExpress_ok g1
      simp only at g3 g4
      refine ⟨by rw [← g3, ← g4, q2, q3], ?_, ?_⟩
      · rw [← g3, q2]
        exact hr a (List.max?_eq_some_iff.1 q1).1
      · simp only [Fp.saveOf] at h2
        injection h2 with h2
        intro k j
        rw [← h2]
    | pumping dw n ef i => exact hs.elim
  refine ⟨⟨Fp.skeleton_clockSequence A C roe, Fp.shape_nSteps roe, rfl, rfl, hp, rfl, hall.1, hall.2.1, hall.2.2, hb⟩, ?_⟩
  cases roe with
  | standard => rfl
  | injection => rfl
  | pumping => exact hs.elim

/-- In double precision the whole call, with the express matrix computed in double precision too, stays inside its
arrays: it returns an image of the same size, or the readout object raises (C02, C12), or an `IndexError` or (for
elapsed-time traps) a `TypeError` arises in the loops. -/
theorem C67_call (sum : List B64 → B64) (img : Image B64) (ccd : CcdView B64) (groups : List (Group B64))
    (roe : Roe B64) (e o : ℕ) (rows columns : List ℕ) (tw : Option (List ℕ)) (hs : NoSaves (Fp.shape roe))
    (hb : (Fp.shape roe).emptyBetween = true) (hr : RowsFound rows (Fp.shape roe))
    (hp : ccd.fractions.length ≤ (Fp.shape roe).nPhases)
    (hrows : ∀ w ∈ rows, w < img.nr) (hlow : ∀ w ∈ rows, ∀ z ∈ (Fp.shape roe).accessed, 0 ≤ (w : ℤ) + z)
    (hcols : ∀ c ∈ columns, c < img.nc) (hg : ∀ g ∈ groups, Fp.notSlow g.kind)
    (hfill : ∀ ph < ccd.fractions.length, Fp.FillOk (B64.arith sum) (ccd.fill ph)) :
    match Fp.clockDirection (B64.arith sum) B64.conv img ccd roe groups e o rows columns tw with
    | .ok (out, _) => out.nr = img.nr ∧ out.nc = img.nc
    | .error err => Fp.clockCfg (B64.arith sum) B64.conv roe ccd e o rows tw = .error err ∨ err = .indexError ∨
        (err = .typeError ∧ ∃ g ∈ groups, Fp.isTrack g.kind) := by
  unfold Fp.clockDirection
  cases hc : Fp.clockCfg (B64.arith sum) B64.conv roe ccd e o rows tw with
  | error err => exact Or.inl rfl
  | ok v =>
    obtain ⟨cfg, roe'⟩ := v
    obtain ⟨h1, h2⟩ := C67_any_configuration _ _ ccd roe roe' e o rows tw cfg hc hs hb hr hp
    have h3 := C67_double sum img ccd groups cfg (Fp.shape roe) rows columns h1 hrows hlow hcols hg fun ph hph =>
      hfill ph (by rw [h1.phases] at hph; exact (Fp.mem_positiveIndices.1 hph).1)
    simp only [bind, Except.bind, h2]
    revert h3
    cases Fp.clockCharge (B64.arith sum) img ccd groups cfg (nPadding (Fp.shape roe).accessed)
      (cfg.expr.nc * cfg.steps.length) columns with
    | error err => exact fun h => Or.inr h
    | ok out => exact id

/-- In exact arithmetic it is the call of the other modules. -/
theorem C67_exact_call {K : Type} [Field K] [LinearOrder K] [IsStrictOrderedRing K] (img : Image K) (ccd : CcdView K)
    (roe : Roe K) (groups : List (Group K)) (e o : ℕ) (rows columns : List ℕ) (tw : Option (List ℕ)) :
    Fp.clockDirection (Arith.exact K) (Fp.Conv.exact K) img ccd roe groups e o rows columns tw =
      clockCharge img ccd roe groups e o rows columns tw :=
  Fp.exact_clockDirection img ccd roe groups e o rows columns tw

/-- A readout with one phase, with its numbers as doubles. -/
def exDblReadout : Roe B64 := .standard [B64.one] true true true false

example (img : Image B64) (n e o : ℕ) (hn : n ≤ img.nr) (columns : List ℕ) (hc : ∀ c ∈ columns, c < img.nc)
    (tw : Option (List ℕ)) :
    match Fp.clockDirection dblArith B64.conv img exDblCcd exDblReadout exDblGroups e o (List.range n) columns tw with
    | .ok (out, _) => out.nr = img.nr ∧ out.nc = img.nc
    | .error err => Fp.clockCfg dblArith B64.conv exDblReadout exDblCcd e o (List.range n) tw = .error err ∨
        err = .indexError ∨ (err = .typeError ∧ ∃ g ∈ exDblGroups, Fp.isTrack g.kind) :=
  C67_call B64.sumLeft img exDblCcd exDblGroups exDblReadout e o (List.range n) columns tw rfl rfl trivial
    (by decide) (fun w hw => (List.mem_range.1 hw).trans_le hn) (fun w _ z hz => by
      have : z = 0 := by
        have h : (Fp.shape exDblReadout).accessed = [0, 0, 0] := by decide +kernel
        rw [h] at hz; simpa using hz
      omega) hc (fun g hg => by
      rcases List.mem_singleton.1 hg with rfl
      trivial) fun _ _ => exDbl_fill

/-! ### C69: express matrices in double precision -/

/-- The three shapes of the matrix, in double precision. -/
theorem dblFull_cases (sum : List B64 → B64) (ef : Bool) (n e o : ℕ) :
    let full := Fp.expressFull (B64.arith sum) B64.conv.int
      (fun a b => (B64.arith sum).div (B64.conv.int a) (B64.conv.int b)) ef n e o
    (¬ (ef = true ∧ effectiveExpress e (n + o) < n) ∧
      full = B64.baseMat sum (n + o) (effectiveExpress e (n + o))) ∨
    (ef = true ∧ effectiveExpress e (n + o) + 1 = n ∧
      full = B64.baseMat sum (n - 1 + o) (effectiveExpress e (n + o))) ∨
    (ef = true ∧ effectiveExpress e (n + o) + 1 < n ∧
      full = Fp.insertRows (B64.arith sum) (Fp.flipIdentity (B64.arith sum) (n - 1 + o + 1))
        (B64.baseMat sum (n - 1 + o) (effectiveExpress e (n + o)))) := by
  unfold Fp.expressFull
  simp only
  by_cases h : ef = true ∧ effectiveExpress e (n + o) < n
  · simp only [h.1, h.2, and_self, if_true, true_and]
    by_cases h2 : effectiveExpress e (n + o) < n - 1
    · right; right
      rw [if_pos h2]
      refine ⟨by omega, ?_⟩
      congr 2
      omega
    · right; left
      rw [if_neg h2]
      exact ⟨by omega, rfl⟩
  · left
    refine ⟨h, ?_⟩
    rw [if_neg h, if_neg h]
    rfl

/-- For each pixel of the window the multipliers are finite, not negative, and add up to the number of its transfers
up to rounding: `w[j] + 1 + offset`, with an error of at most `N² / 2⁵¹` for `N = max(w) + 1 + offset`. -/
theorem C69_column_sum (sum : List B64 → B64) (ef : Bool) (w : List ℕ) (e o : ℕ) (m : Mat B64) (mon : Mat Bool)
    (h : Fp.roeExpress (B64.arith sum) B64.conv ef false w e o none = .ok (m, mon)) (hb : ∀ x ∈ w, x + 1 + o ≤ 2 ^ 25)
    (N : ℕ) (hN : ∀ x ∈ w, x + 1 + o ≤ N) (j : ℕ) (hj : j < w.length) :
    (∀ k < m.nr, B64.Val (m.e k j) (m.e k j).val ∧ 0 ≤ (m.e k j).val) ∧
      |∑ k ∈ range m.nr, (m.e k j).val - ((w[j] : ℚ) + 1 + o)| ≤ (N : ℚ) ^ 2 / 2 ^ 51 := by
  unfold Fp.roeExpress at h
  rw [if_neg (by simp)] at h
  obtain ⟨a, r, hw, hr, hlt, rfl, -⟩ := Fp.roeExpressOf_ok h
  injection hr with hr
  subst hr
  have ha := (List.max?_eq_some_iff.1 hw).1
  have hle := window_le (j := j) hw
  have hwj : w.getD j 0 = w[j] := List.getD_eq_getElem _ _ hj
  have hE := effectiveExpress_pos e (a + 1 + o) (by omega)
  have hE' := effectiveExpress_le e (a + 1 + o)
  have hba := hb a ha
  have hNa := hN a ha
  have sq : ∀ E M : ℕ, E ≤ N → M ≤ N → (E : ℚ) * (M * (1 / 2 ^ 51)) ≤ (N : ℚ) ^ 2 / 2 ^ 51 := by
    intro E M h1 h2
    have h1' : (E : ℚ) ≤ N := by exact_mod_cast h1
    have h2' : (M : ℚ) ≤ N := by exact_mod_cast h2
    have : (E : ℚ) * M ≤ N * N := mul_le_mul h1' h2' (by positivity) (by positivity)
    rw [pow_two, ← mul_assoc, mul_one_div]
    exact div_le_div_of_nonneg_right this (by norm_num)
  have fin : ∀ {x : B64} {q : ℚ}, B64.Val x q → 0 ≤ q → B64.Val x x.val ∧ 0 ≤ x.val := by
    intro x q hx hq
    rw [hx.val]
    exact ⟨hx, hq⟩
  simp only
  rw [← hwj]
  rcases dblFull_cases sum ef (a + 1) e o with ⟨h1, heq⟩ | ⟨h1, h2, heq⟩ | ⟨h1, h2, heq⟩
  · rw [heq]
    have hv : ∀ k < effectiveExpress e (a + 1 + o), B64.Val
        ((B64.baseMat sum (a + 1 + o) (effectiveExpress e (a + 1 + o))).e k (w.getD j 0 + o))
        (B64.entry (a + 1 + o) (effectiveExpress e (a + 1 + o)) k (w.getD j 0 + o)) := fun k hk =>
      B64.val_base sum hE hE' (hba.trans (by norm_num)) hk (by omega)
    refine ⟨fun k hk => fin (hv k hk) (B64.entry_nonneg hE hE').1, ?_⟩
    have := B64.sum_baseVal hE hE' (p := w.getD j 0 + o) (by omega)
    have e1 : ∑ k ∈ range (B64.baseMat sum (a + 1 + o) (effectiveExpress e (a + 1 + o))).nr,
        ((B64.baseMat sum (a + 1 + o) (effectiveExpress e (a + 1 + o))).e k (w.getD j 0 + o)).val =
        ∑ k ∈ range (effectiveExpress e (a + 1 + o)),
          B64.entry (a + 1 + o) (effectiveExpress e (a + 1 + o)) k (w.getD j 0 + o) :=
      Finset.sum_congr rfl fun k hk => (hv k (Finset.mem_range.1 hk)).val
    rw [e1]
    have e2 : ((w.getD j 0 : ℕ) : ℚ) + 1 + o = ((w.getD j 0 + o : ℕ) : ℚ) + 1 := by push_cast; ring
    rw [e2]
    exact this.trans (sq _ _ (hE'.trans hNa) hNa)
  · exfalso
    have := hlt a ha
    rw [heq] at this
    change a + o < a + 1 - 1 + o at this
    omega
  · rw [heq]
    have hv : ∀ k, B64.Val ((Fp.insertRows (B64.arith sum) (Fp.flipIdentity (B64.arith sum) (a + 1 - 1 + o + 1))
        (B64.baseMat sum (a + 1 - 1 + o) (effectiveExpress e (a + 1 + o)))).e k (w.getD j 0 + o))
        ((insertRows (flipIdentity (a + 1 - 1 + o + 1))
          (B64.baseVal (a + 1 - 1 + o) (effectiveExpress e (a + 1 + o)))).e k (w.getD j 0 + o)) := fun k =>
      B64.val_insert sum hE (by omega) (by omega) k _ (by omega)
    have hnn : ∀ k, 0 ≤ (insertRows (flipIdentity (a + 1 - 1 + o + 1))
          (B64.baseVal (a + 1 - 1 + o) (effectiveExpress e (a + 1 + o)))).e k (w.getD j 0 + o) := by
      intro k
      have hid : ∀ j, (0 : ℚ) ≤ (flipIdentity (a + 1 - 1 + o + 1)).e k j := by
        intro j
        unfold flipIdentity
        simp only
        split <;> norm_num
      rcases hp : w.getD j 0 + o with _ | p
      · rw [insertRows_col0]
        exact hid 0
      · rw [insertRows_e _ _ _ (B64.baseVal_dup hE (by omega) (by omega) (by omega))]
        exact add_nonneg (hid _) (Finset.sum_nonneg fun _ _ => (B64.entry_nonneg hE (by omega)).1)
    refine ⟨fun k _ => fin (hv k) (hnn k), ?_⟩
    have := B64.sum_insertVal hE (by omega : effectiveExpress e (a + 1 + o) < a + 1 - 1 + o) (by omega)
      (p := w.getD j 0 + o) (by omega)
    have e1 : ∑ k ∈ range (Fp.insertRows (B64.arith sum) (Fp.flipIdentity (B64.arith sum) (a + 1 - 1 + o + 1))
        (B64.baseMat sum (a + 1 - 1 + o) (effectiveExpress e (a + 1 + o)))).nr,
        ((Fp.insertRows (B64.arith sum) (Fp.flipIdentity (B64.arith sum) (a + 1 - 1 + o + 1))
        (B64.baseMat sum (a + 1 - 1 + o) (effectiveExpress e (a + 1 + o)))).e k (w.getD j 0 + o)).val =
        ∑ k ∈ range (a + 1 - 1 + o + 1), (insertRows (flipIdentity (a + 1 - 1 + o + 1))
          (B64.baseVal (a + 1 - 1 + o) (effectiveExpress e (a + 1 + o)))).e k (w.getD j 0 + o) :=
      Finset.sum_congr rfl fun k hk => (hv k).val
    rw [e1]
    have e2 : ((w.getD j 0 : ℕ) : ℚ) + 1 + o = ((w.getD j 0 + o : ℕ) : ℚ) + 1 := by push_cast; ring
    rw [e2]
    exact this.trans (sq _ _ (by omega) (by omega))


/-- The number of transfers that `express` is to divide: one fewer if first transfers are treated separately. -/
def nDivided (ef : Bool) (n e o : ℕ) : ℕ := if ef = true ∧ effectiveExpress e (n + o) < n then n - 1 + o else n + o

theorem nDivided_bounds (ef : Bool) (a e o : ℕ) (hb : a + 1 + o ≤ 2 ^ 25) :
    effectiveExpress e (a + 1 + o) ≤ nDivided ef (a + 1) e o ∧ nDivided ef (a + 1) e o ≤ 2 ^ 53 := by
  have := effectiveExpress_le e (a + 1 + o)
  unfold nDivided
  split
  · omega
  · omega

theorem insertRows_rel {P : ℚ → ℚ → Prop} (hP : ∀ x y, P x y → (0 < x ↔ 0 < y)) (h0 : P 0 0) (h1 : P 1 1)
    (hadd : ∀ x y, P x y → P (1 + x) (1 + y)) {N : ℕ} {s s' : Mat ℚ} (hr : s.nr = s'.nr)
    (hc : s.nc = N) (hc' : s'.nc = N) (h : ∀ k < s.nr, ∀ p < N, P (s.e k p) (s'.e k p)) (i j : ℕ) (hj : j < N + 1) :
    P ((insertRows (flipIdentity (N + 1)) s).e i j) ((insertRows (flipIdentity (N + 1)) s').e i j) := by
  have hn : ∀ k < s.nr, nNonzero s k = nNonzero s' k := by
    intro k hk
    unfold nNonzero
    rw [hc, hc']
    congr 1
    refine List.filter_congr fun p hp => ?_
    have := hP _ _ (h k hk p (List.mem_range.1 hp))
    simp only [gt_iff_lt, this]
  have hid : P ((flipIdentity (N + 1)).e i j) ((flipIdentity (N + 1)).e i j) := by
    unfold flipIdentity
    simp only
    split
    · exact h1
    · exact h0
  unfold insertRows
  simp only
  rw [← hr]
  have : ∀ (l : List ℕ), (∀ k ∈ l, k < s.nr) → ∀ (cur cur' : ℕ → ℕ → ℚ), P (cur i j) (cur' i j) →
      P (l.foldl (fun cur k => fun i j =>
        if i = nNonzero s k ∧ 1 ≤ j then (flipIdentity (N + 1)).e i j + s.e k (j - 1) else cur i j) cur i j)
      (l.foldl (fun cur k => fun i j =>
        if i = nNonzero s' k ∧ 1 ≤ j then (flipIdentity (N + 1)).e i j + s'.e k (j - 1) else cur i j) cur' i j) := by
    intro l
    induction l with
    | nil => intro _ cur cur' h; exact h
    | cons k l ih =>
      intro hl cur cur' hcur
      rw [List.foldl_cons, List.foldl_cons]
      refine ih (fun k hk => hl k (List.mem_cons_of_mem _ hk)) _ _ ?_
      have hk := hl k List.mem_cons_self
      simp only [hn k hk]
      split
      · have hs := h k hk (j - 1) (by omega)
        unfold flipIdentity
        simp only
        split
        · exact hadd _ _ hs
        · rwa [zero_add, zero_add]
      · exact hcur
  exact this _ (fun k hk => List.mem_range.1 hk) _ _ hid

/-- A relation between the entries before the first transfers are inserted holds between the entries of the matrices. -/
theorem roeExpress_rel {P : ℚ → ℚ → Prop} (hP : ∀ x y, P x y → (0 < x ↔ 0 < y)) (h0 : P 0 0) (h1 : P 1 1)
    (hadd : ∀ x y, P x y → P (1 + x) (1 + y)) (sum : List B64 → B64) (ef : Bool) (w : List ℕ) (e o a : ℕ)
    (hw : w.max? = some a) (m : Mat ℚ) (mon : Mat Bool) (h : roeExpress ef false w e o none = .ok (m, mon))
    (hb : a + 1 + o ≤ 2 ^ 25)
    (hd : ∀ k < effectiveExpress e (a + 1 + o), ∀ p < nDivided ef (a + 1) e o,
      P (B64.entry (nDivided ef (a + 1) e o) (effectiveExpress e (a + 1 + o)) k p)
        ((expressBase false (nDivided ef (a + 1) e o) (effectiveExpress e (a + 1 + o))).e k p)) :
    ∃ m' mon', Fp.roeExpress (B64.arith sum) B64.conv ef false w e o none = .ok (m', mon') ∧ m'.nr = m.nr ∧
      mon'.nr = mon.nr ∧ ∀ k < m.nr, ∀ j < w.length, (∃ v, B64.Val (m'.e k j) v ∧ P v (m.e k j)) ∧
        mon'.e k j = mon.e k j := by
  obtain ⟨a', hw', hs, r, hr, rfl, rfl⟩ := roeExpress_ok h
  rw [hw] at hw'
  injection hw' with hw'
  subst hw'
  injection hr with hr
  subst hr
  have ha := (List.max?_eq_some_iff.1 hw).1
  have hE := effectiveExpress_pos e (a + 1 + o) (by omega)
  have hE' := effectiveExpress_le e (a + 1 + o)
  set full := Fp.expressFull (B64.arith sum) B64.conv.int
      (fun a b => (B64.arith sum).div (B64.conv.int a) (B64.conv.int b)) ef (a + 1) e o with hfull
  have key : full.nr = (expressFull (K := ℚ) ef false (a + 1) e o).nr ∧ a + 1 + o = full.nc ∧
      ∀ k < full.nr, ∀ p < a + 1 + o, ∃ v, B64.Val (full.e k p) v ∧
        P v ((expressFull (K := ℚ) ef false (a + 1) e o).e k p) := by
    unfold nDivided at hd
    rcases dblFull_cases sum ef (a + 1) e o with ⟨h1, heq⟩ | ⟨h1, h2, heq⟩ | ⟨h1, h2, heq⟩
    · rw [if_neg h1] at hd
      rcases expressFull_cases (K := ℚ) ef false (a + 1) e o with ⟨g1, geq⟩ | ⟨g1, g2, geq⟩ | ⟨g1, g2, geq⟩
      · rw [hfull, heq, geq]
        exact ⟨rfl, rfl, fun k hk p hp => ⟨_, B64.val_base sum hE hE' (hb.trans (by norm_num)) hk hp, hd k hk p hp⟩⟩
      · exact absurd ⟨g1, by omega⟩ h1
      · exact absurd ⟨g1, by omega⟩ h1
    · exact absurd ((short_iff (o := o) hw).1 ⟨h1, h2⟩) hs
    · rw [if_pos ⟨h1, by omega⟩] at hd
      rcases expressFull_cases (K := ℚ) ef false (a + 1) e o with ⟨g1, geq⟩ | ⟨g1, g2, geq⟩ | ⟨g1, g2, geq⟩
      · exact absurd ⟨h1, by omega⟩ g1
      · omega
      · rw [hfull, heq, geq]
        refine ⟨show a + 1 - 1 + o + 1 = a + 1 + o by omega, show a + 1 + o = a + 1 - 1 + o + 1 by omega,
          fun k hk p hp => ⟨_, B64.val_insert sum hE (by omega : effectiveExpress e (a + 1 + o) < a + 1 - 1 + o)
            (by omega) k p (by omega), ?_⟩⟩
        have := insertRows_rel hP h0 ‹P 1 1› hadd (N := a + 1 - 1 + o)
          (s := B64.baseVal (a + 1 - 1 + o) (effectiveExpress e (a + 1 + o)))
          (s' := expressBase false (a + 1 - 1 + o) (effectiveExpress e (a + 1 + o))) rfl rfl rfl hd k p (by omega)
        rw [show a + 1 - 1 + o + 1 = a + 1 + o by omega] at this ⊢
        exact this
  obtain ⟨k1, k2, k3⟩ := key
  have hall : ∀ x ∈ w, x < full.nc - o := by
    intro x hx
    have := (List.max?_eq_some_iff.1 hw).2 x hx
    omega
  have hsel : ∀ {α : Type} (M : Mat α), M.nc = full.nc → selectCols (dropCols M o) w =
      .ok ⟨M.nr, w.length, fun i j => M.e i (w.getD j 0 + o)⟩ := by
    intro α M hM
    unfold selectCols
    rw [if_pos]
    · rfl
    · rw [List.all_eq_true]
      intro x hx
      have := hall x hx
      change decide (x < M.nc - o) = true
      rw [hM]
      simpa using this
  refine ⟨⟨full.nr, w.length, fun i j => full.e i (w.getD j 0 + o)⟩,
    ⟨full.nr, w.length, fun i j => (B64.arith sum).lt (B64.arith sum).zero (full.e i (w.getD j 0 + o))⟩, ?_, k1, k1, ?_⟩
  · unfold Fp.roeExpress
    rw [if_neg (by simp)]
    unfold Fp.roeExpressOf nPixelsOfWindow
    rw [hw]
    simp only [bind, Except.bind]
    rw [← hfull, hsel ⟨full.nr, full.nc, fun i j => (B64.arith sum).lt (B64.arith sum).zero (full.e i j)⟩ rfl]
    simp only [Fp.restrictTimeSpan]
    rw [hsel full rfl]
  · intro k hk j hj
    have hle := window_le (j := j) hw
    obtain ⟨v, hv, hPv⟩ := k3 k (k1 ▸ hk) (w.getD j 0 + o) (by omega)
    refine ⟨⟨v, hv, hPv⟩, (B64.val_lt B64.val_zero hv).trans ?_⟩
    simp only [gt_iff_lt, hP _ _ hPv]

/-- If `express` divides the number of transfers (in particular for `express=0`), the matrices are those of exact
arithmetic: nothing is rounded. -/
theorem C69_divides (sum : List B64 → B64) (ef : Bool) (w : List ℕ) (e o a : ℕ) (hw : w.max? = some a)
    (m : Mat ℚ) (mon : Mat Bool) (h : roeExpress ef false w e o none = .ok (m, mon)) (hb : a + 1 + o ≤ 2 ^ 25)
    (hd : effectiveExpress e (a + 1 + o) ∣ nDivided ef (a + 1) e o) :
    ∃ m' mon', Fp.roeExpress (B64.arith sum) B64.conv ef false w e o none = .ok (m', mon') ∧ m'.nr = m.nr ∧
      mon'.nr = mon.nr ∧ ∀ k < m.nr, ∀ j < w.length, B64.Val (m'.e k j) (m.e k j) ∧ mon'.e k j = mon.e k j := by
  have hE := effectiveExpress_pos e (a + 1 + o) (by omega)
  have hN : effectiveExpress e (a + 1 + o) ≤ nDivided ef (a + 1) e o ∧ nDivided ef (a + 1) e o ≤ 2 ^ 53 :=
    nDivided_bounds ef a e o hb
  obtain ⟨m', mon', g1, g2, g3, g4⟩ := roeExpress_rel (P := fun x y => x = y) (fun x y h => by rw [h]) rfl rfl
    (fun x y h => by rw [h]) sum ef w e o a hw m mon h hb
    (fun k hk p hp => B64.entry_dvd hE hN.1 hN.2 hk hp hd)
  refine ⟨m', mon', g1, g2, g3, fun k hk j hj => ?_⟩
  obtain ⟨⟨v, hv, rfl⟩, hm⟩ := g4 k hk j hj
  exact ⟨hv, hm⟩

/-- `express=0` divides. -/
theorem C69_express_zero (ef : Bool) (n o : ℕ) : effectiveExpress 0 (n + o) ∣ nDivided ef n 0 o := by
  have : effectiveExpress 0 (n + o) = n + o := rfl
  unfold nDivided
  rw [this, if_neg (by omega)]

/-- With `express_matrix_dtype=int` the matrix is the exact one, converted at the end. -/
theorem C69_int (sum : List B64 → B64) (ef : Bool) (w : List ℕ) (e o : ℕ) (tw : Option (List ℕ))
    (hb : ∀ x ∈ w, x + 1 + o < 2 ^ 53) (m : Mat ℚ) (mon : Mat Bool) (h : roeExpress ef true w e o tw = .ok (m, mon)) :
    ∃ m', Fp.roeExpress (B64.arith sum) B64.conv ef true w e o tw = .ok (m', mon) ∧ m'.nr = m.nr ∧ m'.nc = m.nc ∧
      ∀ k j, m'.e k j = B64.pack (m.e k j) := by
  obtain ⟨a, hw, -⟩ := roeExpress_ok h
  have ha := (List.max?_eq_some_iff.1 hw).1
  have hba := hb a ha
  have hE := effectiveExpress_pos e (a + 1 + o) (by omega)
  have hE' := effectiveExpress_le e (a + 1 + o)
  have hfull : Fp.expressFull Fp.Arith.int id B64.conv.ceilDiv ef (a + 1) e o =
      Fp.expressFull Fp.Arith.int id (Fp.Conv.exact ℚ).ceilDiv ef (a + 1) e o := by
    unfold Fp.expressFull
    simp only
    by_cases hc : ef = true ∧ effectiveExpress e (a + 1 + o) < a + 1
    · rw [if_pos hc, B64.ceilDiv_exact hE (by omega) (by omega)]
      rfl
    · rw [if_neg hc, B64.ceilDiv_exact hE hE' hba]
      rfl
  have hof : Fp.roeExpressOf Fp.Arith.int id B64.conv.ceilDiv ef w e o tw =
      Fp.roeExpressOf Fp.Arith.int id (Fp.Conv.exact ℚ).ceilDiv ef w e o tw := by
    unfold Fp.roeExpressOf nPixelsOfWindow
    rw [hw]
    simp only [bind, Except.bind]
    rw [hfull]
  rw [← Fp.exact_roeExpress] at h
  unfold Fp.roeExpress at h ⊢
  rw [if_pos rfl] at h ⊢
  rw [hof]
  obtain ⟨⟨mi, mon'⟩, h1, h2⟩ := bind_eq_ok h
  injection h2 with h2
  injection h2 with h2 h3
  subst h2 h3
  refine ⟨Fp.astype B64.conv mi, ?_, rfl, rfl, fun k j => rfl⟩
  rw [h1]
  rfl

/-! #### which pixels are monitored in which pass -/

/-- Rounding does not move a row of the matrix: no product `k * (N / E)` that should be an integer is rounded down. -/
def ProductsNotBelow (N E : ℕ) : Prop := ∀ k < E, E ∣ k * N → ((k * N / E : ℕ) : ℚ) ≤ B64.round (k * B64.round ((N : ℚ) / E))

instance (N E : ℕ) : Decidable (ProductsNotBelow N E) := by unfold ProductsNotBelow; infer_instance

/-- The same pixels have positive multipliers in double precision and in exact arithmetic if and only if no product that
should be an integer is rounded down. -/
theorem C69_positive_iff (N E : ℕ) (hE : 0 < E) (hEN : E ≤ N) (hb : N ≤ 2 ^ 25) (sum : List B64 → B64) :
    (∀ k < E, ∀ p < N, (B64.lt B64.zero ((B64.baseMat sum N E).e k p) = true ↔
      0 < (expressBase (K := ℚ) false N E).e k p)) ↔ ProductsNotBelow N E := by
  have hb' : N ≤ 2 ^ 53 := hb.trans (by norm_num)
  have hE' : (0 : ℚ) < E := by exact_mod_cast hE
  have hbq : (N : ℚ) ≤ 2 ^ 25 := by exact_mod_cast hb
  have hEq : (E : ℚ) ≤ N := by exact_mod_cast hEN
  have hpos : ∀ k < E, ∀ p < N, (B64.lt B64.zero ((B64.baseMat sum N E).e k p) = true ↔
      B64.start N E k < ((p + 1 : ℕ) : ℚ)) := by
    intro k hk p hp
    rw [B64.val_lt B64.val_zero (B64.val_base sum hE hEN hb' hk hp), decide_eq_true_eq]
    exact B64.entry_pos_iff hE hEN hb' hk hp
  have hex : ∀ k p, 0 < (expressBase (K := ℚ) false N E).e k p ↔ (k : ℚ) * ((N : ℚ) / E) < ((p + 1 : ℕ) : ℚ) := by
    intro k p
    rw [expressBase_pos_iff false N E k p hE (by omega)]
    push_cast
    rfl
  have herr : ∀ k < E, |B64.start N E k - k * ((N : ℚ) / E)| < 1 / (2 * E) := by
    intro k hk
    refine (B64.start_near hE hEN hk).1.trans_lt ?_
    rw [lt_div_iff₀ (by positivity)]
    have : (N : ℚ) * E ≤ 2 ^ 25 * 2 ^ 25 := mul_le_mul hbq (hEq.trans hbq) hE'.le (by norm_num)
    have e1 : (N : ℚ) * (5 / 2 ^ 54) * (2 * E) = N * E * (10 / 2 ^ 54) := by ring
    rw [e1]
    norm_num at this ⊢
    linarith
  have hhalf : (1 : ℚ) / (2 * E) ≤ 1 / 2 := by
    rw [div_le_div_iff₀ (by positivity) (by norm_num)]
    have : (1 : ℚ) ≤ E := by exact_mod_cast hE
    linarith
  have hint : ∀ k, E ∣ k * N → (k : ℚ) * ((N : ℚ) / E) = ((k * N / E : ℕ) : ℚ) := by
    intro k hd
    obtain ⟨c, hc⟩ := hd
    rw [hc, Nat.mul_div_cancel_left _ hE, ← mul_div_assoc]
    have : (k : ℚ) * N = E * c := by exact_mod_cast hc
    rw [this, mul_div_cancel_left₀ _ hE'.ne']
  constructor
  · intro h k hk hd
    by_contra hc
    push Not at hc
    change B64.start N E k < _ at hc
    set q := k * N / E with hq
    have hkN : k * N < E * N := Nat.mul_lt_mul_of_pos_right hk (by omega)
    have hqN : q < N := Nat.div_lt_of_lt_mul hkN
    have hs0 : 0 ≤ B64.start N E k := by
      have h0 : 0 ≤ (k : ℚ) * B64.mult N E := mul_nonneg (by positivity) (B64.mult_pos hE hEN).le
      unfold B64.start B64.round
      split
      · exact le_rfl
      · rw [if_neg (not_lt.2 h0)]
        exact B64.roundPos_nonneg h0
    have hq0 : 0 < q := by
      by_contra hz
      have : q = 0 := Nat.eq_zero_of_not_pos hz
      rw [this] at hc
      push_cast at hc
      linarith
    have h1 := (hpos k hk (q - 1) (by omega)).2 (by rwa [Nat.sub_add_cancel hq0])
    have h2 := (h k hk (q - 1) (by omega)).1 h1
    rw [hex, Nat.sub_add_cancel hq0, hint k hd] at h2
    exact lt_irrefl _ h2
  · intro h k hk p hp
    rw [hpos k hk p hp, hex]
    obtain ⟨g1, g2⟩ := abs_lt.1 (herr k hk)
    by_cases hd : E ∣ k * N
    · have := h k hk hd
      change _ ≤ B64.start N E k at this
      rw [hint k hd] at g1 g2 ⊢
      constructor
      · intro hlt
        exact this.trans_lt hlt
      · intro hlt
        have : k * N / E + 1 ≤ p + 1 := by exact_mod_cast hlt
        have : ((k * N / E : ℕ) : ℚ) + 1 ≤ ((p + 1 : ℕ) : ℚ) := by exact_mod_cast this
        linarith
    · -- the exact product is at least 1 / E away from every integer
      have hfar : ∀ z : ℕ, (k : ℚ) * ((N : ℚ) / E) < z → (k : ℚ) * ((N : ℚ) / E) + 1 / E ≤ z := by
        intro z hz
        rw [← mul_div_assoc, div_lt_iff₀ hE'] at hz
        have h1 : k * N < z * E := by exact_mod_cast hz
        have h2 : ((k * N + 1 : ℕ) : ℚ) ≤ z * E := by exact_mod_cast h1
        rw [← mul_div_assoc, ← add_div, div_le_iff₀ hE']
        push_cast at h2
        exact h2
      have hfar' : ∀ z : ℕ, (z : ℚ) ≤ (k : ℚ) * ((N : ℚ) / E) → (z : ℚ) + 1 / E ≤ (k : ℚ) * ((N : ℚ) / E) := by
        intro z hz
        rw [← mul_div_assoc, le_div_iff₀ hE'] at hz
        have h1 : z * E ≤ k * N := by exact_mod_cast hz
        have h0 : z * E ≠ k * N := fun hc => hd ⟨z, by rw [← hc, mul_comm]⟩
        have h2 : ((z * E + 1 : ℕ) : ℚ) ≤ k * N := by exact_mod_cast lt_of_le_of_ne h1 h0
        have h3 : (z : ℚ) + 1 / E = (z * E + 1) / E := by rw [add_div, mul_div_cancel_right₀ _ hE'.ne']
        rw [← mul_div_assoc, h3]
        refine div_le_div_of_nonneg_right ?_ hE'.le
        push_cast at h2
        exact h2
      have hE2 : (1 : ℚ) / (2 * E) < 1 / E := by
        rw [div_lt_div_iff₀ (by positivity) hE']
        linarith
      constructor
      · intro hlt
        by_contra hc
        push Not at hc
        have := hfar' (p + 1) hc
        linarith
      · intro hlt
        have := hfar (p + 1) hlt
        linarith

/-- If no such product is rounded down, every multiplier is within `N / 2^51` of the exact one, and every pass monitors the
traps of the same pixels. -/
theorem C69_close (sum : List B64 → B64) (ef : Bool) (w : List ℕ) (e o a : ℕ) (hw : w.max? = some a)
    (m : Mat ℚ) (mon : Mat Bool) (h : roeExpress ef false w e o none = .ok (m, mon)) (hb : a + 1 + o ≤ 2 ^ 25)
    (hd : ProductsNotBelow (nDivided ef (a + 1) e o) (effectiveExpress e (a + 1 + o))) :
    ∃ m' mon', Fp.roeExpress (B64.arith sum) B64.conv ef false w e o none = .ok (m', mon') ∧ m'.nr = m.nr ∧
      mon'.nr = mon.nr ∧ ∀ k < m.nr, ∀ j < w.length, (∃ v, B64.Val (m'.e k j) v ∧ 0 ≤ v ∧
        |v - m.e k j| ≤ ((a : ℚ) + 1 + o) / 2 ^ 51) ∧ mon'.e k j = mon.e k j := by
  have hE := effectiveExpress_pos e (a + 1 + o) (by omega)
  have hN := nDivided_bounds ef a e o hb
  have hN2 : nDivided ef (a + 1) e o ≤ a + 1 + o := by
    unfold nDivided
    split <;> omega
  have hN3 : ((nDivided ef (a + 1) e o : ℕ) : ℚ) ≤ (a : ℚ) + 1 + o := by exact_mod_cast hN2
  have hpos := (C69_positive_iff _ _ hE hN.1 (hN2.trans hb) sum).2 hd
  have herr : (0 : ℚ) ≤ ((a : ℚ) + 1 + o) / 2 ^ 51 := by positivity
  obtain ⟨m', mon', g1, g2, g3, g4⟩ := roeExpress_rel
    (P := fun x y => 0 ≤ x ∧ 0 ≤ y ∧ |x - y| ≤ ((a : ℚ) + 1 + o) / 2 ^ 51 ∧ (0 < x ↔ 0 < y))
    (fun x y h => h.2.2.2) ⟨le_rfl, le_rfl, by simpa using herr, Iff.rfl⟩
    ⟨zero_le_one, zero_le_one, by simpa using herr, Iff.rfl⟩
    (fun x y h => ⟨by linarith [h.1], by linarith [h.2.1], by
      rw [add_sub_add_left_eq_sub]
      exact h.2.2.1, ⟨fun _ => by linarith [h.2.1], fun _ => by linarith [h.1]⟩⟩) sum ef w e o a hw m mon h hb
    (fun k hk p hp => by
      refine ⟨(B64.entry_nonneg (k := k) (p := p) hE hN.1).1, expressBase_nonneg (K := ℚ) _ _ _ k p, ?_, ?_⟩
      · refine (B64.entry_near hE hN.1 hk hp).trans ?_
        have h51 : (0 : ℚ) ≤ 1 / 2 ^ 51 := by norm_num
        rw [div_eq_mul_one_div ((a : ℚ) + 1 + o)]
        exact mul_le_mul_of_nonneg_right hN3 h51
      · have := hpos k hk p hp
        rwa [B64.val_lt B64.val_zero (B64.val_base sum hE hN.1 hN.2 hk hp), decide_eq_true_eq] at this)
  refine ⟨m', mon', g1, g2, g3, fun k hk j hj => ?_⟩
  obtain ⟨⟨v, hv, h1, -, h2, -⟩, hm⟩ := g4 k hk j hj
  exact ⟨⟨v, hv, h1, h2⟩, hm⟩

/-- For example with 2000 rows and `express=5`, as in the documentation. -/
example : ProductsNotBelow (nDivided true 2000 5 0) (effectiveExpress 5 (2000 + 0)) := by decide +kernel

/-- It does happen that such a product is rounded down. -/
theorem C69_product_below : ¬ ProductsNotBelow 30 22 := by decide +kernel

/-- 31 rows, `express=22`: in exact arithmetic row 15 of the matrix has the multiplier 1 in column 16, and row 16 has only
its first transfer in column 14. In double precision row 15 has no entry there, and row 16 has got a tiny multiplier in
column 15 and the multipliers that belong to row 15: a whole pass is made with other traps filled. -/
theorem C69_rows_move :
    (expressFull (K := ℚ) true false 31 22 0).e 15 16 = 1 ∧ (expressFull (K := ℚ) true false 31 22 0).e 16 15 = 0 ∧
    ((Fp.expressFull dblArith B64.conv.int (fun a b => dblArith.div (B64.conv.int a) (B64.conv.int b)) true 31 22 0).e
      15 16).val = 0 ∧
    ((Fp.expressFull dblArith B64.conv.int (fun a b => dblArith.div (B64.conv.int a) (B64.conv.int b)) true 31 22 0).e
      16 15).val = 1 / 562949953421312 ∧
    ((Fp.expressFull dblArith B64.conv.int (fun a b => dblArith.div (B64.conv.int a) (B64.conv.int b)) true 31 22 0).e
      16 16).val = 562949953421313 / 562949953421312 := by
  decide +kernel

/-- `C69_column_sum` applies to it. -/
example : ∃ m mon, Fp.roeExpress dblArith B64.conv true false (List.range 31) 22 0 none = .ok (m, mon) := by
  refine ⟨_, _, rfl⟩

/-- and `C69_divides` to `express=5` with 31 rows. -/
example : effectiveExpress 5 (30 + 1 + 0) ∣ nDivided true (30 + 1) 5 0 := by decide +kernel

end Arctic
