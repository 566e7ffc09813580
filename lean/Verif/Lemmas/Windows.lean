import Verif.Model.Windows
import Verif.Lemmas.ClockInv
import Mathlib.Algebra.Order.Floor.Ring
import Mathlib.Data.List.GetD
import Mathlib.Tactic.Linarith

/-!
# Windows of natural numbers: `Verif.Model.Windows` is `Verif.Model.Main`
-/

set_option linter.unusedSectionVars false
set_option linter.unusedVariables false

namespace Arctic.Win
open Arctic

/-- The integers of a list of natural numbers. -/
def ints (l : List ℕ) : List ℤ := l.map fun (n : ℕ) => (n : ℤ)

theorem npIndex_nat (n k : ℕ) : npIndex n (k : ℤ) = if k < n then some k else none := by
  unfold npIndex
  by_cases h : k < n
  · rw [if_pos ⟨by omega, by omega⟩, if_pos h, Int.toNat_natCast]
  · rw [if_neg (by omega), if_neg (by omega), if_neg h]

theorem ints_getD (l : List ℕ) (j : ℕ) : (ints l).getD j 0 = ((l.getD j 0 : ℕ) : ℤ) := by
  unfold ints
  by_cases h : j < l.length
  · rw [List.getD_eq_getElem _ _ (by simpa using h), List.getD_eq_getElem _ _ h]; simp
  · rw [List.getD_eq_default _ _ (by simpa using h), List.getD_eq_default _ _ (by omega)]; simp

theorem selectCols_ints {α : Type} (m : Mat α) (w : List ℕ) : selectCols m (ints w) = Arctic.selectCols m w := by
  unfold selectCols Arctic.selectCols
  have e : ((ints w).all fun i => (npIndex m.nc i).isSome) = w.all (· < m.nc) := by
    unfold ints
    rw [List.all_map]
    congr 1
    funext k
    simp only [Function.comp]
    rw [npIndex_nat]
    by_cases h : k < m.nc <;> simp [h]
  rw [e]
  by_cases hw : w.all (· < m.nc) = true
  · rw [if_pos hw, if_pos hw]
    have hl : (ints w).length = w.length := by simp [ints]
    rw [hl]
    congr 2
    funext i j
    rw [ints_getD, npIndex_nat]
    by_cases h : w.getD j 0 < m.nc
    · rw [if_pos h]; rfl
    · rw [if_neg h]
      by_cases hj : j < w.length
      · rw [List.all_eq_true] at hw
        have := hw _ (List.getElem_mem hj)
        rw [List.getD_eq_getElem _ _ hj] at h
        simp only [decide_eq_true_eq] at this
        exact absurd this h
      · rw [List.getD_eq_default _ _ (by omega)]; rfl
  · rw [if_neg hw, if_neg hw]

theorem ints_max? (w : List ℕ) : (ints w).max? = w.max?.map fun (n : ℕ) => (n : ℤ) := by
  cases w with
  | nil => rfl
  | cons a l =>
    unfold ints
    simp only [List.map_cons, List.max?_cons', Option.map_some]
    congr 1
    induction l generalizing a with
    | nil => rfl
    | cons b l ih =>
      simp only [List.map_cons, List.foldl_cons]
      rw [← Nat.cast_max, ih]

section
variable {K : Type} [Field K] [LinearOrder K] {S : Type}

/-- The numbers of a list of natural numbers. -/
def nums (K : Type) [Field K] (l : List ℕ) : List K := l.map fun (n : ℕ) => (n : K)

theorem restrictTimeSpan_nums (m : Mat K) (tw : Option (List ℕ)) :
    restrictTimeSpan m (tw.map (nums K)) = Arctic.restrictTimeSpan m tw := by
  cases tw with
  | none => rfl
  | some l =>
    simp only [Option.map_some, restrictTimeSpan, Arctic.restrictTimeSpan, nums, List.head?_map, List.getLast?_map]
    cases l.head? with
    | none => rfl
    | some a =>
      cases l.getLast? with
      | none => rfl
      | some b => simp only [Option.map_some]; push_cast; rfl

theorem expressFull_nat (ef i : Bool) (n e o : ℕ) (h : 0 < n) :
    expressFull (K := K) ef i (n : ℤ) e o = .ok (Arctic.expressFull ef i n e o) := by
  unfold expressFull
  simp only
  rw [if_neg (by omega), if_neg (by omega), if_neg (by omega), Int.toNat_natCast]

theorem roeExpress_ints (ef i : Bool) (w : List ℕ) (e o : ℕ) (tw : Option (List ℕ)) :
    roeExpress (K := K) ef i (ints w) e o (tw.map (nums K)) = Arctic.roeExpress ef i w e o tw := by
  unfold roeExpress Arctic.roeExpress nPixelsOfWindow
  rw [ints_max?]
  cases w.max? with
  | none => rfl
  | some a =>
    simp only [Option.map_some]
    have := expressFull_nat (K := K) ef i (a + 1) e o (by omega)
    push_cast at this
    rw [this]
    simp only [bind, Except.bind, selectCols_ints, restrictTimeSpan_nums]

theorem injectionExpress_ints (i : Bool) (n : Option ℕ) (w : List ℕ) (e o : ℕ) (tw : Option (List ℕ)) :
    injectionExpress (K := K) i (n.map fun (n : ℕ) => (n : ℤ)) (ints w) e o (tw.map (nums K)) =
      (Arctic.injectionExpress i n w e o tw).map fun p => (p.1, (p.2 : ℤ)) := by
  unfold injectionExpress Arctic.injectionExpress nPixelsOfWindow
  rw [ints_max?]
  cases w.max? with
  | none => rfl
  | some a =>
    simp only [Option.map_some, bind, Except.bind, restrictTimeSpan_nums]
    have e1 : (n.map fun (n : ℕ) => (n : ℤ)).getD ((a : ℤ) + 1 + o) = ((n.getD (a + 1 + o) : ℕ) : ℤ) := by
      cases n with
      | none => simp
      | some n => rfl
    rw [e1]
    generalize n.getD (a + 1 + o) = t
    have e2 : (if e = 0 then (t : ℤ) else min (e : ℤ) t) = ((effectiveExpress e t : ℕ) : ℤ) := by
      unfold effectiveExpress
      split <;> simp
    rw [e2]
    generalize effectiveExpress e t = x
    rw [if_neg (by omega)]
    by_cases hx : x = 0
    · rw [if_pos (by omega), if_pos hx]; rfl
    · rw [if_neg (by omega), if_neg hx]
      have e3 : ((a : ℤ) + 1).toNat = a + 1 := by omega
      simp only [Int.toNat_natCast, e3, Int.cast_natCast]
      cases i
      · simp only [Bool.false_eq_true, if_false]
        cases Arctic.restrictTimeSpan (K := K) _ tw <;> rfl
      · rfl

theorem express_ints (r : Roe K) (w : List ℕ) (e o : ℕ) (tw : Option (List ℕ)) :
    express r (ints w) e o (tw.map (nums K)) = r.express w e o tw := by
  cases r with
  | standard d ef eb f i => simp only [express, Roe.express, roeExpress_ints]
  | injection d n b f i =>
    simp only [express, Roe.express, injectionExpress_ints]
    cases Arctic.injectionExpress (K := K) i n w e o tw with
    | error x => rfl
    | ok p =>
      obtain ⟨⟨m, mon⟩, n'⟩ := p
      simp only [Except.map, bind, Except.bind, Int.toNat_natCast]
  | pumping d n ef i => simp only [express, Roe.express, ints, List.length_map]

theorem clockCfg_ints (roe : Roe K) (ccd : CcdView K) (e o : ℕ) (rows : List ℕ) (tw : Option (List ℕ)) :
    clockCfg roe ccd e o (ints rows) (tw.map (nums K)) =
      (Arctic.clockCfg roe ccd e o rows tw).map fun p => ({ p.1 with rowWindow := [] }, p.2) := by
  unfold clockCfg Arctic.clockCfg
  rw [express_ints]
  cases roe.express rows e o tw with
  | error x => rfl
  | ok p =>
    obtain ⟨m, mon, roe'⟩ := p
    simp only [bind, Except.bind]
    cases roe.save m <;> rfl

theorem read_nat (img : Image K) (r : ℤ) (c : ℕ) : read img r c = img.read r c := by
  unfold read
  rw [if_pos (by omega), Int.toNat_natCast]

theorem writeAll_nat (img : Image K) (r c : ℕ) (net mult : K) (l : List (ℤ × K)) :
    writeAll img r c net mult l = Arctic.writeAll img r c net mult l := by
  induction l generalizing img with
  | nil => rfl
  | cons x l ih =>
    obtain ⟨off, frac⟩ := x
    unfold writeAll Arctic.writeAll writeBack Arctic.writeBack
    simp only [read_nat, bind, Except.bind, Int.toNat_natCast]
    cases img.read (r + off) c with
    | error x => rfl
    | ok v => exact ih _

theorem phaseBody_nat (sys : TrapSys K S) (cfg : ClockCfg K) (c j : ℕ) (mult : K) (step : ℕ) (st : Image K × S)
    (phase : ℕ) :
    phaseBody sys { cfg with rowWindow := [] } (ints cfg.rowWindow) c j mult step st phase =
      Arctic.phaseBody sys cfg c j mult step st phase := by
  unfold phaseBody Arctic.phaseBody ints
  simp only [List.getElem?_map]
  cases cfg.clockSeq[step]?.bind (fun l => l[phase]?) with
  | none => rfl
  | some ph =>
    cases cfg.rowWindow[j]? with
    | none => rfl
    | some r =>
      cases cfg.dwell[step]? with
      | none => rfl
      | some d => simp only [Option.map_some, read_nat, writeAll_nat]

theorem columnBody_nat (sys : TrapSys K S) (cfg : ClockCfg K) (c : ℕ) (st : Image K × S) :
    columnBody sys { cfg with rowWindow := [] } (ints cfg.rowWindow) st c = Arctic.columnBody sys cfg st c := by
  have e1 : ∀ j mult, stepBody sys { cfg with rowWindow := [] } (ints cfg.rowWindow) c j mult =
      Arctic.stepBody sys cfg c j mult := by
    intro j mult
    funext st step
    unfold stepBody Arctic.stepBody
    congr 1
    funext st phase
    exact phaseBody_nat sys cfg c j mult step st phase
  have e2 : ∀ k, rowBody sys { cfg with rowWindow := [] } (ints cfg.rowWindow) c k = Arctic.rowBody sys cfg c k := by
    intro k
    funext st j
    unfold rowBody Arctic.rowBody
    simp only [e1]
  have e3 : expressBody sys { cfg with rowWindow := [] } (ints cfg.rowWindow) (c : ℤ) = Arctic.expressBody sys cfg c := by
    funext st k
    unfold expressBody Arctic.expressBody
    rw [e2]
    rfl
  unfold columnBody Arctic.columnBody
  simp only [e3]

theorem clockLoops_ints (sys : TrapSys K S) (cfg : ClockCfg K) (columns : List ℕ) (st : Image K × S) :
    clockLoops sys { cfg with rowWindow := [] } (ints cfg.rowWindow) (ints columns) st =
      Arctic.clockLoops sys cfg columns st := by
  unfold clockLoops Arctic.clockLoops ints
  induction columns generalizing st with
  | nil => rfl
  | cons c l ih =>
    simp only [List.map_cons, List.foldlM_cons]
    have := columnBody_nat sys cfg c st
    unfold ints at this
    rw [this]
    cases Arctic.columnBody sys cfg st c with
    | error x => rfl
    | ok st' => exact ih st'

theorem clockCfg_rowWindow {roe roe' : Roe K} {ccd : CcdView K} {e o : ℕ} {rows : List ℕ} {tw : Option (List ℕ)}
    {cfg : ClockCfg K} (h : Arctic.clockCfg roe ccd e o rows tw = .ok (cfg, roe')) : cfg.rowWindow = rows := by
  unfold Arctic.clockCfg at h
  cases h1 : roe.express rows e o tw with
  | error x => rw [h1] at h; cases h
  | ok p =>
    obtain ⟨m, mon, r⟩ := p
    rw [h1] at h
    simp only [bind, Except.bind] at h
    cases h2 : roe.save m with
    | error x => rw [h2] at h; cases h
    | ok sv => rw [h2] at h; injection h with h; injection h with h _; rw [← h]

theorem clockCharge_ints (img : Image K) (ccd : CcdView K) (roe : Roe K) (groups : List (Arctic.Group K)) (e o : ℕ)
    (rows columns : List ℕ) (tw : Option (List ℕ)) :
    clockCharge img ccd roe groups e o (ints rows) (ints columns) (tw.map (nums K)) =
      Arctic.clockCharge img ccd roe groups e o rows columns tw := by
  unfold clockCharge Arctic.clockCharge
  rw [clockCfg_ints]
  cases h : Arctic.clockCfg roe ccd e o rows tw with
  | error x => rfl
  | ok p =>
    obtain ⟨cfg, roe'⟩ := p
    have hr := clockCfg_rowWindow h
    have e1 : maxNTransfers roe { cfg with rowWindow := [] } = maxNTransfers roe cfg := rfl
    simp only [Except.map, bind, Except.bind, e1]
    rw [← hr, clockLoops_ints]

variable [IsStrictOrderedRing K] [FloorRing K]

theorem pyInt_int (z : ℤ) : pyInt (z : K) = z := by
  unfold pyInt
  split <;> simp

theorem pyRange_nat (lo hi : ℤ) (h : 0 ≤ lo) : pyRange lo hi = ints (Arctic.pyRange lo hi) := by
  unfold pyRange Arctic.pyRange ints
  rw [List.map_map]
  refine List.map_congr_left fun i _ => ?_
  simp only [Function.comp]
  omega

theorem serialColumns_ints (rows tw : List ℕ) (o : ℕ) :
    serialColumns (ints rows) (nums K tw) o = (Arctic.serialColumns rows tw o).map ints := by
  unfold serialColumns Arctic.serialColumns ints nums
  simp only [List.head?_map, List.getLast?_map]
  cases rows.head? with
  | none => rfl
  | some r0 =>
    cases rows.getLast? with
    | none => rfl
    | some r1 =>
      cases tw.head? with
      | none => rfl
      | some t0 =>
        cases tw.getLast? with
        | none => rfl
        | some t1 =>
          simp only [Option.map_some, Except.map]
          have e1 : max (((r0 : ℤ) : K)) ((t0 : K) - (o : K)) = ((max (r0 : ℤ) ((t0 : ℤ) - o) : ℤ) : K) := by
            push_cast; rfl
          have e2 : min (((r1 : ℤ) : K)) ((t1 : K) - (o : K)) = ((min (r1 : ℤ) ((t1 : ℤ) - o) : ℤ) : K) := by
            push_cast; rfl
          rw [e1, e2, pyInt_int, pyInt_int, pyRange_nat _ _ (by omega)]
          rfl

/-- A window of natural numbers. -/
def ZWindow.ofNat : Window → ZWindow
  | .all => .all
  | .pixel k => .pixel k
  | .range l => .range (ints l)

theorem resolve_ofNat (w : Window) (n : ℕ) : (ZWindow.ofNat w).resolve n = ints (w.resolve n) := by
  cases w <;> rfl

end
end Arctic.Win
