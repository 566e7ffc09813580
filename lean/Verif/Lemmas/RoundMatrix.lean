import Verif.Props.FloatExpress
import Verif.Lemmas.FullReadout
import Verif.Lemmas.RoundStep

/-!
# The express matrix that follows every transfer, in double precision
-/

set_option linter.unusedSectionVars false
set_option linter.unusedVariables false

namespace Arctic
namespace Fp

open B64

variable {F : Type} {sum : List B64 → B64}

/-- Restricting the time span works column by column. -/
theorem restrict_select {A : Arith F} {int : ℤ → F} {mult : ℕ → ℕ → F} {ef : Bool} {w : List ℕ} {e o : ℕ} {m : Mat F}
    {mon : Mat Bool} (h : roeExpressOf A int mult ef w e o none = .ok (m, mon)) (tw : Option (List ℕ)) (m1 : Mat F)
    (hr : restrictTimeSpan A int m tw = .ok m1) : roeExpressOf A int mult ef w e o tw = .ok (m1, mon) := by
  cases tw with
  | none => rw [h]; injection hr with hr; rw [hr]
  | some tw =>
    obtain ⟨a, r, h1, h2, h3, h4, h5⟩ := roeExpressOf_ok h
    injection h2 with h2
    subst h2
    set full := expressFull A int mult ef (a + 1) e o with hfull
    have hsel : ∀ {α : Type} (x : Mat α), x.nc = full.nc →
        selectCols (dropCols x o) w = .ok ⟨x.nr, w.length, fun i j => x.e i (w.getD j 0 + o)⟩ := by
      intro α x hx
      unfold selectCols dropCols
      rw [if_pos]
      simp only [List.all_eq_true, decide_eq_true_eq, hx]
      intro y hy
      have := h3 y hy
      omega
    have hcum : ∀ i j, cumsum0 A m j i = cumsum0 A full (w.getD j 0 + o) i := by
      intro i j
      induction i with
      | zero => rw [h4]; rfl
      | succ i ih => rw [cumsum0, cumsum0, ih, h4]
    unfold restrictTimeSpan at hr
    cases ht0 : tw.head? with
    | none => simp only [ht0] at hr; cases hr
    | some t0 =>
      cases ht1 : tw.getLast? with
      | none => simp only [ht0, ht1] at hr; cases hr
      | some t1 =>
        simp only [ht0, ht1] at hr
        injection hr with hr
        subst hr
        unfold roeExpressOf nPixelsOfWindow
        rw [h1]
        simp only [bind, Except.bind]
        rw [← hfull, hsel ⟨full.nr, full.nc, fun i j => A.lt A.zero (full.e i j)⟩ rfl]
        unfold restrictTimeSpan
        simp only [ht0, ht1]
        rw [hsel ⟨full.nr, full.nc, fun i j => if i = 0 then clipSpan A int t0 ((t1 : ℤ) - (t0 : ℤ) + 1) (cumsum0 A full j 0)
          else A.sub (clipSpan A int t0 ((t1 : ℤ) - (t0 : ℤ) + 1) (cumsum0 A full j i))
            (clipSpan A int t0 ((t1 : ℤ) - (t0 : ℤ) + 1) (cumsum0 A full j (i - 1)))⟩ rfl, h5]
        simp only [hcum]
        rw [h4]

/-- The sum of the first `i + 1` entries of a column of the matrix that follows every transfer. -/
theorem val_cumsum {m : Mat B64} {N p j : ℕ} (hN : N ≤ 2 ^ 25)
    (hm : ∀ k < N, Val (m.e k j) (if k ≤ p then 1 else 0)) :
    ∀ i < N, Val (cumsum0 (B64.arith sum) m j i) ((min (i + 1) (p + 1) : ℕ) : ℚ) := by
  intro i
  induction i with
  | zero =>
    intro h
    have := hm 0 h
    simpa [cumsum0] using this
  | succ i ih =>
    intro h
    have h1 := ih (by omega)
    have h2 := hm (i + 1) h
    have e : ((min (i + 1) (p + 1) : ℕ) : ℚ) + (if i + 1 ≤ p then 1 else 0) = ((min (i + 1 + 1) (p + 1) : ℕ) : ℚ) := by
      split
      · rw [min_eq_left (by omega), min_eq_left (by omega)]; push_cast; ring
      · rw [min_eq_right (by omega), min_eq_right (by omega)]; ring
    have hr := (val_nat (n := min (i + 1 + 1) (p + 1)) (by omega)).rep
    have := val_add h1 h2 (by rw [e, hr.1]; exact hr.2)
    rw [e, hr.1] at this
    exact this

theorem val_clip {x : B64} {n : ℕ} {S : ℕ} (hS : S ≤ 2 ^ 53) (hn : n ≤ S) (hx : Val x n) :
    Val (clipSpan (B64.arith sum) B64.conv.int 0 S x) n := by
  have h0 : Val (B64.conv.int 0) 0 := by
    have := val_nat (n := 0) (by norm_num)
    simpa using this
  have hrep := hx.rep
  have h1 : Val ((B64.arith sum).sub x (B64.conv.int 0)) n := by
    have := val_sub hx h0 (by rw [sub_zero, hrep.1]; exact hrep.2)
    rw [sub_zero, hrep.1] at this
    exact this
  have h2 : (B64.arith sum).lt ((B64.arith sum).sub x (B64.conv.int 0)) (B64.arith sum).zero = false := by
    have : B64.lt ((B64.arith sum).sub x (B64.conv.int 0)) B64.zero = decide ((n : ℚ) < 0) := val_lt h1 val_zero
    exact this.trans (by simp)
  have h3 : (B64.arith sum).lt (B64.conv.int (S : ℤ)) ((B64.arith sum).sub x (B64.conv.int 0)) = false := by
    have : B64.lt (B64.conv.int (S : ℤ)) ((B64.arith sum).sub x (B64.conv.int 0)) = decide ((S : ℚ) < n) := val_lt (val_nat hS) h1
    refine this.trans ?_
    rw [decide_eq_false_iff_not, not_lt]
    exact_mod_cast hn
  unfold clipSpan
  simp only [h2, h3, Bool.false_eq_true, if_false]
  exact h1

/-- The time window covers all transfers: nothing changes. -/
theorem val_restrict {m : Mat B64} {N T p j : ℕ} (hN : N ≤ 2 ^ 25) (hT : T + 1 ≤ 2 ^ 53) (hp : p ≤ T)
    (hm : ∀ k < N, Val (m.e k j) (if k ≤ p then 1 else 0)) (i : ℕ) (hi : i < N) :
    ∀ m1, restrictTimeSpan (B64.arith sum) B64.conv.int m (some (List.range (T + 1))) = .ok m1 →
      Val (m1.e i j) (if i ≤ p then 1 else 0) := by
  intro m1 h
  have e1 : (List.range (T + 1)).head? = some 0 := by simp [List.range_succ_eq_map]
  have e2 : (List.range (T + 1)).getLast? = some T := by rw [List.range_succ]; simp
  unfold restrictTimeSpan at h
  simp only [e1, e2] at h
  injection h with h
  subst h
  have espan : ((T : ℤ) - ((0 : ℕ) : ℤ) + 1) = ((T + 1 : ℕ) : ℤ) := by push_cast; ring
  have hc : ∀ i < N, Val (clipSpan (B64.arith sum) B64.conv.int ((0 : ℕ) : ℤ) ((T : ℤ) - ((0 : ℕ) : ℤ) + 1) (cumsum0 (B64.arith sum) m j i))
      ((min (i + 1) (p + 1) : ℕ) : ℚ) := fun i hi => by
    rw [espan]
    exact val_clip hT (by omega) (val_cumsum hN hm i hi)
  simp only
  by_cases h0 : i = 0
  · subst h0
    rw [if_pos rfl]
    have := hc 0 hi
    simpa using this
  · rw [if_neg h0]
    have h1 := hc i hi
    have h2 := hc (i - 1) (by omega)
    rw [show i - 1 + 1 = i by omega] at h2
    have e : ((min (i + 1) (p + 1) : ℕ) : ℚ) - ((min i (p + 1) : ℕ) : ℚ) = if i ≤ p then 1 else 0 := by
      split
      · rw [min_eq_left (by omega), min_eq_left (by omega)]; push_cast; ring
      · rw [min_eq_right (by omega), min_eq_right (by omega)]; ring
    have hr : Rep (if i ≤ p then (1 : ℚ) else 0) := by
      split
      · exact val_one.rep
      · exact rep_zero
    have := val_sub h1 h2 (by rw [e, hr.1]; exact hr.2)
    rw [e, hr.1] at this
    exact this

/-- The matrix that follows every transfer, with both types of matrices. -/
theorem full_matrix (i : Bool) (n o : ℕ) (hn : 0 < n) (hb : n + o ≤ 2 ^ 25) (tw : Option (List ℕ))
    (htw : tw = none ∨ ∃ N, tw = some (List.range (N + o)) ∧ n ≤ N ∧ N + o ≤ 2 ^ 53) (m : Mat ℚ) (mon : Mat Bool)
    (hm : Arctic.roeExpress (K := ℚ) true i (List.range n) 0 o tw = .ok (m, mon))
    (hm0 : ∃ m0 mon0, Arctic.roeExpress (K := ℚ) true i (List.range n) 0 o none = .ok (m0, mon0)) :
    ∃ m' mon', Fp.roeExpress (B64.arith sum) B64.conv true i (List.range n) 0 o tw = .ok (m', mon') ∧ m'.nr = m.nr ∧
      ∀ k < m.nr, ∀ j < n, Val (m'.e k j) (m.e k j) ∧ mon'.e k j = mon.e k j := by
  have hcov : Covering o (List.range n) tw := by
    rcases htw with h | ⟨N, h, h', -⟩
    · exact Or.inl h
    · exact Or.inr ⟨N, h, fun x hx => (List.mem_range.1 hx).trans_le h'⟩
  have hcov0 : Covering o (List.range n) none := Or.inl rfl
  obtain ⟨a, ha, f1, f2, f3, f4⟩ := standard_full hcov hm
  have han : a + 1 = n := by
    have q := List.max?_eq_some_iff.1 ha
    have q1 := List.mem_range.1 q.1
    have q2 := q.2 (n - 1) (List.mem_range.2 (by omega))
    omega
  have hget : ∀ j < n, (List.range n).getD j 0 = j := fun j hj => by
    rw [List.getD_eq_getElem _ _ (by simpa using hj), List.getElem_range]
  cases i with
  | true =>
    obtain ⟨m', g1, g2, g3, g4⟩ := C69_int sum true (List.range n) 0 o tw (fun x hx => by
      have := List.mem_range.1 hx
      have : (2 : ℕ) ^ 25 < 2 ^ 53 := by norm_num
      omega) m mon hm
    refine ⟨m', mon, g1, g2, fun k hk j hj => ⟨?_, rfl⟩⟩
    rw [g4]
    have e := (f4 k hk j (by simpa using hj)).1
    have hr : Rep (m.e k j) := by
      rw [e]
      split
      · exact val_one.rep
      · exact rep_zero
    have := val_pack (q := m.e k j) (by rw [hr.1]; exact hr.2)
    rwa [hr.1] at this
  | false =>
    obtain ⟨m0, mon0, q0⟩ := hm0
    obtain ⟨a0, ha0, d1, d2, d3, d4⟩ := standard_full hcov0 q0
    rw [ha] at ha0
    injection ha0 with ha0
    subst ha0
    obtain ⟨m', mon', g1, g2, g3, g4⟩ := C69_divides sum true (List.range n) 0 o a ha m0 mon0 q0 (by omega)
      (by rw [han]; exact C69_express_zero true n o)
    have hmon : ∀ k < m.nr, ∀ j < n, mon'.e k j = mon.e k j := by
      intro k hk j hj
      rw [(g4 k (by omega) j (by simpa using hj)).2, Bool.eq_iff_iff, (d4 k (by omega) j (by simpa using hj)).2,
        (f4 k hk j (by simpa using hj)).2]
    have hval : ∀ k < n + o, ∀ j < n, Val (m'.e k j) (if k ≤ j + o then 1 else 0) := by
      intro k hk j hj
      have := (g4 k (by omega) j (by simpa using hj)).1
      rw [(d4 k (by omega) j (by simpa using hj)).1, hget j hj] at this
      exact this
    have hent : ∀ k < m.nr, ∀ j < n, m.e k j = if k ≤ j + o then 1 else 0 := by
      intro k hk j hj
      rw [(f4 k hk j (by simpa using hj)).1, hget j hj]
    rcases htw with rfl | ⟨N, rfl, hN, hNb⟩
    · refine ⟨m', mon', g1, by omega, fun k hk j hj => ⟨?_, hmon k hk j hj⟩⟩
      rw [hent k hk j hj]
      exact hval k (by omega) j hj
    · have hNo : N + o - 1 + 1 = N + o := by omega
      have hex : ∃ m1, restrictTimeSpan (B64.arith sum) B64.conv.int m' (some (List.range (N + o))) = .ok m1 := by
        rw [← hNo]
        unfold restrictTimeSpan
        have e1 : (List.range (N + o - 1 + 1)).head? = some 0 := by simp [List.range_succ_eq_map]
        have e2 : (List.range (N + o - 1 + 1)).getLast? = some (N + o - 1) := by rw [List.range_succ]; simp
        simp only [e1, e2]
        exact ⟨_, rfl⟩
      obtain ⟨m1, hm1⟩ := hex
      have hrun : Fp.roeExpress (B64.arith sum) B64.conv true false (List.range n) 0 o (some (List.range (N + o))) = .ok (m1, mon') := by
        unfold Fp.roeExpress at g1 ⊢
        rw [if_neg (by simp)] at g1 ⊢
        exact restrict_select g1 _ m1 hm1
      refine ⟨m1, mon', hrun, by rw [(restrict_shape hm1).1]; omega, fun k hk j hj => ⟨?_, hmon k hk j hj⟩⟩
      rw [hent k hk j hj]
      rw [← hNo] at hm1
      exact val_restrict (N := n + o) (T := N + o - 1) (p := j + o) hb (by omega) (by omega)
        (fun k hk => hval k hk j hj) k (by omega) m1 hm1

end Fp
end Arctic
