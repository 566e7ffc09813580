import Verif.Model.Roe
import Mathlib.Algebra.BigOperators.Intervals
import Mathlib.Algebra.Order.Floor.Div
import Mathlib.Tactic.Ring
import Mathlib.Tactic.Linarith
import Mathlib.Tactic.FieldSimp
import Mathlib.Tactic.Positivity

/-! Lemmas about the express matrices of `Verif.Model.Roe`. -/

set_option linter.unusedSectionVars false
set_option linter.unusedVariables false

namespace Arctic
open Finset

variable {K : Type} [Field K] [LinearOrder K] [IsStrictOrderedRing K]

theorem truncate_eq (m x : K) (hm : 0 ≤ m) : truncate m x = min m (max 0 x) := by
  unfold truncate
  simp only
  by_cases h1 : x < 0
  · simp only [h1, if_true]
    rw [if_neg (by simpa using hm), max_eq_left h1.le, min_eq_right hm]
  · simp only [h1, if_false]
    rw [max_eq_right (not_lt.1 h1)]
    by_cases h2 : x > m
    · rw [if_pos h2, min_eq_left h2.le]
    · rw [if_neg h2, min_eq_right (not_lt.1 h2)]

theorem truncate_sub (m x : K) (hm : 0 ≤ m) (k : ℕ) :
    truncate m (x - (k : K) * m) = min x (((k + 1 : ℕ) : K) * m) - min x ((k : K) * m) := by
  rw [truncate_eq _ _ hm]
  push_cast
  rcases le_total x ((k : K) * m) with h | h
  · rw [max_eq_left (by linarith), min_eq_right hm, min_eq_left h, min_eq_left (by linarith)]
    ring
  · rw [max_eq_right (by linarith), min_eq_right h]
    rcases le_total x (((k : K) + 1) * m) with h2 | h2
    · rw [min_eq_left h2, min_eq_right (by linarith)]
    · rw [min_eq_right h2, min_eq_left (by linarith)]; ring

/-- Telescoping sum of truncated differences. -/
theorem sum_truncate (m x : K) (hm : 0 ≤ m) (hx : 0 ≤ x) (E : ℕ) :
    ∑ k ∈ range E, truncate m (x - (k : K) * m) = min x ((E : K) * m) := by
  simp_rw [truncate_sub m x hm]
  rw [Finset.sum_range_sub (fun k : ℕ => min x ((k : K) * m))]
  simp [hx]

theorem maxMultiplier_nonneg (i : Bool) (N E : ℕ) : (0 : K) ≤ maxMultiplier i N E := by
  unfold maxMultiplier; split <;> positivity

theorem maxMultiplier_mul_ge (i : Bool) (N E : ℕ) (hE : 0 < E) :
    (N : K) ≤ (E : K) * maxMultiplier i N E := by
  unfold maxMultiplier
  have hE' : (E : K) ≠ 0 := by positivity
  split
  · have := le_smul_ceilDiv (b := N) hE
    rw [smul_eq_mul] at this
    exact_mod_cast this
  · rw [mul_div_cancel₀ _ hE']

theorem maxMultiplier_ge_one (i : Bool) (N E : ℕ) (hE : 0 < E) (h : E ≤ N) :
    (1 : K) ≤ maxMultiplier i N E := by
  have h1 := maxMultiplier_mul_ge (K := K) i N E hE
  have h2 : (E : K) ≤ N := by exact_mod_cast h
  have hE' : (0 : K) < (E : K) := by positivity
  by_contra hc
  push Not at hc
  nlinarith

theorem sum_expressBase (i : Bool) (N E p : ℕ) (hE : 0 < E) (hp : p < N) :
    ∑ k ∈ range E, (expressBase (K := K) i N E).e k p = (p : K) + 1 := by
  unfold expressBase
  simp only
  rw [sum_truncate _ _ (maxMultiplier_nonneg i N E) (by positivity)]
  have h1 := maxMultiplier_mul_ge (K := K) i N E hE
  have h2 : ((p + 1 : ℕ) : K) ≤ N := by exact_mod_cast hp
  rw [min_eq_left (h2.trans h1)]; push_cast; rfl

theorem expressBase_nonneg (i : Bool) (N E k p : ℕ) : 0 ≤ (expressBase (K := K) i N E).e k p := by
  unfold expressBase
  simp only
  rw [truncate_eq _ _ (maxMultiplier_nonneg i N E)]
  exact le_min (maxMultiplier_nonneg i N E) (le_max_left _ _)

theorem expressBase_le (i : Bool) (N E k p : ℕ) :
    (expressBase (K := K) i N E).e k p ≤ maxMultiplier i N E := by
  unfold expressBase
  simp only
  rw [truncate_eq _ _ (maxMultiplier_nonneg i N E)]
  exact min_le_left _ _

theorem expressBase_pos_iff (i : Bool) (N E k p : ℕ) (hE : 0 < E) (h : 0 < N) :
    0 < (expressBase (K := K) i N E).e k p ↔
      (k : K) * maxMultiplier i N E < (p : K) + 1 := by
  unfold expressBase
  simp only
  have hm : (0 : K) < maxMultiplier i N E := by
    have h1 := maxMultiplier_mul_ge (K := K) i N E hE
    have h2 : (0 : K) < N := by exact_mod_cast h
    have hE' : (0 : K) < (E : K) := by positivity
    by_contra hc
    push Not at hc
    nlinarith
  rw [truncate_eq _ _ hm.le, lt_min_iff, lt_max_iff]
  simp only [hm, lt_irrefl, false_or, true_and]
  push_cast
  exact sub_pos

theorem nNonzero_eq_card (m : Mat K) (k : ℕ) :
    nNonzero m k = ((range m.nc).filter fun j => m.e k j > 0).card := by
  unfold nNonzero
  rw [← List.toFinset_card_of_nodup (List.nodup_range.filter _)]
  congr 1
  ext j
  simp

theorem nNonzero_le (m : Mat K) (k : ℕ) : nNonzero m k ≤ m.nc := by
  rw [nNonzero_eq_card]
  exact (card_filter_le _ _).trans (by simp)

/-- Nonzero rows of the base matrix have strictly decreasing numbers of positive entries. -/
theorem nNonzero_lt (i : Bool) (N E k k' : ℕ) (hE : 0 < E) (h : E ≤ N) (hk : k < k')
    (hpos : 0 < nNonzero (expressBase (K := K) i N E) k') :
    nNonzero (expressBase (K := K) i N E) k' < nNonzero (expressBase (K := K) i N E) k := by
  rw [nNonzero_eq_card] at hpos ⊢
  rw [nNonzero_eq_card]
  have hN : 0 < N := lt_of_lt_of_le hE h
  have hm := maxMultiplier_ge_one (K := K) i N E hE h
  have hkk : (k : K) + 1 ≤ k' := by exact_mod_cast hk
  obtain ⟨p, hp⟩ := Finset.card_pos.1 hpos
  -- the smallest positive position
  let s := (range N).filter fun j => (expressBase (K := K) i N E).e k' j > 0
  have hs : s.Nonempty := ⟨p, hp⟩
  let q := s.min' hs
  have hq : q ∈ s := s.min'_mem hs
  have hq' := (Finset.mem_filter.1 hq)
  have hq2 := (expressBase_pos_iff (K := K) i N E k' q hE hN).1 hq'.2
  have hk0 : (0 : K) ≤ k := by positivity
  have hq1 : 1 ≤ q := by
    by_contra hc
    have : q = 0 := by omega
    rw [this] at hq2
    push_cast at hq2
    nlinarith
  apply Finset.card_lt_card
  refine ⟨fun j hj => ?_, fun hsub => ?_⟩
  · rw [Finset.mem_filter] at hj ⊢
    refine ⟨hj.1, ?_⟩
    have := (expressBase_pos_iff (K := K) i N E k' j hE hN).1 hj.2
    refine (expressBase_pos_iff (K := K) i N E k j hE hN).2 ?_
    nlinarith
  · have hmem : q - 1 ∈ (range N).filter fun j => (expressBase (K := K) i N E).e k j > 0 := by
      rw [Finset.mem_filter]
      refine ⟨Finset.mem_range.2 ?_, ?_⟩
      · have := Finset.mem_range.1 hq'.1; omega
      · refine (expressBase_pos_iff (K := K) i N E k (q - 1) hE hN).2 ?_
        have hc : ((q - 1 : ℕ) : K) = (q : K) - 1 := by
          rw [Nat.cast_sub hq1]; simp
        rw [hc]
        nlinarith
    have h2 := hsub hmem
    have h3 : q ≤ q - 1 := s.min'_le _ h2
    omega

theorem row_zero_of_nNonzero (i : Bool) (N E k p : ℕ) (hp : p < N)
    (h : nNonzero (expressBase (K := K) i N E) k = 0) : (expressBase (K := K) i N E).e k p = 0 := by
  rw [nNonzero_eq_card, Finset.card_eq_zero] at h
  have h2 : p ∉ ((range N).filter fun j => (expressBase (K := K) i N E).e k j > 0) := by
    change p ∉ ((range (expressBase (K := K) i N E).nc).filter _)
    rw [h]; simp
  rw [Finset.mem_filter] at h2
  have h3 : ¬ (expressBase (K := K) i N E).e k p > 0 := fun hc => h2 ⟨Finset.mem_range.2 hp, hc⟩
  exact le_antisymm (not_lt.1 h3) (expressBase_nonneg i N E k p)

theorem insertRows_col0 (big small : Mat K) (i : ℕ) : (insertRows big small).e i 0 = big.e i 0 := by
  unfold insertRows
  simp only
  generalize List.range small.nr = l
  suffices h : ∀ cur : ℕ → ℕ → K, cur i 0 = big.e i 0 →
      (l.foldl (fun cur k => fun i j =>
        if i = nNonzero small k ∧ 1 ≤ j then big.e i j + small.e k (j - 1) else cur i j) cur) i 0
        = big.e i 0 from h _ rfl
  induction l with
  | nil => intro cur h; exact h
  | cons a l ih => intro cur h; apply ih; simp [h]

/-- Entry of the matrix after the fancy-index addition, when rows sharing an index vanish. -/
theorem insertRows_e (big small : Mat K) (j : ℕ)
    (H : ∀ k k', k < k' → k' < small.nr → nNonzero small k = nNonzero small k' →
      small.e k j = 0) (i : ℕ) :
    (insertRows big small).e i (j + 1) =
      big.e i (j + 1) + ∑ k ∈ (range small.nr).filter (fun k => nNonzero small k = i), small.e k j := by
  unfold insertRows
  simp only
  suffices h : ∀ n ≤ small.nr, ((List.range n).foldl (fun cur k => fun i j =>
        if i = nNonzero small k ∧ 1 ≤ j then big.e i j + small.e k (j - 1) else cur i j) big.e) i (j+1)
        = big.e i (j + 1) + ∑ k ∈ (range n).filter (fun k => nNonzero small k = i), small.e k j from
    h _ le_rfl
  intro n
  induction n with
  | zero => intro _; simp
  | succ n ih =>
    intro hn
    rw [List.range_succ, List.foldl_append]
    simp only [List.foldl_cons, List.foldl_nil]
    rw [Finset.range_add_one, Finset.filter_insert]
    by_cases hi : i = nNonzero small n
    · rw [if_pos ⟨hi, by omega⟩, if_pos hi.symm]
      rw [Finset.sum_insert (by simp)]
      have : ∑ k ∈ (range n).filter (fun k => nNonzero small k = i), small.e k j = 0 := by
        apply Finset.sum_eq_zero
        intro k hk
        rw [Finset.mem_filter, Finset.mem_range] at hk
        exact H k n hk.1 (by omega) (hk.2.trans hi)
      rw [this]; simp
    · rw [if_neg (by simp [hi]), if_neg (fun h => hi h.symm)]
      exact ih (by omega)

theorem sum_insertRows (big small : Mat K) (j : ℕ)
    (H : ∀ k k', k < k' → k' < small.nr → nNonzero small k = nNonzero small k' →
      small.e k j = 0) (hR : small.nc < big.nr) :
    ∑ i ∈ range big.nr, (insertRows big small).e i (j + 1) =
      ∑ i ∈ range big.nr, big.e i (j + 1) + ∑ k ∈ range small.nr, small.e k j := by
  simp_rw [insertRows_e big small j H]
  rw [Finset.sum_add_distrib]
  congr 1
  rw [Finset.sum_fiberwise_of_maps_to]
  intro k _
  exact Finset.mem_range.2 (lt_of_le_of_lt (nNonzero_le small k) hR)

theorem sum_flipIdentity (N j : ℕ) (hj : j < N) :
    ∑ i ∈ range N, (flipIdentity (K := K) N).e i j = 1 := by
  unfold flipIdentity
  simp only
  rw [Finset.sum_eq_single (N - 1 - j)]
  · rw [if_pos (by omega)]
  · intro b _ hb; rw [if_neg (by omega)]
  · intro h; exact absurd (Finset.mem_range.2 (by omega)) h

theorem base_dup_zero (i : Bool) (N E j : ℕ) (hE : 0 < E) (h : E ≤ N) (hj : j < N) :
    ∀ k k', k < k' → k' < (expressBase (K := K) i N E).nr →
      nNonzero (expressBase (K := K) i N E) k = nNonzero (expressBase (K := K) i N E) k' →
      (expressBase (K := K) i N E).e k j = 0 := by
  intro k k' hk _ heq
  by_cases h0 : nNonzero (expressBase (K := K) i N E) k' = 0
  · exact row_zero_of_nNonzero i N E k j hj (heq.trans h0)
  · have := nNonzero_lt (K := K) i N E k k' hE h hk (Nat.pos_of_ne_zero h0)
    omega

/-! ### The full matrix -/

theorem effectiveExpress_pos (e t : ℕ) (ht : 0 < t) : 0 < effectiveExpress e t := by
  unfold effectiveExpress; split <;> omega

theorem effectiveExpress_le (e t : ℕ) : effectiveExpress e t ≤ t := by
  unfold effectiveExpress; split <;> omega

/-- The three shapes of `expressFull`. -/
theorem expressFull_cases (ef i : Bool) (n e o : ℕ) :
    (¬ (ef = true ∧ effectiveExpress e (n + o) < n) ∧
      expressFull (K := K) ef i n e o = expressBase i (n + o) (effectiveExpress e (n + o))) ∨
    (ef = true ∧ effectiveExpress e (n + o) + 1 = n ∧
      expressFull (K := K) ef i n e o = expressBase i (n - 1 + o) (effectiveExpress e (n + o))) ∨
    (ef = true ∧ effectiveExpress e (n + o) + 1 < n ∧
      expressFull (K := K) ef i n e o = insertRows (flipIdentity (n + o))
        (expressBase i (n - 1 + o) (effectiveExpress e (n + o)))) := by
  unfold expressFull
  simp only
  by_cases h : ef = true ∧ effectiveExpress e (n + o) < n
  · simp only [h.1, h.2, and_self, if_true, true_and]
    by_cases h2 : effectiveExpress e (n + o) < n - 1
    · right; right
      rw [if_pos h2]
      refine ⟨by omega, ?_⟩
      congr 2; omega
    · right; left
      rw [if_neg h2]
      exact ⟨by omega, rfl⟩
  · left
    refine ⟨h, ?_⟩
    rw [if_neg h, if_neg h]

/-- The matrix has all its columns except in the off-by-one case. -/
theorem expressFull_nc (ef i : Bool) (n e o : ℕ) (hn : 0 < n) :
    (expressFull (K := K) ef i n e o).nc =
      if ef = true ∧ effectiveExpress e (n + o) + 1 = n then n - 1 + o else n + o := by
  rcases expressFull_cases (K := K) ef i n e o with ⟨h, heq⟩ | ⟨h1, h2, heq⟩ | ⟨h1, h2, heq⟩
  · rw [heq, if_neg (by rintro ⟨h1, h2⟩; exact h ⟨h1, by omega⟩)]; rfl
  · rw [heq, if_pos ⟨h1, h2⟩]; rfl
  · rw [heq, if_neg (by omega)]; rfl

theorem expressFull_nonneg (ef i : Bool) (n e o k p : ℕ) (hn : 0 < n) (hp : p < n + o)
    (hx : ¬ (ef = true ∧ effectiveExpress e (n + o) + 1 = n)) :
    0 ≤ (expressFull (K := K) ef i n e o).e k p := by
  rcases expressFull_cases (K := K) ef i n e o with ⟨h, heq⟩ | ⟨h1, h2, heq⟩ | ⟨h1, h2, heq⟩
  · rw [heq]; exact expressBase_nonneg _ _ _ _ _
  · exact absurd ⟨h1, h2⟩ hx
  · rw [heq]
    have hE := effectiveExpress_pos e (n + o) (by omega)
    rcases p with _ | p
    · rw [insertRows_col0]; unfold flipIdentity; simp only; split <;> simp
    · rw [insertRows_e _ _ _ (base_dup_zero i _ _ p hE (by omega) (by omega))]
      apply add_nonneg
      · unfold flipIdentity; simp only; split <;> simp
      · exact Finset.sum_nonneg fun _ _ => expressBase_nonneg _ _ _ _ _

theorem sum_expressFull (ef i : Bool) (n e o p : ℕ) (hn : 0 < n) (hp : p < n + o)
    (hx : ¬ (ef = true ∧ effectiveExpress e (n + o) + 1 = n)) :
    ∑ k ∈ range (expressFull (K := K) ef i n e o).nr, (expressFull (K := K) ef i n e o).e k p
      = (p : K) + 1 := by
  have hE := effectiveExpress_pos e (n + o) (by omega)
  rcases expressFull_cases (K := K) ef i n e o with ⟨h, heq⟩ | ⟨h1, h2, heq⟩ | ⟨h1, h2, heq⟩
  · rw [heq]; exact sum_expressBase i _ _ p hE hp
  · exact absurd ⟨h1, h2⟩ hx
  · rw [heq]
    change ∑ k ∈ range (n + o), _ = _
    rcases p with _ | p
    · simp_rw [insertRows_col0]
      rw [sum_flipIdentity _ _ hp]; simp
    · have := sum_insertRows (K := K) (flipIdentity (n + o)) (expressBase i (n - 1 + o)
        (effectiveExpress e (n + o))) p (base_dup_zero i _ _ p hE (by omega) (by omega))
        (by change n - 1 + o < n + o; omega)
      change ∑ k ∈ range (n + o), _ = ∑ k ∈ range (n + o), _ + _ at this
      rw [this, sum_flipIdentity _ _ hp]
      have h3 := sum_expressBase (K := K) i (n - 1 + o) (effectiveExpress e (n + o)) p hE (by omega)
      change 1 + ∑ k ∈ range (effectiveExpress e (n + o)), _ = _
      rw [h3]; push_cast; ring

end Arctic
